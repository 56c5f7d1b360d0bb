import Verif.Dict
import Verif.Graph
import Verif.GraphSpec
import Verif.GraphLemmas
import Verif.GraphSearch
import Verif.GraphEq
import Verif.GraphEqLemmas
import Verif.GraphThm
import Verif.Hot
import Verif.HotSpec
import Verif.HotClosure
import Verif.HotSched
import Verif.HotExcl
import Verif.HotPhases
import Verif.HotThm
import Verif.HotCycle
import Verif.HotGraphs
import Verif.HotRec
import Verif.HotAnnounce
import Verif.HotEx
import Verif.Cold
import Verif.ColdThm
import Verif.Crash
import Verif.CrashLemmas
import Verif.CrashThm
import Verif.HotMode
import Verif.HotDirs
import Verif.External
import Verif.ExternalLemmas
import Verif.ExternalThm
import Verif.Dev
import Verif.DevThm
import Verif.Reader
import Verif.ReaderThm
import Verif.JsTables
import Verif.JsIdent
import Verif.JsTok
import Verif.JsSpec
import Verif.JsThm
import Verif.JsRewrite
import Verif.JsMain
import Verif.JsStrings
import Verif.CssTok
import Verif.CssSpec
import Verif.CssLemmas
import Verif.CssUrl
import Verif.CssWrite
import Verif.CssMain
import Verif.CssThm
import Verif.Builder
import Verif.BuilderThm
import Verif.JsManip
import Verif.JsManipSpec
import Verif.JsManipLemmas
import Verif.JsManipRun
import Verif.JsManipThm
import Verif.JsHints
import Verif.JsDeps
import Verif.Paths
import Verif.JsResolve
import Verif.Handlers
import Verif.HandlersThm
import Verif.Num
import Verif.ImgFit
import Verif.ImgFitThm
import Verif.ImgExport
import Verif.ImgExportThm
import Verif.ImgHash
import Verif.ImgHashThm
import Verif.ImgTarget
import Verif.ImgTargetThm
import Verif.ImgCommand
import Verif.ImgCommandThm
import Verif.IconColor
import Verif.Assoc
import Verif.Html
import Verif.HtmlLinksThm
import Verif.HtmlTemplate
import Verif.HtmlTemplateThm
import Verif.Runners
import Verif.RunnersThm
import Verif.Nest
import Verif.NestBook
import Verif.NestSpec
import Verif.NestRun
import Verif.NestThm
import Verif.NestFuel
import Verif.NestCase
import Verif.NestSyntax
import Verif.NestRules
import Verif.BuilderSub
import Verif.IconCmd
import Verif.IconThm
import Verif.IconSpec
import Verif.IconRun
import Verif.IconDoc
import Verif.IconCase
import Verif.CssUrls
import Verif.CssUrlsThm
import Verif.CssUrlsCase
import Verif.CssData
import Verif.CssDataThm
import Verif.CssDataRun
import Verif.CssDataFiles
import Verif.CssDataInv
import Verif.CssDataCase
import Verif.IconNames
import Verif.IconSettings
import Verif.IconSettingsThm
import Verif.IconSettingsCase
import Verif.CssPage
import Verif.CssPageThm
import Verif.CssPageFiles
import Verif.CssPageCase
import Verif.IconText
import Verif.HtmlPage
import Verif.Tight
import Verif.HtmlPageThm
import Verif.HtmlGen
import Verif.HtmlRender
import Verif.HtmlRenderThm
import Verif.HtmlRenderMain
import Verif.HtmlPageRender
import Verif.HtmlPageCase
import Verif.HtmlRenderComplete
import Verif.HtmlScan
import Verif.HtmlFiles
import Verif.HtmlFilesCase
import Verif.JsFile
import Verif.JsFileCase
import Verif.ImgFiles
import Verif.ImgFilesThm
import Verif.ImgFilesRun
import Verif.ImgFilesMain
import Verif.ImgFilesHonest
import Verif.ImgFilesDraw
import Verif.ImgFilesCase
import Verif.ImgDraw
import Verif.HtmlSrcset
import Verif.CssScan
import Verif.CssScanCase
import Verif.CssAgree
import Verif.CssAgreeNest
import Verif.CssAgreeCase
import Verif.HotContents
import Verif.HotContentsCase
import Verif.JsLocal
import Verif.HotReal
import Verif.HotScripts
import Verif.HotScriptsCase
import Verif.HtmlTok
import Verif.JsYield
import Verif.HotConfig
import Verif.HotConfigCase
import Verif.BuildFollow
import Verif.NestLocal
import Verif.CssLocal
import Verif.CssReads
import Verif.CssPlain
import Verif.HotSheetsCase
import Verif.HtmlLocal
import Verif.HotPages
import Verif.HotPagesCase
import Verif.ImgGlue
import Verif.ImgGlueThm
import Verif.ImgGlueMain
import Verif.ImgGlueCase
import Verif.Config
import Verif.ConfigThm
import Verif.ConfigCase
import Verif.Session
import Verif.SessionCase
import Verif.HotBusy
import Verif.Course
import Verif.CourseCase
import Verif.Clock
import Verif.ClockCase
import Verif.Links
import Verif.LinksThm
import Verif.LinksRun
import Verif.LinksDetect
import Verif.LinksCase
import Verif.ImgOrder
import Verif.ImgOrderThm
import Verif.ImgOrderCase
import Verif.HotBrowser
import Verif.HotBrowserCase
import Verif.HotIconCase
import Verif.Folders
import Verif.FoldersThm
import Verif.LinkEdit
import Verif.DevTime
import Verif.IconTotal
import Verif.JsMakeTables
import Verif.JsHinted
import Verif.JsHintFile
import Verif.Server
import Verif.CliThm
import Verif.ImgFresh
import Verif.ImgFreshCase
import Verif.HtmlPolicy
import Verif.HtmlPolicyCase
import Verif.HtmlMoved
import Verif.DevOwn
import Verif.Static
import Verif.StaticThm
import Verif.StaticLinks
import Verif.MediaThm
import Verif.ServeWatch
import Verif.Reload
import Verif.HotTotal
import Verif.HotSucceeds
import Verif.HotHistory
import Verif.HotHistoryCase
import Verif.HotBuilds
import Verif.JsImports
import Verif.HotBuildsScripts
import Verif.HotBuildsScriptsCase
import Verif.HtmlFinds
import Verif.HotBuildsPages
import Verif.HotBuildsPagesRuns
import Verif.HotBuildsPagesCase
import Verif.HotBroken
import Verif.HotBrokenCase
import Verif.NestAgain
import Verif.CssBare
import Verif.HotBuildsSheets
import Verif.HotBuildsSheetsCase
import Verif.BuilderEnds
import Verif.JsEnds
import Verif.CssEnds
import Verif.HotEnds
import Verif.EndsCase
import Verif.CssEndsImports
import Verif.PageEnds
import Verif.PageEndsFinds
import Verif.PageEndsCase
import Verif.HotBrokenImports
import Verif.HotBrokenImportsCase
import Verif.JsonText
import Verif.JsonTextLemmas
import Verif.JsonTextThm
import Verif.JsonTextCase
import Verif.JsonDump
import Verif.ImgRecord
import Verif.ImgRecordThm
import Verif.ImgRecordCase
import Verif.ExternalText
import Verif.ConfigText
import Verif.HtmlJson
import Verif.ImgModule
import Verif.PyFloat
import Verif.ImgArgs
import Verif.HotNewProject
import Verif.HotNewProjectCase
