# Design

Formal model of vanillaplusjs in Lean 4 (core, plus single Mathlib modules where a file imports them). Modules live in `lean/Verif/`.

## Conventions

* Exceptions are values (`Except`); stateful operations return the state *after* the call also when they raise.
* Python dicts are insertion-ordered association lists (`Dict` for string keys, `Assoc` for others); sets are lists where order cannot be observed.
* Text is a list of code points (`Reader.Text`), bytes are lists of naturals.
* Loops without an obvious measure take fuel; that the fuel suffices is proved wherever a theorem claims a result exists.
* Every model definition cites file and lines in /repo. `X.lean` models code; specification sections and `*Spec.lean` hold independent specifications; `*Thm.lean` holds the property theorems; `*Case.lean` holds the concrete cases and the witnesses.
* If a property is false of the code the model keeps the bug: the negation is proved on a concrete witness (`_false`, `_lost`, ...) and the true fragment is proved as `_partial`.
* Every theorem with hypotheses has a concrete case next to it (`_case`) which meets them.

## Trusted base

* Lean 4.33.0 kernel; axioms at most `propext`, `Classical.choice`, `Quot.sound`. None added. No `sorry`, `native_decide`, `bv_decide`.
* The hand translation from Python to Lean; each definition cites its source and says where it simplifies.
* The specifications, where a property refers to something outside the code: the grammar of JavaScript strings and of CSS tokens as far as used, RFC 3986 path resolution, the CSS named colors.

### Parameters: what the proofs assume nothing, or only what is said here, about

* Hash functions and digests: arbitrary functions (nothing is said about collisions). `str` of numbers, `urlencode` of other parameters, `int(s, 16)` outside two hexadecimal digits: arbitrary.
* Character classes Python takes from Unicode (`str.isspace`, `str.isdigit`, `lower`): arbitrary functions fixed on the ASCII characters a theorem needs.
* `open(..)` decoding and encoding: arbitrary partial functions.
* Floating point: `round` to binary64 and to 28 decimal digits are modelled as exact rounding of rationals (`Num.lean`); overflow and subnormals are outside the range of the theorems.
* Image codecs (Pillow, cairosvg), the HTTP answers of external servers: arbitrary functions / arbitrary inputs.
* Order of completion in the process pool, file events of the watcher, kill points, interleavings of processes: universally quantified.
* The file lock is exclusive and a write of a whole buffer to a temporary file followed by a rename is atomic. Other writes can be cut at every step the source makes.
* File system: a finite map from paths to contents, with directories where they are observable (C53, C54, C56). No symbolic links, no permission errors, no case folding, no concurrent foreign writers.
* Files of images (C71-C74): `os.scandir` lists each entry of a folder once and in any order, `int(str(n)) = n`, and what `json` and `dataclasses` write for a target or for metadata is read back as the same value (`Verif.Img.Files.Lawful`, met by `Case.toy_lawful`). That the texts of the code are of this kind is proved in `Verif.ImgRecord.C114_lawful`. Pillow's `crop` and `resize` give images of the requested sizes (`Verif.Img.Draw.Lib.Lawful`).
* Templates (C48 and others): `json.dumps` of a list is read back, starts with a bracket and has no newline (`Verif.Html.Faithful`). That Python's json is of this kind is proved in `Verif.Html.C116_faithful`.
* `posixpath` (join, normpath, dirname, splitext, relpath as far as used) is transcribed in `Paths.lean` from Lib/posixpath.py.

### Code and its model

| code | model | not modelled |
| --- | --- | --- |
| build/graph.py | Graph, GraphEq, JsonText (the text of the file, with Python's json), PyFloat (how Python writes and reads floats) | floats out of the range of exponents |
| build/hot_incremental_rebuild.py | Hot, HotMode, HotDirs, HotSucceeds, HotHistory, HotBuilds, HotContents, HotReal, HotScripts, HotPages, HotConfig, Crash; HotBrowser (servers and browsers, a specification) | logging, pool internals |
| build/cold_incremental_rebuild.py | Cold, External, Session, HotBusy, Course, Clock (with file_signature.py, hot_incremental_rebuild.py and dev.py: sequences of builds) | HTTP, `shutil` details |
| build/ioutil.py | Reader, Folders (`makedirs_safely`) | files themselves |
| build/js (tokenizer, serializer, builder, unicode_derived, derived_core_properties, manips) | JsTok, JsIdent, JsTables, JsMakeTables, JsManip, JsYield, JsResolve, Builder | — |
| build/css/tokenizer.py, serializer.py | CssTok | positions in error messages |
| build/css/manips/nest.py | Nest | — |
| build/css/manips/icons | IconCmd, IconColor, IconNames, IconSettings | drawing of the image (a parameter) |
| build/css/manips/outline_image_data.py, version_urls.py | CssData, CssUrls | — |
| build/handlers (css, hash, copy, html, image_glue, js, js_constants), build_file.py, scan_file.py | Handlers, CssPage, CssScan, CssAgree, CssAgreeNest, CssLocal, CssReads, CssPlain, HtmlPage, JsFile, JsManip, JsStrings, JsLocal, HotScripts | — |
| build/html/manips (link_hash, link_rel_canonical, outline, template; link_rel_stylesheet_hash is imported nowhere and not modelled), build/handlers/html.py, build/html/manipulate_and_serialize.py | Html, HtmlTemplate, HtmlPage, HtmlPolicy and HtmlMoved (what browsers make of it), HtmlLocal | html5lib: serialising tokens |
| build/html/tokenizer.py | HtmlTok | html5lib: parsing a page into tokens |
| build/html/manips/images | ImgCommand, ImgArgs (with Python's int and json), HtmlPage (manip.py), ImgExport, ImgFit, ImgHash, ImgTarget, ImgFiles (scanner.py, exporter.py, metadata.py on the project's files; ImgFresh: with images which are replaced; ImgRecord: the text of metadata.json and placeholder.json), ImgGlue (handlers/image_glue.py on them; ImgModule: the text of the module and what scripts get), ImgDraw (`produce_image`), HtmlSrcset (the HTML standard's reading of srcset, a specification) | pixels, codecs, json, two processes at once (but C43) |
| build/build_context.py, build/html/manips/images/settings.py, loading the configuration in runners/build.py and dev.py, the JSON of runners/init.py | Config, ConfigText (the text of the file, with Python's json), HotNewProject (the first page and the first build) | how Python reads floats; pytypeutils (taken as isinstance) |
| symbolic links: handlers/copy.py, hash.py, images/exporter.py, `detect_symlink_support` | Links | folders which are links, sources which are links |
| runners (build, clean, init, dev) | Runners, Dev, DevTime, DevOwn (reports about the builder's own files), Crash | watchdog (it reports events in order, at any delay) |
| runners/run.py `run_server`, the main loop of runners/dev.py, http_server.py | Server (threads, the event, the working folder) | uvicorn and starlette: that a server starts, or not, and serves until `should_exit` is how `uvStep` says it is; what `StaticFiles` answers is Static, modelled from version 0.20.4 of starlette, without range requests, conditional ones are Reload; the media types are Media, `mimetypes.guess_type` modelled from Python 3.11; the folder the server stands in while rebuilds remove folders is ServeWatch |
| main.py, `main` of runners/build.py, clean.py, dev.py, init.py, run.py | Cli | Python's argparse is modelled as far as it is used (long options, `=`, abbreviations, `--`, negative numbers), as of Python 3.11; `int()` and `\d` are parameters; help and usage errors are both "nothing is done". 6000 random command lines gave the same results as the argparse module (this compares the model with Python, not with the program) |

## Per-property plan and status

Format: property, status, how it is modelled and proved; then what the theorems cover or what is missing.

* **C01** Dependency-graph edges stay symmetric and closed — *proved*. Graph model (insertion-ordered association list, edges as ordered lists with multiplicity). Invariant over all op histories by induction. *Result:* all histories, by induction over the operation list.
* **C02** A rejected graph operation changes nothing — *proved*. Operations modelled as state x exception, mutations in source order, so the state after a raise is a computed value; theorem says it equals the state before. *Result:* equality of the whole graph value, and the exception is always ValueError.
* **C03** Cycle prevention keeps the graph acyclic — *proved*. Inductive reachability spec; the loop's check against BFS result; induction over histories.
* **C04** Cycle prevention rejects exactly the cycle-creating updates — *proved*. iff between model result and would-create-cycle spec. *Result:* stronger than stated: holds on cyclic graphs too.
* **C05** Nested relationship query decides transitive dependency — *proved*. BFS with the source's queue/seen list and a proved fuel bound; soundness by path construction, completeness by closure of seen set. *Result:* termination: the fuel error is excluded.
* **C06** Direct relationship query reports the edges — *proved*. case analysis against edge spec.
* **C07** Graph operations have exactly their documented effect — *proved*. frame theorems per operation in terms of observable getters.
* **C08** Stored graphs load back unchanged — *proved*. store as list of records, load as fold creating nodes on first mention; induction. *Result:* C08_text is the statement with the text of the file between storing and loading: the JSON which store writes and the reader of Python's json are modelled. How Python writes and reads a float is a parameter; the hypothesis is that each mtime of the graph is written as the text of a number which reads as it..
* **C09** Graph equality is exactly structural equality — *proved*. memoised comparison modelled as fuelled DFS with explicit memo; proved equivalent to per-node equality of observables. *Result:* Python recursion limit not modelled.
* **C10** A rebuild touches exactly the affected files — *proved*. stack closure with fuel bound; equals inductive reachability in union of old dependency/placeholder graphs.
* **C11** Every affected file is built exactly once — *proved*. scheduler as transition system: state (pending, running, finished), arbitrary completion choices; invariant.
* **C12** Dependencies are built before dependents — *proved*. same transition system, invariant on start events.
* **C13** No two running builds share an output — *partial*. same; expected false for outputs that are not already on disk: negation witness + partial theorem. *Result:* holds for outputs recorded before; two files sharing a fresh output can run together.
* **C14** A rebuild never hangs and reports a dependency cycle only when stuck on one — *proved*. measure decreases; stuck states characterised.
* **C15** Outputs nobody produces any more are deleted — *proved*. file-system set model through unlink / build / cleanup stages.
* **C16** Outputs still owned by an unaffected file survive — *partial*. expected false (shared output): witness + partial theorem under no cross sharing. *Result:* false in general: an output shared with a file which is not rebuilt is deleted (C16_shared_output_lost); proved when each output of a kept file is not shared with a rebuilt or deleted one.
* **C17** The recorded graphs describe the last successful build — *proved*. new-graph construction as folds; frame theorems.
* **C18** A failed or interrupted rebuild does not lose changes — *partial*. write sequence model; failure before stores leaves graphs; between stores partially new: characterise. Negations expected. *Result:* every crash point before the graphs are written, and every failure; false between the three stores (witness), which are characterised completely.
* **C19** Constants always match the build mode — *partial*. mode-file state machine over histories; negation witness + partial (no failed builds). *Result:* proved for all histories of finished builds; false after a failed build (two witnesses).
* **C20** Cold change detection partitions the project — *proved*. filter-based classification; partition theorem.
* **C21** An external file is only ever replaced by verified content — *proved*. write sequence with crash points: every prefix state satisfies the claim. *Result:* every interleaving, crash point and server answer; digest functions are parameters.
* **C22** External files converge and stay converged — *partial*. expected false: witness + partial. *Result:* false when a file is dropped while the others are up to date (the next check fails) and for the empty configuration (nothing is deleted); proved for all other histories.
* **C23** The dev watcher neither loses nor invents changes — *partial*. event state machine vs abstract disk-diff spec; induction over histories. *Result:* false when a file is moved over another one and when events for created or deleted files come during a failing rebuild; exact in all other histories; files which are there are never lost in any history.
* **C24** Peekable reader behaves like a character stream — *partial*. reader state machine vs remaining-text spec; call histories. *Result:* exact for every text and call sequence with natural sizes and read(); the first call at the end returns the empty string instead of None and peek(-1) does not return all (witnesses).
* **C25** Preprocessed reader behaves like a stream over normalised text — *partial*. normalisation spec; false for CRLF at boundary: witness + partial for CR-free text. *Result:* exact for texts without CR (text mode files), and read for every text except read(1) at CR LF; false there and for peek across CR LF (witnesses).
* **C26** Rewriting JavaScript preserves the program — *partial*. tokenizer as structural/fuelled recursion on code point lists; round trip per fragment; witnesses for template literals/strings. *Result:* every text; all changes are characterised piece by piece; the value of strings is proved kept for supported escapes and writable values; false for other characters, \x escapes, line continuations, template literals and /\\/ (witnesses).
* **C27** Serialised JavaScript comments never end early — *proved*. serializer's replace modelled; first terminator theorem.
* **C28** Serialised strings denote the same value — *partial*. serialise/consume round trip on ASCII; witness for >= 0x7f. *Result:* the JavaScript part exactly: round trip iff all characters are printable ASCII, have a short escape or are NUL; CSS: round trip for all strings without C-style escapes in which no character written as an escape is followed by a hexadecimal digit or space; false otherwise (witnesses).
* **C29** Generated constants evaluate to the configured values — *partial*. reuse C28; merge precedence on association lists. *Result:* keys, precedence and layout for every configuration; string values exact for writable strings, false otherwise (witnesses); str of numbers is a parameter.
* **C30** CSS tokenising is total — *partial*. expected false at end of input; partial totality result with exact crash characterisation where possible. *Result:* every text: either tokenised completely or one of five listed causes; the five causes are real (witnesses).
* **C31** Rewriting CSS preserves the stylesheet — *partial*. token class round trips; witnesses. *Result:* every text: the output is characterised piece by piece; plain stylesheets are kept character by character; false for signs, escapes in names, brackets in urls, unfinished comments, control characters in strings (witnesses).
* **C32** Manipulators only change what they mark — *proved*. generic builder theorem over abstract manipulators. *Result:* generic in state, tokens and manipulators; Stream is the independent description of the output; fuel is excluded by C32_complete.
* **C33** Import hashing rewrites only the paths of complete imports — *proved*. generator as state machine; output characterisation. *Result:* statement grammar given independently of the automaton; urlencode and reading the hash file are parameters.
* **C34** Scan and build agree on dependencies — *partial*. scan vs build instantiation of the same machine. *Result:* JavaScript imports, CSS rule imports and URLs; false for icon commands, whose build does not report the source image the scan announces; agreement proved for streams without type hints, and for streams whose type hint lines have no imports in them and do not come inside an import statement; false for imports on lines a type hint comments out (witnesses).
* **C35** Identifier classification matches the tables — *proved*. binary search correctness for sorted disjoint tables; shipped tables checked sorted by kernel evaluation. *Result:* the shipped tables are transcribed completely; they differ from Unicode's (witness).
* **C36** Distinct public files never overwrite each other's output — *partial*. string prefix model; negations for collisions + partial. *Result:* false for src/publicX and for public files ending in .hash (witnesses); proved otherwise, for files whose manipulators write nothing themselves.
* **C37** Hash files describe the file actually served — *proved*. file-system map model of copy/hash handlers. *Result:* the witness shows that the condition on old outputs is needed.
* **C38** Every file has exactly one handler, the same for scan and build — *proved*. dispatch functions compared for all paths. *Result:* the last two record what happens outside src/public.
* **C39** Crop rectangles stay inside the image — *proved*. arithmetic with a rounding function abstracting floats; integer theorem. *Result:* every image, pre-crop and requested size in the property's range, with binary64 and 28-digit rounding; the witness shows the enlargement condition is needed.
* **C40** Image resolutions are bounded and include 1x — *partial*. rational step enumeration with fuel bound. *Result:* false when a step is lost in the 28 digits of the decimal type: the loop then never ends (witness); otherwise proved.
* **C41** The chosen export is the best one — *partial*. tournament fold; min theorem for positive preferences. *Result:* proved for different sizes, file-name-safe format names and positive preferences; false when two resolutions truncate to one size, and for a symlink left by an interrupted run (witnesses).
* **C42** The settings hash ignores ordering and detects changes — *partial*. sum/overflow model; permutation invariance; collision witness. *Result:* order independence, range and totality proved; detection of changes proved for every single changed value whose own hash changes; false in general, a 64-bit hash collides already for short strings (witness).
* **C43** Image target ids are unique — *proved*. lock-protected counter transition system. *Result:* every interleaving and kill point of any number of reservations under the file lock; in addition a kill between emptying and writing the counter makes all later reservations fail.
* **C44** A cached image is reused only if nothing relevant changed — *partial*. get_target model including its error path. *Result:* only matching targets are returned, for every folder; 'otherwise reports no match' is false after the image changed: TypeError (witness and exact condition).
* **C45** Image commands parse as documented — *partial*. argument splitting model; exact characterisation of the accepted strings with their fields + witnesses. *Result:* exactly which argument strings are accepted with which fields; false for 'lazy' behind the crop arguments, which loads eagerly (witness), and for crop arguments with a bracket inside.
* **C46** Nested rule imports expand completely — *partial*. nest resolution as in the source (tables of waiting rules); relation Expands gives the expected block; invariant of the resolution loop, fuel adequacy. *Result:* stylesheets made of qualified rules with distinct selectors whose imports stay in files that can be read; false for a selector used twice, for imports across files in an unlucky order, behind a statement at-rule, for selectors containing 'from', and for circular imports across nested blocks (witnesses).
* **C47** Rule reference bookkeeping is consistent — *partial*. set_rule state machine and invariant. *Result:* every sequence in which a rule is registered once and settled when listed as resolvable, or (C47_revised) also registered again while it waits, with missing references; the counters are proved only to be no lower than documented, and exact if no two rules refer to the same rule: otherwise they stay too high (witness); registering a waiting rule again without missing references, or a resolvable rule again, corrupts the tables (witnesses).
* **C48** Template stack frames are balanced — *partial*. stack machine over token streams including nested templates; induction on the grammar of balanced documents. *Result:* all documents and templates in which every push has its pop; false otherwise, and a template including itself never ends (witnesses).
* **C49** Links get cache-busting parameters and keep their other attributes — *partial*. attribute map frame theorem, lifted to whole documents through the builder theorem C32. *Result:* whole documents whose other manipulators decline; false for scripts with href, namespaced attributes and // urls (witnesses).
* **C50** Canonical links become absolute — *partial*. attribute map frame theorem, lifted to whole documents through the builder theorem C32. *Result:* absolute and domain-relative urls; false for upper-case schemes and page-relative urls (witnesses).
* **C51** Colors round trip through hex — *proved*. hex arithmetic round trip for all components. *Result:* int(s, 16) is a parameter fixed only on two hexadecimal digits.
* **C52** Icon commands are resolved against the configured palette — *partial*. tokenizer, parser, resolution and output of icon commands; independent grammar (`CommandOf`, `Lexes`) and document-level specification of the produced tokens and files. *Result:* commands written as documented are understood; every document of well-formed commands whose named buttons have configured colors; false when a named button has an unknown color (the build fails), when an image is already there (its hash is announced but not reported), and for buttons in a color that was not asked for (their image is never made).
* **C53** Cleaning removes only generated files — *partial*. file-system map; list of operations. *Result:* no symbolic links, no permission errors; false if a recorded placeholder is missing: nothing at all is cleaned (witness).
* **C54** init never overwrites existing work — *proved*. file-system map, idempotence over every prefix of the run. *Result:* file system without symbolic links and permission errors; the written texts are parameters.
* **C55** Type-hint lines are commented out, everything else is kept — *partial*. line-wise description of the generator's output, proved from the generator automaton. *Result:* false: a type hint line right after an empty line is kept (witness); the exact behaviour, the claim without empty lines, and the claim where no type hint line comes directly after an empty line are proved, also together with the import manipulator.
* **C56** Emptied output folders are removed and nothing else — *proved*. directory tree model; induction over the list of removed files.
* **C57** A rebuild succeeds when every scan and every build in it succeeds — *partial*. totality of each step under an invariant on the recorded graphs and the disk (`SoundHistory`), the cycle theorem C14 for the loop, and an induction over histories of edits and rebuilds; two witnesses for runs which fail although every scan and build succeeds. *Result:* proved for every rebuild whose recorded history is sound and whose scans and builds succeed and say what they do, with nothing needing itself and no file generating two placeholders (C57_succeeds_partial); what such a rebuild stores is again sound (C57_keeps_history_partial), so that every rebuild of a history from an empty project finishes (C57_history_partial); history_case is a concrete history with two builds. False without those conditions: two concrete rebuilds in which every scan and build succeeds and the rebuild ends in KeyError or ValueError. Missing: a characterisation of exactly which result sets make the bookkeeping raise..
* **C58** The dev server retries after every change — *partial*. event state machine of the dev loop; induction over event histories. *Result:* false when the change comes during the failing rebuild.
* **C59** Import paths resolve as URLs do — *proved*. posixpath.join/normpath transcribed; compared with RFC 3986 reference resolution given as a separate spec. *Result:* os.path follows Lib/posixpath.py; the two witnesses show the conditions of the property are needed.
* **C60** Template paths name the documented file — *partial*. path functions of the template manipulator; case analysis + witnesses. *Result:* paths with a slash; false for every other path: it is appended to the path of the including file.
* **C61** Stylesheet URLs carry the hash of what they refer to — *partial*. url manipulator as builder manipulator; per-token spec (`UrlAt`, `Local`, `hashFile`) and stream theorem. *Result:* every token sequence whose URLs do not begin with two slashes; false for URLs of other hosts without a protocol and for URLs with a fragment (witnesses: the build fails).
* **C62** Images inside stylesheets become files — *partial*. image-data manipulator with numbering state; invariant over runs (numbers, files, dedup) + witnesses. *Result:* every token sequence, for strings directly behind url(, run in the project folder without leftovers; false for parameters such as base64 (they become part of the file), for equal data of different types, for leftovers of earlier builds, outside the project folder, and for URLs without quotes (witnesses).
* **C63** Icon settings are those of the stylesheet and the configuration — *partial*. settings reader over token sequences; independent grammar of declarations; table of color names transcribed and compared with CSS. *Result:* every token sequence and configuration, up to the first declaration whose value is neither one token nor one function, or which has no semicolon; false behind such a declaration, for named buttons when the default button is switched off (it raises), and for three named colors (gray, sandybrown, navyblue) and eight missing ones.
* **C64** No command survives the build — *partial*. four CSS manipulators side by side in the builder; no manipulator starts on any token of the output, turned into absence of commands. *Result:* stylesheets: all four manipulators together, every source; pages: all five manipulators together, every page, whatever the handlers do; image data behind whitespace stays in the stylesheet.
* **C65** Stylesheet builds report what they write — *proved*. relation between file systems preserved by each manipulator step (`Rep`), lifted through `stream_inv` to the whole build.
* **C66** What a page becomes — *proved*. relation `Render` between a page and what it becomes, with neither builder nor stack; the builder with all five manipulators is shown to give it by strong induction on the rounds, as for C48; the names of generated files are computed from the page's path. *Result:* the specification is Verif.Html.Page.Render; pages which end inside an inline element are excluded, with a witness of what happens to them; html5lib, the export of images and the handlers for scripts and stylesheets are parameters.
* **C67** Pages with inline elements are built — *partial*. induction over `Render`: each of its steps is a number of rounds of the builder (`Runs`). The full statement is false; witnesses. *Result:* proved: everything Render describes is built; false: the second inline script or stylesheet of a page fails unless its folder holds something else, a stylesheet with an attribute fails, and a file of the user at the generated path is lost.
* **C68** The scan of a page announces what its build reads and writes — *proved*. the loops of the scan and of the build run in lock-step over the same document: invariant `Tied` between the two builders, strong induction on the rounds; tags which the build has written are shown to be left alone when they are offered again. *Result:* html5lib and the parts (images, scripts, stylesheets) are parameters; that the property holds of the parts is the hypothesis Agree.
* **C69** Scanning and building a page report what they write and leave the sources alone — *proved*. invariant of all manipulators (`stream_inv`), and induction over `Render` for the temporary files. *Result:* that the parts report what they write is the hypothesis Parts, which C65 and C70_part prove of stylesheets and scripts; a source file which is at the path of a temporary file is lost (C66_false_user).
* **C70** A script is built with the hashes of its imports, and with nothing else changed — *proved*. model of js.py over the file system; the theorems of C33, C34 and C59 about tokens and paths are put together, exceptions and fuel included. *Result:* with type hints scan and build can differ in both directions (C34_false, C70_false).
* **C71** Image exports report what image scans announced, and targets keep their numbers — *proved*. model of scan, export and target lookup over the files of a project; invariant `Good` (every entry of the artifacts is for one target, numbers are below the counter, metadata was made by an export) kept by every step of a history; the listing of a folder is any order. *Result:* between scan and build anything may happen to files which are not images; histories of one program at a time (reservations which interleave are C43); json, listing a folder, int() and the codecs are parameters with the laws of Lawful, which Case.toy_lawful shows to be satisfiable; paths with . or .. components are excluded by Proper; the settings are the same throughout the history.
* **C72** Image scans and exports report every file they change, and what they report exists — *proved*. the files which differ are computed from the same description (`Scanned`, `Exported`) of scans and exports. *Result:* the state must have the lock of an image which has outputs (AllLocked), which holds from the start and is kept.
* **C73** Exporting an image again does nothing — *proved*. the second export finds the entry of the first by the uniqueness in `Good`, and all its outputs exist.
* **C74** What an image export writes — *proved*. refinement to the model of C41 (`view`), in which one artifact folder is a map from names to bytes. *Result:* the drawing itself is C75; sizes which coincide are excluded (C41_false_duplicate).
* **C75** Exported pictures have the size in their name and show the requested part — *proved*. C39 about the rectangle, and the laws of the image library. *Result:* Pillow is a parameter: sizes of its results, pixels of a region; what scaling does to pixels is not specified.
* **C76** Browsers find the exported files of a picture — *partial*. the standard's srcset parser is written down as a specification and run over the attribute by induction on its files; false of paths with spaces and of unknown formats, with witnesses. *Result:* proved for paths without whitespace; false for browsers which do not know a format (sources have no type) and for paths with spaces.
* **C77** The scan of a stylesheet announces what it becomes and needs — *proved*. the scan is decomposed into the four manipulators (`scan_stream`): the imports and the icons see the stylesheet, the URLs what the image data leaves of it; each has its own specification from C52, C61 and C62.
* **C78** What the build of a stylesheet reports, its scan has announced — *partial*. `Suffices` says of the tokens still to be read that what is announced covers them; it is kept along the stream of the build (`stream_reports`), for spliced classes of icons (`plain_output`) and for rules of other stylesheets (`tidy_meets`), and holds of the stylesheet by C77's description. False of local imports, with a witness. *Result:* Proved for stylesheets which import rules only from other, built stylesheets, whose buttons have the colors of their icons, and which have no commands inside of url(...). False of a stylesheet which imports its own rules: images are numbered by the scan as they are written and by the build as they come with the imported rules (C78_false_import)..
* **C79** Incremental builds give what a build from scratch gives — *partial*. contents of the files over the model of C10-C17; the invariant `UpToDate` is kept by every rebuild (`step`), whatever the builds see of each other's outputs (`Exec`); it determines the outputs by induction over the recorded dependencies, which are finite and acyclic. *Result:* Proved for projects in which no two sources share an output (false otherwise: C16_shared_output_lost) and histories in which every rebuild finishes (false otherwise: C79_false_after_failure). It is false of stylesheets with icons, whose build reads the source of the icon and does not list it: C79_false_icon. The builder is a parameter, with the laws in `Pure`: it writes what belongs to its source, fails if something it reads is missing, and depends on what it lists only. C80 shows the laws for scripts, plain stylesheets, copied files and constants..
* **C80** Import hashes in scripts are current after any history — *partial*. the models of `build_file` and the handlers for scripts, copied files and constants are shown to keep to the laws which C79 assumes of builders (`Tool.Lawful`): a build of a script depends on the hashes of the files it lists as children and on nothing else (`build_reads`, by a simulation of the manipulators). *Result:* Proved for projects of scripts, stylesheets without icons and images, pages without images and inline elements, templates, copied files and constants, with the handlers of C65, C66, C70 and C72 as builders. Pages and stylesheets with images are missing: images are numbered by what is in the artifacts folder, so their outputs depend on the history. Scripts with type hints are compared between histories, but what they contain is described only where no type hint line comes inside an import statement or directly after an empty line..
* **C81** Comments in titles and text elements are comments — *partial*. the correction of html5lib's tokens as a function on lists; soundness by its induction principle against a relation `Kept`, completeness by a lemma on concatenation. *Result:* Every token sequence html5lib may give. A comment with another < right before it is not found (C81_false_missed)..
* **C82** Sequence manipulators leave alone what they give up on — *partial*. what a generator does as a relation (`Ended`), mapped to the runs of C32; never ending by strong induction on the fuel. *Result:* Every manipulator and token sequence. What a manipulator gives is offered to it again, so one which gives up and remembers nothing is asked about the same tokens for ever; this is so for the example in the documentation of the class (C82_false_example)..
* **C83** Builds reflect the configuration as it is now — *partial*. the step of C79 for two builders, the one before and the one after the change, which agree on the files which are not built; induction over histories in which the handlers change. *Result:* False in general: the configuration is no source, so changing it builds nothing (unnoticed, C83_false_unnoticed). Proved: if every source which the new configuration builds in another way is built in the next rebuild, everything is as the new configuration says; for the constants this is so if their file was touched or the mode is another. The concrete part is about the constants only; settings for images and icons are covered by the general theorem, which takes handlers as parameters..
* **C84** Imported rules and URL hashes in stylesheets are current after any history — *partial*. the handler for stylesheets is added to the builders of C80 for stylesheets which turn out to have neither icons nor images: its builds depend on the outputs of the stylesheets and the hashes which they list as children (`build_reads`, a simulation of the four manipulators by induction over streams), and its result is that of the import manipulator followed by that of the URL manipulator (`stream_plain`), so that C46 and C63 apply. *Result:* Proved for projects of scripts, stylesheets, copied files and constants, as for C80. Stylesheets with icons or data images are missing, as are imports of rules from files which are not of the form of `Nest.Sheet` (flat rules, at-rules with blocks, comments). A rule is imported from the output of the other stylesheet, so imports and URLs in it are resolved before..
* **C85** Link hashes and templates in pages are current after any history — *partial*. the handler for pages is added to the builders of C80 for pages which turn out to have neither images nor inline elements: its builds depend on the page, on the hashes of the files it links to and on the templates it includes, and all these are listed as children (`Html.Page.build_reads`, by the simulation of builders used for C84). The result is described by `Shows`, a relation between the document and the output which refers to the current contents of the files only. *Result:* Proved for pages without images and inline elements which link to files below src/public only. False for pages with image commands: if the image is not there the command is kept and the image is no child, so the page is not built again when it is added (C85_false_image). Parsing and serialising HTML and JSON are parameters; the templates have to be balanced and sane as for C66..
* **C86** Image modules show the images asked for — *partial*. the check, the commands and the loops of the handler on top of the model of scans and exports (ImgFiles); acceptance by cases, the rest by induction over the entries with C71 and C72 for each of them, where the check gives the same at the scan and the build because images are kept between them. *Result:* Proved for files whose images have proper paths (Paths). False: crop_settings are checked but not used (C86_settings_false), crop_arguments are used but not checked, so an accepted file can make the scan fail (C86_arguments_false), a crop which is not a number raises (C86_type_false), NaN is accepted (C86_nan_false), and a path with .. has artifacts outside of artifacts/ (C86_dots_false). json is a parameter; drawing is C75..
* **C87** Settings are used as they are written — *partial*. the loaders as functions from JSON to settings or an exception; a specification which says of each setting where it is written, without reference to the order of the checks (`Says`), and equivalence by induction over the objects. *Result:* What is used is what the configuration says, exactly, and what init writes is accepted. False: names of formats, preferences, the number of steps and an infinite step are not checked (C87_false_unchecked), and while watching the version is not checked (C87_false_version). The text of the file is in C115; the settings of icons (C64) and the reading of decimals from text are parameters; the type checks of pytypeutils are taken as isinstance..
* **C88** Whatever the sequence of builds and watching, the outputs are those of the current sources — *partial*. a session is a list of finished builds, with edits found by comparing the walk with the stored graph, and of watch rebuilds, with edits collected from events; by induction over the session the graph records the signatures of the current sources (`Recorded`), from which the edits found are shown to be those made, so that a session is a history as in C79. *Result:* Sessions of builds and watch rebuilds are histories of C79, so C80, C84 and C85 apply to them; edits are found by the code (detect, the event handler) instead of being given. Signatures have to determine the contents, which is derived from the times of writes in C91; without this it is false (C88_false_signature). Edits during builds and failed builds are C89 and C90. Left out: moves onto an existing file. External files are not part of a session..
* **C89** Edits while a build is running are caught up with by the next one — *partial*. the invariant of C79 is relaxed to all files but those which a set of suspects affects (`Nearly`); a rebuild whose builds see anything of the suspects keeps it (`Nearly.step`), with the files edited meanwhile as the next suspects, because everything which depends on a suspect is rebuilt. *Result:* Builds may see anything of the files which are edited while they run. As in C88 signatures have to determine the contents, and an edit during a build has to leave another signature than the one which that build records (BusyRuns.seen), else it is false: an edit which is undone by moving the old file back (C89_false_undone); the signature is taken while files are scanned. The watch rebuild has to be told of the edits (Course.watch): edits between the first build and the start of the watcher are in nobody's events..
* **C90** After failed or killed builds the next finished build repairs everything — *partial*. a broken rebuild touches outputs of files only which depend on the files it was given as new (`started_affected`), so that adding these to the suspects keeps `Nearly` (`Nearly.broken`); a finished rebuild which is given all suspects removes them. *Result:* Proved if the next build finds everything new which the broken ones were given as new, and if these have left no outputs which were not recorded before. Without the first it is false: a file which was missing in the failed build and is back with its old signature is not noticed, and its outputs stay missing (C90_false_restored). Without the second it is false: the hash which an unfinished first build has left is reused after an edit (C90_false_reuse; the same holds for copied files). The crash between the three writes of the graphs is C17..
* **C91** Every edit with a new time stamp is noticed, whatever files are moved or replaced — *proved*. a file system with all writes it has seen; inode and time of a file tell its contents, by induction over the operations (`Store.Good`), so that sessions in it are sessions of C88 (`Life.session`); and builds keep sources (`Life.shown`). *Result:* This discharges the assumption of C88 on signatures. C91_false_raced: without the condition on times it is false, a second write of the same length within the resolution of the clock is not noticed. The sources are files: of symbolic links among them only the link is looked at (lstat), and edits of what it leads to are never noticed (C91_false_links). Hard links are not covered..
* **C92** Links serve what copies would — *proved*. a file system in which links are entries; a relation between the files with links and those with copies, up to the links to files which were changed since (`Sim`), which every step keeps. *Result:* Histories with pictures are for projects given by an absolute path (C93); links among the sources, and folders which are links, are left out. This is about reading the files, as other servers do; the server of run and dev does not follow links (C106)..
* **C93** Pictures below out/www are those in artifacts — *partial*. the components of the target of the link are computed, and where they lead from the folder of the link; a relative project path leads below out/www, never to artifacts. *Result:* Proved if the project is given by an absolute path. False otherwise, in particular for the default folder, on systems with links: the target of the link is relative to the working folder, but a link is read relative to its own folder, so it leads nowhere, and the next page with the same picture raises FileExistsError..
* **C94** Testing for links leaves nothing behind — *partial*. what interrupted tests can leave is one of three forms (`Left`), which every step keeps, by cases. *Result:* Proved for working folders which can be written and have none of the two names. False otherwise: in a folder which cannot be written the test raises instead of answering, so that nothing is built, and files of the user with these names are lost. After an interruption the next answer may be no although links are supported..
* **C95** The artifacts folder is reproducible — *partial*. the artifacts are determined by the targets in the order in which they were asked for and by what was exported (`Stands`), by induction over the build; two runs of the exporter agree where they read (`exportNew_agree`). *Result:* Proved if every image is used for one target (size and crop) only; in general the artifacts are the same if and only if the targets of each image were first scanned in the same order. False otherwise: one picture in two sizes gets other numbers when its scans run in another order. Drawing an image is taken to be deterministic; images which differ only in their extensions are left out..
* **C96** Visitors with caches get the deployed files — *partial*. what a browser keeps was deployed with the name and the hash in its URL (`Sound`), by induction over deployments and requests; that the URLs which are written have the current hashes is C80, C84 and C85. *Result:* Proved if references are followed while the version which they are from is deployed, for projects without images, icons and inline elements, and for names without question marks, for every browser which keeps any of the URLs with the parameter v for any time. False otherwise: a page which was loaded before a deployment and asks afterwards makes the browser keep the new contents under the old URL, and it has these when the old version is deployed again. Deployments are taken to be instantaneous..
* **C97** Builds which run at the same time make the same folders safely — *partial*. each call of the operating system is a step; an invariant of one process (`Good`) which its own steps keep and others do not break, and a cost which each step lowers. *Result:* Proved if nobody removes the folders meanwhile, for any number of processes, any order of their calls, and any calls the system refuses. False with removals, which happen: a page with an inline script removes the folder gen below src/public/js when it is empty, and a page which is built at the same time and has seen that folder ends with FileNotFoundError (C97_false_outline). One refused call can be enough to end with FileExistsError (C97_false_refused). Whatever others do, a process returns only if the folder is there (C97_sound), and the removal of empty folders raises only if a folder has become a file (C97_cleaning). The calls of the operating system are single steps; links and renames are left out..
* **C98** While watching, a rebuild starts when it has been quiet for the debounce time, and not before — *proved*. the time kept is that of the last event (`last_spec`), by induction from the end of the history; leaving out the times gives a history of C23. *Result:* C98_only_delays carries over to histories with times what C23 and C58 say of histories without. There is no bound on the delay while events keep coming (C98_false_bounded), nor when the clock is set back (C98_false_clock). Times are integers..
* **C99** The script which makes the identifier tables takes over exactly the listed code points — *partial*. the script as a function on the lines of the file; Python's reading of string literals and tuples as relations which determine their results; induction over the list. *Result:* Proved for lists whose single code points have four hexadecimal digits. False otherwise, and so of Unicode's lists: \u takes four digits, so that of U+10341 the table gets U+1034 and the digit 1 (C99_false_digits, C99_false_case; the shipped tables have all ten digits as identifier starts, C35_tables_not_unicode). C99_exact says what the tables are for all lists..
* **C100** The web server of run and dev starts, serves until Ctrl-C, and then ends and leaves nothing behind — *partial*. a transition system of the three threads and the environment; one invariant (`Inv`) over all schedules; under fairness a rank which no step raises and which the thread that is waited for lowers (`reach`). *Result:* Proved for all fair schedules if the address is free. False if it is taken: once the handler of the signal is installed no schedule ends the command, however often Ctrl-C is pressed (C100_false_taken); and a server which ends by itself is not noticed (C100_false_dies). C100_clean has one exception, a watch mode whose observer has died: there the command returns without waiting for the server (C100_watch_case). uvicorn is taken as uvStep describes it; rebuilds in the loop are left out..
* **C101** A command line is carried out as it is written, or not at all — *partial*. a grammar of command lines (`Written`) apart from the parser; one argument at a time (`word_opt`, `word_plain`), then induction over the arguments in both directions; `Means` says what the settings are. *Result:* Exactly which command lines are carried out, with which settings, for all lists of arguments. False of opposite options: --symlinks counts against --no-symlinks, and --placeholders against --no-placeholders, whichever comes last (C101_false_both). The rules of argparse (Python 3.11) are modelled and are part of the trusted base, as is what int() accepts; help and errors are not told apart, both end the program..
* **C102** Pictures show the image as it is now — *partial*. histories (`Lived`) with edits of images beside scans and exports; an invariant (`Core`) which does not depend on hashes being right and says for each finished entry from which image its pictures were drawn; with right hashes it gives `Good` of C71, so that C71-C74 apply to the next step; the falsity by induction over the listed entries. *Result:* Proved: whatever the history, an export which succeeds shows the image as it is now, completely, and pictures are never mixed up. False: once an image has been exported and is replaced, no scan or export of it succeeds any more, until artifacts/ is removed (C102_false_stuck, C102_false_forever; the error is that of C44). Assumed: images of the history with the same hash are the same; when a page is scanned or exported the hashes of all images are those of the images as they are (their own build comes first, or out/ was removed); nobody else edits finished entries in artifacts/ or writes pictures of them in out/www; sizes which coincide are excluded (C41_false_duplicate)..
* **C103** Built pages keep to the content security policy — *partial*. which tags a browser refuses under the policy (`Refused`, from the standards, refusing more where they are long); induction over `Render` of C66: each way in which a token of the output comes about keeps a tag unrefused. *Result:* Proved: if page and templates have, apart from inline scripts and stylesheets, nothing which the policy forbids, a browser refuses nothing of the built page; for documents as in C66 (balanced, sane, not ending inside of an inline element) and exported images whose paths have no spaces and commas. False of code and styles in attributes, which are kept (C103_false_attributes). Data blocks and import maps, which the policy allows, are moved to files and lost (C103_false_data). Whether html5lib's text of the tokens is read back as these tokens is a parameter; the contents of the files which are loaded are not looked at (C62 and C64 for stylesheets)..
* **C104** Inline scripts and stylesheets refer to the same files when they are moved — *partial*. `Goes` of C59 is followed from the folder of the page and from that of the generated file; by induction the difference of the depths stays the same. *Result:* Proved for paths from the root. False of all others, for every page, path and element: a path which leads from the page to a file leads from the generated file to another one, always three folders deeper (C104_false_relative); the build looks for the hash of that file and fails (C104_case)..
* **C105** While watching, the project is rebuilt only after edits — *partial*. the handler of C23 with a queue of reports about the builder's own files, which are passed on at any moments; invariant: each own file is pending only between its creation and its deletion, and files of the user are pending only after an edit or a failure; counted rebuilds and edits. *Result:* Proved for all sessions in which the reports about the builder's own files have come when a rebuild fails. False otherwise: rebuilds which fail are started again and again after a single edit (C105_false_failing). A look between the reports that an own file was created and deleted ends the command (C105_false_ended). Files which users replace by moving others over them count as edits; the report about a placeholder which a rebuild creates in the source folder and keeps counts as an edit, too: it is followed by one more rebuild..
* **C106** The server gives the files of out/www, and nothing else — *partial*. `StaticFiles` as a function of the path and the files, with links resolved name by name (`real`); the test with `commonprefix` is taken apart into components (`render_prefix`); what the copy handler and the exporter of C92 leave is asked for. *Result:* Proved: files which are no links are given, at any depth and with any name, folders give their index page, and nothing is given from outside, unless a folder beside out/www has a name which begins with www (C106_false_beside). False of links, for every project: files which a build puts below out/www as links, which it does by default where the system has them, are answered with 404 by run and dev (C106_false_copied, C106_false_picture); with --no-symlinks they are given (C106_copied). starlette is modelled as of 0.20.4, the version in requirements.txt, and is part of the trusted base; later versions have the same default for links. Conditional and range requests are left out..
* **C107** The server names the right media type on every machine — *proved*. `guess_type` over arbitrary machine tables with the nine entries of http_server.py added; the type of a path with a known extension is computed, and combined with C106's lookup. *Result:* For all tables of the machine which do not take one of the nine extensions for a compression or an abbreviation. mimetypes.guess_type and starlette's FileResponse are modelled after their sources (trusted base). C107_needed: a machine on which scripts would be plain text without the entries of the module. C107_false_compressed: what is not claimed, and false: a compressed drawing (.svgz) is given as image/svg+xml without naming the compression..
* **C108** While watching, the server goes on giving the files of out/www — *partial*. The list of changes of a rebuild (`Crash.effects`): a removal of out/www is among them only if the folder has no entry in the end; lifted to lists of rebuilds and prefixes. A history which empties the folder is a counterexample. *Result:* Proved as long as each rebuild leaves something in out/www. C108_false_emptied: a rebuild which leaves nothing there removes the folder the server stands in; from then on every request is answered with 500, although the next rebuild makes out/www again..
* **C109** A reload shows the current file — *partial*. The conditional answers of `StaticFiles` as a function of the marks of the kept copy and of the file; invariant: the kept copy is the current file or its time is in an earlier second than the file's. *Result:* Proved if nothing is looked at in the second in which it was written. C109_false_hurried: written, loaded, written again and loaded again within one second: the server answers 304 although the tags differ, because the times in the headers have seconds only, and the old file is shown at every reload until the next write. starlette's conditional answers are modelled after its source (trusted base)..
* **C110** A project without broken or circular references builds — *partial*. C57 with scans and builds of handlers (`Tool`): what is recorded is shown to be children of builds of the current contents (`Worked.recorded`), so that needs are references, which are acyclic; a build which raises contradicts that its references were built first (C12) or before. Then the handlers for scripts and copied files are shown to be of this kind (C34), and those for pages and templates, with a relation which says what a page links to and includes whatever was built so far (`Finds`); for stylesheets without commands and inline images the four manipulators are shown to do what the one for URLs does alone (`lift_urls`), and the listed hashes stand for the files. *Result:* Proved for websites of scripts, copied files, the file of the constants, pages, templates, and stylesheets which have URLs but no imports, icons and inline images, with the handlers of C65, C66, C69, C70 and C77 as builders, if unchanged pages refer to the same files as before; type hints must be apart from the imports (C34). Without that condition it is false, C110_false_template: a template is scanned to no dependencies, and a page which was not edited is not scanned again, so when a template comes to link to another file the page may be built too early, and the rebuild fails. intact_finishes is the same for any handlers which scan what they read. Images, inline elements, and imports and icons in stylesheets are missing. That a rebuild does not wait forever for a build is C14; here it is asked that it is not waiting..
* **C111** A finished build has no broken or circular references — *partial*. What is recorded are children of builds of the current contents (`Worked.recorded`), children are the references (`Tool.Direct`), recorded files are there (C79), and the recorded graph is acyclic (C02). For rules: a finished build has reported every stylesheet it imports from (`run_imports`). *Result:* Proved for websites of scripts, copied files, the file of the constants, pages, templates, and stylesheets which have URLs but no imports, icons and inline images, with the handlers of C65, C66, C69, C70 and C77 as builders, after any history of finished rebuilds; pages which link to themselves are left out, and so are images, inline elements and imports around type hints, as in C110. C111_site_broken_partial and C111_site_circular_partial say the same before the build: with a broken or circular reference a rebuild does not finish. finished_refers and finished_acyclic are the same for any handlers which scan what they read. C111_imports_partial, with C111_imports_broken_partial and C111_imports_circular_partial: the same for the stylesheets from which rules are imported, whatever else the importing stylesheets contain. Missing: the URLs of stylesheets which also import rules..
* **C112** The handling of a file comes to an end — *partial*. A potential which every round of the builder lowers (`runOps_ends`): for scripts, lexicographically, the type hints, the imports not yet marked, the lines not yet read and the tokens left; for stylesheets the icons, the URLs not yet read for images and those without hash, counted after all icons are inserted; with imports, lexicographically, the imports left to replace and that potential (`Settles`). For pages a derivation which counts the steps of the tokens to come (`Pend`), along the tree of the inclusions. *Result:* Proved for scanning and building all scripts, scanning all stylesheets, and building the stylesheets without commands to import rules, with bounds on the steps which depend only on the text (and the settings of the icons). enough_script, enough_sheet and enough_page: so the bound on the steps which C110 and C111 ask for exists. C112_page: scanning and building a page ends if the inclusions of templates do (C112_page_acyclic: if no template includes itself, directly or through others), whatever the page does with images, inline elements, links and canonical URLs; the bound depends on the page, the templates and the number of formats of pictures only. False for circular imports of rules within nested blocks (C46_false_endless) and for templates which include themselves (C48_false_endless for the manipulator, C112_false for whole pages, scanned or built). C112_sheet_imports_partial: building a stylesheet which imports rules ends too if the files imported from consist of rules without blocks in them and with distinct selectors; imports in a circle among them are reported as an exception. Missing: imported rules with nested blocks or repeated selectors..
* **C113** A graph file which was not finished is never taken for a graph — *proved*. Text of `store` and a recursive reader with fuel for Python's json. What follows a value does not change how it is read (`longer`), the fuel is enough (`enough`) and more does not matter (`stable`); so a part of the text which is read as an object gives the object of the whole text, and nothing but the newline is missing. *Result:* A process which dies leaves some first part of what it has written; that the operating system keeps the order of what is written to one file is trusted. How Python writes and reads floats is a parameter with the hypothesis that each mtime of the graph is written as the text of a number which reads as it. C113_crash links the text to the states of graph files in the model of crashes..
* **C114** Records of images and of external files are read as they were written, or refused — *proved*. Python's `json.dump` of any value, with and without `indent`, as a structural recursion; by mutual induction over values the reader of C113 reads what is written (`reads_dump`), and a part of the text of a dictionary is refused by the argument of C113. Then the values of `dataclasses.asdict` and the accesses of `load_metadata`, `load_image_target_settings` and `from_json`. *Result:* The strings are texts of Unicode characters in which no surrogate pair is split in two, dictionaries have every key once, and floats are written as the text of a number (the times of external files: one which reads as the time). C114_lawful gives what the theorems about the files of images (C71 to C77) assume of records. C114_stuck is a finding: a torn metadata.json is never repaired; a request of the image either finds an entry listed before the torn one or raises..
* **C115** A new project can be built, and a half-written configuration is refused — *proved*. The value init dumps as a value of C114's writer; the reader gives the dictionary of C87 back (`to_of`), so the theorems of C87 about what init writes hold of the text, and any shorter text is refused by `torn_dump`. With the model of init (C54): what is in the file after it, and that it keeps a torn file. *Result:* How Python writes and reads the floats of the configuration is a parameter of which only what the text of the initial configuration needs is assumed; the host is any text of Unicode characters in which no surrogates meet. That a torn file is never repaired by another init is part of the claim (C115_stuck)..
* **C116** Variables arrive in templates as they were given — *proved*. A translation of values between the model of templates and the writer of C114, with the induction that they come back (`of_to`) and that no newline is written (`dump_line`); so Python's json meets `Faithful`, which C48, C77, C112 and others assume. *Result:* Floats are given by the text `str` shows, and `shown` says how Python shows the float it reads from a text; strings are texts of Unicode characters in which no surrogates meet. For values of the model which Python does not have, the environment of the theorem writes texts which are no JSON, so that the laws hold of all values..
* **C117** Scripts get the images which are listed — *proved*. `sort_keys` as an insertion sort of the items at every level, which is a permutation and unique for different keys; the writer of C114 on the sorted value, its reader, and a specification of what JavaScript makes of a JSON text. Then own properties by their paths, and the run of the handler of C86, which gives the metadata in the order of the file. *Result:* What JavaScript makes of the text is a small specification (jsOf, Gives): by ECMA-262 a JSON text is an expression with the value JSON.parse gives, but for the key __proto__. Numbers are compared as they are written; how Python writes floats is a parameter. Strings are texts of Unicode characters in which no surrogates meet..
* **C118** Unchanged files stay unchanged through the stored times — *proved*. binary64 as rounding of rationals to 53 digits; a decimal number nearer to a float than a 2^-54th of it is read as it (cases of the binary exponents, with the one below a power of two), and 17 digits are that near. The layout of the digits is a literal of json's number syntax with the same value. `st_mtime` is a rounded sum, so it is a float. *Result:* Python's float.__repr__ and float() are modelled (shortest decimal which reads as the float, CPython's layout, rounding to nearest), without infinities, subnormal numbers and the negative zero. So the hypotheses about floats of C08, C113 and C114 hold of Python's floats. C118_coarse records that times closer than the resolution of floats are the same..
* **C119** Image commands mean what a program wrote — *proved*. The splitting of C45 on the written text; the crop arguments end at the first closing bracket, so they are the whole text of the dictionary, which is read as the dictionary (C114), or a proper part of it, which is refused by the argument of C113. Numbers have no bracket in them and are read as they were meant (C118). *Result:* Python's int (digits of ASCII, signs, underscores) and json.loads are modelled here, instead of being parameters as in C45. Crop arguments in which a closing bracket comes before the last one are refused, whatever they are (C119_refused): so texts with brackets and nested dictionaries cannot be written, but they are never misread..
* **C120** A new project builds — *proved*. The tokens of the first page are passed on by every manipulator, each in one step, so the page refers to nothing and is written as it was parsed; then the theorem of C110 on the first build and C23 on what is there afterwards. *Result:* How html5lib parses the page is a parameter: what is assumed is that there are no comments, links, scripts and stylesheets among its tokens, which are shown beside it. The host must be set, as for all pages in C110; the configuration of the new project is the subject of C115..

## Axioms each theorem depends on

Collected with `#print axioms` over every theorem named in MANIFEST.json.

* no axioms (2): `Img.C43_case`, `Reader.C24_false_empty`

* `?` (3): `Hot.Scripts.finished_acyclic`, `Hot.Scripts.finished_refers`, `Hot.Scripts.intact_finishes`

* `propext` (19): `Build.C32_unique`, `Dev.C58_false`, `Dev.Own.C105_case`, `Dev.Own.C105_false_ended`, `Dev.TimeToy.C98_case`, `Ext.C22_torn`, `Folders.C97_cleaning`, `Icons.C51_short`, `Img.C43_torn`, `Img.C44_false`, `Js.C82_kept_partial`, `Js.C82_replaced`, `Links.C91_plain`, `Nest.C47_false_again`, `Nest.C47_false_resolvable`, `Nest.C47_rejected`, `Nest.C47_revised_case`, `Server.C100_case_early`, `Server.C100_watch_case`

* `Quot.sound`, `propext` (57): `Build.C32`, `Build.C32_complete`, `Build.C32_identity`, `Build.runOps_ends`, `Dev.C23_disjoint_partial`, `Dev.C23_false_failure`, `Dev.C23_false_move_over`, `Dev.C23_false_vanished`, `Dev.C23_given_partial`, `Dev.C23_nothing_lost`, `Dev.C23_pending_partial`, `Dev.C58_retries_partial`, `Dev.C98_only_delays`, `Dev.C98_quiet`, `Dev.C98_starts`, `Dev.Own.C105_false_failing`, `Dev.Own.C105_partial`, `Dev.TimeToy.C98_false_bounded`, `Dev.TimeToy.C98_false_clock`, `Dev.forget_events`, `Ext.C21_check`, `Ext.C21_mismatch`, `Ext.C21_outcome`, `Ext.C21_target`, `Ext.C22_converges_partial`, `Ext.C22_succeeds`, `Folders.C97_sound`, `Folders.Toy.C97_case`, `Folders.Toy.C97_case_others`, `Folders.Toy.C97_false_outline`, `Folders.Toy.C97_false_refused`, `Html.C49_query`, `Icons.C52_false_named`, `Img.C42_case`, `Img.C42_false`, `Img.C42_order`, `Img.C42_total`, `Img.C43_torn_case`, `Img.C44_case`, `Img.C44_complete_partial`, `Img.C44_outdated`, `Img.C44_sound`, `Img.applies_iff`, `Js.C27_comment_closed`, `Js.C27_comment_round_trip`, `Js.C35_classification`, `Js.C82_false_example`, `Js.C82_never_ends`, `Links.C91_false_links`, `Nest.C47_case`, `Nest.C47_false`, `Paths.relpath_leads`, `Reader.C25_readAll`, `Reload.C109_reload_partial`, `Reload.Case.C109_case`, `Reload.Case.C109_false_hurried`, `Server.C100_case`

* `Classical.choice`, `Quot.sound`, `propext` (616): `Cli.C101_order`, `Cli.C101_partial`, `Cli.Toy.C101_before`, `Cli.Toy.C101_case`, `Cli.Toy.C101_false_both`, `Cli.Toy.C101_ports`, `Cold.C20_detect_exact`, `Cold.C20_disjoint`, `Config.C115_case`, `Config.C115_init`, `Config.C115_reads`, `Config.C115_reads_case`, `Config.C115_stuck`, `Config.C115_text`, `Config.C115_torn`, `Config.C87_accepted`, `Config.C87_build`, `Config.C87_case`, `Config.C87_constants`, `Config.C87_external`, `Config.C87_false_unchecked`, `Config.C87_false_version`, `Config.C87_images`, `Config.C87_init`, `Config.C87_init_good`, `Config.C87_watch`, `Crash.C18_affected_again_partial`, `Crash.C18_lost_between_stores`, `Crash.C18_nothing_lost_partial`, `Crash.C18_store_points`, `Crash.effects_apply`, `Css.C28_css_false`, `Css.C28_css_false_hex`, `Css.C28_css_partial`, `Css.C28_css_round_trip_partial`, `Css.C30_false_at`, `Css.C30_false_digit`, `Css.C30_false_hash`, `Css.C30_false_number`, `Css.C30_false_url`, `Css.C30_partial`, `Css.C30_total_partial`, `Css.C31_false_bad_string`, `Css.C31_false_comment`, `Css.C31_false_name`, `Css.C31_false_sign`, `Css.C31_false_string`, `Css.C31_false_url`, `Css.C31_plain_partial`, `Css.C31_rewrites_partial`, `Css.Data.C62_address`, `Css.Data.C62_distinct`, `Css.Data.C62_partial`, `Css.Data.C62_scan`, `Css.Data.DataToy.C62_case`, `Css.Data.DataToy.C62_false_base64`, `Css.Data.DataToy.C62_false_charset`, `Css.Data.DataToy.C62_false_folder`, `Css.Data.DataToy.C62_false_stale`, `Css.Data.DataToy.C62_false_type`, `Css.Data.DataToy.C62_false_unquoted`, `Css.Data.dataOf_spec`, `Css.Page.AgreeToy.C78_case`, `Css.Page.AgreeToy.C78_false_import`, `Css.Page.AgreeToy.runs`, `Css.Page.C112_sheet_imports_partial`, `Css.Page.C112_sheet_partial`, `Css.Page.C112_sheet_scan`, `Css.Page.C64_partial`, `Css.Page.C65`, `Css.Page.C77`, `Css.Page.C78_partial`, `Css.Page.PageToy.C112_case`, `Css.Page.PageToy.C112_imports_case`, `Css.Page.PageToy.C64_case`, `Css.Page.PageToy.C64_false_image`, `Css.Page.ScanToy.C77_case`, `Css.Page.ScanToy.runs`, `Css.Page.build_plain`, `Css.Page.build_reads`, `Css.Page.build_reports`, `Css.Page.data_scan`, `Css.Page.needs_outlined`, `Css.Page.scan_stream`, `Css.Page.stream_reports`, `Css.Page.suffices_doc`, `Css.Page.tidy_meets`, `Css.Urls.C34_urls`, `Css.Urls.C61_no_bare_url`, `Css.Urls.C61_partial`, `Css.Urls.C61_scan`, `Css.Urls.C61_succeeds`, `Css.Urls.UrlToy.C61_case`, `Css.Urls.UrlToy.C61_false_external`, `Css.Urls.UrlToy.C61_false_fragment`, `Ext.C114_state`, `Ext.C114_state_case`, `Ext.C114_statefile`, `Ext.C114_torn_state`, `Ext.C22_downloads_end`, `Ext.C22_false_after_drop`, `Ext.C22_false_empty`, `Ext.C22_stays_partial`, `Folders.C97_made_partial`, `Graph.C01_edges_symmetric_closed`, `Graph.C02_rejected_call_changes_nothing`, `Graph.C03_acyclic`, `Graph.C04_cycle_check_exact`, `Graph.C05_nested_relationship`, `Graph.C06_direct_relationship`, `Graph.C07_addFile_effect`, `Graph.C07_removeFile_effect`, `Graph.C07_setChildren_effect`, `Graph.C08_store_load`, `Graph.C08_store_load_history`, `Graph.C09_graphEq_equivalence`, `Graph.C09_graphEq_exact`, `Handlers.C36_false_hash`, `Handlers.C36_false_prefix`, `Handlers.C36_outside`, `Handlers.C36_partial`, `Handlers.C37`, `Handlers.C37_false`, `Handlers.C38_crash`, `Handlers.C38_dispatch`, `Handlers.C38_false_prefix`, `Handlers.C38_outputs`, `Hot.C10_rebuild_set`, `Hot.C10_touched_sources`, `Hot.C11_built_exactly_once`, `Hot.C12_dependencies_first`, `Hot.C13_fresh_output_shared`, `Hot.C13_no_shared_output_partial`, `Hot.C13_third_file_overlaps`, `Hot.C14_acyclic_builds_all`, `Hot.C14_cycle_never_finishes`, `Hot.C14_error_means_cycle`, `Hot.C14_terminates`, `Hot.C15_stale_outputs_deleted`, `Hot.C16_outputs_exist_partial`, `Hot.C16_shared_output_lost`, `Hot.C17_accounted`, `Hot.C17_files`, `Hot.C17_finished_stores`, `Hot.C17_kept_dependencies`, `Hot.C17_outputs`, `Hot.C17_rebuilt_dependencies`, `Hot.C17_signatures`, `Hot.C17_valid`, `Hot.C19_constants_fit_mode_partial`, `Hot.C19_false_after_failure`, `Hot.C19_missing_after_failure`, `Hot.C56_folders`, `Hot.C57_history_partial`, `Hot.C57_keeps_history_partial`, `Hot.C57_or_raises_partial`, `Hot.C57_succeeds_partial`, `Hot.C57_two_placeholders_fail`, `Hot.C79_incremental_as_clean_partial`, `Hot.C83_reconfigured_partial`, `Hot.C88_current`, `Hot.C88_dev`, `Hot.C88_same`, `Hot.C89_current`, `Hot.C89_others`, `Hot.C89_same`, `Hot.C90_recovers_partial`, `Hot.C91_current`, `Hot.C91_same`, `Hot.Course.known`, `Hot.Exec.ofLog`, `Hot.History.upToDate`, `Hot.HistoryCase.C57_recreated_placeholder_fails`, `Hot.Icon.C79_false_icon`, `Hot.Life.session`, `Hot.Scripts.Album.C110_false_template`, `Hot.Scripts.Album.C110_pages_case`, `Hot.Scripts.Album.C111_broken_case`, `Hot.Scripts.Album.C111_case`, `Hot.Scripts.Album.enough_page_case`, `Hot.Scripts.Book.C85_case`, `Hot.Scripts.Book.C85_false_image`, `Hot.Scripts.C110_pages_partial`, `Hot.Scripts.C110_scripts_partial`, `Hot.Scripts.C110_site_partial`, `Hot.Scripts.C111_broken_partial`, `Hot.Scripts.C111_circular_partial`, `Hot.Scripts.C111_imports_broken_partial`, `Hot.Scripts.C111_imports_circular_partial`, `Hot.Scripts.C111_imports_partial`, `Hot.Scripts.C111_partial`, `Hot.Scripts.C111_site_broken_partial`, `Hot.Scripts.C111_site_circular_partial`, `Hot.Scripts.C111_site_partial`, `Hot.Scripts.C120_builds`, `Hot.Scripts.C120_init`, `Hot.Scripts.C120_published`, `Hot.Scripts.C120_tokens`, `Hot.Scripts.C80_current_partial`, `Hot.Scripts.C80_scripts_partial`, `Hot.Scripts.C80_specifier_partial`, `Hot.Scripts.C83_constants_partial`, `Hot.Scripts.C84_rules_partial`, `Hot.Scripts.C84_simple_partial`, `Hot.Scripts.C84_url_partial`, `Hot.Scripts.C85_handler_partial`, `Hot.Scripts.C85_page_partial`, `Hot.Scripts.C88_files_partial`, `Hot.Scripts.C89_files_partial`, `Hot.Scripts.C96_page_partial`, `Hot.Scripts.C96_partial`, `Hot.Scripts.Fresh.C120_case`, `Hot.Scripts.Fresh.C120_init_case`, `Hot.Scripts.Fresh.C120_published_case`, `Hot.Scripts.Garden.C110_case`, `Hot.Scripts.Garden.C111_case`, `Hot.Scripts.Sheets.C111_imports_broken_case`, `Hot.Scripts.Sheets.C111_imports_case`, `Hot.Scripts.Sheets.C111_imports_circular_case`, `Hot.Scripts.Sheets.C84_case`, `Hot.Scripts.Sheets.C96_case`, `Hot.Scripts.Sheets.C96_false_earlier`, `Hot.Scripts.Site.C110_case`, `Hot.Scripts.Site.C80_case`, `Hot.Scripts.Site.C83_case`, `Hot.Scripts.Site.C83_false_unnoticed`, `Hot.Scripts.Site.C88_case`, `Hot.Scripts.Site.C88_false_signature`, `Hot.Scripts.Site.C89_case`, `Hot.Scripts.Site.C89_false_undone`, `Hot.Scripts.Site.C90_case`, `Hot.Scripts.Site.C90_false_restored`, `Hot.Scripts.Site.C90_false_reuse`, `Hot.Scripts.Site.C91_case`, `Hot.Scripts.Site.C91_false_raced`, `Hot.Scripts.arranged_direct`, `Hot.Scripts.enough_page`, `Hot.Scripts.enough_script`, `Hot.Scripts.enough_sheet`, `Hot.Scripts.first_inert`, `Hot.Scripts.tells`, `Hot.Scripts.tool_direct`, `Hot.Scripts.tool_direct_pages`, `Hot.Scripts.tool_lawful`, `Hot.Session.course`, `Hot.Session.worked`, `Hot.Triple.C79_case`, `Hot.Triple.C79_false_after_failure`, `Hot.UpToDate.unique`, `Hot.Worked.history`, `Hot.step`, `Hot.unnoticed`, `Html.C116_comment`, `Html.C116_faithful`, `Html.C48_case`, `Html.C48_complete`, `Html.C48_false`, `Html.C48_false_empty`, `Html.C48_false_endless`, `Html.C48_false_endless_case`, `Html.C48_page`, `Html.C48_partial`, `Html.C48_template`, `Html.C48_unbalanced`, `Html.C48_undefined`, `Html.C48_unique`, `Html.C49_C50_case`, `Html.C49_C50_case_sound`, `Html.C49_C50_partial`, `Html.C49_false_href`, `Html.C49_false_namespace`, `Html.C49_false_protocol`, `Html.C49_output`, `Html.C49_query_safe`, `Html.C50_false`, `Html.C50_output`, `Html.C60_false`, `Html.C60_false_case`, `Html.C60_false_folder`, `Html.C60_partials`, `Html.JsonCase.C116_case`, `Html.Moved.C104_case`, `Html.Moved.C104_false_relative`, `Html.Moved.C104_partial`, `Html.Page.C112_false`, `Html.Page.C112_page`, `Html.Page.C112_page_acyclic`, `Html.Page.C64_page`, `Html.Page.C66_complete`, `Html.Page.C66_once`, `Html.Page.C66_page`, `Html.Page.C66_unique`, `Html.Page.C67_partial`, `Html.Page.C68_covers`, `Html.Page.C68_exact`, `Html.Page.C69_build`, `Html.Page.C69_clean`, `Html.Page.C69_scan`, `Html.Page.C69_sources`, `Html.Page.C76_case`, `Html.Page.C76_false_space`, `Html.Page.C76_false_type`, `Html.Page.C76_partial`, `Html.Page.PageToy.C112_case`, `Html.Page.PageToy.C112_false_case`, `Html.Page.PageToy.C66_case`, `Html.Page.PageToy.C66_case_fits`, `Html.Page.PageToy.C66_false_cut`, `Html.Page.PageToy.C66_false_media`, `Html.Page.PageToy.C66_false_twice`, `Html.Page.PageToy.C66_false_user`, `Html.Page.PageToy.C67_case`, `Html.Page.PageToy.C68_case`, `Html.Page.PageToy.agree`, `Html.Page.PageToy.parts`, `Html.Page.build_plain`, `Html.Page.build_reads`, `Html.Page.exported_readable`, `Html.Page.generated_inj`, `Html.Page.readSrcset_eq`, `Html.Policy.C103_partial`, `Html.Policy.Case.C103_case`, `Html.Policy.Case.C103_false_attributes`, `Html.Policy.Case.C103_false_data`, `Html.Toy.C48_unbalanced_case`, `Html.page_scan`, `Html.stack_reads`, `Html.template_reads`, `HtmlTok.C81_case`, `HtmlTok.C81_false_missed`, `HtmlTok.C81_found_partial`, `HtmlTok.C81_kept`, `HtmlTok.C81_same`, `Icons.C34_false_icon`, `Icons.C34_false_icon_case`, `Icons.C51_case`, `Icons.C51_format`, `Icons.C51_parse`, `Icons.C52_announced`, `Icons.C52_case`, `Icons.C52_case_built`, `Icons.C52_false_button`, `Icons.C52_false_hash`, `Icons.C52_false_image`, `Icons.C52_never_out`, `Icons.C52_partial`, `Icons.C52_passed_over`, `Icons.C52_reserved`, `Icons.C52_succeeds`, `Icons.C52_syntax`, `Icons.C52_unknown`, `Icons.C52_written`, `Icons.IconToy.C52_passed_over_case`, `Icons.Load.C63_case`, `Icons.Load.C63_complete`, `Icons.Load.C63_false_default`, `Icons.Load.C63_false_last`, `Icons.Load.C63_false_multi`, `Icons.Load.C63_false_names`, `Icons.Load.C63_names`, `Icons.Load.C63_partial`, `Icons.Load.C63_reads`, `Icons.Load.C63_valid`, `Icons.Load.C63_whole`, `Icons.TextToy.C52_written_case`, `Icons.iconArgs_iff`, `Img.Arguments.C119_case`, `Img.Arguments.C119_command`, `Img.Arguments.C119_int`, `Img.Arguments.C119_int_case`, `Img.Arguments.C119_refused`, `Img.Arguments.C119_refused_case`, `Img.Arguments.C119_understood`, `Img.C39`, `Img.C39_case`, `Img.C39_no_upscale`, `Img.C39_upscale`, `Img.C40`, `Img.C40_bounded`, `Img.C40_false`, `Img.C40_first`, `Img.C40_terminates`, `Img.C41`, `Img.C41_case`, `Img.C41_false_duplicate`, `Img.C41_false_interrupted`, `Img.C41_sizes`, `Img.C42_change_partial`, `Img.C42_range`, `Img.C43_above`, `Img.C43_after`, `Img.C43_increasing`, `Img.C43_kept`, `Img.C43_log`, `Img.C43_unique`, `Img.C45_case`, `Img.C45_comment`, `Img.C45_exact`, `Img.C45_false`, `Img.C45_false_trailing`, `Img.C45_malformed`, `Img.C45_partial`, `Img.C45_source`, `Img.C45_source_case`, `Img.C45_validated`, `Img.Draw.C75`, `Img.Draw.C75_case`, `Img.Draw.C75_total`, `Img.Draw.toy_lawful`, `Img.Files.C102_false_forever`, `Img.Files.C102_false_stuck`, `Img.Files.C102_partial`, `Img.Files.C102_unmixed`, `Img.Files.C71`, `Img.Files.C71_found`, `Img.Files.C71_history`, `Img.Files.C71_scan`, `Img.Files.C72`, `Img.Files.C72_scan`, `Img.Files.C73`, `Img.Files.C74`, `Img.Files.C95_order_partial`, `Img.Files.C95_partial`, `Img.Files.Case.C102_case`, `Img.Files.Case.C71_case`, `Img.Files.Case.C95_case`, `Img.Files.Case.C95_false_order`, `Img.Files.Case.again_run`, `Img.Files.Case.select_run`, `Img.Files.Start.good`, `Img.Files.Steps.keeps`, `Img.Files.reuse_nothing`, `Img.Glue.C117_build`, `Img.Glue.C117_module`, `Img.Glue.C117_order`, `Img.Glue.C86_accepts`, `Img.Glue.C86_arguments_case`, `Img.Glue.C86_arguments_false`, `Img.Glue.C86_case`, `Img.Glue.C86_dots_false`, `Img.Glue.C86_nan_false`, `Img.Glue.C86_partial`, `Img.Glue.C86_rejected`, `Img.Glue.C86_settings_false`, `Img.Glue.C86_sizes`, `Img.Glue.C86_type_false`, `Img.Glue.Gives.unique`, `Img.Glue.ModuleCase.C117_case`, `Img.Glue.ModuleCase.text_is`, `ImgRecord.C114_lawful`, `ImgRecord.C114_metadata`, `ImgRecord.C114_stuck`, `ImgRecord.C114_target`, `ImgRecord.C114_torn_metadata`, `ImgRecord.C114_torn_target`, `ImgRecord.Case.C114_case`, `ImgRecord.Case.small_text`, `Js.C26_false_continuation`, `Js.C26_false_hex`, `Js.C26_false_regex`, `Js.C26_false_string`, `Js.C26_false_template`, `Js.C26_rewrites_partial`, `Js.C26_total`, `Js.C28_form`, `Js.C28_js_false`, `Js.C28_js_round_trip_partial`, `Js.C28_js_tokens_partial`, `Js.C29_constants`, `Js.C29_env`, `Js.C29_false_nul`, `Js.C29_false_null`, `Js.C29_false_string`, `Js.C29_string_value_partial`, `Js.C33`, `Js.C33_total`, `Js.C34_false`, `Js.C34_false_tokens`, `Js.C34_hints_partial`, `Js.C34_partial`, `Js.C35_tables_not_unicode`, `Js.C55_blank_partial`, `Js.C55_exact_partial`, `Js.C55_false`, `Js.C55_partial`, `Js.C59_absolute`, `Js.C59_false_double_slash`, `Js.C59_false_escape`, `Js.C59_hash`, `Js.C59_relative`, `Js.C82_case`, `Js.C82_kept_case`, `Js.Commented.no_hint`, `Js.File.C112_case`, `Js.File.C112_script`, `Js.File.C34_imports_partial`, `Js.File.C70_build`, `Js.File.C70_case`, `Js.File.C70_case_missing`, `Js.File.C70_false`, `Js.File.C70_files`, `Js.File.C70_hints_partial`, `Js.File.C70_part`, `Js.File.HintToy.C70_hints_case`, `Js.File.build_unique`, `Js.Hashed.frame`, `Js.Make.C99_classified_partial`, `Js.Make.C99_exact`, `Js.Make.C99_false_digits`, `Js.Make.C99_tables_partial`, `Js.Make.Defines.unique`, `Js.Make.TableToy.C99_case`, `Js.Make.TableToy.C99_false_case`, `JsonText.C08_text`, `JsonText.C08_text_case`, `JsonText.C113_ascii`, `JsonText.C113_crash`, `JsonText.C113_number_case`, `JsonText.C113_torn`, `JsonText.C113_torn_case`, `JsonText.demo_text`, `JsonText.loads_dump`, `JsonText.torn_dump`, `Links.C92_live`, `Links.C92_same`, `Links.C93_false_again`, `Links.C93_false_relative`, `Links.C93_partial`, `Links.C94_case`, `Links.C94_false_readonly`, `Links.C94_false_user`, `Links.C94_partial`, `Links.Case.C92_case`, `Links.Case.C93_case`, `Links.Case.C93_false_default`, `Links.LinkToy.C91_false_link_case`, `Media.C107_index`, `Media.C107_types`, `Media.Case.C107_case`, `Media.Case.C107_false_compressed`, `Media.Case.C107_needed`, `Nest.C34_nest`, `Nest.C46_case`, `Nest.C46_circular`, `Nest.C46_ends`, `Nest.C46_false`, `Nest.C46_false_across`, `Nest.C46_false_endless`, `Nest.C46_false_from`, `Nest.C46_false_statement`, `Nest.C46_local`, `Nest.C46_partial`, `Nest.C46_reported`, `Nest.C47_counters`, `Nest.C47_counters_partial`, `Nest.C47_partial`, `Nest.C47_revised`, `Nest.C47_succeeds`, `Nest.Expands.unique`, `Nest.Result.unique`, `Nest.importArgs_iff`, `Nest.refOf_default`, `Nest.refOf_from`, `PyFloat.C118_case`, `PyFloat.C118_coarse`, `PyFloat.C118_float`, `PyFloat.C118_graph`, `PyFloat.C118_graph_case`, `PyFloat.C118_shortest`, `PyFloat.C118_sixteen`, `PyFloat.C118_state`, `Reader.C24_false_peek_all`, `Reader.C24_none_partial`, `Reader.C24_stream`, `Reader.C25_false_peek`, `Reader.C25_false_read`, `Reader.C25_peek_partial`, `Reader.C25_read_partial`, `Reader.C25_stream_partial`, `Runners.C53_answer`, `Runners.C53_answer_case`, `Runners.C53_case`, `Runners.C53_exact`, `Runners.C53_false`, `Runners.C53_frame`, `Runners.C53_prompt`, `Runners.C53_succeeds`, `Runners.C54_again`, `Runners.C54_case`, `Runners.C54_done`, `Runners.C54_in_the_way`, `Runners.C54_interrupted`, `Runners.C54_keeps`, `Runners.C54_succeeds`, `ServeWatch.C108_serves_partial`, `ServeWatch.Case.C108_case`, `ServeWatch.Case.C108_false_emptied`, `Server.C100_clean`, `Server.C100_false_dies`, `Server.C100_false_taken`, `Server.C100_false_taken_case`, `Server.C100_serves`, `Server.C100_stays`, `Server.C100_stops`, `Static.C106_confined_partial`, `Static.C106_copied`, `Static.C106_false_copied`, `Static.C106_false_links`, `Static.C106_false_picture`, `Static.C106_gives`, `Static.C106_index`, `Static.C106_missing`, `Static.Case.C106_case`, `Static.Case.C106_confined_case`, `Static.Case.C106_false_beside`, `Static.Case.C106_links_case`

## Findings

Behaviour of the code found while modelling; those with a witness are proved in the theorem named.

* Graphs and rebuilds: an output shared with an unaffected file is deleted (C16); two files sharing a fresh output may build at the same time (C13); `scandir` on a missing folder and `unlink` of a missing artifact raise; the `out` prefix is compared without a slash; old output nodes keep a stale signature; a rebuild can end in KeyError although every scan and build succeeds, when a file generated two placeholders, and in ValueError when a placeholder is deleted and generated again in one change (C57); a crash between the three stores loses changes (C18); constants can belong to the wrong mode after a failed build (C19); a failed rebuild can leave an output which no later rebuild removes (C79); changes of vanillaplusjs.json, for example of the constants, are not noticed until something else makes the files be built (C83); sources `x` and `x.hash` share an output, and a script reads the hash of what it imports although it lists the source as child (both stated in `HotScripts.lean`, C80).
* Constants: the environment variables of all three dictionaries are replaced.
* Lists of images: an image with the name __proto__ is written into the module, but as `"__proto__": ...`, which makes no property (C117).
* Records of images: a build which ends while metadata.json is written makes every later build raise which asks for another size or crop of the image (C114_stuck).
* External files: dropping a file while the others are up to date makes the next check fail; the empty configuration deletes nothing (C22).
* Watcher: a file moved over another one, and events during a failing rebuild, are lost (C23, C58); a file which is written again and again, or a clock which is set back, holds the rebuild up for as long as that lasts (C98).
* Images: `image_glue` checks `crop_settings`, which nothing uses, and passes on `crop_arguments`, which it does not check, so that an accepted file can raise TypeError; a crop which is not a number raises, NaN is accepted, and a path with `..` has its artifacts outside of artifacts/ (C86); the scan checks the placeholder path relative to the working directory; two images with the same stem share targets; concurrent scans reserve two ids; `lazy` behind the crop arguments loads eagerly (C45); the cached target check raises TypeError after the image changed (C44).
* Reader: `peek` across CR LF and `read(1)` at CR LF differ from the normalised text (C25).
* JavaScript: template literals, `\x` escapes, line continuations and other characters are not kept (C26); a type-hint line behind an empty line is kept (C55); imports on commented-out lines are scanned but not built (C34), and an import whose ignore mark is on such a line is built but not scanned (C70); a sequence manipulator which gives up without remembering it is offered the same tokens for ever, as is the example in its documentation (C82).
* HTML tokens: a comment in a title right behind another `<` stays text (C81); since html5lib gives `&lt;` as a token of its own too, the escaped text `&lt;!--x-->` becomes a comment (read from html5lib's source, not proved).
* CSS tokens: five inputs make the tokenizer raise (C30); signs, escapes in names, brackets in urls, unfinished comments are changed (C31).
* Nested rules: duplicate selectors raise ValueError; imports across files depend on the order; an at-rule statement swallows the next rule; `from` in a selector is ignored; circular imports across nested blocks never end; counters stay too high when two rules wait for one; registering a waiting rule again corrupts the tables (C46, C47).
* A template which includes itself, directly or through others, sends the scan and the build of every page which includes it round for ever, without an error message (C112_false, C48_false_endless).
* Icons: a named button with an unknown color raises; the hash of an existing image is announced but not reported; colors of buttons which are not output colors are never generated; the source image is in the scan's dependencies but not in the build's children (C34, C52), so after a change of it the images in other colors stay as they were (C79). Settings: a value of several tokens in `:root` ends the reading, the last declaration without a semicolon is lost, `default_button` null with named buttons raises AttributeError; gray, sandybrown and navyblue are wrong, eight names are missing (C63).
* URLs: `//host` is treated as local, fragments break the build (C61).
* Image data: parameters such as base64 are written into the file, `lexists` is relative to the working directory, URLs without quotes are not taken, equal data of different types share one file, leftovers are kept, whitespace prevents it (C62, C64); when a stylesheet imports its own rules, the build numbers the images in another order than the scan, and files which were not announced are produced (C78).
* Inline elements: code and styles in attributes are kept although the policy refuses them, data blocks and import maps are moved to files in which no browser looks for them (C103); every relative path in an inline script or stylesheet names another file after the element was moved (C104).
* `dev --watch` and inline elements (C105): the files they are written to are reported as changes. After a failed rebuild these reports have it retried at once, without end; and a look between the reports of creation and deletion ends the command with an error.
* Server: `run` and `dev` answer 404 for every file which a build has put below out/www as a symbolic link (the default where the system has links): starlette resolves links before it tests whether a file is inside (C106).
* Watch mode: a rebuild which leaves nothing in out/www removes the folder the server stands in; every request is answered with 500 from then on (`C108_false_emptied`).
* Server: compressed files (`.svgz`, `.css.gz`) are given with the type of their content and without a content-encoding (`C107_false_compressed`).
* Server: a file which is written twice within a second, and loaded in between, is shown in its first version at every reload (`C109_false_hurried`).
* A template which comes to link to another file can make the rebuild fail: the page which includes it is built again but not scanned again, and nothing tells that the file is to be built first (C110_false_template).
* Links: `//` urls, namespaced attributes, scripts with href (C49); upper-case schemes, page-relative urls (C50). Templates: paths without a slash (C60), unbalanced stacks and self-inclusion (C48).
* Inline elements: a second inline script (or stylesheet) on a page ends in FileNotFoundError, because the folder of the first is removed and not made again; a `style` tag with an attribute raises; a page which ends inside a script is built without it and leaves a file among the sources; a source file at the generated path is overwritten and removed (C66, C67).
* Folders: a page with an inline element removes the folders it has emptied, also the shared one, so that another page which is built at the same time ends with FileNotFoundError; `makedirs_safely` does not try again after a refused `isdir` (C97).
* Pictures: a command for an image which is not there is kept, and the image is none of the page's children, so adding it does not build the page again (C85); the sources have no `type`, so a browser which does not know the first format shows nothing instead of the default; a space in the path of an image makes its srcset unreadable (C76).
* Configuration: a vanillaplusjs.json which init could not finish writing is kept by every later init, and builds raise until it is removed (C115_stuck). Names of image formats, preferences, the number of steps and an infinite step are not checked, nor is the version while watching; of two external files with the same path the last one counts (C87).
* Sessions: an edit which keeps size, time and inode of a file is not noticed (C88), such as a second write of the same length within the resolution of the clock (C91); of symbolic links among the sources only the link is looked at, so edits of what it points to are not noticed (C91). A file which was away during a failed build and is back unchanged is not noticed, and its outputs, which that build has removed, stay missing; hashes and copies left by a first build which failed are reused after edits (C90). Edits while the dev server makes its first build are before the watcher is started, so no event tells of them; and a file which is gone before its signature is taken ends the watcher (read from the source, not proved).
* Symbolic links: with the default project folder the links to all pictures below out/www lead nowhere, and a second page with the same picture cannot be built (C93); the test for links raises in a folder which cannot be written and removes files of the user with its names (C94).
* Artifacts: the numbers of targets are given in the order of scans, which run concurrently, so the artifacts folder is not reproducible byte for byte when a picture is used in two sizes, as README.md:141-145 promises (C95).
* Clean: a missing placeholder aborts (C53). Init: an interrupted run leaves an empty configuration.
* Caches: a page loaded before a deployment which asks for a file afterwards makes the browser keep the new contents under the URL with the old hash; if the old version is deployed again, that is what its pages get (C96).
* Tables: the script which makes the identifier tables writes code points above U+FFFF with `\u` and five digits, so letters there are missing and all digits count as identifier starts (C99).
* Server: if the address is in use, `run` and `dev` never end, not even after Ctrl-C, because the hosting thread waits for a start that does not come; a server which dies while it runs is not noticed (C100).
* Command line: of two opposite options the first of the code counts, not the last of the user: `clean --placeholders --no-placeholders` removes the placeholders without asking (C101).
* Images: once an image has been exported and is replaced, every scan and export of it fails (TypeError) until artifacts/ is removed; removing out/ or changing the page does not help (C102).
* Times of files are floats: two changes of a file less than about 0.2 microseconds apart give the same mtime, and if the size is the same too the second one is not seen (C118_coarse). No realistic tool writes that fast; file systems are often coarser.

## Tests against wrong programs

`seeded/LOG.jsonl` has one line per edit of a model definition in a scratch copy: the edit, the claim it breaks, the theorems which failed and the theorems which were tightened after an edit survived.
