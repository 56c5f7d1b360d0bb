{"id": "C01", "title": "Dependency-graph edges stay symmetric and closed", "statement": "After any history of add_file, remove_file and set_children calls on an initially empty FileDependencyGraph, including calls that raised ValueError, get_children(a) lists b exactly as many times as get_parents(b) lists a, and every path listed by either is itself in the graph.", "quantifier": "every finite sequence of graph operations with arbitrary arguments (paths, metadata, child lists with duplicates or self references, both values of prevent_cycles and of the clear flags)", "why_tests_cant": "the invariant must survive every interleaving of operations and every duplicate/self edge; tests only sample a few short histories", "anchors": [{"file": "vanillaplusjs/build/graph.py", "symbols": ["FileDependencyGraph.add_file", "FileDependencyGraph.remove_file", "FileDependencyGraph.set_children", "FileDependencyGraph.get_parents", "FileDependencyGraph.get_children"]}]}
{"id": "C02", "title": "A rejected graph operation changes nothing", "statement": "If add_file, remove_file or set_children raises ValueError, every observable of the graph (membership, metadata, parents, children, stored form) is exactly what it was before the call.", "quantifier": "every graph state reachable by any history and every call that raises", "why_tests_cant": "requires checking every raise point against every partial mutation that could precede it, for unbounded graphs", "anchors": [{"file": "vanillaplusjs/build/graph.py", "symbols": ["FileDependencyGraph.add_file", "FileDependencyGraph.remove_file", "FileDependencyGraph.set_children"]}]}
{"id": "C03", "title": "Cycle prevention keeps the graph acyclic", "statement": "If every set_children call uses prevent_cycles=True, no history of operations can make a file reach itself through one or more child edges.", "quantifier": "every finite history of add_file, remove_file and set_children(prevent_cycles=True)", "why_tests_cant": "acyclicity is a global property of unbounded graphs; a test can only exhibit particular small cycles", "anchors": [{"file": "vanillaplusjs/build/graph.py", "symbols": ["FileDependencyGraph.set_children", "FileDependencyGraph.check_nested_relationship", "FileDependencyGraph.add_file"]}]}
{"id": "C04", "title": "Cycle prevention rejects exactly the cycle-creating updates", "statement": "On an acyclic graph, set_children(a, cs) with prevent_cycles=True raises if and only if a is unknown, some child is unknown, or the requested edges would put a on a cycle; otherwise it succeeds and afterwards get_children(a) is exactly cs.", "quantifier": "every reachable acyclic graph, path a and child list cs", "why_tests_cant": "both directions of an iff over unbounded graphs: over-rejection is as harmful as missed cycles and cannot be enumerated", "anchors": [{"file": "vanillaplusjs/build/graph.py", "symbols": ["FileDependencyGraph.set_children", "FileDependencyGraph.check_nested_relationship"]}]}
{"id": "C05", "title": "Nested relationship query decides transitive dependency", "statement": "check_nested_relationship(a,b) terminates on every graph, also cyclic ones, and reports parent/child/cyclic/unrelated exactly according to whether a path of one or more edges leads from a to b, from b to a, both, or neither; it raises exactly when a==b or either is unknown.", "quantifier": "every reachable graph (including cyclic ones built with prevent_cycles=False) and all pairs of paths", "why_tests_cant": "soundness and completeness of a graph search, and its termination on cycles, range over graphs of unbounded size", "anchors": [{"file": "vanillaplusjs/build/graph.py", "symbols": ["FileDependencyGraph.check_nested_relationship"]}]}
{"id": "C06", "title": "Direct relationship query reports the edges", "statement": "check_direct_relationship(a,b) raises when a==b or a is unknown or (no edge and b unknown); otherwise it reports cyclic/child/parent/unrelated exactly according to which of the edges b->a and a->b exist.", "quantifier": "every reachable graph and all pairs of paths", "why_tests_cant": "case analysis over unbounded graphs and edge multiplicities", "anchors": [{"file": "vanillaplusjs/build/graph.py", "symbols": ["FileDependencyGraph.check_direct_relationship"]}]}
{"id": "C07", "title": "Graph operations have exactly their documented effect", "statement": "A successful add_file(a,cs) adds only node a with children cs; remove_file(a) deletes only a and the edges touching it; set_children(a,cs) replaces exactly the outgoing edges of a; metadata, other nodes, and the relative order and multiplicity of all other edges are untouched.", "quantifier": "every reachable graph and every successful call", "why_tests_cant": "frame conditions quantify over everything the operation must not touch", "anchors": [{"file": "vanillaplusjs/build/graph.py", "symbols": ["FileDependencyGraph.add_file", "FileDependencyGraph.remove_file", "FileDependencyGraph.set_children"]}]}
{"id": "C08", "title": "Stored graphs load back unchanged", "statement": "Loading what store wrote gives a graph with the same files, the same metadata and the same ordered parent and child lists, and equal to the original.", "quantifier": "every graph reachable by any history of operations (and again after any number of store/load round trips)", "why_tests_cant": "round trip must hold for every graph shape including forward references, cycles and repeated edges", "anchors": [{"file": "vanillaplusjs/build/graph.py", "symbols": ["FileDependencyGraph.store", "FileDependencyGraph.load", "FileDependencyGraph.__eq__"]}]}
{"id": "C09", "title": "Graph equality is exactly structural equality", "statement": "g == h terminates and is true if and only if both graphs contain the same files and each file has the same metadata and the same ordered parents and children; in particular it is reflexive, symmetric and transitive, also on cyclic graphs.", "quantifier": "every pair of well formed graphs, cyclic or not", "why_tests_cant": "the comparison memoises partial answers while exploring cycles; a wrong memo only shows on particular unbounded shapes", "anchors": [{"file": "vanillaplusjs/build/graph.py", "symbols": ["FileDependencyGraphNode.__eq__", "FileDependencyGraph.__eq__"]}]}
{"id": "C10", "title": "A rebuild touches exactly the affected files", "statement": "An incremental rebuild rebuilds exactly the changed and added files plus every file which transitively depended on (or is a placeholder generator of) a changed, added or deleted file in the previous build, and never a deleted file.", "quantifier": "every previous graph, and every set of changed, added and deleted files", "why_tests_cant": "the closure must be sound and complete on graphs of any size, including cyclic placeholder/dependency combinations", "anchors": [{"file": "vanillaplusjs/build/hot_incremental_rebuild.py", "symbols": ["hot_incremental_rebuild"]}]}
{"id": "C11", "title": "Every affected file is built exactly once", "statement": "In a rebuild that finishes without an error, every affected file is handed to the builder exactly once and nothing else is.", "quantifier": "every set of affected files, every dependency/outputs table, and every order in which concurrently running builds complete", "why_tests_cant": "depends on the completion schedule of a process pool; schedules cannot be enumerated by tests", "anchors": [{"file": "vanillaplusjs/build/hot_incremental_rebuild.py", "symbols": ["hot_incremental_rebuild"]}]}
{"id": "C12", "title": "Dependencies are built before dependents", "statement": "Whenever a file's build starts, every file it depends on that is also being rebuilt has already finished, whatever order concurrent builds complete in.", "quantifier": "every dependency table and every completion schedule", "why_tests_cant": "a scheduling property over all interleavings", "anchors": [{"file": "vanillaplusjs/build/hot_incremental_rebuild.py", "symbols": ["hot_incremental_rebuild"]}]}
{"id": "C13", "title": "No two running builds share an output", "statement": "Two files which intend to produce the same output are never being built at the same time (unless the output already exists and is not being replaced), as promised to build_file.", "quantifier": "every table of intended outputs and every completion schedule", "why_tests_cant": "a mutual exclusion property over all interleavings", "anchors": [{"file": "vanillaplusjs/build/hot_incremental_rebuild.py", "symbols": ["hot_incremental_rebuild"]}, {"file": "vanillaplusjs/build/build_file.py", "symbols": ["build_file"]}]}
{"id": "C14", "title": "A rebuild never hangs and reports a dependency cycle only when stuck on one", "statement": "The build loop always terminates: either every affected file has been built or an error is raised; when builders produce exactly what their scan announced, the cyclic dependency error is raised if and only if the dependencies among the affected files contain a cycle.", "quantifier": "every dependency table, output table and completion schedule", "why_tests_cant": "termination and deadlock freedom over all schedules", "anchors": [{"file": "vanillaplusjs/build/hot_incremental_rebuild.py", "symbols": ["hot_incremental_rebuild"]}, {"file": "vanillaplusjs/build/exceptions.py", "symbols": ["CyclicDependencyException"]}]}
{"id": "C15", "title": "Outputs nobody produces any more are deleted", "statement": "After a successful rebuild, an output which was previously recorded for an affected or deleted file and which no build of this run produced or reused no longer exists on disk.", "quantifier": "every previous output graph, every build outcome and schedule", "why_tests_cant": "quantifies over all combinations of stale outputs and new results", "anchors": [{"file": "vanillaplusjs/build/hot_incremental_rebuild.py", "symbols": ["hot_incremental_rebuild"]}]}
{"id": "C16", "title": "Outputs still owned by an unaffected file survive", "statement": "After a successful rebuild, every output recorded in the new output graph for any file exists on disk; in particular deleting or editing one of several files which share an output does not remove it while another still uses it.", "quantifier": "every previous output graph (with arbitrary sharing), every change set", "why_tests_cant": "needs all sharing patterns between affected and unaffected files", "anchors": [{"file": "vanillaplusjs/build/hot_incremental_rebuild.py", "symbols": ["hot_incremental_rebuild"]}]}
{"id": "C17", "title": "The recorded graphs describe the last successful build", "statement": "After a successful rebuild the stored dependency graph contains exactly the non-deleted known files; a rebuilt file's dependencies are those its build reported (outputs mapped to their producers), an untouched file keeps its old ones; signatures are the ones observed for changed/added files and the old ones otherwise; the output graph lists for each file exactly what it produced or reused.", "quantifier": "every previous graph, change set and build outcome", "why_tests_cant": "frame conditions over the whole project state", "anchors": [{"file": "vanillaplusjs/build/hot_incremental_rebuild.py", "symbols": ["hot_incremental_rebuild"]}]}
{"id": "C18", "title": "A failed or interrupted rebuild does not lose changes", "statement": "If a rebuild fails or the process dies at any point before completion, the next cold build considers at least the same files changed/added/deleted again, and a subsequent successful build gives the same outputs as if the failed one had not happened.", "quantifier": "every failure point inside a rebuild and every project state", "why_tests_cant": "crash points and partially written state cannot be enumerated by tests", "anchors": [{"file": "vanillaplusjs/build/hot_incremental_rebuild.py", "symbols": ["hot_incremental_rebuild"]}, {"file": "vanillaplusjs/build/cold_incremental_rebuild.py", "symbols": ["cold_incremental_rebuild"]}]}
{"id": "C19", "title": "Constants always match the build mode", "statement": "After every successful build, the built constants file contains the constants of the mode (dev or prod) of that build, whatever sequence of dev/prod builds, failures and edits came before.", "quantifier": "every history of builds in either mode with arbitrary failures", "why_tests_cant": "history-dependent: only particular failure/mode-switch sequences go wrong", "anchors": [{"file": "vanillaplusjs/build/hot_incremental_rebuild.py", "symbols": ["hot_incremental_rebuild"]}, {"file": "vanillaplusjs/build/handlers/js_constants.py", "symbols": ["build_file"]}]}
{"id": "C20", "title": "Cold change detection partitions the project", "statement": "A cold build classifies every file into exactly one of added, changed, deleted, unchanged: added iff on disk and unknown, deleted iff known and not on disk, changed iff known and its signature differs, unchanged otherwise.", "quantifier": "every previous graph and directory contents", "why_tests_cant": "a partition claim over arbitrary sets of files", "anchors": [{"file": "vanillaplusjs/build/cold_incremental_rebuild.py", "symbols": ["cold_incremental_rebuild"]}, {"file": "vanillaplusjs/build/file_signature.py", "symbols": ["get_file_signature"]}]}
{"id": "C21", "title": "An external file is only ever replaced by verified content", "statement": "At every point in time, also if the process is killed in the middle, the target of an external file holds either its previous content, nothing, or content whose digest equals the configured integrity; a mismatching download never reaches the target and leaves no temporary file unless killed.", "quantifier": "every downloaded content (arbitrary bytes), previous target content and crash point", "why_tests_cant": "all download contents and crash points", "anchors": [{"file": "vanillaplusjs/build/cold_incremental_rebuild.py", "symbols": ["handle_external_file", "ensure_integrity"]}]}
{"id": "C22", "title": "External files converge and stay converged", "statement": "After check_external_files succeeds all configured external files are present with matching integrity, files dropped from the configuration are gone, and running it again at any later time succeeds and changes nothing.", "quantifier": "every sequence of configurations and every set of files on disk", "why_tests_cant": "idempotence over histories of configurations", "anchors": [{"file": "vanillaplusjs/build/cold_incremental_rebuild.py", "symbols": ["check_external_files", "is_external_file_skippable"]}]}
{"id": "C23", "title": "The dev watcher neither loses nor invents changes", "statement": "In watch mode, after any sequence of file events, rebuild attempts and failures, a file is pending exactly if it differs from what the last successful build saw: pending as created iff it is new, deleted iff it is gone, changed otherwise; the three pending sets are disjoint.", "quantifier": "every finite history of create/modify/delete/move events interleaved with successful and failing rebuilds", "why_tests_cant": "the state machine must be right for every event history", "anchors": [{"file": "vanillaplusjs/runners/dev.py", "symbols": ["DevEventHandler.on_created", "DevEventHandler.on_deleted", "DevEventHandler.on_modified", "DevEventHandler.on_moved", "DevEventHandler.rebuild_if_appropriate"]}]}
{"id": "C24", "title": "Peekable reader behaves like a character stream", "statement": "PeekableTextIO returns the underlying text split at the requested read sizes: read(n) returns and consumes the next min(n, remaining) characters, peek(n) returns the same without consuming, and both return None when nothing remains.", "quantifier": "every text, and every sequence of read/peek calls with any sizes", "why_tests_cant": "stateful buffer behaviour over all call sequences", "anchors": [{"file": "vanillaplusjs/build/ioutil.py", "symbols": ["PeekableTextIO.read", "PeekableTextIO.peek"]}]}
{"id": "C25", "title": "Preprocessed reader behaves like a stream over normalised text", "statement": "PreprocessedTextIO behaves like a peekable stream over the text in which CRLF, CR and FF are replaced by LF and surrogates by U+FFFD, never reporting end of input before the end.", "quantifier": "every text and every sequence of read/peek calls", "why_tests_cant": "substitutions crossing read boundaries appear only for particular size/position combinations", "anchors": [{"file": "vanillaplusjs/build/ioutil.py", "symbols": ["PreprocessedTextIO.read", "PreprocessedTextIO.peek"]}]}
{"id": "C26", "title": "Rewriting JavaScript preserves the program", "statement": "Tokenising JavaScript and serialising the tokens (no imports, no comments) yields the same text except for re-quoted strings whose value is unchanged, and comments in block form.", "quantifier": "every input text", "why_tests_cant": "must hold for every text; a tokenizer corner case corrupts user code silently", "anchors": [{"file": "vanillaplusjs/build/js/tokenizer.py", "symbols": ["tokenize"]}, {"file": "vanillaplusjs/build/js/serializer.py", "symbols": ["serialize"]}]}
{"id": "C27", "title": "Serialised JavaScript comments never end early", "statement": "Whatever text a JavaScript comment contained, its serialised form is one complete block comment: it starts with /* and the first */ after that is its end.", "quantifier": "every comment text", "why_tests_cant": "injection-safety over all strings", "anchors": [{"file": "vanillaplusjs/build/js/serializer.py", "symbols": ["serialize"]}]}
{"id": "C28", "title": "Serialised strings denote the same value", "statement": "A JavaScript or CSS string token serialised and tokenised again gives the same string value, with no unescaped quote or newline in the serialised form.", "quantifier": "every string value and both quote characters", "why_tests_cant": "escaping must be injective over all strings", "anchors": [{"file": "vanillaplusjs/build/css/serializer.py", "symbols": ["serialize_string_auto_quote"]}, {"file": "vanillaplusjs/build/js/serializer.py", "symbols": ["serialize"]}, {"file": "vanillaplusjs/build/js/tokenizer.py", "symbols": ["_consume_string"]}, {"file": "vanillaplusjs/build/css/tokenizer.py", "symbols": ["_consume_string_token"]}]}
{"id": "C29", "title": "Generated constants evaluate to the configured values", "statement": "Every string constant configured in js_constants is emitted as a JavaScript literal that evaluates to exactly that string; booleans and numbers are emitted literally; a mode specific value overrides the shared one and every configured key is exported exactly once.", "quantifier": "every constants configuration", "why_tests_cant": "all strings and all key overlaps", "anchors": [{"file": "vanillaplusjs/build/handlers/js_constants.py", "symbols": ["build_file", "jsify"]}, {"file": "vanillaplusjs/build/build_context.py", "symbols": ["load_js_constants", "shallow_replace_envvars"]}]}
{"id": "C30", "title": "CSS tokenising is total", "statement": "tokenize terminates without an internal error on every text and consumes all of it.", "quantifier": "every input text, including truncated ones", "why_tests_cant": "crashes hide at specific end-of-input positions", "anchors": [{"file": "vanillaplusjs/build/css/tokenizer.py", "symbols": ["tokenize"]}]}
{"id": "C31", "title": "Rewriting CSS preserves the stylesheet", "statement": "Tokenising CSS and serialising the tokens yields text that tokenises to the same tokens: selectors, numbers, identifiers and strings keep their meaning.", "quantifier": "every valid stylesheet", "why_tests_cant": "all token adjacencies and escapes", "anchors": [{"file": "vanillaplusjs/build/css/tokenizer.py", "symbols": ["tokenize"]}, {"file": "vanillaplusjs/build/css/serializer.py", "symbols": ["serialize"]}]}
{"id": "C32", "title": "Manipulators only change what they mark", "statement": "The token builder outputs the input tokens in order, with exactly the marked runs replaced by the manipulator's replacement (rescanned by the manipulators); with no marking manipulator the stream is unchanged; every token which no manipulator holds is offered to the manipulators in order until one of them marks it.", "quantifier": "every token stream and every family of manipulators", "why_tests_cant": "stream transformation over unbounded streams and arbitrary manipulators", "anchors": [{"file": "vanillaplusjs/build/js/builder.py", "symbols": ["JSBuilder"]}, {"file": "vanillaplusjs/build/css/builder.py", "symbols": ["CSSBuilder"]}, {"file": "vanillaplusjs/build/html/builder.py", "symbols": ["HTMLBuilder"]}]}
{"id": "C33", "title": "Import hashing rewrites only the paths of complete imports", "statement": "For every JavaScript token stream the import manipulator changes nothing except: the string of a complete import statement whose path starts with /, ./ or ../ and holds no ? or # becomes the path from the root followed by ?v=HASH&pv=VERSION, and an import it cannot read or whose path it does not support is prefixed by a comment; it ends for every stream, with an error only if a hash file is missing, and never reads past the end of file.", "quantifier": "every token stream", "why_tests_cant": "a parser over unbounded streams; malformed and truncated imports abound", "anchors": [{"file": "vanillaplusjs/build/js/manips/hash_imports.py", "symbols": ["HashImportsManipulator"]}, {"file": "vanillaplusjs/build/js/yield_manipulator.py", "symbols": ["JSYieldManipulator"]}]}
{"id": "C34", "title": "Scan and build agree on dependencies", "statement": "For every JavaScript file the dependencies reported by the scan are exactly the source files of the hashed outputs the build reads.", "quantifier": "every token stream", "why_tests_cant": "scan/build are separate passes that must agree on every input", "anchors": [{"file": "vanillaplusjs/build/js/manips/hash_imports.py", "symbols": ["HashImportsManipulator"]}]}
{"id": "C35", "title": "Identifier classification matches the tables", "statement": "is_id_start / is_id_continue answer exactly membership in the listed code point ranges and single code points (binary search is correct for the shipped tables).", "quantifier": "every character", "why_tests_cant": "1.1 million code points and a hand-copied table", "anchors": [{"file": "vanillaplusjs/build/js/unicode_derived.py", "symbols": ["is_match", "is_id_start", "is_id_continue"]}, {"file": "vanillaplusjs/build/js/derived_core_properties.py", "symbols": ["ID_START", "ID_CONTINUE"]}]}
{"id": "C36", "title": "Distinct public files never overwrite each other's output", "statement": "Two different files under the source tree are never copied to the same output path, files outside src/public are never copied, and a hash file never collides with another file's copy. (False as it stands: a file beside src/public whose name begins with public, and a public file whose name ends in .hash, overwrite other outputs.)", "quantifier": "all pairs of paths", "why_tests_cant": "injectivity over all paths", "anchors": [{"file": "vanillaplusjs/build/handlers/copy.py", "symbols": ["get_target_path"]}, {"file": "vanillaplusjs/build/handlers/hash.py", "symbols": ["get_target_path"]}]}
{"id": "C37", "title": "Hash files describe the file actually served", "statement": "After a successful build of an existing file below src/public which reports the output out/www/x, out/www/x.hash is the digest of the bytes of out/www/x, provided the outputs which were already present are those this build would write; without that condition an old hash file is kept beside a newly written output.", "quantifier": "every file content, every previous state of out/", "why_tests_cant": "depends on whether stale hash files are reused", "anchors": [{"file": "vanillaplusjs/build/handlers/hash.py", "symbols": ["build_file"]}, {"file": "vanillaplusjs/build/handlers/copy_and_hash.py", "symbols": ["build_file"]}]}
{"id": "C38", "title": "Every file has exactly one handler, the same for scan and build", "statement": "scan_file and build_file dispatch every path to the same handler, and the outputs a scan announces for copy/hash/constants files are exactly the ones the build produces or reuses, for files below src/public; for html, css and js files the same holds if their manipulators announce what they write.", "quantifier": "every path and configuration", "why_tests_cant": "all path shapes (suffix/prefix overlaps)", "anchors": [{"file": "vanillaplusjs/build/scan_file.py", "symbols": ["scan_file"]}, {"file": "vanillaplusjs/build/build_file.py", "symbols": ["build_file"]}]}
{"id": "C39", "title": "Crop rectangles stay inside the image", "statement": "cover_fit returns a rectangle inside the source image, of the full width or full height, containing no pre-cropped pixel, with aspect ratio as close to the requested as integer sizes allow; it raises exactly when pre-cropping leaves nothing.", "quantifier": "all image sizes, targets, crop percentages in [0,1] and pre-crops", "why_tests_cant": "arithmetic with rounding over all sizes", "anchors": [{"file": "vanillaplusjs/build/html/manips/images/cover_fit.py", "symbols": ["cover_fit"]}]}
{"id": "C40", "title": "Image resolutions are bounded and include 1x", "statement": "The exported sizes are exactly 1x, 1x+step, ... up to the maximum resolution and never larger than the source; the enumeration terminates and, when the source is at least as large as the target and the maximum is at least 1, its first element is the target size.", "quantifier": "all sizes, steps > 0 and maxima", "why_tests_cant": "termination and bounds over all numeric settings", "anchors": [{"file": "vanillaplusjs/build/html/manips/images/resolutions.py", "symbols": ["yield_resolutions", "yield_sizes"]}]}
{"id": "C41", "title": "The chosen export is the best one", "statement": "Among the applicable exports of a format the exporter keeps one whose size per preference is minimal (the earliest such), deletes all other candidates, and keeps exactly one file per size and format with an applicable export.", "quantifier": "every set of exports, preferences and file sizes", "why_tests_cant": "tournament selection over all candidate lists", "anchors": [{"file": "vanillaplusjs/build/html/manips/images/exporter.py", "symbols": ["export_command"]}, {"file": "vanillaplusjs/build/html/manips/images/settings.py", "symbols": ["compare", "compare_in_format", "ImageExport.applies_to"]}]}
{"id": "C42", "title": "The settings hash ignores ordering and detects changes", "statement": "hash_image_settings is independent of the order in which formats, exports and options are listed, always fits in 64 bits, and differs whenever the settings differ.", "quantifier": "every image settings configuration", "why_tests_cant": "permutation invariance and injectivity over all configurations", "anchors": [{"file": "vanillaplusjs/build/html/manips/images/metadata.py", "symbols": ["hash_image_settings", "stable_hash", "hash_str", "overflow"]}]}
{"id": "C43", "title": "Image target ids are unique", "statement": "Concurrent and repeated reservations for an image never hand out the same id twice, and every reserved id is larger than all earlier ones.", "quantifier": "every interleaving of reservations by concurrent scans", "why_tests_cant": "locking protocol over all interleavings", "anchors": [{"file": "vanillaplusjs/build/html/manips/images/metadata.py", "symbols": ["reserve_target", "get_target", "get_or_reserve_target"]}]}
{"id": "C44", "title": "A cached image is reused only if nothing relevant changed", "statement": "get_target returns an existing finished target only if its settings hash, source content hash and target settings all match, and otherwise reports no match.", "quantifier": "every artifacts folder content", "why_tests_cant": "all combinations of stale entries", "anchors": [{"file": "vanillaplusjs/build/html/manips/images/metadata.py", "symbols": ["get_target"]}]}
{"id": "C45", "title": "Image commands parse as documented", "statement": "parse_command accepts source width height [cover] [json] [lazy|eager] and sets each field from its argument; lazy is the default and 'eager' disables it.", "quantifier": "every argument string", "why_tests_cant": "all spacings and optional argument combinations", "anchors": [{"file": "vanillaplusjs/build/html/manips/images/command.py", "symbols": ["parse_command"]}]}
{"id": "C46", "title": "Nested rule imports expand completely", "statement": "Every !PREPROCESSOR: import comment in a rule is replaced by the declarations of the named rule with its own imports expanded, for any order of definition within a file, and a circular or missing import is reported as an error rather than looping.", "quantifier": "every stylesheet and import graph", "why_tests_cant": "order-dependent resolution over all import graphs", "anchors": [{"file": "vanillaplusjs/build/css/manips/nest.py", "symbols": ["NestManipulator", "ReferencableRules.set_rule"]}]}
{"id": "C47", "title": "Rule reference bookkeeping is consistent", "statement": "After any sequence of rule registrations the available rules are exactly those whose transitive references are registered, and the per-file missing-reference counters equal their documented meaning.", "quantifier": "every sequence of set_rule calls", "why_tests_cant": "invariant over all registration orders", "anchors": [{"file": "vanillaplusjs/build/css/manips/nest.py", "symbols": ["ReferencableRules.set_rule"]}]}
{"id": "C48", "title": "Template stack frames are balanced", "statement": "Expanding templates leaves the variable scope of the including file untouched: after a template has been expanded the same variables are visible as before, inside it only its own arguments are.", "quantifier": "every nesting of template commands", "why_tests_cant": "all nestings of includes", "anchors": [{"file": "vanillaplusjs/build/html/manips/template.py", "symbols": ["TemplateManipulator"]}]}
{"id": "C49", "title": "Links get cache-busting parameters and keep their other attributes", "statement": "A stylesheet/preload link or script with a domain-relative URL without query or fragment gets ?v=HASH&pv=VERSION; all other attributes keep their values, all other tags are unchanged.", "quantifier": "every tag and attribute map", "why_tests_cant": "frame condition over all attributes", "anchors": [{"file": "vanillaplusjs/build/html/manips/link_hash.py", "symbols": ["LinkHash"]}]}
{"id": "C50", "title": "Canonical links become absolute", "statement": "rel=canonical links and og:url metas without an absolute URL get https://HOST plus the given path or the file's own path; absolute ones and all other attributes are unchanged.", "quantifier": "every tag, attribute map and file path", "why_tests_cant": "all attribute maps", "anchors": [{"file": "vanillaplusjs/build/html/manips/link_rel_canonical.py", "symbols": ["LinkRelCanonicalManipulator"]}]}
{"id": "C51", "title": "Colors round trip through hex", "statement": "Parsing the hex form of a color gives the color back and formatting a parsed #RRGGBB gives its upper-case form.", "quantifier": "all 16.7 million colors", "why_tests_cant": "full domain", "anchors": [{"file": "vanillaplusjs/build/css/manips/icons/color.py", "symbols": ["Color"]}]}
{"id": "C52", "title": "Icon commands are resolved against the configured palette", "statement": "An icon command produces one class per distinct configured size and color in the requested order, ignores unknown colors/sizes, drops buttons whose colors are unknown, and scan announces exactly the files the build produces or reuses.", "quantifier": "every icon command and settings", "why_tests_cant": "all combinations of known/unknown names", "anchors": [{"file": "vanillaplusjs/build/css/manips/icons/manip.py", "symbols": ["IconManipulator.get_icon_command_args", "IconManipulator.scan_icon_command", "IconManipulator.continue_mark"]}]}
{"id": "C53", "title": "Cleaning removes only generated files", "statement": "clean deletes out/, artifacts/ and, when asked, exactly the generated placeholders; no other source file is ever deleted.", "quantifier": "every project and placeholder graph", "why_tests_cant": "frame condition over the file system", "anchors": [{"file": "vanillaplusjs/runners/clean.py", "symbols": ["clean"]}]}
{"id": "C54", "title": "init never overwrites existing work", "statement": "init creates the missing configuration, folders and index page and leaves every existing file unchanged; running it twice is the same as once.", "quantifier": "every initial folder content", "why_tests_cant": "idempotence over all initial states", "anchors": [{"file": "vanillaplusjs/runners/init.py", "symbols": ["init"]}]}
{"id": "C55", "title": "Type-hint lines are commented out, everything else is kept", "statement": "The type-hints manipulator turns exactly the lines holding a type hint comment into comments and leaves every other token unchanged, for every token stream.", "quantifier": "every token stream", "why_tests_cant": "stream transformation over unbounded streams", "anchors": [{"file": "vanillaplusjs/build/js/manips/type_hints.py", "symbols": ["TypeHintsManipulator"]}]}
{"id": "C56", "title": "Emptied output folders are removed and nothing else", "statement": "After a finished rebuild every folder removed was empty at that point and had lost a deleted output; folders still holding a file or folder, and folders which lost nothing, are kept.", "quantifier": "every project, change set, build result and schedule", "why_tests_cant": "frame condition over all folders of the file system", "anchors": [{"file": "vanillaplusjs/build/hot_incremental_rebuild.py", "symbols": ["hot_incremental_rebuild"]}]}
{"id": "C57", "title": "A rebuild succeeds when every scan and every build in it succeeds", "statement": "If no scan and no build raises and the dependencies are acyclic then the rebuild itself does not raise.", "quantifier": "every project, change set, build result and schedule", "why_tests_cant": "a crash of the bookkeeping itself depends on the history of graphs", "anchors": [{"file": "vanillaplusjs/build/hot_incremental_rebuild.py", "symbols": ["hot_incremental_rebuild"]}]}
{"id": "C58", "title": "The dev server retries after every change", "statement": "In watch mode, once something changed after a rebuild was started, a further rebuild is started even if the earlier one failed.", "quantifier": "every finite history of events interleaved with successful and failing rebuilds", "why_tests_cant": "depends on the order of events relative to the failing rebuild", "anchors": [{"file": "vanillaplusjs/runners/dev.py", "symbols": ["DevEventHandler.rebuild_if_appropriate", "DevEventHandler.on_modified"]}]}
{"id": "C59", "title": "Import paths resolve as URLs do", "statement": "In every JavaScript file below src/public, an import path starting with one slash names the file at that place below src/public, and any other supported path which stays below src/public names the file reached from the folder of the importing file by following its components (. stays, .. leaves a folder); the rewritten path and the hash file read belong to that same file, for every working directory and project folder.", "quantifier": "every project folder, working directory, importing file and path", "why_tests_cant": "path normalisation over unbounded component lists", "anchors": [{"file": "vanillaplusjs/build/js/manips/hash_imports.py", "symbols": ["HashImportsManipulator._handle_import"]}]}
{"id": "C60", "title": "Template paths name the documented file", "statement": "A template path starting with a slash names the file at that place below src/partials, and any other path names the file reached from the folder of the including file, for every including file and nesting depth.", "quantifier": "every including file, at every nesting depth, and every path", "why_tests_cant": "paths compose along arbitrarily deep inclusions", "anchors": [{"file": "vanillaplusjs/build/html/manips/template.py", "symbols": ["TemplateManipulator.try_get_template_import"]}]}
{"id": "C61", "title": "Stylesheet URLs carry the hash of what they refer to", "statement": "Building a stylesheet gives every URL of a local file, quoted or not, a query with the hash of exactly that file and the version; every other token, including URLs that have a query already or belong to other sites, is kept, and the hash files that are read are exactly the dependencies announced by scanning.", "quantifier": "every token sequence and project", "why_tests_cant": "whether a string is an URL depends on all tokens before it", "anchors": [{"file": "vanillaplusjs/build/css/manips/version_urls.py", "symbols": ["VersionURLsManipulator"]}]}
{"id": "C62", "title": "Images inside stylesheets become files", "statement": "Building a stylesheet writes the image of every data URL to a file of its own below img/gen, one file for equal images, and replaces the URL by that of the file with its hash; all other tokens and files stay as they were, and the files are exactly those announced by scanning.", "quantifier": "every token sequence and project", "why_tests_cant": "numbering and deduplication depend on all earlier images", "anchors": [{"file": "vanillaplusjs/build/css/manips/outline_image_data.py", "symbols": ["OutlineImageDataManipulator"]}]}
{"id": "C63", "title": "Icon settings are those of the stylesheet and the configuration", "statement": "The colors and sizes available to icon commands are exactly the --col- and --icon-size- declarations of the first :root rule of the default stylesheet, a later declaration of a color replacing an earlier one, named colors meaning what they mean in CSS; the buttons are exactly those of the configuration, missing colors being taken from the default button.", "quantifier": "every stylesheet and every icon configuration", "why_tests_cant": "the rule can stand anywhere between other rules, and its declarations have any values", "anchors": [{"file": "vanillaplusjs/build/css/manips/icons/settings.py", "symbols": ["load_icon_settings", "interpret_as_color", "NAMED_CSS_COLORS"]}]}
{"id": "C64", "title": "No command survives the build", "statement": "In the output of a successfully built stylesheet there is no import command, no icon command and no URL of a local file without its hash, whether it stood in the source, came from an imported rule of any depth or was generated for an icon; the same holds of the commands and links of a page.", "quantifier": "every source text and project, for all manipulators together", "why_tests_cant": "replacements are handed to all manipulators again, so that every combination of commands matters", "anchors": [{"file": "vanillaplusjs/build/handlers/css.py", "symbols": ["build_file"]}, {"file": "vanillaplusjs/build/css/builder.py", "symbols": ["CSSBuilder.handle_token"]}]}
{"id": "C65", "title": "Stylesheet builds report what they write", "statement": "When a stylesheet has been built, every file which differs from before is reported as produced, no file has been removed, and every file reported as produced or reused exists.", "quantifier": "every source text, project and set of commands", "why_tests_cant": "which files are written depends on all commands, and on which of their outputs exist already", "anchors": [{"file": "vanillaplusjs/build/handlers/css.py", "symbols": ["build_file"]}, {"file": "vanillaplusjs/build/css/manips/icons/manip.py", "symbols": ["IconManipulator.continue_mark"]}, {"file": "vanillaplusjs/build/css/manips/outline_image_data.py", "symbols": ["OutlineImageDataManipulator.continue_mark"]}]}
{"id": "C66", "title": "What a page becomes", "statement": "When a page has been built, the page in the output is the source page in which every link to a file of the website has the hash of that file, every canonical URL has the host, every image command is a picture of the exported files with the image of the requested size in the default format, every inline script or stylesheet is a tag which loads a file of its own, holding exactly its text, with the hash of that file and, for scripts, all other attributes, and every template is replaced by its contents, evaluated in a scope of its own and treated in the same way; everything else is unchanged, in order. The generated files of different elements and pages are different, the temporary sources are gone, and what is reported is exactly what was linked to, included and made.", "quantifier": "every page and set of templates in which pushes and pops are balanced and inline elements are closed, of every length and depth, every handler for scripts and stylesheets, and every successful build", "why_tests_cant": "commands may come from templates of any depth, and each of the five steps sees what the others made", "anchors": [{"file": "vanillaplusjs/build/handlers/html.py", "symbols": ["build_file", "manipulators"]}, {"file": "vanillaplusjs/build/html/manips/outline.py", "symbols": ["OutlineManipulator"]}, {"file": "vanillaplusjs/build/html/manips/images/manip.py", "symbols": ["ImagesManipulator.continue_mark"]}, {"file": "vanillaplusjs/build/html/builder.py", "symbols": ["HTMLBuilder.handle_token"]}]}
{"id": "C67", "title": "Pages with inline elements are built", "statement": "If all linked files have hashes, all variables and templates exist, all image commands can be exported and the handlers accept the text of all inline scripts and stylesheets, then the page is built, whatever number of inline elements it and its templates have and whatever attributes they carry, and no file of the project other than those in the output is changed.", "quantifier": "every page and set of templates, of every length and depth", "why_tests_cant": "whether the second element can be written depends on what happened after the first", "anchors": [{"file": "vanillaplusjs/build/html/manips/outline.py", "symbols": ["OutlineManipulator.continue_mark"]}, {"file": "vanillaplusjs/build/handlers/html.py", "symbols": ["build_file"]}]}
{"id": "C68", "title": "The scan of a page announces what its build reads and writes", "statement": "For every page below src/public, whatever its tags, commands, inline elements and templates: if scanning it and then building it both succeed, every file the build reports as a child was announced as a dependency, and every file it reports as produced or reused was announced; and if the scans of the images, scripts and stylesheets on the page announce exactly what their builds report, so does the scan of the page.", "quantifier": "all pages, templates, file contents at the time of the scan and of the build, and all handlers for scripts, stylesheets and images which keep the property themselves", "why_tests_cant": "The scan and the build run different code paths over the same document, with templates, image commands and inline scripts feeding each other; a test compares them on a handful of pages, a missed announcement shows as a wrong build order much later.", "anchors": [{"file": "vanillaplusjs/build/handlers/html.py", "symbols": ["scan_file", "build_file"]}, {"file": "vanillaplusjs/build/html/manips/template.py", "symbols": ["HTMLTemplateManipulator"]}, {"file": "vanillaplusjs/build/html/manips/outline.py", "symbols": []}, {"file": "vanillaplusjs/build/html/manips/images/manip.py", "symbols": []}]}
{"id": "C69", "title": "Scanning and building a page report what they write and leave the sources alone", "statement": "For every page: its build removes no file, reports every file it has changed as produced, and everything it reports exists; its scan removes no file and announces what it writes; both apart from the temporary files for inline elements below src/public/js/gen and src/public/css/gen. All other files below src are as they were, and unless the page ends inside an inline element no temporary file is left.", "quantifier": "all pages, file systems and handlers for images, scripts and stylesheets which report what they write", "why_tests_cant": "A file which is written but not reported is never cleaned up or rebuilt, and a touched source file is lost work; tests compare output folders for fixed pages.", "anchors": [{"file": "vanillaplusjs/build/handlers/html.py", "symbols": ["scan_file", "build_file"]}, {"file": "vanillaplusjs/build/html/manips/outline.py", "symbols": []}]}
{"id": "C70", "title": "A script is built with the hashes of its imports, and with nothing else changed", "statement": "For every script below src/public without type hints: building it writes to out/www the script in which the module specifiers of its import statements carry the hashes of the files they name, and its hash, and changes no other file; the files it imports are what its scan announces and its build reports; it fails only if the hash of an imported file is missing. Whatever the script, a build which succeeds reports what it writes.", "quantifier": "all script texts, file systems, names and hashes", "why_tests_cant": "Covers the tokenizer, both manipulators, the paths and the serializer together for every text; a test has one script.", "anchors": [{"file": "vanillaplusjs/build/handlers/js.py", "symbols": ["scan_file", "build_file"]}, {"file": "vanillaplusjs/build/js/manipulate_and_serialize.py", "symbols": ["manipulate_and_serialize"]}, {"file": "vanillaplusjs/build/js/manips/hash_imports.py", "symbols": ["HashImportsManipulator"]}]}
{"id": "C71", "title": "Image exports report what image scans announced, and targets keep their numbers", "statement": "Once an image command of a page has been scanned, then after any sequence of further scans and exports of any image commands, and of other changes to the project which leave the artifacts, the images and their hashes alone, the export of that command finds the target number the scan announced (it never reserves another one or fails for want of one), depends on exactly the announced image and reports no file the scan did not announce; scanning it again announces the same files and changes no other.", "quantifier": "every project, image settings, image, image command, and every history of scans and exports of image commands starting from a project without artifacts", "why_tests_cant": "histories are unbounded and the target lookup depends on everything earlier runs left in the artifacts folder, in whatever order the file system lists it", "anchors": [{"file": "vanillaplusjs/build/html/manips/images/scanner.py", "symbols": ["scan_command"]}, {"file": "vanillaplusjs/build/html/manips/images/exporter.py", "symbols": ["export_command"]}, {"file": "vanillaplusjs/build/html/manips/images/metadata.py", "symbols": ["get_target", "reserve_target", "get_or_reserve_target"]}]}
{"id": "C72", "title": "Image scans and exports report every file they change, and what they report exists", "statement": "Scanning an image command changes only files which the scan announces. Exporting it changes only files which it reports as produced, apart from the candidate images it draws and removes again, removes no file but those, and every file it reports as produced or reused exists afterwards.", "quantifier": "every project, image settings, image command, and every state reachable by scans and exports", "why_tests_cant": "a missing report only shows for the particular combination of files left behind by earlier builds, e.g. outputs which exist while their target has to be looked up again", "anchors": [{"file": "vanillaplusjs/build/html/manips/images/scanner.py", "symbols": ["scan_command"]}, {"file": "vanillaplusjs/build/html/manips/images/exporter.py", "symbols": ["export_command"]}]}
{"id": "C73", "title": "Exporting an image again does nothing", "statement": "Exporting an image command a second time returns the same metadata and the same dependencies as the first time, and, if anything was exported at all, changes no file and reports nothing as produced.", "quantifier": "every project, settings, image command and reachable state", "why_tests_cant": "idempotence has to hold for the state left by every possible export", "anchors": [{"file": "vanillaplusjs/build/html/manips/images/exporter.py", "symbols": ["export_command"]}]}
{"id": "C74", "title": "What an image export writes", "statement": "A new export records the settings hash, the source with its size and hash, and the target; for every size and format to which at least one of the configured exports applies, exactly one picture is recorded, of an export which is chosen by size and preference among the drawn candidates, and the files with its name in the artifacts and in the output both have the bytes drawn for that choice; no candidate remains; nothing else is recorded.", "quantifier": "every image, target and image settings with file-name-safe formats and positive preferences whose sizes are distinct", "why_tests_cant": "the choice depends on the sizes of all candidates, which depend on the codec", "anchors": [{"file": "vanillaplusjs/build/html/manips/images/exporter.py", "symbols": ["export_command", "produce_image"]}, {"file": "vanillaplusjs/build/html/manips/images/settings.py", "symbols": ["compare_in_format"]}]}
{"id": "C75", "title": "Exported pictures have the size in their name and show the requested part", "statement": "A picture drawn for width w and height h has exactly w x h pixels; it is the rectangle of the source which lies inside the part left by the pre-crops, spans its full width or height, has the requested aspect ratio up to half a pixel and splits what is cut off as requested, scaled only if that rectangle does not have the size already; it is drawn whenever the part left is at least w x h and the image library can scale and save.", "quantifier": "every source image up to the size the image library accepts, every w and h, all pre-crops and percentages", "why_tests_cant": "the rectangle is computed with binary and decimal rounding from six parameters, and the code skips cropping and scaling when they appear unnecessary", "anchors": [{"file": "vanillaplusjs/build/html/manips/images/exporter.py", "symbols": ["produce_image"]}, {"file": "vanillaplusjs/build/html/manips/images/cover_fit.py", "symbols": ["cover_fit"]}]}
{"id": "C76", "title": "Browsers find the exported files of a picture", "statement": "Read by the HTML standard, the srcset attribute of each source and of the image of a generated picture lists exactly the exported files of one format, each with its width; a browser chooses the first format other than the default if it knows it, and otherwise the default format.", "quantifier": "every command, every recorded list of exported files and every set of formats a browser knows", "why_tests_cant": "the attribute is assembled from strings and read by a parser with its own whitespace, comma and descriptor rules", "anchors": [{"file": "vanillaplusjs/build/html/manips/images/manip.py", "symbols": ["ImagesManipulator"]}]}
{"id": "C77", "title": "The scan of a stylesheet announces what it becomes and needs", "statement": "Scanning a stylesheet succeeds whatever else the project contains. It announces exactly these outputs: the copy of the stylesheet, the images of its icon commands, the files made from its image data, and their hashes. It announces as needed: every stylesheet a command imports from, the source and the hash of each icon image with the stylesheet of the settings, and the hash of each file which an URL with a version names; nothing else, except possibly the hashes of its own images.", "quantifier": "every stylesheet which tokenizes, with well formed icon commands and rooted URLs; every file system", "why_tests_cant": "a scan runs four rewriting passes over one stream in which the tokens one pass gives back are read by the others, and the images are numbered as they are met", "anchors": [{"file": "vanillaplusjs/build/handlers/css.py", "symbols": ["scan_file"]}, {"file": "vanillaplusjs/build/css/manips/outline_image_data.py", "symbols": ["OutlineImageDataManipulator"]}, {"file": "vanillaplusjs/build/css/manips/version_urls.py", "symbols": ["VersionURLsManipulator"]}, {"file": "vanillaplusjs/build/css/manips/icons/manip.py", "symbols": ["IconManipulator"]}, {"file": "vanillaplusjs/build/css/manips/nest.py", "symbols": ["NestManipulator"]}]}
{"id": "C78", "title": "What the build of a stylesheet reports, its scan has announced", "statement": "Everything the build of a stylesheet reports to depend on is among the dependencies its scan announced, and every file it reports as produced or reused is among the outputs its scan announced, whatever the other files of the project were at the time of the scan.", "quantifier": "every stylesheet which tokenizes, with well formed icon commands and rooted URLs; every state of the other files at the scan and at the build", "why_tests_cant": "the build splices imported rules and generated classes into the stream which three other passes read on; the order of builds and the detection of conflicts rest on the announcements", "anchors": [{"file": "vanillaplusjs/build/handlers/css.py", "symbols": ["scan_file", "build_file"]}, {"file": "vanillaplusjs/build/css/manips/nest.py", "symbols": ["NestManipulator"]}, {"file": "vanillaplusjs/build/css/manips/icons/manip.py", "symbols": ["IconManipulator"]}, {"file": "vanillaplusjs/build/css/manips/outline_image_data.py", "symbols": ["OutlineImageDataManipulator"]}, {"file": "vanillaplusjs/build/css/manips/version_urls.py", "symbols": ["VersionURLsManipulator"]}]}
{"id": "C79", "title": "Incremental builds give what a build from scratch gives", "statement": "After any number of rebuilds which have finished, with any edits of the sources between them, every source is built and every output is what building its source now, in the current mode, would give; there are no other outputs. So two histories which end with the same sources and in the same mode end with the same outputs, and one of them may be a single build of everything.", "quantifier": "every project, every builder whose result depends on the files it lists, every history of edits, additions, deletions and mode changes, every order in which builds run and finish and every moment at which they read and write", "why_tests_cant": "the histories and schedules are unbounded, and a stale output shows only after a particular sequence of edits", "anchors": [{"file": "vanillaplusjs/build/hot_incremental_rebuild.py", "symbols": ["hot_incremental_rebuild"]}, {"file": "vanillaplusjs/build/cold_incremental_rebuild.py", "symbols": ["cold_incremental_rebuild"]}, {"file": "vanillaplusjs/build/build_file.py", "symbols": ["build_file"]}]}
{"id": "C80", "title": "Import hashes in scripts are current after any history", "statement": "In a project of scripts, plain files and constants, after any number of finished rebuilds with any edits between them, the output folder holds the current copy of every source and its hash, and every import rewritten in a script carries the hash of what the imported file's output is now. Two histories which end with the same sources and mode end with the same bytes in the output folder.", "quantifier": "every set of scripts, plain files and constants below src/public, every digest, every history of edits, additions, deletions and mode changes, every schedule of builds", "why_tests_cant": "whether a hash is stale depends on the whole sequence of edits and on the order in which builds read and write", "anchors": [{"file": "vanillaplusjs/build/build_file.py", "symbols": ["build_file"]}, {"file": "vanillaplusjs/build/handlers/js.py", "symbols": ["build_file"]}, {"file": "vanillaplusjs/build/js/manips/hash_imports.py", "symbols": ["HashImportsManipulator"]}, {"file": "vanillaplusjs/build/hot_incremental_rebuild.py", "symbols": ["hot_incremental_rebuild"]}]}
{"id": "C81", "title": "Comments in titles and text elements are comments", "statement": "Whatever the HTML parser gives, tokenising a page keeps every token in order, except that a comment the parser has given as text, a single < followed by text beginning with !-- and containing -->, becomes a comment followed by the rest of the text. The comment is the one the HTML standard reads, up to the first --> and with the short forms of the empty comment.", "quantifier": "every sequence of parser tokens", "why_tests_cant": "which pieces of text a parser gives depends on the page; the positions of < and --> are unbounded", "anchors": [{"file": "vanillaplusjs/build/html/tokenizer.py", "symbols": ["tokenize"]}]}
{"id": "C82", "title": "Sequence manipulators leave alone what they give up on", "statement": "A manipulator of token sequences is a generator which is sent tokens. If it ends with a list, the tokens it was sent are replaced by the list; if it ends with False, they are as they were. In both cases the tokens behind them are treated as before.", "quantifier": "every generator, every token sequence and every state of the manipulator", "why_tests_cant": "generators are arbitrary programs and may read any number of tokens before they give up", "anchors": [{"file": "vanillaplusjs/build/js/yield_manipulator.py", "symbols": ["JSYieldManipulator"]}, {"file": "vanillaplusjs/build/js/builder.py", "symbols": ["JSBuilder"]}]}
{"id": "C83", "title": "Builds reflect the configuration as it is now", "statement": "If vanillaplusjs.json was changed, for example its constants, then after the next successful build the files in out/www are what a build from scratch with the new configuration gives.", "quantifier": "every project and configuration, and every history of builds, edits of sources and changes of the configuration", "why_tests_cant": "which files are built depends on the whole history; the configuration may be changed any number of times and in combination with any edits and mode changes", "anchors": [{"file": "vanillaplusjs/runners/build.py", "symbols": ["build"]}, {"file": "vanillaplusjs/build/cold_incremental_rebuild.py", "symbols": ["cold_incremental_rebuild"]}, {"file": "vanillaplusjs/build/hot_incremental_rebuild.py", "symbols": ["hot_incremental_rebuild"]}, {"file": "vanillaplusjs/build/handlers/js_constants.py", "symbols": ["build_file"]}]}
{"id": "C84", "title": "Imported rules and URL hashes in stylesheets are current after any history", "statement": "In a project of scripts, stylesheets, plain files and constants, after any number of finished rebuilds with any edits between them, the output of every stylesheet is its current source with each import command replaced by the declarations which the named rule has in the output of its stylesheet now, and with each URL of a file of the website carrying the hash of what the output of that file is now.", "quantifier": "every set of stylesheets and other files below src/public, every digest, every history of edits, additions, deletions and mode changes, every schedule of builds", "why_tests_cant": "whether an imported rule is stale depends on the whole sequence of edits and on the order in which builds read and write", "anchors": [{"file": "vanillaplusjs/build/handlers/css.py", "symbols": ["build_file"]}, {"file": "vanillaplusjs/build/css/manips/nest.py", "symbols": ["NestManipulator"]}, {"file": "vanillaplusjs/build/css/manips/version_urls.py", "symbols": ["VersionURLsManipulator"]}, {"file": "vanillaplusjs/build/hot_incremental_rebuild.py", "symbols": ["hot_incremental_rebuild"]}]}
{"id": "C85", "title": "Link hashes and templates in pages are current after any history", "statement": "In a project of pages, templates, scripts, stylesheets, plain files and constants, after any number of finished rebuilds with any edits between them, the output of every page is its current source with every template command replaced by the current template, expanded in its own scope, and with every link to a file of the website carrying the hash of what the output of that file is now.", "quantifier": "every set of pages, templates and files they link to, every digest, every history of edits, additions, deletions and mode changes, every schedule of builds", "why_tests_cant": "whether a template or a hash is stale depends on the whole sequence of edits and on the order in which builds read and write", "anchors": [{"file": "vanillaplusjs/build/handlers/html.py", "symbols": ["build_file"]}, {"file": "vanillaplusjs/build/html/manips/template.py", "symbols": ["TemplateManipulator"]}, {"file": "vanillaplusjs/build/html/manips/link_hash.py", "symbols": ["LinkHash"]}, {"file": "vanillaplusjs/build/hot_incremental_rebuild.py", "symbols": ["hot_incremental_rebuild"]}]}
{"id": "C86", "title": "Image modules show the images asked for", "statement": "A file p.images.json is accepted exactly if each entry names an image of the website with at least the size asked for and with sensible crops. For a rejected file nothing is written or announced. For an accepted one the build reads only what the scan announced, reports and changes only what the scan announced, everything it reports exists afterwards, and p.images.js exports an object with the same names which gives, for each image, the settings asked for and, by format, pictures of this image in sizes of the settings whose URLs are files of the website; its hash is that of the module.", "quantifier": "every file, every set of images and settings, every state of the artifacts reached by scans and builds, everything which happens between the scan and the build", "why_tests_cant": "what is accepted depends on arbitrary JSON, and what is announced has to agree with what is built later, in another state of the project", "anchors": [{"file": "vanillaplusjs/build/handlers/image_glue.py", "symbols": ["scan_file", "build_file", "sanity_check_images_json"]}, {"file": "vanillaplusjs/build/html/manips/images/scanner.py", "symbols": ["scan_command"]}, {"file": "vanillaplusjs/build/html/manips/images/exporter.py", "symbols": ["export_command"]}]}
{"id": "C87", "title": "Settings are used as they are written", "statement": "A build takes the configuration exactly if its version is 1.0.0, the source folder exists and each setting has the form described, and then uses for each setting what is written there: image formats with their exports and areas, the default format, the number and size of the steps, external files with their paths and integrities, and the constants of the development and production modes with environment variables replaced by their values. Watching takes from a configuration what a build takes. The configuration which init writes is accepted for every host and gives, for each picture, at least one file in each format.", "quantifier": "every JSON value of the configuration, every environment, every host given to init", "why_tests_cant": "the checks are spread over four loaders, with defaults which are taken when something is missing; a setting which is read wrongly is accepted without complaint", "anchors": [{"file": "vanillaplusjs/build/build_context.py", "symbols": ["load_external_files", "load_js_constants", "shallow_replace_envvars"]}, {"file": "vanillaplusjs/build/html/manips/images/settings.py", "symbols": ["load_image_settings"]}, {"file": "vanillaplusjs/runners/build.py", "symbols": ["build"]}, {"file": "vanillaplusjs/runners/dev.py", "symbols": ["dev"]}, {"file": "vanillaplusjs/runners/init.py", "symbols": ["init"]}]}
{"id": "C88", "title": "Whatever the sequence of builds and watching, the outputs are those of the current sources", "statement": "Edit sources in any way between builds, and run build or let the watch mode rebuild after its events: after every finished build the outputs are those which the current sources give, whatever was built before, as long as an edit changes the time, size or inode of a file. Two sessions which end with the same sources in the same mode have the same outputs. If the first build of the watch mode fails and the second, after the removal of out/, succeeds, everything is up to date as well.", "quantifier": "every sequence of edits, builds and watch rebuilds, every tool whose builds depend on what they declare", "why_tests_cant": "sessions are unbounded, and an edit which is missed or taken for another shows only in the outputs of some later build", "anchors": [{"file": "vanillaplusjs/build/cold_incremental_rebuild.py", "symbols": ["cold_incremental_rebuild"]}, {"file": "vanillaplusjs/build/hot_incremental_rebuild.py", "symbols": ["hot_incremental_rebuild"]}, {"file": "vanillaplusjs/runners/dev.py", "symbols": ["dev", "DevEventHandler"]}, {"file": "vanillaplusjs/runners/build.py", "symbols": ["build"]}]}
{"id": "C89", "title": "Edits while a build is running are caught up with by the next one", "statement": "Sources may be edited at any moment, also while a build is running, so that files built by it may have been read before, between or after the edits, and with other contents by different builds. After every finished build the sources which neither were edited while it was running nor depend on ones which were are up to date; and as soon as a build finishes during which nothing was edited, everything is up to date, and the outputs are those which any other course of work with the same sources gives.", "quantifier": "every sequence of builds, watch rebuilds and failed builds with edits at any time, everything that builds may see of files which are being edited, every tool whose builds depend on what they declare", "why_tests_cant": "the moment of an edit relative to the reads of all running builds cannot be enumerated, and its effect shows only after later builds", "anchors": [{"file": "vanillaplusjs/build/cold_incremental_rebuild.py", "symbols": ["cold_incremental_rebuild"]}, {"file": "vanillaplusjs/build/hot_incremental_rebuild.py", "symbols": ["hot_incremental_rebuild"]}, {"file": "vanillaplusjs/build/file_signature.py", "symbols": ["get_file_signature"]}, {"file": "vanillaplusjs/runners/dev.py", "symbols": ["DevEventHandler"]}]}
{"id": "C90", "title": "After failed or killed builds the next finished build repairs everything", "statement": "A build may fail or be killed at any point, after outputs have been removed and others have been written. The next build which finishes makes every source up to date, with the outputs which a session without failures would give.", "quantifier": "every session followed by any number of broken builds and then by a finished one; every set of outputs removed or partly written by them", "why_tests_cant": "the states which a broken build can leave are all subsets of its removals and writes, and whether they are repaired depends on what the next build takes for new", "anchors": [{"file": "vanillaplusjs/build/hot_incremental_rebuild.py", "symbols": ["hot_incremental_rebuild"]}, {"file": "vanillaplusjs/build/cold_incremental_rebuild.py", "symbols": ["cold_incremental_rebuild"]}, {"file": "vanillaplusjs/build/handlers/hash.py", "symbols": ["build_file"]}, {"file": "vanillaplusjs/build/handlers/copy.py", "symbols": ["build_file"]}]}
{"id": "C91", "title": "Every edit with a new time stamp is noticed, whatever files are moved or replaced", "statement": "Between builds write, overwrite, remove and move sources in any way, also onto each other and to inodes which were used before, where a write gets a later time than earlier writes to the same inode. After each finished build, or watch rebuild after its events, the outputs are those of the contents which the sources have, and do not depend on times, inodes and the way they got there.", "quantifier": "every sequence of file operations and builds, every assignment of times and inodes to writes with this property", "why_tests_cant": "combinations of moves, deletions and reused inodes which end in a signature seen before cannot be enumerated", "anchors": [{"file": "vanillaplusjs/build/file_signature.py", "symbols": ["get_file_signature", "FileSignature"]}, {"file": "vanillaplusjs/build/cold_incremental_rebuild.py", "symbols": ["cold_incremental_rebuild"]}, {"file": "vanillaplusjs/build/graph.py", "symbols": ["FileDependencyGraph.check_file"]}]}
{"id": "C92", "title": "Links serve what copies would", "statement": "When a build uses symbolic links, every file it puts below out/www by linking is read as the source file it stands for, from whatever folder the build was started and however the project folder was given; and after the same edits, removals and builds, everything is read with links as with copies, except for links to files which were changed after the link was made and which were not built again since. The results which builds report are the same.", "quantifier": "all histories of edits, removals, builds of copied files, of hashes and of pictures, all working folders and project paths", "why_tests_cant": "a test runs one history in one folder; whether links and copies agree after every history is a statement about all of them", "anchors": [{"file": "vanillaplusjs/build/handlers/copy.py", "symbols": ["build_file"]}, {"file": "vanillaplusjs/build/handlers/hash.py", "symbols": ["build_file"]}, {"file": "vanillaplusjs/build/html/manips/images/exporter.py", "symbols": ["export_command"]}]}
{"id": "C93", "title": "Pictures below out/www are those in artifacts", "statement": "A picture which a build puts below out/www as a symbolic link is the picture which is kept in artifacts.", "quantifier": "all project folders, working folders, pictures and file systems", "why_tests_cant": "whether a link leads anywhere depends on how the project folder is written; tests use one way", "anchors": [{"file": "vanillaplusjs/build/html/manips/images/exporter.py", "symbols": ["export_command"]}, {"file": "vanillaplusjs/runners/build.py", "symbols": ["main", "build"]}, {"file": "vanillaplusjs/build/build_context.py", "symbols": ["BuildContext.artifacts_folder"]}]}
{"id": "C94", "title": "Testing for links leaves nothing behind", "statement": "The test which finds out whether symbolic links can be made answers what the system allows and leaves all files as they were; if it is interrupted, however often and wherever, the next one which is not removes what was left.", "quantifier": "all systems, working folders, crash points and sequences of interrupted tests", "why_tests_cant": "crash points and their sequences cannot be enumerated by tests", "anchors": [{"file": "vanillaplusjs/runners/build.py", "symbols": ["detect_symlink_support"]}]}
{"id": "C95", "title": "The artifacts folder is reproducible", "statement": "Building a project from nothing twice, with the same settings, leaves byte for byte the same artifacts folder, whatever the order in which pages were scanned and pictures exported (README: the artifacts folder is byte-for-byte reproducible).", "quantifier": "all projects without artifacts, all settings, all sequences of successful scans and exports of pictures, with any other changes in between which leave artifacts and images alone", "why_tests_cant": "the order of scans differs from run to run, since they run concurrently; a test sees few orders, and usually the same one", "anchors": [{"file": "README.md", "symbols": []}, {"file": "vanillaplusjs/build/html/manips/images/metadata.py", "symbols": ["get_target", "reserve_target", "get_or_reserve_target"]}, {"file": "vanillaplusjs/build/html/manips/images/scanner.py", "symbols": ["scan_command"]}, {"file": "vanillaplusjs/build/html/manips/images/exporter.py", "symbols": ["export_command"]}]}
{"id": "C96", "title": "Visitors with caches get the deployed files", "statement": "Whatever versions of a website have been deployed before, and whatever files a visitor's browser has kept because their URLs carry a hash, as README.md recommends, the browser has for every reference in the deployed scripts, stylesheets and pages exactly what is deployed for the file.", "quantifier": "every sequence of deployments of finished builds, requests and forgotten cache entries, every project of scripts, stylesheets, plain files and pages", "why_tests_cant": "a stale cache entry shows up only after particular sequences of deployments and visits", "anchors": [{"file": "README.md", "symbols": ["Cache-busting"]}, {"file": "vanillaplusjs/build/handlers/hash.py", "symbols": ["build_file"]}, {"file": "vanillaplusjs/build/js/manips/hash_imports.py", "symbols": ["HashImportsManipulator"]}, {"file": "vanillaplusjs/build/css/manips/version_urls.py", "symbols": ["VersionURLsManipulator"]}, {"file": "vanillaplusjs/build/html/manips/link_hash.py", "symbols": ["LinkHash"]}]}
{"id": "C97", "title": "Builds which run at the same time make the same folders safely", "statement": "When several builds make folders at the same time, each of them ends, and the folder it asked for is there with all of its parents, whichever build made which of them. A build fails here only if the operating system refuses access again and again.", "quantifier": "every number of processes, every list of folders, every order of their calls of the operating system, every change by others in between, every set of refused calls", "why_tests_cant": "The failures need one process to act between two calls of another; tests do not control the scheduling of processes.", "anchors": [{"file": "vanillaplusjs/build/ioutil.py", "symbols": ["makedirs_safely"]}, {"file": "vanillaplusjs/build/html/manips/outline.py", "symbols": ["OutlineManipulator.continue_mark"]}]}
{"id": "C98", "title": "While watching, a rebuild starts when it has been quiet for the debounce time, and not before", "statement": "When a rebuild starts, every change of a file which was reported before is at least the debounce time ago. When something waits to be built and all reported changes are that long ago, the next look of the main loop starts a rebuild, with everything that waits. Waiting loses no event.", "quantifier": "every history of events, polls and ends of rebuilds at any times, every debounce time", "why_tests_cant": "The rule concerns the times of concurrent events; tests would have to control the clock and the threads.", "anchors": [{"file": "vanillaplusjs/runners/dev.py", "symbols": ["DevEventHandler.rebuild_if_appropriate", "DevEventHandler.on_modified", "dev"]}]}
{"id": "C99", "title": "The script which makes the identifier tables takes over exactly the listed code points", "statement": "From Unicode's list of the characters which may start (continue) an identifier the developers' script makes a Python module; the tables this module defines have exactly the code points of the list, so the tokenizer takes exactly these for identifier characters.", "quantifier": "every file of the form of Unicode's DerivedCoreProperties.txt, every list of code points and ranges in it, either property", "why_tests_cant": "The tables are made anew for each version of Unicode, from lists with a thousand entries; a test can compare only single code points.", "anchors": [{"file": "vanillaplusjs/build/js/unicode_derived.py", "symbols": ["postprocess", "is_match"]}, {"file": "vanillaplusjs/build/js/derived_core_properties.py", "symbols": ["EXACT_MATCHES_ID_START"]}]}
{"id": "C100", "title": "The web server of run and dev starts, serves until Ctrl-C, and then ends and leaves nothing behind", "statement": "After vanillaplusjs run (or dev, once the first build is over) the server listens from some moment on and goes on doing so until it is stopped. When the user presses Ctrl-C, at whatever moment, the command ends. When it has ended no server listens any more and the working folder is the one the command was started in. If the server cannot be started the command ends, too.", "quantifier": "every interleaving of the main thread, the thread which hosts the files and the thread of the server, every moment of Ctrl-C, with and without watching", "why_tests_cant": "a test runs one interleaving, and cannot show that no interleaving hangs", "anchors": [{"file": "vanillaplusjs/runners/run.py", "symbols": ["run_server"]}, {"file": "vanillaplusjs/http_server.py", "symbols": ["host_static_files", "host_static_files_with_event"]}, {"file": "vanillaplusjs/runners/dev.py", "symbols": ["dev"]}]}
{"id": "C101", "title": "A command line is carried out as it is written, or not at all", "statement": "Whatever arguments the program is started with: if they are a command followed by options of this command, each with its value if it takes one, the command is carried out with exactly the settings which were written and the documented defaults for the others; if not, the program ends and nothing is done. Different options may come in any order, and of an option which is repeated, or contradicted by its opposite, the last one counts.", "quantifier": "every list of arguments of any length, every text in them", "why_tests_cant": "lists of arguments are unbounded and options interact: abbreviations, values which look like options, repeated and opposite options in any order", "anchors": [{"file": "vanillaplusjs/main.py", "symbols": ["main", "Command"]}, {"file": "vanillaplusjs/runners/build.py", "symbols": ["main"]}, {"file": "vanillaplusjs/runners/clean.py", "symbols": ["main"]}, {"file": "vanillaplusjs/runners/dev.py", "symbols": ["main"]}, {"file": "vanillaplusjs/runners/init.py", "symbols": ["main"]}, {"file": "vanillaplusjs/runners/run.py", "symbols": ["main"]}]}
{"id": "C102", "title": "Pictures show the image as it is now", "statement": "When an image which pages show is replaced, the next build shows the new image: after a successful export every picture which is reported is in out/www, is drawn from the image as it is now, and is the best of the exports for its size and format; pictures of different images are never mixed up, even if builds were interrupted or out/ was removed.", "quantifier": "all projects and all histories of scans, exports, edits of images and other files, interrupted exports and removals of out/ or artifacts/, all images, targets and image settings", "why_tests_cant": "what is shown depends on what all builds before have left in two folders and on every edit in between; tests only build once, or rebuild without a change", "anchors": [{"file": "vanillaplusjs/build/html/manips/images/metadata.py", "symbols": ["get_target", "get_or_reserve_target"]}, {"file": "vanillaplusjs/build/html/manips/images/exporter.py", "symbols": ["export_command"]}, {"file": "vanillaplusjs/build/html/manips/images/scanner.py", "symbols": ["scan_command"]}]}
{"id": "C103", "title": "Built pages keep to the content security policy", "statement": "Under the policy default-src 'self'; object-src 'none', which the project is meant for, a browser refuses nothing of a built page: there are no inline scripts or stylesheets, no code or styles in attributes, nothing is loaded from elsewhere, and there are no plugins. What the build adds is loaded from the website itself.", "quantifier": "all pages, templates, nestings of templates, inline scripts and stylesheets, links, canonical URLs and images", "why_tests_cant": "A test looks at one page; that nothing is left over or added has to hold for every way in which templates, links, pictures and inline elements can be combined.", "anchors": [{"file": "vanillaplusjs/build/html/manips/outline.py", "symbols": ["OutlineManipulator"]}, {"file": "vanillaplusjs/build/html/manips/link_hash.py", "symbols": ["LinkHash"]}, {"file": "vanillaplusjs/build/html/manips/images/manip.py", "symbols": ["ImagesManipulator"]}, {"file": "vanillaplusjs/build/handlers/html.py", "symbols": ["HTMLHandler"]}, {"file": "README.md", "symbols": ["Outlining js/css"]}]}
{"id": "C104", "title": "Inline scripts and stylesheets refer to the same files when they are moved", "statement": "A path in an inline script or stylesheet of a page names the same file of the website after the element has become a file of its own as it did in the page.", "quantifier": "all pages at any depth, all inline elements, all paths", "why_tests_cant": "A test tries some paths; the claim is about every path at every depth of folders.", "anchors": [{"file": "vanillaplusjs/build/html/manips/outline.py", "symbols": ["OutlineManipulator.continue_mark"]}, {"file": "vanillaplusjs/build/js/manips/hash_imports.py", "symbols": ["HashImportsManipulator"]}]}
{"id": "C105", "title": "While watching, the project is rebuilt only after edits", "statement": "In watch mode, whatever files the builder writes among the sources for a while and removes, and whenever these are reported by the watcher, each rebuild is preceded by an edit of the user since the rebuild before: there are never more rebuilds than edits, and the watch mode goes on until it is stopped.", "quantifier": "all sessions: sequences of edits, reports about the builder's own files at any delay and in any order among different files, looks of the main loop, and rebuilds which succeed or fail", "why_tests_cant": "The reports come from another thread with unknown delays; that rebuilding does not set itself off again must hold for every interleaving.", "anchors": [{"file": "vanillaplusjs/runners/dev.py", "symbols": ["DevEventHandler.rebuild_if_appropriate", "DevEventHandler.on_created", "DevEventHandler.on_deleted", "dev"]}, {"file": "vanillaplusjs/build/html/manips/outline.py", "symbols": ["OutlineManipulator.continue_mark"]}]}
{"id": "C106", "title": "The server gives the files of out/www, and nothing else", "statement": "A request to the server of run or dev for the path of a file below out/www is answered with that file, whatever its name and depth; for a folder with the index page in it; and for anything else with 404. Whatever path is asked for, nothing from outside of out/www is given, as built by the last build, with links or with copies.", "quantifier": "all paths of requests, all contents of the disk with files, folders and links, all projects, working folders and both ways of building (links, copies)", "why_tests_cant": "Paths and directory trees are unbounded, and that no path leads outside is a statement about all of them.", "anchors": [{"file": "vanillaplusjs/http_server.py", "symbols": ["host_static_files"]}, {"file": "vanillaplusjs/runners/run.py", "symbols": ["run_server"]}, {"file": "vanillaplusjs/runners/dev.py", "symbols": ["dev"]}, {"file": "vanillaplusjs/build/handlers/copy.py", "symbols": ["build_file"]}, {"file": "vanillaplusjs/build/html/manips/images/exporter.py", "symbols": ["export_command"]}]}
{"id": "C107", "title": "The server names the right media type on every machine", "statement": "A page, stylesheet, script or picture (html, css, js, svg, jpg, jpeg, png, gif, webp) is served with the content-type of its extension, and the index page of a folder as a page, whatever types the machine's own tables give these extensions.", "quantifier": "all machines' type tables, all folders, depths and file names, small and capital letters in the extension", "why_tests_cant": "the tables come from the machine on which the server runs; tests see one machine", "anchors": [{"file": "vanillaplusjs/http_server.py", "symbols": ["host_static_files", "mimetypes.add_type"]}]}
{"id": "C108", "title": "While watching, the server goes on giving the files of out/www", "statement": "In the watch mode the server answers every request from the files which are in out/www at that time, after any number of rebuilds and while one is at work.", "quantifier": "all sequences of rebuilds, successful or not, all points in time during a rebuild, all requests", "why_tests_cant": "it depends on which folders rebuilds remove in the course of a session", "anchors": [{"file": "vanillaplusjs/runners/dev.py", "symbols": ["dev"]}, {"file": "vanillaplusjs/build/hot_incremental_rebuild.py", "symbols": ["hot_incremental_rebuild"]}, {"file": "vanillaplusjs/http_server.py", "symbols": ["host_static_files"]}]}
{"id": "C109", "title": "A reload shows the current file", "statement": "While the server runs and files are built again and again, reloading a file in the browser shows what was written last, although the browser keeps copies and the server may answer that a copy is still good.", "quantifier": "all sequences of writes and reloads with their times, all contents, all digests", "why_tests_cant": "whether a kept copy is taken for good depends on the times of writes and reloads", "anchors": [{"file": "vanillaplusjs/http_server.py", "symbols": ["host_static_files"]}, {"file": "vanillaplusjs/runners/dev.py", "symbols": ["dev"]}]}
{"id": "C110", "title": "A project without broken or circular references builds", "statement": "If every file which a source refers to is there, and no source refers to itself, directly or through others, then a build ends successfully: also if files were edited, added, deleted or renamed since the last one, whatever was built before, and in whatever order the builds of single files finish.", "quantifier": "all projects, all histories of rebuilds and edits, all orders and interleavings of the builds of files", "why_tests_cant": "a failure may need a certain history, a certain set of edits and a certain order of builds", "anchors": [{"file": "vanillaplusjs/build/hot_incremental_rebuild.py", "symbols": ["hot_incremental_rebuild"]}, {"file": "vanillaplusjs/build/handlers/js.py", "symbols": ["scan_file", "build_file"]}, {"file": "vanillaplusjs/build/js/manips/hash_imports.py", "symbols": ["HashImportsManipulator"]}]}
{"id": "C111", "title": "A finished build has no broken or circular references", "statement": "After any history of finished rebuilds, every source which a script imports, which a page links to or includes, or whose URL is in a stylesheet, exists, and no source refers to itself, directly or through others; so a rebuild after an edit which breaks a reference or makes it circular does not finish.", "quantifier": "every project of scripts, copied files, templates, pages and stylesheets, every history of edits and finished rebuilds", "why_tests_cant": "the references are spread over files which are edited at different times, and only changed files are scanned", "anchors": [{"file": "vanillaplusjs/build/hot_incremental_rebuild.py", "symbols": ["hot_incremental_rebuild"]}, {"file": "vanillaplusjs/build/graph.py", "symbols": ["FileDependencyGraph.set_children"]}]}
{"id": "C112", "title": "The handling of a file comes to an end", "statement": "Scanning and building a script, a stylesheet or a page ends, with a result or an exception, after a number of steps which depends only on the text of the file: the manipulators do not replace each other's output for ever, whatever the file and the other files contain.", "quantifier": "all texts of files, all other files and hashes, all settings", "why_tests_cant": "the replacements of one manipulator are handed to all of them again, so that some text may send them round for ever", "anchors": [{"file": "vanillaplusjs/build/js/builder.py", "symbols": ["JSBuilder.handle_token"]}, {"file": "vanillaplusjs/build/js/manips/hash_imports.py", "symbols": ["HashImportsManipulator"]}, {"file": "vanillaplusjs/build/js/manips/type_hints.py", "symbols": ["TypeHintsManipulator"]}, {"file": "vanillaplusjs/build/css/manips/outline_image_data.py", "symbols": ["OutlineImageDataManipulator"]}]}
{"id": "C113", "title": "A graph file which was not finished is never taken for a graph", "statement": "Whatever part of the text of a stored graph is in the file when the writing is interrupted, loading the file raises, unless only the newline at the end is missing, and then the whole graph is loaded. The text is one line of printable ASCII characters whatever the names of the files are.", "quantifier": "every graph after any history of calls, every point at which the writing of its file stops", "why_tests_cant": "there are as many points as bytes in the file, and a part of a number is a number and a part of a list of files could be one", "anchors": [{"file": "vanillaplusjs/build/graph.py", "symbols": ["FileDependencyGraph.store", "FileDependencyGraph.load"]}, {"file": "vanillaplusjs/build/hot_incremental_rebuild.py", "symbols": ["hot_incremental_rebuild"]}]}
{"id": "C114", "title": "Records of images and of external files are read as they were written, or refused", "statement": "What is recorded of a reserved image target (placeholder.json), of the pictures made for it (metadata.json) and of downloaded files is read back exactly as it was written, whatever the names, hashes and crop settings are. If the writing stopped before the last character, reading the file raises; it is never taken for another record. While a metadata.json is torn, asking for a target of its image either finds an entry listed before it or raises.", "quantifier": "every target, every list of outputs, every state of external files, every point at which the writing stops", "why_tests_cant": "there are as many points as bytes, names may hold any character, and a part of a record could be a record", "anchors": [{"file": "vanillaplusjs/build/html/manips/images/metadata.py", "symbols": ["load_metadata", "store_metadata", "load_image_target_settings", "get_target", "reserve_target"]}, {"file": "vanillaplusjs/build/html/manips/images/exporter.py", "symbols": ["export_command"]}, {"file": "vanillaplusjs/build/build_context.py", "symbols": ["ExternalFilesState.from_json"]}, {"file": "vanillaplusjs/build/cold_incremental_rebuild.py", "symbols": ["check_external_files"]}]}
{"id": "C115", "title": "A new project can be built, and a half-written configuration is refused", "statement": "The file vanillaplusjs.json which init writes, for any default host, is accepted by build and by dev with exactly that host and the documented defaults. If the writing of the file stopped before its last character, build and dev raise instead of working with other settings. Init does not touch a configuration which is there, so a half-written one stays, and builds go on raising, however often init is run again.", "quantifier": "every default host, every point at which the writing stops, every tree of files", "why_tests_cant": "there are as many points as bytes and the host may hold any character; a part of the configuration could be one which leaves out settings", "anchors": [{"file": "vanillaplusjs/runners/init.py", "symbols": ["init"]}, {"file": "vanillaplusjs/runners/build.py", "symbols": ["build"]}, {"file": "vanillaplusjs/runners/dev.py", "symbols": ["dev"]}, {"file": "vanillaplusjs/build/build_context.py", "symbols": ["BuildContext"]}]}
{"id": "C116", "title": "Variables arrive in templates as they were given", "statement": "The path and the variables given to a template are put into a comment as JSON text and are read back from it exactly: no string, number, list or dictionary is changed, none ends the comment's line or its command, and text which is no JSON is not taken for variables.", "quantifier": "all paths and all values of variables: texts with any characters, integers, floats, lists and dictionaries of any depth", "why_tests_cant": "variables hold any text, with quotes, brackets, newlines or the words of commands in it, and are nested without bound", "anchors": [{"file": "vanillaplusjs/build/html/manips/template.py", "symbols": ["TemplateManipulator.handle_template_command", "TemplateManipulator.continue_mark"]}]}
{"id": "C117", "title": "Scripts get the images which are listed", "statement": "A script which imports name.images.js has an object with exactly the names of name.images.json, each with the size and crop settings which were recorded and, by format, the list of the pictures with their sizes, the URLs at which they are served and their choices, whatever characters names and paths have. The text of the module, and so its hash, does not depend on the order in which the images are listed. A name __proto__ is an exception: scripts do not see it.", "quantifier": "all lists of images with any names, all recorded settings and pictures, all orders", "why_tests_cant": "names, paths and formats hold any text, lists have any length, and a text which is fine as JSON need not be fine as a script", "anchors": [{"file": "vanillaplusjs/build/handlers/image_glue.py", "symbols": ["build_file"]}]}
{"id": "C118", "title": "Unchanged files stay unchanged through the stored times", "statement": "The modification time of a file, as Python gives it, is written to the dependency graphs and to the state of external files as a decimal number with the fewest digits that identify it and is read back as exactly the same time; so a file which is compared with a loaded graph is found changed if and only if it would have been found changed before the graph was stored.", "quantifier": "every time in seconds and nanoseconds, every float, every graph after any history of calls, every state of external files", "why_tests_cant": "a test tries a few times; that seventeen digits identify every float is a statement about all floats", "anchors": [{"file": "vanillaplusjs/build/graph.py", "symbols": ["FileDependencyGraph.store", "FileDependencyGraph.load", "FileDependencyGraph.check_file"]}, {"file": "vanillaplusjs/build/file_signature.py", "symbols": ["get_file_signature"]}, {"file": "vanillaplusjs/build/cold_incremental_rebuild.py", "symbols": ["cold_incremental_rebuild"]}]}
{"id": "C119", "title": "Image commands mean what a program wrote", "statement": "A comment with an image command whose path has no whitespace, whose sizes are integers and whose crop arguments are the JSON Python's json.dumps writes for a dictionary of numbers gives exactly this command: the path, the sizes and every crop argument with the very number which was written. For any other dictionary the command is either understood exactly, or, if a closing bracket comes before the last one, refused with a ValueError; it is never taken for another command.", "quantifier": "every path without whitespace, all integers, all dictionaries Python can write, all floats, anything behind the crop arguments", "why_tests_cant": "tests try some crop arguments; that no dictionary is misread when its text is cut at a bracket is a statement about all of them", "anchors": [{"file": "vanillaplusjs/build/html/manips/images/command.py", "symbols": ["parse_command"]}, {"file": "vanillaplusjs/build/html/manips/images/manip.py", "symbols": ["ImagesManipulator"]}]}
{"id": "C120", "title": "A new project builds", "statement": "The first build of a project just as init has left it finishes, in whatever order builds complete, and publishes the page: out/www/index.html is the serialization of the very tokens of src/public/index.html, and its hash is beside it. The same holds after every finished rebuild of any project for every page without comments, links, scripts, stylesheets and canonical URLs: nothing is added, dropped or changed by the tool.", "quantifier": "every configuration, every order in which scans and builds are done, and for published pages every history of rebuilds and every page of this kind", "why_tests_cant": "a test builds one new project once; that no schedule makes it fail, and that no manipulator touches any such page, is a statement about all of them", "anchors": [{"file": "vanillaplusjs/runners/init.py", "symbols": ["init"]}, {"file": "vanillaplusjs/build/hot_incremental_rebuild.py", "symbols": ["hot_incremental_rebuild"]}, {"file": "vanillaplusjs/build/handlers/html.py", "symbols": ["build_file"]}]}
