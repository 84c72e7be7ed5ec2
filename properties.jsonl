{"id": "C01", "title": "A bare directive silences every rule", "statement": "If any comment associated with a node is a `# lint-ignore` or `# lint-fixme` directive with no rule names, then `LintRule.report` on that node records no violation, whatever the rule, message, position or replacement.", "quantifier": "every rule class name, every list of associated comments, every comment text containing a directive with no names", "why_tests_cant": "the comment text, its surrounding whitespace and the rule name range over infinite sets of strings; tests pick a few", "anchors": ["src/fixit/rule.py:LintRule.ignore_lint", "src/fixit/rule.py:LintRule.report", "src/fixit/ftypes.py:LintIgnoreRegex"]}
{"id": "C02", "title": "A named directive silences exactly the rules it names", "statement": "`# lint-ignore: A, B` (or `lint-fixme`) on a node suppresses a violation of a rule exactly when one of the listed names, with an optional `Rule` suffix removed, equals the rule's name or the lower-cased rule name; a directive naming only other rules suppresses nothing.", "quantifier": "every non-empty list of identifier names, every separator/whitespace layout the directive grammar admits, every rule name", "why_tests_cant": "needs all name lists and all spellings, including rules whose names are prefixes or suffixes of one another", "anchors": ["src/fixit/rule.py:LintRule.ignore_lint", "src/fixit/ftypes.py:LintIgnoreRegex"]}
{"id": "C03", "title": "lint-ignore and lint-fixme are interchangeable", "statement": "Replacing the word `lint-ignore` by `lint-fixme` in a directive comment, or back, never changes whether a violation is reported.", "quantifier": "every comment made of arbitrary directive-free text followed by a directive, every rule", "why_tests_cant": "universally quantified over comment text", "anchors": ["src/fixit/rule.py:LintRule.ignore_lint", "src/fixit/ftypes.py:LintIgnoreRegex"]}
{"id": "C04", "title": "Ordinary comments never silence a violation", "statement": "If no comment associated with the node contains `#`, optional whitespace, then `lint-ignore` or `lint-fixme`, the violation is recorded: no other comment can suppress a report.", "quantifier": "every set of comments without a directive, every rule, every node", "why_tests_cant": "a negative claim over all comment texts", "anchors": ["src/fixit/rule.py:LintRule.ignore_lint", "src/fixit/ftypes.py:LintIgnoreRegex"]}
{"id": "C05", "title": "Directive lookup is local to the reported node's own statement", "statement": "The comments consulted for a node are exactly: those attached to the node and to its ancestors up to and including the nearest enclosing statement that owns leading lines (looking through decorators), and the module header when that statement is the first in the module (or when the climb reaches the module). Comments attached to any other node never affect the decision.", "quantifier": "every syntax tree and every node in it", "why_tests_cant": "trees have unbounded depth and shape", "anchors": ["src/fixit/rule.py:LintRule.node_comments"]}
{"id": "C06", "title": "report records exactly one faithful violation", "statement": "When not suppressed, `report` appends exactly one violation that carries the rule's name, the given node and replacement, the given message or else the rule's MESSAGE, and the given range or else the node's own range; it raises ValueError and records nothing when no message is available.", "quantifier": "every rule, message, position form, replacement and prior violation list", "why_tests_cant": "must hold for all argument combinations and any prior history", "anchors": ["src/fixit/rule.py:LintRule.report", "src/fixit/rule.py:LintRule.__init__"]}
{"id": "C07", "title": "The directive regex recognises exactly the documented directive grammar", "statement": "Searching a comment for a directive finds the first position at which `#`, optional whitespace and `lint-ignore`/`lint-fixme` occur; the names it captures are the longest comma-separated list of identifiers following `:` or whitespace, and no names are captured when no identifier follows.", "quantifier": "every string", "why_tests_cant": "regex backtracking over all strings", "anchors": ["src/fixit/ftypes.py:LintIgnoreRegex"]}
{"id": "C08", "title": "Rule references are accepted exactly according to the grammar", "statement": "`parse_rule` accepts a string exactly when it is an optional dot, a dotted module path and an optional `:Name` built from the allowed characters, possibly followed by one final newline (Python's `$`); any other string raises ConfigError and nothing else.", "quantifier": "every string", "why_tests_cant": "all strings; includes the end-of-string boundary", "anchors": ["src/fixit/config.py:parse_rule", "src/fixit/ftypes.py:QualifiedRuleRegex"]}
{"id": "C09", "title": "A rule reference round-trips", "statement": "For every accepted rule reference s, `str(parse_rule(s, ...))` is s (minus at most one final newline), and two parsed references compare equal exactly when their strings are the same.", "quantifier": "every accepted string", "why_tests_cant": "all strings", "anchors": ["src/fixit/config.py:parse_rule", "src/fixit/ftypes.py:QualifiedRule"]}
{"id": "C10", "title": "Local references are bound to a directory and absolute ones are not", "statement": "`parse_rule(s, root)` yields a rule bound to `root` exactly when s begins with a dot; otherwise the result does not depend on `root`.", "quantifier": "every accepted string and every root", "why_tests_cant": "all strings and roots", "anchors": ["src/fixit/config.py:parse_rule"]}
{"id": "C11", "title": "A local rule is loaded relative to the config that enabled it", "statement": "In the merged configuration, an enabled local rule `.x` is bound to the directory of the first config file, in order of application (outermost first), that enables it after its last disable; an absolute reference has no directory. In particular, when an outer and an inner config both enable `.x` the outer directory is used (finding: not the nearest one).", "quantifier": "every stack of config files", "why_tests_cant": "depends on all histories of enable/disable across the cascade", "anchors": ["src/fixit/config.py:merge_configs", "src/fixit/ftypes.py:QualifiedRule"]}
{"id": "C12", "title": "Tag selection is include-any and exclude-wins", "statement": "A set of tags is selected by a filter exactly when none of them is excluded and either the filter includes nothing or at least one of them is included; an empty filter selects everything.", "quantifier": "every filter and every collection of tags", "why_tests_cant": "all finite tag sets", "anchors": ["src/fixit/ftypes.py:Tags.__contains__", "src/fixit/ftypes.py:Tags.__bool__"]}
{"id": "C13", "title": "Parsing a tag filter is exact and order-insensitive", "statement": "Parsing a comma-separated filter puts a token in `exclude` (without its `!`, `^` or `-` prefix) or in `include` exactly as written up to case and surrounding whitespace, and permuting or repeating tokens does not change the result.", "quantifier": "every list of non-empty tokens and every permutation of it", "why_tests_cant": "all token lists, all orders", "anchors": ["src/fixit/ftypes.py:Tags.parse"]}
{"id": "C14", "title": "Parsing a tag filter fails exactly on blank entries", "statement": "`Tags.parse` returns a filter for None, for the empty string and for every comma-separated list without a blank entry; a blank entry (for instance a trailing comma) raises IndexError, and nothing else fails.", "quantifier": "every string", "why_tests_cant": "all strings", "anchors": ["src/fixit/ftypes.py:Tags.parse"]}
{"id": "C15", "title": "Config discovery finds exactly the candidate files between the target and the root", "statement": "`locate_configs(path, root)` returns exactly the existing `fixit.toml`, `.fixit.toml` and `pyproject.toml` files in the directories from the target's directory up to root (filesystem root when absent), nearest directory first and in that file-name order within a directory, and raises when root does not contain path.", "quantifier": "every path depth, every root, every set of existing files", "why_tests_cant": "directory depth and file layouts are unbounded", "anchors": ["src/fixit/config.py:locate_configs"]}
{"id": "C16", "title": "Reading configs keeps order, skips empty ones and stops at root", "statement": "`read_configs` returns the non-empty `tool.fixit` tables in the given order, up to and including the first one with a true `root`; files after it are never read.", "quantifier": "every list of config files and contents", "why_tests_cant": "unbounded lists of files; includes files that would fail to parse after the root", "anchors": ["src/fixit/config.py:read_configs"]}
{"id": "C17", "title": "The last applicable mention of a rule wins", "statement": "In the merged config, a rule is enabled exactly when its last mention, over the applicable tables in order from lowest to highest priority (main table then overrides of each config; enables before disables inside a table), is an enable, and disabled exactly when it is a disable; a never-mentioned rule is neither, except the built-in `fixit.rules` which starts enabled.", "quantifier": "every stack of configs, every rule", "why_tests_cant": "arbitrary interleavings of enables and disables", "anchors": ["src/fixit/config.py:merge_configs"]}
{"id": "C18", "title": "The merged enable and disable lists are disjoint, sorted and duplicate-free", "statement": "For every stack of configs, no rule is both enabled and disabled after merging, and both lists are sorted without duplicates.", "quantifier": "every stack of configs", "why_tests_cant": "invariant over all cascades", "anchors": ["src/fixit/config.py:merge_configs"]}
{"id": "C19", "title": "Scalar settings come from the nearest applicable table that sets them", "statement": "After merging, python-version and formatter have the value given by the highest-priority applicable table that gives a usable one (an empty python-version means `no filter`; an empty formatter means unset), or the default; output-format and output-template likewise over whole configs.", "quantifier": "every stack of configs", "why_tests_cant": "all cascades", "anchors": ["src/fixit/config.py:merge_configs"]}
{"id": "C20", "title": "Rule options come whole from the nearest applicable table", "statement": "The merged options of a rule are exactly the option table of that rule in the highest-priority applicable table that lists the rule; tables are replaced, not merged key by key.", "quantifier": "every stack of configs, every rule", "why_tests_cant": "all cascades", "anchors": ["src/fixit/config.py:merge_configs", "src/fixit/config.py:get_options"]}
{"id": "C21", "title": "Overrides apply only to files under their path", "statement": "A config's overrides entry whose path does not contain the target file never influences the merged enable, disable, options, python-version or formatter; one that does is applied after the main table and in file order.", "quantifier": "every path, every list of overrides", "why_tests_cant": "all paths and override lists", "anchors": ["src/fixit/config.py:merge_configs"]}
{"id": "C22", "title": "enable-root-import is confined to the root config and to the root directory", "statement": "Whenever merging succeeds with root import enabled, the config that enabled it is the root config at that point, and a string value is a relative path without `..`, so the imported directory is inside that config's directory.", "quantifier": "every stack of configs, every path string", "why_tests_cant": "safety over all inputs", "anchors": ["src/fixit/config.py:merge_configs", "src/fixit/config.py:collect_rules"]}
{"id": "C23", "title": "A malformed configuration is rejected", "statement": "Merging configs succeeds exactly when every section is well formed: arrays of valid rule references in enable/disable, tables of scalar options, overrides that are tables with a path, supported formatter and output-format, valid python-version, enable-root-import only in the root config and relative. When the values at least have the documented TOML shapes, every failure is a ConfigError; other shapes (a non-table rule option, a non-string rule reference, a non-table tool.fixit) escape as AttributeError/TypeError, and no other exception can (finding). The example of an override with options in the configuration guide, written with double brackets, is one of the rejected ones (finding).", "quantifier": "every stack of TOML tables", "why_tests_cant": "all TOML values in all positions", "anchors": ["src/fixit/config.py:merge_configs", "src/fixit/config.py:get_sequence", "src/fixit/config.py:get_options"]}
{"id": "C24", "title": "Command-line options override file configuration and nothing else", "statement": "`generate_config` with options returns the file configuration with tags, rules (and then an empty disable list), output format and template replaced exactly by those options that are set; unset options change nothing.", "quantifier": "every file system, path and options value", "why_tests_cant": "all combinations", "anchors": ["src/fixit/config.py:generate_config"]}
{"id": "C25", "title": "An explicit config file is used instead of discovery", "statement": "With `--config-file F`, F is the only file read: whatever config files lie around the target, the result is the merge of F's `tool.fixit` table alone followed by the other options. As for any config, its main table applies only to targets below F's directory, so for a target elsewhere rule selection, options, version and formatter stay at their defaults (finding).", "quantifier": "every target path, every F", "why_tests_cant": "all path pairs", "anchors": ["src/fixit/config.py:generate_config", "src/fixit/config.py:merge_configs"]}
{"id": "C26", "title": "Configuration resolution is deterministic", "statement": "The merged configuration does not depend on the iteration order of internal sets: every order gives the same config, and the enable/disable lists depend only on each rule's last mention.", "quantifier": "every stack of configs, every set iteration order", "why_tests_cant": "hash orders vary per process", "anchors": ["src/fixit/config.py:merge_configs"]}
{"id": "C27", "title": "Unknown options are reported and change nothing", "statement": "Every key of a config's main table that is not a known option produces a warning, and removing it leaves the merged configuration unchanged.", "quantifier": "every table, every unknown key", "why_tests_cant": "all tables", "anchors": ["src/fixit/config.py:merge_configs"]}
{"id": "C28", "title": "The rules run are exactly the enabled, not-disabled, tag- and version-compatible ones", "statement": "`collect_rules` returns exactly one instance of each rule class that some enable entry resolves to, that no loadable disable entry resolves to unless the class was enabled by name, that passes the tag filter and the python-version filter; nothing else.", "quantifier": "every configuration and every module universe", "why_tests_cant": "all enable/disable lists and rule sets", "anchors": ["src/fixit/config.py:collect_rules"]}
{"id": "C29", "title": "A rule reference that fails to load affects only itself", "statement": "If importing one enabled or disabled entry raises and leaves the import system as it was, `collect_rules` still returns what it returns without that entry; exactly one warning is logged per failing entry, in order.", "quantifier": "every configuration, every position of the failing entry", "why_tests_cant": "all positions and combinations of failures", "anchors": ["src/fixit/config.py:collect_rules"]}
{"id": "C30", "title": "sys.path is restored after collecting rules", "statement": "After `collect_rules` returns, `sys.path` is what it was before, whether or not root import is enabled and whether or not the root was already on it. If it raises (a rule's constructor or version specifier raises) the root import directory stays on `sys.path` (finding). If importing rules itself changes `sys.path`: a root that was there before is not touched; otherwise exactly the first entry for the root is taken off the list the modules left, everything else they did stays, and if they left no such entry the collection ends with ValueError (finding).", "quantifier": "every configuration, every sys.path, every outcome of loading rules, every change rule modules make to sys.path", "why_tests_cant": "all sys.path contents and failure points", "anchors": ["src/fixit/config.py:collect_rules", "src/fixit/util.py:append_sys_path"]}
{"id": "C31", "title": "Rule discovery covers a package's direct modules and no sub-packages", "statement": "Resolving a module reference yields, in name order, exactly the concrete LintRule subclasses that are members of the module or, if it is a package, of its direct non-package submodules, one per name (the last binding of a name wins); sub-packages are neither searched nor imported; with `:Name` it yields exactly that member or raises CollectionError; an ImportError of the module or of any direct submodule becomes CollectionError and other exceptions pass.", "quantifier": "every module tree, every reference", "why_tests_cant": "all package layouts and import failures", "anchors": ["src/fixit/config.py:find_rules", "src/fixit/config.py:walk_module"]}
{"id": "C32", "title": "validate-config reports exactly the broken references", "statement": "For a table of the documented shape `validate_config` returns one message per enable/disable entry (main table, then each override) that fails to parse or to load, in order, and the empty list exactly when none fails; an unreadable file or one without fixit settings gives exactly one message.", "quantifier": "every config file, every outcome of loading", "why_tests_cant": "all tables and failure combinations", "anchors": ["src/fixit/config.py:validate_config"]}
{"id": "C33", "title": "Every rule that was collected and dropped has a recorded reason", "statement": "With debug_reasons, each class that some enable entry resolves to is either returned or present in the reasons, never both, and the reason is `disabled`, `tags` or `python-version` according to the first stage that dropped it.", "quantifier": "every configuration", "why_tests_cant": "all configurations", "anchors": ["src/fixit/config.py:collect_rules"]}
{"id": "C34", "title": "Applying no fixes reproduces the file byte for byte", "statement": "Applying an empty selection of violations, only violations without a usable replacement, or only violations for nodes that are not in the file, yields exactly the original tree and code.", "quantifier": "every module tree and every list of non-fixable violations", "why_tests_cant": "all trees", "anchors": ["src/fixit/engine.py:LintRunner.apply_replacements"]}
{"id": "C35", "title": "When replaced nodes are nested the outermost wins", "statement": "If two accepted violations replace a node and one of its descendants, the result is the same as applying only the outer one.", "quantifier": "every tree and every set of replacements", "why_tests_cant": "all nestings at all depths", "anchors": ["src/fixit/engine.py:LintRunner.apply_replacements"]}
{"id": "C36", "title": "Applying fixes does not depend on their order", "statement": "Permuting the accepted violations does not change the resulting code as long as no two of them replace the same node; when two replace the same node the last one is used.", "quantifier": "every tree, every list of violations, every permutation", "why_tests_cant": "all permutations", "anchors": ["src/fixit/engine.py:LintRunner.apply_replacements"]}
{"id": "C37", "title": "Fixes only change the text of the replaced nodes", "statement": "As long as every replacement fits its place (one node for one node; removal or several nodes only where the elements of a sequence carry their own terminators and something of the sequence stays), the fixed code is the original code with the text of each outermost replaced node substituted by the text of its replacement; all other text is preserved in order. (Outside these conditions it can fail: removing the only statement of a line also drops the line's comments.)", "quantifier": "every tree and every list of violations", "why_tests_cant": "frame property over all trees", "anchors": ["src/fixit/engine.py:LintRunner.apply_replacements"]}
{"id": "C38", "title": "The diff shown for a violation is the effect of applying it alone", "statement": "The code on the plus side of a violation's diff is exactly the code obtained by applying only that violation; violations without replacement have no diff.", "quantifier": "every tree and violation", "why_tests_cant": "all trees", "anchors": ["src/fixit/engine.py:diff_violation", "src/fixit/engine.py:LintRunner.collect_violations", "src/fixit/engine.py:LintRunner.apply_replacements"]}
{"id": "C39", "title": "Every recorded violation is yielded exactly once, in rule order", "statement": "`collect_violations` yields the violations recorded by each rule, rule by rule in the given order and in recording order within a rule, with identical rule name, range, message, node and replacement, and returns their number.", "quantifier": "every list of rules and recorded violations", "why_tests_cant": "all lists", "anchors": ["src/fixit/engine.py:LintRunner.collect_violations"]}
{"id": "C40", "title": "Metrics count what was yielded and the hook runs exactly once, at the end", "statement": "When iteration completes, for rules with distinct names the metrics hold the number of violations and of fixable violations of each rule and the total; the hook is called exactly once with them, after the last violation, and not at all if the consumer stops early or the run raises.", "quantifier": "every rule list, every consumer history", "why_tests_cant": "all consumer histories", "anchors": ["src/fixit/engine.py:LintRunner.collect_violations"]}
{"id": "C41", "title": "Per-rule metrics add up to the total when rule names are distinct", "statement": "If the enabled rules have pairwise distinct names and none is called Total, the sum over rules of `Count.<rule>` equals `Count.Total`. (Without these conditions it does not: two classes Foo and FooRule share one counter and the later overwrites the earlier.)", "quantifier": "every list of rules with distinct names, every set of recorded violations", "why_tests_cant": "includes rule classes whose names coincide after the suffix is removed", "anchors": ["src/fixit/engine.py:LintRunner.collect_violations", "src/fixit/rule.py:LintRule.__init__"]}
{"id": "C42", "title": "Linting never modifies files", "statement": "With autofix off and no positive answer sent, running fixit on a file to completion or stopping it anywhere never writes any file, whatever rules, violations or exceptions occur.", "quantifier": "every file content, rule behaviour, consumer history without a positive answer", "why_tests_cant": "all interleavings of consumer and generator", "anchors": ["src/fixit/api.py:fixit_file", "src/fixit/api.py:fixit_bytes", "src/fixit/api.py:fixit_paths"]}
{"id": "C43", "title": "A file is written at most once and only with the fully fixed content", "statement": "A run on a file writes at most once, only to that file, only when the fixed and formatted content differs from what was read, and what is written is exactly the format of the tree with the accepted fixes applied.", "quantifier": "every file, rule set, answers", "why_tests_cant": "all histories", "anchors": ["src/fixit/api.py:fixit_file", "src/fixit/api.py:fixit_bytes"]}
{"id": "C44", "title": "A file yields one clean result or its violations", "statement": "A run on a file that meets no exception yields exactly one result with neither violation nor error when there are no violations (or no rules), and otherwise exactly one result per violation and no clean result.", "quantifier": "every file, rule set, answers", "why_tests_cant": "all executions", "anchors": ["src/fixit/api.py:fixit_bytes"]}
{"id": "C45", "title": "Failures become results, not exceptions", "statement": "Whatever raises while linting (reading, configuring, collecting, parsing, a rule, showing a diff, the metrics hook, formatting, writing), iterating fixit_file never raises; it ends with exactly one error result carrying that path and exception, after the violations already shown, and no file is changed unless it was the write itself that failed part-way.", "quantifier": "every failure point", "why_tests_cant": "all crash points", "anchors": ["src/fixit/api.py:fixit_file", "src/fixit/api.py:fixit_stdin", "src/fixit/api.py:fixit_bytes"]}
{"id": "C46", "title": "Autofix applies every fix and cannot be vetoed", "statement": "With autofix on, a run that completes without an error result leaves the file with the format of the tree with all violations' replacements applied, whatever is sent to the generator (except that empty fixed content is not written, see C53).", "quantifier": "every answer sequence", "why_tests_cant": "all answer histories", "anchors": ["src/fixit/api.py:fixit_bytes", "src/fixit/api.py:fixit_file"]}
{"id": "C47", "title": "Interactive fixing applies exactly the accepted fixes", "statement": "With autofix off, a run that completes without an error result leaves the file with the format of the tree with exactly the replacements of the positively answered violations applied, and unchanged if there is none (except that empty fixed content is not written, see C53).", "quantifier": "every answer sequence", "why_tests_cant": "all 2^n answer histories", "anchors": ["src/fixit/api.py:fixit_bytes", "src/fixit/util.py:capture"]}
{"id": "C48", "title": "Fixing standard input prints the fixed source exactly once", "statement": "With autofix on, once input and configuration are read, a completed fixit_stdin run writes to stdout exactly once, after all violations were shown: the fixed content, or exactly the input when nothing was found, linting failed or the fixed content is empty. A run stopped before prints nothing, with autofix off nothing is ever printed, and unreadable input or configuration yields only that error.", "quantifier": "every input, rules and answers", "why_tests_cant": "all executions", "anchors": ["src/fixit/api.py:fixit_stdin"]}
{"id": "C49", "title": "Stopping early leaves the file untouched", "statement": "If the consumer stops iterating before the end, the file currently being processed is not modified and files processed before it keep exactly their own complete fixes.", "quantifier": "every stopping point", "why_tests_cant": "all crash points", "anchors": ["src/fixit/api.py:fixit_file", "src/fixit/api.py:fixit_paths", "src/fixit/cli.py:fix"]}
{"id": "C50", "title": "Path arguments are dispatched as documented", "statement": "fixit_paths lints standard input exactly when the first path is `-`: under the name `stdin` if all other paths are `-`, under the second path if that is another and the rest are `-`; any other path raises ValueError before anything is linted. Otherwise exactly the files found under the paths other than `-` are linted, in order; the pool is used exactly when parallel is set and the number of files is not one.", "quantifier": "every list of paths", "why_tests_cant": "all lists", "anchors": ["src/fixit/api.py:fixit_paths"]}
{"id": "C51", "title": "Parallel and sequential runs agree", "statement": "For every interleaving of the worker processes and every order in which their lists arrive, a completed parallel run over distinct files that are not part of the configuration or of a rule yields for each file what linting it alone yields, contiguous and in order, the same results as a sequential run up to the order of files, and leaves the same files; linting without fixing needs neither condition. Under every fair schedule the pool comes to an end, even over files that disturb each other. (Findings: fixing the same file given twice races, and answering a result of a parallel run raises AttributeError.)", "quantifier": "every schedule of worker steps, every completion order, every list of files", "why_tests_cant": "all schedules", "anchors": ["src/fixit/api.py:fixit_paths", "src/fixit/api.py:_fixit_file_wrapper"]}
{"id": "C52", "title": "One failing file does not affect the others", "statement": "In a sequential run over distinct files that are not part of the configuration or of a rule, the results and the final content of each file are those of running fixit on that file alone from the same starting point, with the answers used up in order, whatever the other files contain; no other file changes.", "quantifier": "every list of distinct files, every failure pattern", "why_tests_cant": "all combinations", "anchors": ["src/fixit/api.py:fixit_paths", "src/fixit/api.py:fixit_file"]}
{"id": "C53", "title": "A fix that would empty the file is never applied", "statement": "When the accepted fixes reduce the file to empty content, the file keeps its original content throughout and no error is reported; on standard input the original is printed. (One would expect the file to be emptied.)", "quantifier": "every file, rule set, answers", "why_tests_cant": "boundary value of falsy bytes", "anchors": ["src/fixit/api.py:fixit_file", "src/fixit/api.py:fixit_stdin"]}
{"id": "C54", "title": "Every result names the file it is about", "statement": "Each result yielded while processing a path carries that (resolved) path.", "quantifier": "every path, rule set, failure", "why_tests_cant": "all executions", "anchors": ["src/fixit/api.py:fixit_bytes", "src/fixit/api.py:fixit_file"]}
{"id": "C55", "title": "The lint exit status reflects exactly what was found", "statement": "When `fixit lint` exits, whatever the schedule of its worker processes, its status has bit 1 set exactly when some file has a violation and bit 2 exactly when linting some file gives an error; it is 0 exactly when every file is clean, and below 4. With a built-in output format it exits whenever linting completes. (A bad configuration in the current directory makes it raise before linting anything, whatever the paths.)", "quantifier": "every set of files, configuration, format and worker schedule", "why_tests_cant": "all result sequences and schedules", "anchors": ["src/fixit/cli.py:lint", "src/fixit/api.py:print_result"]}
{"id": "C56", "title": "The summary counts are exact", "statement": "`fixit lint` prints the report of every result in the order it arrives, then on standard error the number of distinct files visited, the number of distinct files with a violation or error, and the number of fixable violations; 'N files clean' exactly when there is nothing to report.", "quantifier": "every result sequence and schedule", "why_tests_cant": "all result sequences, repeated paths", "anchors": ["src/fixit/cli.py:lint", "src/fixit/cli.py:splash"]}
{"id": "C57", "title": "Interactive `fix` applies what the user accepted", "statement": "`fixit fix` prompts exactly for fixable violations (never for standard input). At any point of a session over distinct files, a file all of whose prompts were replied to with yes or no has, unless an error was reported for it, the original content with exactly the accepted fixes applied; every other file, in particular the one where the user quits, is untouched. The exit status is 0 and the summary counts accepted (or, when automatic, all) fixable violations. (So accepted fixes in the file where the user quits are discarded though counted as applied, and errors do not show in the status.)", "quantifier": "every reply sequence including quitting and aborting, every set of files", "why_tests_cant": "all reply histories", "anchors": ["src/fixit/cli.py:fix", "src/fixit/cli.py:upgrade", "src/fixit/util.py:capture"]}
{"id": "C58", "title": "The --rules option parses to the sorted set of named rules", "statement": "`--rules` accepts a comma-separated list, ignores blanks and empty entries, and yields the listed rules sorted and without duplicates, whatever the set iteration order; it fails with ConfigError on an invalid reference.", "quantifier": "every string", "why_tests_cant": "all strings", "anchors": ["src/fixit/cli.py:main", "src/fixit/config.py:parse_rule"]}
{"id": "C59", "title": "capture is transparent", "statement": "Iterating `capture(g)` yields exactly the values `g` yields, in order, with the same effects and the same end (return or exception). Whatever a consumer does in any order (responses, sends, new iterators), the values it gets are those of one run of `g` from its start.", "quantifier": "every generator and consumer history", "why_tests_cant": "all generators and histories", "anchors": ["src/fixit/util.py:capture"]}
{"id": "C60", "title": "capture delivers each response exactly once", "statement": "A value passed to `respond` (or sent) between two steps is received by the wrapped generator at its very next resumption and at no other; without one it receives None; if several are passed the last is used, and a sent value wins over a response. A response given before the first value is not delivered: the iteration then fails with TypeError without starting the generator.", "quantifier": "every response history", "why_tests_cant": "all histories", "anchors": ["src/fixit/util.py:capture"]}
{"id": "C61", "title": "capture.result is the generator's return value", "statement": "After exhaustion `result` is the wrapped generator's return value; before that, or if it raised or iteration was abandoned, reading it raises ValueError. Starting another iteration after the end replaces the result by None.", "quantifier": "every generator and history", "why_tests_cant": "all histories", "anchors": ["src/fixit/util.py:capture"]}
{"id": "C62", "title": "The last version of a document is validated", "statement": "In every history of edits, notifications and thread steps with debouncing: when a document of a file is edited and announced for the last time and later all its validations are over, diagnostics of that version have been published, and they are those of the text the document then has under a configuration of its path, unless the configuration could not be generated. Every validation whose thread keeps getting to run comes to an end, whatever else goes on for ever, so if the threads of its validations do, the diagnostics of the last version are eventually published. They need not be the last ones published: an older validation already under way may publish after it.", "quantifier": "every interleaving of edits, notifications, file changes and timer-thread steps for any number of documents", "why_tests_cant": "schedules are unbounded", "anchors": ["src/fixit/lsp.py:Debouncer", "src/fixit/lsp.py:debounce", "src/fixit/lsp.py:LSP._validate"]}
{"id": "C63", "title": "One waiting validation per document, none published twice", "statement": "At any time at most one validation of a document waits for its timer, the one for the last notification; each notification is answered by at most one publication, which carries its version; a notification followed by another before its timer ran is never answered.", "quantifier": "every interleaving", "why_tests_cant": "schedules", "anchors": ["src/fixit/lsp.py:Debouncer", "src/fixit/lsp.py:LSP.validate"]}
{"id": "C64", "title": "Documents do not disturb each other", "statement": "The diagnostics published and format replies sent for a document, in order, are those of the same history with all events of other documents left out (documents of the same path share a configuration cache entry and are excepted).", "quantifier": "every interleaving of events on any number of documents", "why_tests_cant": "schedules", "anchors": ["src/fixit/lsp.py:LSP.validate", "src/fixit/lsp.py:LSP.load_config"]}
{"id": "C65", "title": "A non-positive debounce interval validates synchronously", "statement": "With interval <= 0 a notification of a document is answered before anything else happens, by exactly one publication with its version and the diagnostics of its present text under its configuration; by none if it is no file, cannot be read, or its configuration cannot be generated.", "quantifier": "every server state and notification", "why_tests_cant": "all sequences", "anchors": ["src/fixit/lsp.py:debounce", "src/fixit/lsp.py:LSP._validate"]}
{"id": "C66", "title": "Published diagnostics mirror the violations", "statement": "The diagnostics made of a document are exactly one per violation in order, with zero-based lines, same columns, message and rule name; errors and clean results contribute none. Everything published in any history is for a file URI, answers a notification, and mirrors the violations of a text the document had at that notification or later (it may be a newer one than the version says) under a configuration its path had.", "quantifier": "every document, every history of edits, notifications, file changes, requests and thread steps", "why_tests_cant": "all lists and histories", "anchors": ["src/fixit/lsp.py:LSP._validate", "src/fixit/lsp.py:LSP.diagnostic_generator"]}
{"id": "C67", "title": "LSP formatting applies all fixes to the document", "statement": "A format request of an open document is answered without an edit when nothing is found, linting fails, or the result is empty; otherwise with one edit which, applied as the protocol says to a text with ordinary line breaks in the BMP, gives the content with all fixes applied followed by the document's final line terminator (so a document ending in a newline gets one more). For an empty document the request fails instead.", "quantifier": "every document, configuration and rules", "why_tests_cant": "all documents incl. trailing newline", "anchors": ["src/fixit/lsp.py:LSP.format"]}
{"id": "C68", "title": "The LSP settles on one configuration per path", "statement": "Every configuration used is one generated from the files of the path at some time of the history; after a publication for a path with no validation and no format request of it under way, every later publication for the path uses one and the same configuration, whatever happens to the files (configuration edits are not seen until a restart). With a format request under way it need not: the request may still store an older configuration.", "quantifier": "every history of requests and config edits, every interleaving of threads", "why_tests_cant": "histories and schedules", "anchors": ["src/fixit/lsp.py:LSP.load_config"]}
{"id": "C69", "title": "Formatting uses the configured formatter and nothing else", "statement": "The bytes returned after fixes are the output of the configured formatter on the fixed module, and the module's own bytes when no formatter is configured.", "quantifier": "every module and config", "why_tests_cant": "all modules", "anchors": ["src/fixit/format.py:format_module"]}
{"id": "C70", "title": "chdir always restores the working directory", "statement": "Leaving the chdir context restores the working directory, whether the body returned or raised or changed the directory itself, provided the original directory still exists, and passes on the body's outcome; if it is gone, OSError is raised and the directory is left where the body was.", "quantifier": "every body, every set of directories", "why_tests_cant": "all exits", "anchors": ["src/fixit/util.py:chdir"]}
{"id": "C71", "title": "What makes a comment a directive", "statement": "A comment silences something only if it contains a hash, blanks and then text beginning with `lint-ignore` or `lint-fixme`. The word need not end there: a longer word such as `# lint-ignored` is taken for a bare directive and silences every rule.", "quantifier": "every comment, every rule name", "why_tests_cant": "all comment texts", "anchors": ["src/fixit/ftypes.py:LintIgnoreRegex", "src/fixit/rule.py:LintRule.ignore_lint"]}
{"id": "C72", "title": "A violation reported at a position extends to the next line", "statement": "When `report` is given a CodePosition, the recorded range starts there and ends at column 0 of the next line, whatever the position (it never marks the single character).", "quantifier": "every position, rule, comment list", "why_tests_cant": "all positions", "anchors": ["src/fixit/rule.py:LintRule.report"]}
{"id": "C73", "title": "The first directive of each comment decides", "statement": "Of the directives in one comment the first alone decides whether the comment silences a rule, whatever follows it; the first directives of all comments of a node are honoured. A second directive in the same comment is never looked at.", "quantifier": "every comment list, every rule", "why_tests_cant": "all comments", "anchors": ["src/fixit/rule.py:LintRule.ignore_lint"]}
{"id": "C74", "title": "Which names silence a rule", "statement": "For every rule class a directive listing the class name silences the rule, and so does one listing the printed name unless that itself ends in `Rule` (class FooRuleRule, printed FooRule), in which case it never does.", "quantifier": "every rule class name, every directive form", "why_tests_cant": "all names", "anchors": ["src/fixit/rule.py:LintRule.__init__", "src/fixit/rule.py:LintRule.ignore_lint"]}
{"id": "C75", "title": "Local rules are loaded afresh by every reference", "statement": "Each reference to a local module executes that module again, so its classes are new objects: a disable entry for rules of a local module removes nothing that was enabled, and a local rule referenced twice runs twice (finding: contradicts the documentation of disable).", "quantifier": "every configuration with local references, every module tree", "why_tests_cant": "all configurations; depends on class identity across imports", "anchors": ["src/fixit/config.py:local_rule_loader", "src/fixit/config.py:collect_rules"]}
{"id": "C76", "title": "validate-config looks at rule references only", "statement": "The verdict of `validate_config` depends only on the enable, disable and overrides values; it accepts tables that merging rejects (finding) and, as it ignores enable-root-import, rejects references that collecting loads (finding).", "quantifier": "every pair of tables", "why_tests_cant": "all tables", "anchors": ["src/fixit/config.py:validate_config", "src/fixit/config.py:merge_configs"]}
{"id": "C77", "title": "Crash states of a file being fixed", "statement": "If the process dies at any point of a run on a file, the file holds its original content or a prefix of the new content, which is that of the accepted fixes; the empty prefix is reachable, since opening truncates before the bytes are written.", "quantifier": "every crash point, file, rule set, answers, write failure", "why_tests_cant": "Crash points between the opening and the writing of a file cannot be hit by a test, and the claim is about all of them.", "anchors": ["src/fixit/api.py:fixit_file"]}
{"id": "C78", "title": "Files without an applicable fix are rewritten only by a configured formatter", "statement": "If no accepted violation has a replacement, the content to write is the formatter's output on the unchanged module; with no formatter configured the file is never opened for writing. With a formatter, autofix may rewrite such a file.", "quantifier": "every file, rule set, answers, formatter", "why_tests_cant": "It must hold for every module, formatter and set of violations.", "anchors": ["src/fixit/api.py:fixit_bytes", "src/fixit/format.py:format_module"]}
{"id": "C79", "title": "Reports are complete and faithful", "statement": "`print_result` prints nothing exactly for clean results, and says dirty exactly otherwise; a violation is printed as one line with the path, the 1-based line and the column of its start, the rule and the message, followed by the diff when asked for and there is one; an error is printed with its text and traceback. The printed path names the result's file when read from the current directory. Only a custom template can make it raise.", "quantifier": "every result, format, template and working directory", "why_tests_cant": "all results and paths", "anchors": ["src/fixit/api.py:print_result"]}
{"id": "C80", "title": "`fix -` prints the fixed source and nothing else on standard output", "statement": "`fixit fix - [name]`, without `--diff` and `--print-metrics` and with a built-in format, never prompts, exits 0, touches no file, reports on standard error only, and writes to standard output exactly once: the source with all fixes applied, or unchanged when nothing was found or an error was reported. (With `--diff` or `--print-metrics` standard output is polluted by diffs or metrics.)", "quantifier": "every source, configuration and flag", "why_tests_cant": "all inputs", "anchors": ["src/fixit/cli.py:fix", "src/fixit/api.py:fixit_stdin", "src/fixit/api.py:print_result"]}
{"id": "C81", "title": "NoStaticIfCondition reports only conditions that cannot come out both ways", "statement": "The rule reports the condition of an `if` exactly when its text forces its outcome: it is `True` or `False`, the negation of a forced condition, an `or` with an operand forced to be true, or an `and` with an operand forced to be false (parentheses do not matter). A reported condition never comes out differently, whatever the program, the variables and the state. (It is not complete: `True and True` is not reported.)", "quantifier": "every condition, program, binding of variables and state", "why_tests_cant": "unboundedly nested conditions, and all programs around them", "anchors": ["src/fixit/rules/no_static_if_condition.py:NoStaticIfCondition"]}
{"id": "C82", "title": "CollapseIsinstanceChecks keeps the outcome of the condition", "statement": "A chain of `or` with at least two `isinstance` checks of the same target is rewritten to one where the checks of each target are gathered, in order, in a tuple at the place of the target's first check and every other operand is kept in order; the result is not reported again; other chains are left alone. Where the operands have no effects and `isinstance` behaves as documented, the new condition is true exactly when the old one was. (Only the truth value is kept, not the value; and the replacement loses the parentheses of the expression it replaces, so that inside a larger expression the outcome may change: both shown by counterexample.)", "quantifier": "every chain of operands, program, binding and state", "why_tests_cant": "chains of any length, any grouping and any program", "anchors": ["src/fixit/rules/chained_instance_check.py:CollapseIsinstanceChecks"]}
{"id": "C83", "title": "The two comparison rules change exactly the offending operators", "statement": "ComparePrimitivesByEqual reports a comparison exactly when one of its links is `is` or `is not` with a number or string literal on one side, and CompareSingletonPrimitivesByIs exactly when one is `==` or `!=` with `None`, `True` or `False` on one side. The fix changes exactly those operators and keeps all operands, all other operators and the parentheses; the rule does not report its own result. Where `==` against such a literal says what `is` says, the fix does not change what the comparison does. (Where it does not, it may: `x == True` with `x = 1`.)", "quantifier": "every comparison chain, program and state", "why_tests_cant": "chains of any length, any program", "anchors": ["src/fixit/rules/compare_primitives_by_equal.py:ComparePrimitivesByEqual", "src/fixit/rules/compare_singleton_primitives_by_is.py:CompareSingletonPrimitivesByIs"]}
{"id": "C84", "title": "The two comparison rules contradict each other on literal-against-singleton comparisons", "statement": "On a comparison with a link of `is`, `is not`, `==` or `!=` between a number or string literal and `None`, `True` or `False`, one of the two rules always reports, and whatever fix either proposes is such a comparison again: no number of automatic fixes ends with a clean file.", "quantifier": "every comparison with such a link, every choice of fixes", "why_tests_cant": "all sequences of fixes", "anchors": ["src/fixit/rules/compare_primitives_by_equal.py:ComparePrimitivesByEqual", "src/fixit/rules/compare_singleton_primitives_by_is.py:CompareSingletonPrimitivesByIs"]}
{"id": "C85", "title": "NoRedundantLambda reports exactly forwarding lambdas, and its replacement behaves the same when called", "statement": "The rule reports a lambda exactly when it has only plain parameters (no defaults, stars, keyword-only or positional-only ones) and its body is one call with exactly those parameters, in order, as plain positional arguments; the replacement is the function called. If that function expression is a value that evaluates without effects and does not mention the parameters, calling the replacement with as many positional arguments as there are parameters does what calling the lambda does, in every program. (Findings: with `lambda x: x(x)` it proposes `x`; with `lambda x: f()(x)` the replacement calls `f` at once.)", "quantifier": "every expression, program, state and argument list", "why_tests_cant": "all lambdas with any number of parameters, all programs and arguments", "anchors": ["src/fixit/rules/no_redundant_lambda.py:NoRedundantLambda"]}
{"id": "C86", "title": "NoRedundantListComprehension keeps the answer of any/all", "statement": "The rule reports exactly the calls of the names `any` and `all` with one argument that is a list comprehension, and only turns the comprehension into a generator expression. Whenever the original returns, the replacement returns the same; when the original raises, the replacement raises the same exception or has already returned the deciding answer. (Finding: an asynchronous comprehension becomes an asynchronous generator, which any/all cannot iterate.)", "quantifier": "every call, every program and state, every iteration", "why_tests_cant": "all iterables, elements, effects and exceptions", "anchors": ["src/fixit/rules/no_redundant_list_comprehension.py:NoRedundantListComprehension"]}
{"id": "C87", "title": "RewriteToLiteral rewrites exactly the container calls that are literals, to the same value", "statement": "The rule reports exactly `tuple()`, `list()`, `dict()`, and `tuple`/`list`/`set`/`dict` of one list or tuple display (for dict, of two-item displays), and the replacement is the literal with the same items, in order. With a plain positional argument and no stars in dict pairs, the replacement does exactly what the call did in every program where the names are the builtins. (Findings: `dict(a=[])` becomes `{}`, `list(*[x])` becomes `[x]`, and a star in a pair is dropped.)", "quantifier": "every call, any number of items, every program and state", "why_tests_cant": "all displays of any size and all programs", "anchors": ["src/fixit/rules/rewrite_to_literal.py:RewriteToLiteral"]}
{"id": "C88", "title": "RewriteToComprehension rewrites exactly list/set/dict calls of comprehensions, to the same value", "statement": "The rule reports exactly `list`, `set` and `dict` of one generator expression or list comprehension (for dict, with a display as element), and the replacement is the comprehension with the same clauses. With a plain positional argument, and two plain items per pair for dict, the replacement does exactly what the call did in every program where the names are the builtins. (Findings: it crashes on a dict of displays with fewer than two items, drops the items after the second, and drops a star on the argument.)", "quantifier": "every call, any clauses, every program and state", "why_tests_cant": "all comprehensions and all programs", "anchors": ["src/fixit/rules/rewrite_to_comprehension.py:RewriteToComprehension"]}
{"id": "C89", "title": "The unittest rules replace assertions by equivalent ones", "statement": "UseAssertIn, UseAssertIsNotNone, DeprecatedUnittestAsserts and NoAssertTrueForComparisons report exactly the calls on `self` that they document and propose exactly the corresponding assertion on the same operands. For the first three the new call does what the old one did: evaluates the same operands in the same order and passes or fails in the same states. (Finding: the fourth takes any literal second argument for an expected value, also `msg=None`, and then changes a passing test into a failing one.)", "quantifier": "every call expression, every program and state", "why_tests_cant": "all operands, all programs", "anchors": ["src/fixit/rules/use_assert_in.py:UseAssertIn", "src/fixit/rules/use_assert_is_not_none.py:UseAssertIsNotNone", "src/fixit/rules/deprecated_unittest_asserts.py:DeprecatedUnittestAsserts", "src/fixit/rules/no_assert_true_for_comparison.py:NoAssertTrueForComparisons"]}
{"id": "C90", "title": "Test code is moved left by its common margin, and only that", "statement": "The code and expected replacements of a rule's test cases lose one leading newline and then the longest run of spaces and tabs common to all lines that are not blank; blank lines become empty; nothing else changes. Indenting the whole text further does not change what is tested.", "quantifier": "every text, any number of lines, any mix of spaces and tabs", "why_tests_cant": "all texts and margins", "anchors": ["src/fixit/testing.py:_dedent"]}
{"id": "C91", "title": "A rule test case passes exactly when linting and fixing the code give what the case says", "statement": "A `Valid` case passes exactly when the rule reports nothing on its code. An `Invalid` case passes exactly when the rule reports something, each report has the given range and message (where given), and, if a non-empty replacement is given, applying all the fixes gives that text and a single report carries a fix and the diff of that fix. A passing case predicts what fixing a file with that code, rule and config does. (Finding: an empty expected replacement is never checked.)", "quantifier": "every rule, test case, config and state of the file system", "why_tests_cant": "all rules and cases", "anchors": ["src/fixit/testing.py:LintRuleTestCase._test_method"]}
{"id": "C92", "title": "`fixit test` runs each case of each selected rule once and its exit code says whether all passed", "statement": "Each Valid and Invalid entry of a rule gives one test method of its own name. `fixit test` with well-formed references runs every case of every rule class the references resolve to, exactly once, and exits with 0 if all pass and 1 otherwise. (Findings: if no reference can be loaded it exits with 0 having tested nothing; of two rule classes with the same name `add_lint_rule_tests_to_module` keeps only the later.)", "quantifier": "every list of references, import system and set of rules, any number of cases", "why_tests_cant": "all rules, numbers of cases, and import outcomes", "anchors": ["src/fixit/testing.py:gen_test_methods_for_rule", "src/fixit/testing.py:generate_lint_rule_test_cases", "src/fixit/testing.py:add_lint_rule_tests_to_module", "src/fixit/cli.py:test"]}
{"id": "C93", "title": "From configuration to exit status: what is reported is what the selected rules say and no comment silences", "statement": "For a file that can be read, configured, parsed and visited: linting reports exactly the calls of `report` that visitors of the rule classes selected by the configuration make on nodes with no silencing comment associated, each with its message (or the class's), range and fix; the file is clean exactly when there is none. When every file can be linted, `fixit lint` exits with 1 if there is such a report in some file and with 0 otherwise, under every schedule, changing nothing; `fixit fix --automatic` leaves a file without such reports as it is and applies exactly the fixes of those there are. Fixing depends on no file being fixed unless it is named like a configuration file, or imported or read by rules. When linting fails before that (the given configuration file is missing or not TOML, no rules can be made, the file cannot be parsed, a visitor raises, or an unsilenced report has no message) the one result for the file is that error and nothing is written. Fixed content is written in the style the configuration names.", "quantifier": "every configuration tree, import system, set of rules and visitors, comments, files, options and worker schedule", "why_tests_cant": "composition over all configurations, rules and sources", "anchors": ["src/fixit/api.py:fixit_file", "src/fixit/config.py:generate_config", "src/fixit/config.py:collect_rules", "src/fixit/rule.py:LintRule.report", "src/fixit/cli.py:lint", "src/fixit/cli.py:fix"]}
{"id": "C94", "title": "`--rules` and `upgrade` replace the configured rules and nothing else selects", "statement": "With `--rules` the rules used on a file are exactly the classes the given references lead to that pass the given tags and the Python version, whatever the configuration files enable or disable; without it they are those last mentioned as enabled by the tables that apply. `fixit upgrade` changes a file exactly by the fixes reported by classes found in `fixit.upgrade` and not silenced, whatever is configured or given.", "quantifier": "every command line, configuration, import system and set of files", "why_tests_cant": "all combinations of options and configurations", "anchors": ["src/fixit/cli.py:main", "src/fixit/cli.py:upgrade", "src/fixit/config.py:generate_config"]}
{"id": "C95", "title": "`fixit debug` shows the rules linting would use", "statement": "With `rich` installed, `fixit debug` shows, for each path in turn, the configuration linting the path would use, the names of exactly the rules it would run, sorted, and exactly the classes dropped, sorted, each with the reason (disabled, tags, python-version). It stops at the first exception: one of reading the configuration or collecting the rules, before anything is shown for that path, or one of making an instance of a dropped class, after the rules in use were shown (finding: such a class is no obstacle to linting). Finding: without `rich`, which is not among the dependencies, it shows nothing for any path and always ends with an exception.", "quantifier": "every path, configuration and import system", "why_tests_cant": "all configurations", "anchors": ["src/fixit/cli.py:debug", "src/fixit/config.py:collect_rules", "pyproject.toml:optional-dependencies"]}
{"id": "C96", "title": "Rules visited together do not influence each other", "statement": "When several rules visit one module in the same pass, each rule that only reads shared metadata reports exactly what it would report if it were alone, in the same order, whatever the other such rules do; the pass fails exactly when one of them fails alone. Each `Duration.<rule>.<method>` metric is the time the calls of that method took together.", "quantifier": "every list of rules of which none changes shared metadata, every module and metadata", "why_tests_cant": "all combinations of rules and modules", "anchors": ["src/fixit/engine.py:LintRunner.collect_violations", "src/fixit/rule.py:LintRule.get_visitors"]}
{"id": "C97", "title": "NoRedundantArgumentsSuper reports exactly the calls that name the classes around them", "statement": "`super(A.B, x)` is reported, and becomes `super()`, exactly when the first argument is the dotted path of all class statements around the call, outermost first; the second argument and functions in between do not matter. No node is reported twice and the rule never fails.", "quantifier": "every module, every nesting of classes", "why_tests_cant": "all modules and depths of nesting", "anchors": ["src/fixit/rules/no_redundant_arguments_super.py:NoRedundantArgumentsSuper"]}
{"id": "C98", "title": "UseAsyncSleepInAsyncDef reports exactly `time.sleep` directly in an `async def`", "statement": "A call is reported exactly when its first qualified name is `time.sleep`, the innermost function definition around it is an `async def`, and no other function definition inside that `async def` comes before the call. No node is reported twice and the rule never fails.", "quantifier": "every module and metadata", "why_tests_cant": "all modules and depths of nesting", "anchors": ["src/fixit/rules/use_async_sleep_in_async_def.py:UseAsyncSleepInAsyncDef"]}
{"id": "C99", "title": "UseTypesFromTyping reports exactly builtin types inside annotations", "statement": "When it does not fail, the rule reports exactly the names `dict`, `list`, `set`, `tuple` inside an annotation, at any depth, all of whose qualified names are builtin; a fix is offered exactly when the name in `typing` is known in the scope. It fails exactly when libCST has no scope information for such a name. No node is reported twice.", "quantifier": "every module and metadata", "why_tests_cant": "all modules, depths of nesting and scopes", "anchors": ["src/fixit/rules/use_types_from_typing.py:UseTypesFromTyping"]}
{"id": "C100", "title": "NoStringTypeAnnotation reports exactly quoted annotations outside `Literal`", "statement": "When it does not fail, the rule reports exactly the strings inside an annotation, not inside a `Literal[…]` in that annotation, that come after `from __future__ import annotations`; the fix is the expression in the string, and there is none when the string is not an expression. It fails exactly when such a string cannot be decoded. No node is reported twice.", "quantifier": "every module whose annotations and subscripts hold no imports, every metadata", "why_tests_cant": "all modules and depths of nesting", "anchors": ["src/fixit/rules/no_string_type_annotation.py:NoStringTypeAnnotation"]}
{"id": "C101", "title": "DeprecatedABCImport: exactly what is reported and how it is fixed", "statement": "The rule never fails and reports exactly: `from collections import` of names that all moved, outside `except` clauses (the module becomes `collections.abc`); the module, when some such import mixes names, with every statement that holds the last such import replaced by two imports; `import collections.<ABC>`; classes with a base `collections.<ABC>`, once for each such base, with all such bases replaced.", "quantifier": "every module", "why_tests_cant": "all modules and depths of nesting", "anchors": ["src/fixit/rules/deprecated_abc_import.py:DeprecatedABCImport"]}
{"id": "C102", "title": "The upgrade rules for renamed classes: exactly what each reports, and what they do to each other", "statement": "Alone, `FixitDeprecatedImport` never fails and reports exactly the imports of the four old names from `fixit` and the names that mean them; alone, `FixitRemoveRuleSuffix` fails exactly when a class has a base without qualified names and otherwise reports exactly the classes named `…Rule` with a base `fixit.LintRule`. Together, no name that is a base of a class and has one qualified name is ever renamed.", "quantifier": "every module and metadata; for the last claim every list of rules that add no metadata, in any order", "why_tests_cant": "all modules; the tests run each rule alone", "anchors": ["src/fixit/upgrade/deprecated_import.py:FixitDeprecatedImport", "src/fixit/upgrade/remove_rule_suffix.py:FixitRemoveRuleSuffix", "src/fixit/engine.py:LintRunner.collect_violations"]}
{"id": "C103", "title": "The upgrade of test cases keeps every other argument", "statement": "When it does not fail, `FixitDeprecatedTestCaseKeywords` reports exactly the calls of `fixit.InvalidTestCase` or `fixit.ValidTestCase` with one of the keywords line, column, config, filename, kind; the new arguments are all others, in order, and then a range made from `line` and `column` (0 when there is none), if `line` was given. It fails exactly when the text made for the range is not an expression.", "quantifier": "every module, metadata, printer and parser", "why_tests_cant": "all calls and arguments", "anchors": ["src/fixit/upgrade/deprecated_testcase_keywords.py:FixitDeprecatedTestCaseKeywords"]}
{"id": "C104", "title": "SortedAttributes sorts exactly the plain assignments of marked classes and only moves lines", "statement": "A class is looked at exactly when its doc string holds `@sorted-attributes`. When the rule does not fail, it reports the class exactly when its assignments are not in order of their names; the fix has the same lines: those before the first assignment, the assignments sorted by name (assignments to the same name keep their order), then the others; a fixed class is not reported again. The rule fails exactly when an assignment's target cannot be ordered by name.", "quantifier": "every class body", "why_tests_cant": "all class bodies and orders", "anchors": ["src/fixit/rules/sorted_attributes_rule.py:SortedAttributes"]}
{"id": "C105", "title": "NoInheritFromObject removes `object` from the bases and keeps the method resolution order", "statement": "A class is reported exactly when one of its bases is written `object`; the new bases are the others, in order. When the class statement works and `object` is the builtin, the changed statement works and gives the same method resolution order.", "quantifier": "every list of bases and every class hierarchy", "why_tests_cant": "all hierarchies: the order is computed by a merge of the orders of all bases", "anchors": ["src/fixit/rules/no_inherit_from_object.py:NoInheritFromObject"]}
{"id": "C106", "title": "NoNamedTuple removes exactly the NamedTuple bases and adds one decorator", "statement": "A class is reported exactly when one of its bases is `typing.NamedTuple`; all of those go, the others stay in order, and `dataclass(frozen=True)` is applied before the decorators that are there. A fixed class is not reported again.", "quantifier": "every list of bases and decorators, every metadata", "why_tests_cant": "all lists of bases", "anchors": ["src/fixit/rules/no_namedtuple.py:NoNamedTuple"]}
{"id": "C107", "title": "AvoidOrInExcept reports only handlers whose second operand is dead", "statement": "The rule reports exactly the `try` statements with a single handler whose type is an `or`; when asking an exception class for its truth value gives true, such a handler catches exactly what its left operand says.", "quantifier": "every try statement, program state and environment", "why_tests_cant": "all expressions and states", "anchors": ["src/fixit/rules/avoid_or_in_except.py:AvoidOrInExcept"]}
{"id": "C108", "title": "ReplaceUnionWithOptional reports exactly two-member unions with None and keeps the type", "statement": "The rule reports exactly the annotations `Union[X, None]` and `Union[None, X]`; it offers `Optional[X]` exactly when `Optional` is known in the scope and `X` is not `None`; without stars the new annotation means the same type.", "quantifier": "every annotation, scope and meaning of the member types", "why_tests_cant": "all annotations", "anchors": ["src/fixit/rules/replace_union_with_optional.py:ReplaceUnionWithOptional"]}
{"id": "C109", "title": "NoRedundantFString keeps the value", "statement": "The rule reports exactly the f-strings that consist of one piece of text; the replacement is a plain string literal with the same value, the same quotes, and raw exactly when the f-string is.", "quantifier": "every f-string without fields: all prefixes, quotes, texts (with escapes and doubled braces) and Unicode name tables", "why_tests_cant": "all texts of a literal, with every mix of escapes and braces", "anchors": ["src/fixit/rules/no_redundant_fstring.py:NoRedundantFString"]}
{"id": "C110", "title": "UseFstring makes an f-string with the value of the formatting", "statement": "For a text literal and any right operand of `%`, the rule always reports; it offers a replacement exactly when the format has a `%` and only `%s`, the operand is short, and there is an expression for each `%s` whose literals can be requoted: a literal with the quotes of the format gets the first of `'`, `\"`, `'''`, `\"\"\"` that is another one and does not occur in its text, and any other literal stays as it is. For a format without escapes that make a percent sign or name a character, and fields without special characters or the literal's quotes, the replacement is an f-string whose pieces are the characters of the format with the expressions in the holes; each expression has the value of the operand it comes from, and the f-string evaluates to the same text as the formatting when there are exactly as many operands as holes, without `*`, and a single operand is not a tuple. `\"…\".format` calls are reported and never fixed; bytes and other operands are left alone.", "quantifier": "every literal (prefix, quote, text), operand expression, source rendering, evaluator of literals, and program state", "why_tests_cant": "all formats, expressions and states", "anchors": ["src/fixit/rules/use_fstring.py:UseFstring", "src/fixit/rules/use_fstring.py:EscapeStringQuote", "src/fixit/rules/use_fstring.py:_match_simple_string", "src/fixit/rules/use_fstring.py:_gen_match_simple_expression"]}
{"id": "C111", "title": "UseClsInClassmethod renames the first parameter without changing what names mean", "statement": "The rule reports exactly the class methods whose first plain parameter is not `cls` or that have none; it offers no fix exactly when there is no scope information or `cls` already means something in the function's scope. When a parameter is renamed, all names stay in place, each still means the variable of the same scope, exactly those that mean the parameter are now called `cls`, and decorators, defaults and annotations are unchanged (provided neither name is declared global/nonlocal inside, the parameter's name is not also bound by import/def/class nor used in a quoted annotation, no unknown `cls` is used, and the parameter is not used where `cls` means something). The replacement is not reported again.", "quantifier": "every class method, with every nesting of functions, lambdas, comprehensions and classes inside it, and all scopes around it", "why_tests_cant": "all nestings of scopes and uses of names", "anchors": ["src/fixit/rules/cls_in_classmethod.py:UseClsInClassmethod", "src/fixit/rules/cls_in_classmethod.py:_RenameTransformer"]}
{"id": "C112", "title": "ExplicitFrozenDataclass adds exactly one option", "statement": "Exactly the decorators that are `dataclasses.dataclass` and in which `frozen=` is not written are reported; decorating with the replacement calls `dataclass` on the class with the same options, in the same order, followed by `frozen=True`; the replacement is not reported again.", "quantifier": "every list of decorators, with all arguments, and every program state", "why_tests_cant": "all decorators and options", "anchors": ["src/fixit/rules/extra/explicit_frozen_dataclass.py:ExplicitFrozenDataclass"]}
{"id": "C113", "title": "UseLintFixmeComment reports exactly the comments that start with `# noqa`", "statement": "A comment is reported exactly when its text starts with `# noqa`, in any mix of upper and lower case.", "quantifier": "every comment text", "why_tests_cant": "all comment texts", "anchors": ["src/fixit/rules/extra/use_lint_fixme_comment.py:UseLintFixmeComment"]}
{"id": "C114", "title": "Fixing with the bundled expression rules comes to an end", "statement": "With either of the two rules about comparisons (but not both) and all other bundled rules that rewrite expressions, fixes can be applied one after another, each at any node and in any order, fewer than four times as often as the expression has nodes; so a state where no rule offers anything is always reached. With both rules about comparisons there are expressions that can be fixed forever.", "quantifier": "every expression, every sequence of offered fixes at every node, every answer of libCST's metadata at every step", "why_tests_cant": "A test applies one fix once; termination is about all sequences of fixes of all rules on all expressions.", "anchors": ["src/fixit/rules/", "src/fixit/engine.py:LintRunner.collect_violations", "src/fixit/rule.py:LintRule.report"]}
{"id": "C115", "title": "A fix makes its own violation go away", "statement": "For every bundled rule and upgrade rule with a fix, the rule does not report its own replacement, whatever the metadata say about it (rule.py documents this for `replacement`). The exceptions are exactly: a redundant lambda whose called expression is itself a redundant lambda, a class named `...RuleRule`, an annotation string that holds a string, and a module with several imports that mix names.", "quantifier": "every node, every replacement, every state of the rule and all metadata", "why_tests_cant": "INVALID cases compare one expected replacement and do not lint it again.", "anchors": ["src/fixit/rule.py:LintRule.report", "src/fixit/rules/", "src/fixit/upgrade/"]}
{"id": "C116", "title": "What one rule reports about a file does not depend on the other rules", "statement": "For a file that can be linted, the violations carrying the name of a selected rule are exactly what that rule reports when it visits the module alone, without what comments silence, in the same order, if no selected rule changes shared metadata and rule names are distinct. So two runs with the same root whose configurations both select the rule report the same violations of it, whatever else they select. But if one selected rule raises on the module, nothing is reported about the file except one error, and the file is not changed. The error is that of the first step of the walk at which a rule raises, in the order of the rules, unless a report made before it is not silenced and has no message, then it is a `ValueError`. Unless a selected rule depends on repository-wide metadata, the repository is not looked at; otherwise a failure there is the error of the file, before any rule has visited it.", "quantifier": "every environment, file, configuration and set of rules that only read shared metadata", "why_tests_cant": "all combinations of rules, files and comments", "anchors": ["src/fixit/engine.py:LintRunner.collect_violations", "src/fixit/rule.py:LintRule.report", "src/fixit/rule.py:LintRule.get_visitors", "src/fixit/api.py:fixit_bytes"]}
{"id": "C117", "title": "Every rule class can report and be silenced, and AUTOFIX says whether a fix is known", "statement": "However a rule class is derived from `LintRule` and whatever `METADATA_DEPENDENCIES` it declares, the metadata computed for it include positions and parents, everything it declares and everything its ancestors need; its `METADATA_DEPENDENCIES` are the declared (or else inherited) ones, with the parent provider added once at the end if it is missing. `AUTOFIX` is true if a case of the class's `INVALID` (own or inherited) has a non-empty expected replacement, and otherwise as declared or inherited; so in a line of classes that do not set it, it is true exactly when the class or one it is derived from has such a case in its own `INVALID` (a derived class cannot take it back by another `INVALID`).", "quantifier": "every class body and method resolution order that contains `LintRule`", "why_tests_cant": "all class hierarchies", "anchors": ["src/fixit/rule.py:LintRule.__init_subclass__", "src/fixit/engine.py:LintRunner.collect_violations"]}
{"id": "C118", "title": "Fixing with the formatter black", "statement": "With `formatter = \"black\"` and a file that is linted without an error: when at least one violation is accepted, the fixed code formatted by black is written if black changes something in it and its checks pass. If black has nothing to change in the fixed code, the violations are followed by an error (`NothingChanged`), and the fix is not written. So `fix --automatic` on a file in black's style all of whose violations have no fix reports an error for that file. If black cannot be used on the fixed code (its configuration is broken, the file is not UTF-8, it cannot format the code, or its checks fail), that error follows the violations and the file stays as it was.", "quantifier": "every file, rules, answers and behaviour of black", "why_tests_cant": "all files and fixes; black is run by no test of the repository", "anchors": ["src/fixit/format.py:BlackFormatter.format", "src/fixit/format.py:format_module", "src/fixit/api.py:fixit_bytes"]}
{"id": "C119", "title": "Configuration and collection errors survive the way between processes", "statement": "An error made by `ConfigError(...)` or `CollectionError(...)` in the process that lints a file is rebuilt in the parent as an error of the same class with the same message, rule and configuration. (With the inherited `__reduce__` no `CollectionError` could be rebuilt.)", "quantifier": "every message, rule reference and configuration", "why_tests_cant": "all messages and references", "anchors": ["src/fixit/config.py:CollectionError", "src/fixit/config.py:ConfigError"]}
{"id": "C120", "title": "Results come back from the process pool, or the run breaks", "statement": "When several files are linted or fixed in parallel, a run that completes yields, file by file in some order, what arrives of the results each file gives alone, and leaves the files as fixing each alone would. Results that are not errors arrive unchanged; an error arrives as its exception can be rebuilt. If one file ends in an error that cannot be sent between processes, no run over these files completes: the run raises, and the results of files that had not arrived are lost. If all errors can be sent, a run that only iterates never raises. A single file, or `parallel=False`, is not affected.", "quantifier": "every set of files, rules, schedule of the workers, order of arrival and behaviour of pickling", "why_tests_cant": "all schedules and all exceptions that rules can raise", "anchors": ["src/fixit/api.py:fixit_paths", "src/fixit/api.py:_fixit_file_wrapper", "src/fixit/config.py:CollectionError"]}
{"id": "C121", "title": "What the bundled rules report about a file", "statement": "Linting a file with bundled rules (those in `fixit.rules` and `fixit.rules.extra`) gives, for each selected rule, one violation (`DeprecatedABCImport` sometimes more) about exactly the nodes that the rule's documentation describes and that no comment silences: for example each call of `time.sleep` inside an `async def`, each comparison with a link `is`/`is not` to a primitive literal, each `or` of `isinstance` checks in which two have the same target and that is not the left operand of a longer chain. The violation carries the rule's message for that node, with the names filled in, where the node stands, and the rule's fix for it if the rule offers one. The bundled rules do not influence each other: any selection gives the same reports per rule. A file on which the listed conditions for an exception hold for a selected rule (a pair of wrong length in `dict([...])`, a string that cannot be evaluated, unsortable attributes, a scope that cannot be computed) gives one error and no violations; otherwise it is linted.", "quantifier": "every module, every selection of bundled rules, all metadata that fit the module, comments, configuration", "why_tests_cant": "all modules and all selections of rules; the tests run each rule alone on short snippets", "anchors": ["src/fixit/rules/__init__.py", "src/fixit/rules/extra/__init__.py", "src/fixit/engine.py:LintRunner.collect_violations", "src/fixit/rule.py:LintRule.report"]}
{"id": "C122", "title": "What a configuration error says", "statement": "When merging configuration files fails with ConfigError, its text is one of the documented complaints and the complaint is true: it is about one of the files (main table or an override), names the option or shows the offending value as a Python literal that reads back as that value, and all files of lower priority are in order. Conversely, whenever there is something to complain about, merging fails; if the values have the right types and only one complaint is possible, that one is the text. `--rules` complains about the first entry that is no rule reference. The text is what `fixit` prints after `EXCEPTION:` for the file; it does not name the config file. (Findings: an unknown `output-format` is always answered with the literal text `unknown value {value!r}`; a value that should be an array or table is always said to be a `<class 'str'>`.)", "quantifier": "every stack of configuration tables, target path, root, and every string shown", "why_tests_cant": "all tables, all strings with all kinds of quotes and escapes", "anchors": ["src/fixit/config.py:get_sequence", "src/fixit/config.py:get_options", "src/fixit/config.py:parse_rule", "src/fixit/config.py:merge_configs", "src/fixit/api.py:print_result"]}
{"id": "C123", "title": "Adding the tests of rules to a module", "statement": "`add_lint_rule_tests_to_module(attrs, rules)` makes one test class for each rule instance given, in order; afterwards the name of a rule leads to the class of the last rule of that name, and every other attribute is as it was. If the module has a `__package__` string, each class made claims it as its `__module__`; without `__package__` they claim `fixit.testing`; the call fails (AssertionError) exactly if `__package__` is there and is not a string, and then the classes have been added already. (Findings: rule classes, which the docstring asks for, are silently passed over; in a script, where `__package__` is None, the call fails.)", "quantifier": "every dictionary of attributes, every collection of rules and other objects", "why_tests_cant": "all collections of rules with clashing names and all module dictionaries", "anchors": ["src/fixit/testing.py:add_lint_rule_tests_to_module", "src/fixit/testing.py:gen_all_test_methods", "src/fixit/testing.py:generate_lint_rule_test_cases"]}
{"id": "C124", "title": "What `fixit lsp` listens on", "statement": "`fixit lsp` serves exactly the channels asked for, each once and one after the other: first the WebSocket port, then the TCP port (the last one given of each, and only if not zero), then standard input and output unless the last `--stdio` is false. An exception while one is served ends the command with that exception, and the later ones are not served. (Finding: `--tcp` does not turn standard input and output off: they are served when the TCP server ends.)", "quantifier": "every list of options, every behaviour of the channels", "why_tests_cant": "all option lists and all ways a channel can end", "anchors": ["src/fixit/cli.py:lsp", "src/fixit/lsp.py:LSP.start", "src/fixit/ftypes.py:LSPOptions"]}
{"id": "C125", "title": "What `validate-config` says", "statement": "For every settings table, whatever its values, the messages `validate_config` returns are exactly these: for each value where a rule is expected (global enable, global disable, then enable and disable of each override in order; strings letter by letter, tables key by key) nothing if it is a reference that loads, `Failed to import rule …` with the exception if it does not load, `Failed to parse rule …: ConfigError: invalid rule name …` with the value as a Python literal if it is no reference, `Failed to parse rule …: TypeError` if it is no string; the first setting of a type that cannot be iterated over, override that is no table or path that is no string ends the list with one `Invalid config: …`. The path of an override is shown in a form that leads to the same place. (Finding: everything after such a setting goes unvalidated.)", "quantifier": "every settings table, import system and exception", "why_tests_cant": "all tables with all kinds of values in all places", "anchors": ["src/fixit/config.py:validate_config", "src/fixit/config.py:parse_rule"]}
{"id": "C126", "title": "Collecting rules in several threads at once", "statement": "The language server validates each document in its own thread, and all of them change `sys.path` and `fixit.local`. For every order of their steps: `sys.path` always begins with what was there before, followed by each root-import directory as often as there are threads that added it and have not removed it; removing never fails, and when all threads have ended `sys.path` is what it was; absolute references are looked for only there; a thread whose root-import directory no other thread shares has it on `sys.path` in each of its imports; every reference is looked for, in order, and no thread waits for another. As long as no two threads are in the part that changes `fixit.local`, each local reference gets its module from its own directory, or nothing if it is not there. (Findings: threads sharing a root directory can lose it; overlapping local loads can get another directory's rules, or none.)", "quantifier": "every number of threads, every list of references, every schedule", "why_tests_cant": "all interleavings of all threads", "anchors": ["src/fixit/util.py:append_sys_path", "src/fixit/config.py:local_rule_loader", "src/fixit/config.py:find_rules", "src/fixit/config.py:collect_rules", "src/fixit/lsp.py:Debouncer"]}
{"id": "C127", "title": "Formatting while documents are validated", "statement": "Timer threads may validate while a format request is served, in any interleaving. Every format request is replied to exactly once, after a bounded number of its own steps. If the document is open and its text does not change meanwhile, the reply is the one a format request answered at once would give, with this text, the files at the time of linting, and the configuration that was cached for the document's path at one moment in between; with nothing in between it is exactly that.", "quantifier": "every history and interleaving, every number of documents and requests", "why_tests_cant": "interleavings of threads", "anchors": ["src/fixit/lsp.py:LSP.format", "src/fixit/lsp.py:LSP.diagnostic_generator", "src/fixit/lsp.py:LSP.load_config"]}
{"id": "C128", "title": "A failing rule test names the first discrepancy", "statement": "The assertion of a VALID test case fails exactly when its code is linted and the rule reports something, and it then shows every report with its diff, in order. The assertion of an INVALID test case fails exactly when something is not as the case says, and it is about the first such thing: no report at all (the code is shown as it was written), then the first report in order whose range differs (expected and found range are shown) or, its range agreeing, whose message differs, then, only if all reports agree and the expected replacement is not empty, the text after all the fixes. The last comparison, of the diff of a single report, can fail only for an empty FlattenSentinel, since it compares a diff with itself. Code that cannot be encoded or parsed, a rule that raises, and a diff that cannot be made are errors, never failed assertions.", "quantifier": "every test case, rule, configuration, file system, parser, differ and codec", "why_tests_cant": "which assertion fails first depends on the whole list of reports and on every field of the case; a test shows one combination", "anchors": ["src/fixit/testing.py:LintRuleTestCase._test_method"]}
{"id": "C129", "title": "Everything a run prints, and in which style", "statement": "When `fixit lint` on files exits, then under every schedule of its workers it has printed exactly the reports of each file, as linting that file alone gives them, file after file in some order, each with its line (path as seen from the current directory, line, column, rule, message, a note when there is a fix), its diff when asked for and there is one, or the error with its traceback, and then on standard error the summary of the distinct files, those with something to report and the fixes available; nothing else. `fixit fix --automatic` prints the same in the order of the files, counting the fixes as applied. Interactive `fixit fix` prints, at whatever point it is, the reports of the results so far, each with its diff, asking about each fixable one, and if it has ended the summary, which counts the fixable ones as available and those replied to with yes as applied. The style is the one given with --output-format and --output-template, else that of the nearest configuration file of the current directory (not of the files linted) that sets one, whatever its tables for sub-directories say, else `fixit`.", "quantifier": "every set of files, results, configuration tree, options, working directory, replies and worker schedule", "why_tests_cant": "all results, configurations and schedules", "anchors": ["src/fixit/cli.py:lint", "src/fixit/cli.py:fix", "src/fixit/cli.py:splash", "src/fixit/api.py:print_result", "src/fixit/config.py:generate_config"]}
{"id": "C130", "title": "Standard input is treated as the file it stands for", "statement": "If the content on standard input were saved as the named file (which takes no part in configuration or rules, and nothing that is written fails), then: `fixit_stdin(name)` yields, for any answers, the same results, ends in the same way and calls the metrics hook the same as `fixit_file(name)` on that file, changes no file, and when fixing prints exactly what the file would become; `fixit lint - name` prints the same with the same exit status as `fixit lint name`; `fixit fix - name`, whatever the flags, prints the same texts as `fixit fix --automatic name`, asks nothing, exits 0 and writes to standard output what the other makes of the file. If the configuration for the name cannot be read, `fix -` exits 0 with nothing on standard output, so the source is lost to a pipe (finding).", "quantifier": "every content, configuration, set of rules, answers, options, working directory, file on disk under that name and worker schedule", "why_tests_cant": "two code paths must agree for every content, configuration, rule and sequence of answers", "anchors": ["src/fixit/api.py:fixit_stdin", "src/fixit/api.py:fixit_file", "src/fixit/api.py:fixit_paths", "src/fixit/cli.py:lint", "src/fixit/cli.py:fix"]}
{"id": "C131", "title": "Linting, fixing and the editor see the same violations", "statement": "Fixing a file, automatically or interactively, whatever is answered and wherever it is stopped, reports what linting it reports: the same results in the same order, or a first part of them when it was stopped, or all of them followed by one error result - and that only if there were violations. What the language server publishes for a document is, one for one and in order, the violations linting would report if a source the document had were saved as its file (and no other file changed meanwhile). A formatting request does what automatic fixing of the saved document does: if that reports no error, either there is no edit and the fixed file is the saved one, or applying the edit gives the text of the fixed file, followed by the final line break of the old text.", "quantifier": "every environment, world, path, list of answers and stopping point; every history of the language server and every publication in it; every open document", "why_tests_cant": "three code paths (lint, fix, editor) over all sources, configurations, rules, answers and interleavings", "anchors": ["src/fixit/api.py: fixit_bytes, fixit_file", "src/fixit/lsp.py: LSP.diagnostic_generator, LSP._validate, LSP.format"]}
{"id": "C132", "title": "Yes to every question is --automatic, no to every question is lint", "statement": "`fixit fix` on distinct files (none of them a configuration file, a local rule or read by one, built-in output format): if every question is answered with yes, it asks about each fixable violation once and exits with 0; each file with a fixable violation becomes exactly what `--automatic` makes of it, with the same results, every other file stays as it is, and all available fixes are counted as applied. If no file has only violations without fix, the exit status, the output (given --diff) and the files are exactly those of `--automatic`. If every question is answered with no, the results are those of linting, no file changes and no fix is counted. Finding: `--automatic` runs the formatter on, and rewrites, files in which it has nothing to fix but which have a violation.", "quantifier": "every environment, world, list of files, output format other than custom, number of violations", "why_tests_cant": "equivalence of two modes over all files, rules, errors and numbers of questions", "anchors": ["src/fixit/cli.py: fix", "src/fixit/api.py: fixit_bytes, fixit_file, fixit_paths", "src/fixit/engine.py: LintRunner.apply_replacements"]}
{"id": "C133", "title": "The options of rules have no effect", "statement": "The `options` tables of the configuration files (for rules, in the main table or in overrides) are checked and merged, but never reach a rule: if in every configuration file they are tables of strings and numbers, taking all of them out changes nothing else in any merged configuration, and every run of `fixit lint`, `fix` and `upgrade` does exactly what it did before: same results, output, exit status and files (finding: the configuration guide describes them as settings of the rules).", "quantifier": "every program (rules, visitors, file system, import system), every content of the configuration files with well-shaped options, all command-line options, paths, answers and worlds", "why_tests_cant": "all configurations and all rules; the absence of an effect", "anchors": ["src/fixit/config.py:merge_configs", "src/fixit/config.py:get_options", "src/fixit/engine.py:LintRunner.collect_violations", "src/fixit/config.py:collect_rules", "docs/guide/configuration.rst:rule-options"]}
{"id": "C134", "title": "A configuration file that is a symbolic link acts where the link leads", "statement": "Configuration files are looked for by name on the way up from the path, but each one found is read, and its tables are scoped, at the place its path leads to after following symbolic links. The configuration of the path is that of merging those tables. So a shared file linked into a project from a directory that is not above the linted file selects no rules there: without a table (or override) for a directory above the path, enabled rules, disabled rules, options, Python version and formatter are the same as if the file were not there, and the default ones if no other file speaks. It still ends the search when it is marked root, and the root of the project is then the directory it leads to. validate-config, in contrast, looks for local rules beside the link, so it can accept a configuration whose rule linting leaves out.", "quantifier": "every path, directory tree, set of links, content of the configuration files, and options", "why_tests_cant": "the claim is about every placement of links and targets relative to every path, and every content of the tables", "anchors": ["src/fixit/config.py:read_configs", "src/fixit/config.py:locate_configs", "src/fixit/config.py:merge_configs", "src/fixit/config.py:validate_config"]}
{"id": "C135", "title": "A sequential run handles the files strictly one after the other", "statement": "Linting or fixing any list of files in one process, including files given several times and files that are themselves part of the configuration or of a rule, yields the results of the files in the given order, each as if it were linted or fixed alone in the state that the files before it have left, and ends in the state the last one leaves. In particular a file given twice is reported twice, before and after its fixes.", "quantifier": "every list of paths, every state of the files, every configuration and rule set", "why_tests_cant": "it ranges over every list of files, with repetitions and dependencies between them, and every state they leave", "anchors": ["src/fixit/api.py:fixit_paths", "src/fixit/api.py:fixit_file"]}
{"id": "C136", "title": "Hash order shows only as the order of results", "statement": "Python iterates sets in an order that differs from process to process. The program gives the same answers all the same: the configuration of a path is identical; rule selection succeeds or fails alike, selects the same rules and warns about the same references; if linting a file goes through in one process it goes through in every process, with the same results up to their order; fixit lint exits with the same status; fixit debug prints exactly the same; and automatic fixing of a file leaves the same content, provided no two usable fixes are for the same node (for rules that do not change shared metadata, and a metrics hook that does not raise). Where two fixes are for the same node, which is applied does depend on the process: the bundled rules ComparePrimitivesByEqual and CompareSingletonPrimitivesByIs always propose different replacements when both report one comparison.", "quantifier": "all programs, configurations, rule sets, visitors, files, options, all pairs of iteration orders", "why_tests_cant": "the order depends on the hash seed and on addresses; a test run sees one of them", "anchors": ["src/fixit/config.py:collect_rules", "src/fixit/config.py:merge_configs", "src/fixit/engine.py:LintRunner.apply_replacements", "src/fixit/rules/compare_primitives_by_equal.py", "src/fixit/rules/compare_singleton_primitives_by_is.py"]}
{"id": "C137", "title": "Nothing outside the project counts", "statement": "The configuration of a path is determined by the configuration files (fixit.toml, .fixit.toml, pyproject.toml) in the directories from the path up to the nearest directory with a file that says root = true (or up to the file system root if there is none): two file systems that have the same such files give the same configuration, whatever else they contain. Hence what linting or fixing a file reports, and what it leaves in the file, depends only on the file's content, those configuration files, and what rule imports and visitors read - not on other projects, on configuration above the root, or on configuration in sibling directories.", "quantifier": "all pairs of file systems, all paths, options without --config-file, answers, rule sets", "why_tests_cant": "independence from every other file ranges over all file systems", "anchors": ["src/fixit/config.py:locate_configs", "src/fixit/config.py:read_configs", "src/fixit/config.py:generate_config", "src/fixit/api.py:fixit_file"]}
{"id": "C138", "title": "A project can be moved", "statement": "Let a project be a directory whose configuration file says `root = true`, and let it be copied (or checked out) at another place. Then for every file in it the configuration computed in the copy is the configuration computed in the original with the directory replaced - in the path, the root, and the directories local rules are bound to - and it fails in the copy exactly when, and as, it fails in the original. The same rule classes are collected, and linting or fixing the file, whatever the answers and wherever it is stopped, gives the same results (naming the new place), ends the same way, and leaves the same content. Condition: every override path is relative and does not lead out of the project; an absolute path, or one with too many `..`, keeps meaning the old place, so the copy is treated differently.", "quantifier": "all projects, places, configuration files (also reached through links inside the project), files, options without --config-file, iteration orders of sets, answers and stops; given an import system that finds the same modules at the new place, and visitors, diffs and formatters that do not look at the directory", "why_tests_cant": "it relates two runs over every configuration table, every nesting of directories and every pair of places", "anchors": ["src/fixit/config.py: locate_configs, read_configs, merge_configs, generate_config, collect_rules", "src/fixit/util.py: append_sys_path", "src/fixit/api.py: fixit_file, fixit_bytes"]}
{"id": "C139", "title": "The same file given to several processes ends up fixed once", "statement": "When `fixit_paths` lints in parallel and a file is given more than once (overlapping directories, a file and its directory, links to it), every process that works on it reads and rewrites it without a lock. If the files can be written, if fixing an empty file leaves it empty and if fixing a file once is enough (fixing the result changes nothing), then whatever the schedule: at every moment each file has its old content, the content that fixing it on its own gives, or (only if these differ) is empty while it is rewritten; when the processes that were given it have finished, it has the content that fixing it once on its own gives; and each process reports what linting the file on its own reports for one of these three contents. Under every fair schedule they all finish. The same holds of several runs at the same time over arguments under which some of the same files are found (each a sequential run; what is found must not depend on the contents of these files). Both conditions are needed: with a rule that adds a header to an empty file the rest of the file can be lost, and with a fix that needs a second pass the file can end up as a mixture of two contents.", "quantifier": "every list of files (in any number, repeated in any way), rules, configuration, contents, and every interleaving of the steps (read, truncate, write, yield) of the processes", "why_tests_cant": "The outcome depends on the interleaving of processes; a test sees a few schedules, and the losing ones have a window of microseconds.", "anchors": ["src/fixit/api.py: fixit_paths, fixit_file, _fixit_file_wrapper"]}
{"id": "C140", "title": "Disabling one more reference removes exactly the violations of its rules", "statement": "If the configuration of a file is changed so that one more reference is disabled (in the nearest applicable table, after everything else; references absolute), then the merged configuration has that reference under `disable`, no longer under `enable`, and every other reference as before. Exactly the rules the reference leads to are no longer selected, except those that another enabled reference names (`module:RuleName`). Selecting rules and linting cannot start to fail by it; and what is reported for the file is, up to order, what was reported before without the violations of the rules that are no longer selected: every violation that is gone is of a rule the disabled reference leads to, and the violations of other rules are unchanged in number and content.", "quantifier": "every stack of configuration files, reference, file content, set of rules (whatever their methods do, as long as they only read shared metadata) and metadata, for imports that do not depend on what was imported before", "why_tests_cant": "The claim compares two runs for every configuration, rule and content; tests compare a few.", "anchors": ["src/fixit/config.py: merge_configs, collect_rules", "src/fixit/engine.py: LintRunner.collect_violations"]}
{"id": "C141", "title": "A passing rule test predicts what the rule does in every project", "statement": "If a `VALID` case of a rule passes in `fixit test`, then in every file with exactly that (dedented) code that can be linted and for which the rule is selected, wherever the file is and whatever other rules are selected, the rule reports nothing. If an `INVALID` case passes, the rule reports something there, and everything it reports has the range and message the case gives. If it also has a non-empty expected replacement, then fixing such a file with this rule as the only one selected and no formatter reports just those violations and leaves exactly the expected text (a fix that empties the file is not written). This holds for rules whose visits depend on the code only; a rule whose metadata depends on where the file is can pass its tests and behave otherwise in a project.", "quantifier": "every rule that looks at the code only, test case, project, configuration, set of other rules (that only read shared metadata) and file", "why_tests_cant": "It is the claim that the rule's tests carry over to every project and every company of other rules, which no finite set of projects shows.", "anchors": ["src/fixit/testing.py: LintRuleTestCase._test_method", "src/fixit/engine.py: LintRunner.collect_violations", "src/fixit/api.py: fixit_bytes, fixit_file"]}
{"id": "C142", "title": "Writing a comment into a file takes exactly the violations it silences away", "statement": "Let two versions of a file differ in one comment only (at the end of a line, at the end of the line that opens a block or of a one-line block, behind a comma, before a closing bracket, on a line of its own behind an opening bracket, under decorators or above a statement, or among the lines above the first statement), let both be linted with the same configuration, and let the selected rules report the same things about the same nodes in both. Then the violations found in the version with the comment are those found in the other without the ones about a node in whose statement the comment is and of a rule the first directive of the comment is about (every rule if it names none); all others are there with the same rule, message and node, in the same order, at the range the node now has. For a comment above the first statement the nodes are those of the first statement (not in a statement inside it) and those in no statement. A comment without a directive changes nothing.", "quantifier": "every file, place for a comment, text of the comment, set of rules that do not look at comments and only read shared metadata, configuration", "why_tests_cant": "The tests of suppression try some comments in some statements; the claim is that one comment never hides more or less than its own statement's violations for the rules it names, for every tree and text.", "anchors": ["src/fixit/rule.py: LintRule.node_comments, LintRule.ignore_lint, LintRule.report", "src/fixit/engine.py: LintRunner.collect_violations", "src/fixit/api.py: fixit_bytes"]}
{"id": "C143", "title": "Enabling one more reference adds violations of its rules only", "statement": "If the configuration of a file is changed so that one more reference is enabled (in the nearest applicable table, after everything else; references absolute), then the merged configuration has that reference under `enable`, no longer under `disable`, and every other reference as before. Every rule that was selected stays selected; newly selected are exactly the rules the reference leads to whose tags and Python versions allow it and that no other disabled reference leads to (unless an enabled reference names them). If selecting rules and linting succeed with the new reference they did without it, and what is reported for the file is, up to order, what was reported before and violations of newly selected rules the reference leads to.", "quantifier": "every stack of configuration files, reference, file content, set of rules (whatever their methods do, as long as they only read shared metadata) and metadata, for imports that do not depend on what was imported before", "why_tests_cant": "The claim compares two runs for every configuration, rule and content; that a rule never disturbs another one is not visible in a finite number of combinations.", "anchors": ["src/fixit/config.py: merge_configs, collect_rules", "src/fixit/engine.py: LintRunner.collect_violations"]}
{"id": "C144", "title": "A restricted run shows its part of the full run", "statement": "Adding `--tags` to a command selects exactly those of the rules selected without it whose tags the filter selects; a file that can be linted can still be linted, and what is reported is, up to order, the violations reported without the filter that are of such rules. In particular, for any tag, the run with that tag and the run with it excluded share the violations of the unrestricted run between them: none is lost and none is shown by both. More generally, two runs on the same file with any options (for example `--rules`), with configurations of the same root, show the same violations, equally often, of the rules selected in both.", "quantifier": "every project, configuration, tag filter, tag, set of options, file content and rules (that only read shared metadata)", "why_tests_cant": "It compares runs under different options for every filter, configuration and rule.", "anchors": ["src/fixit/config.py: generate_config, collect_rules", "src/fixit/ftypes.py: Tags", "src/fixit/engine.py: LintRunner.collect_violations"]}
{"id": "C145", "title": "An interrupted fixing run can be repeated", "statement": "A run of `fixit_paths` (or `fixit fix --automatic`) over several distinct files, none of which is part of the configuration or of a rule, is interrupted at any point. Then every file before some file of the list is exactly as fixing it alone leaves it, every file after it and every file not in the list is unchanged, and that one file has its old content or a beginning (nothing, some or all) of its new content. With the process pool each file independently is in one of these states. Repeating the run to its end, in either mode, leaves every file that fixing once is enough for exactly as the uninterrupted run leaves it, except at most that one file, and only if the interruption left it with neither its old nor its new content (finding: an emptied file stays empty).", "quantifier": "every list of files, configuration, rule set and file contents, every interruption point, every schedule of the pool, every answer of an interactive consumer (for the state left behind)", "why_tests_cant": "interruption points and schedules cannot be enumerated; a test interrupts at one", "anchors": ["src/fixit/api.py:fixit_paths", "src/fixit/api.py:fixit_file", "src/fixit/api.py:fixit_bytes"]}
{"id": "C146", "title": "A clean lint means there is nothing to fix, and the other way round", "statement": "If `fixit lint` exits with 0, then `fixit fix` on the same paths and files, in automatic or interactive mode, with or without --diff, whatever the user would reply, asks no question, changes no file, exits with 0 and prints exactly what lint printed: the summary that the files are clean. Conversely, under a built-in output format, if `fixit fix` ends having printed nothing but one summary line, then `fixit lint` on the same files exits with 0 and fix changed no file. For standard input: if `fixit lint -` exits with 0, `fixit fix -` prints exactly what it read, once, on standard output.", "quantifier": "every set of rules and configurations, every file system, every path arguments not starting with `-`, every process-pool schedule of lint, every list of replies to fix, every combination of --interactive/--automatic and --diff", "why_tests_cant": "relates two different commands (one parallel, one a dialogue with the user) over all file contents, rules, schedules and replies", "anchors": ["src/fixit/cli.py: lint, fix", "src/fixit/api.py: fixit_paths, print_result"]}
{"id": "C147", "title": "A run over many files can be split into several, also at the same time", "statement": "`fixit fix --automatic A B` is `fixit fix --automatic A` followed by `fixit fix --automatic B` (provided the same files are found under B then): all exit with 0, the files, the writes in order and the metrics-hook calls are the same, and the reports printed are those of the one followed by those of the other, with one summary instead of two. The exit status of `fixit lint` over files that two other runs cover, even overlapping, is the bitwise or of theirs; if they split the files, what it prints is what they print, up to the order of the lines and the summaries. If several fixing (or linting) processes run at the same time over arguments with disjoint files (which take no part in configuration or rules), as pre-commit does, then at every moment of every interleaving a process that has finished has yielded exactly what its files give alone and left them as fixing them alone does, every other file under way is in a state that fixing it alone goes through, and files given to none are unchanged. Under every fair interleaving all of them come to an end.", "quantifier": "every environment, world, number of processes, lists of arguments and files, interleaving of their steps, schedule of the pools of lint, and number of steps taken", "why_tests_cant": "ranges over all partitions of the files and all interleavings of processes", "anchors": ["src/fixit/api.py: fixit_paths, fixit_file", "src/fixit/cli.py: lint, fix"]}
