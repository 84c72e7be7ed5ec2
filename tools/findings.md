* C08, C14, C71–C74: `fixit.rules\n` is a valid reference; `--tags a,` raises `IndexError`; `# lint-ignored` silences every rule; only the first directive of a comment counts; `FooRuleRule` cannot be silenced by the name it is reported under; a violation at a `CodePosition` extends to the next line.
* C11: a local rule enabled by two files is loaded from the outermost one. C25: `--config-file` outside the target's tree is read but its tables do not apply. C23: some malformed configurations escape as other exceptions. An inner `formatter = ""` cannot reset an outer one. `Config.options` is not used by the engine.
* C30: `sys.path` keeps the added entry when collecting raises; a rule module that puts its own directory in front makes Fixit remove that entry and keep its own (`C30_keeps_own_entry`), one that takes it off makes collecting fail (`C30_entry_gone`). C28: the order of rules depends on hashing. C75: each reference to a local rule makes new classes. C76: `validate-config` ignores every error outside rule references.
* C37: a replacement can change text next to it (default separators, `pass` in an emptied body). C41: metrics are keyed by rule name, so equal names collide. C53: a fix that empties a file is dropped. C77: `write_bytes` is not atomic. C78: a violation without a fix still leads to formatting.
* C51: an answer sent under the process pool raises; the same file given twice is a race. C50: `./-` is standard input.
* C55, C57: a broken configuration ends `lint` with a traceback; `fix` exits with 0 after errors; `q` discards the answers for the current file; fixes are counted that are never written. C79: a custom template can raise. C80: `fix --diff -` prints the diff into the fixed source.
* C60, C61: `respond` before the first value raises; iterating again replaces the result by `None`.
* C62, C67, C68: a stale validation may publish last; formatting adds a line break each time, uses the wrong columns for characters outside the BMP, fails on the empty document; configurations are cached for ever.
* C66: a validation reads the text when its timer has run, so diagnostics may be those of a newer text than the version they are published with (`C66_newer_text`).
* C68: the cache is filled without a lock: a format request under way when a validation publishes can put its older configuration in the cache, and later validations use that one (`C68_request_overtakes`).
* C91, C92: an empty `expected_replacement` is not looked at; a rule that does not load passes `fixit test`; two rules with the same class name share one entry.
* C81–C89: incomplete or unsound corners of the expression rules (`C81_incomplete`, `C82_value_changes`, `C82_parentheses_lost`, `C83_meaning_changes`, `C84_loop`, `C85_parameter`, `C85_called_early`, `C86_async`, `C87_keyword`, `C87_star`, `C87_star_in_pair`, `C88_crash`, `C88_truncates`, `C88_star`, `C89_message`).
* C97–C103: `C97_second_argument`, `C97_local_class`, `C98_forgets`, `C98_default`, `C99_attribute`, `C100_annotated`, `C101_alias_lost`, `C101_compound_lost`, `C101_only_last`, `C101_relative`, `C101_twice`, `C102_base_not_renamed`, `C102_suffix_raises`, `C103_column_lost`, `C103_name_not_renamed`.
* C104–C113: `C104_moves_between`, `C104_attribute_target`, `C104_tuple_target`, `C105_shadowed`, `C106_import`, `C107_missed`, `C108_two_nones`, `C108_star`, `C109_empty`, `C110_drops`, `C110_star`, `C110_variable`, `C110_unicode`, `C110_display`, `C110_escape`, `C110_named`, `C110_quote`, `C111_captured`, `C111_unknown`, `C111_import`, `C111_nonlocal`, `C111_quoted`, `C111_posonly`, `C111_star`, `C111_module`, `C112_double`, `C113_spelling`.
* C114, C115: with both comparison rules fixing never ends (`C114_both_never`); a fix can make the node around it reportable (`C114_new_violation`: `list(tuple([1]))`); some replacements are reported again by their own rule (`C115_lambda_again`, `C115_suffix` for `…RuleRule`, `C115_quoted_again`, `C115_abc_again`).
* C116: a rule that raises hides what all other rules found in the file (`C116_raises`).
* C117: `AUTOFIX` is inherited: a derived rule whose own `INVALID` has no replacement still has `AUTOFIX = True` (`C117_kept`).
* C118: with `formatter = "black"`, a fix whose result is already in black's style is lost with an error, because `black.format_file_contents` raises `NothingChanged` and `BlackFormatter.format` does not catch it (`C118_lost`); `fix --automatic` reports an error for every black-formatted file that has a violation without fix (`C118_unfixable`).
* C120: in the process pool, an exception of a rule that cannot be unpickled (a class whose `__init__` takes other arguments than it hands to `super().__init__`) ends the whole run: the other files’ results are lost, although C52 promises otherwise for sequential runs (`C120_breaks`).
* C122: an unknown `output-format` is answered with the literal text `output-format: unknown value {value!r}` (the string is not an f-string), and a value that should be an array or table is always said to be of `<class 'str'>` (`type(key)` instead of `type(value)`) (`C122_unhelpful`); the text never names the config file.
* C123: `add_lint_rule_tests_to_module` passes rule *classes* over in silence, although its docstring asks for "a collection of classes extending `LintRule`": no test is added and the suite passes (`C123_classes_ignored`). In a script (`__package__` is `None`) the call fails with a bare AssertionError, after the classes were added (`C123_script`).
* C124: `fixit lsp --tcp PORT` also serves standard input and output when the TCP server ends, since `--stdio` defaults to true and is not turned off by the other options; port 0 ("any port") is taken as no port (`C124_stdio_too`, `C124_nothing`).
* C125: `validate-config` stops at the first setting of the wrong type: rules in later overrides are not checked and nothing says so (`C125_hides_the_rest`).
* C126: the server's threads share `sys.path` and `fixit.local` without a lock. Two documents validated at the same time whose configurations share a root-import directory: one can look for its rules after the other has removed the directory (`C126_shared_directory`). Two documents with local rules: one can be linted with the other directory's rules (`C126_wrong_directory`, `C126_cached_module`), or, because the other thread has just removed `fixit.local` from `sys.modules`, without any (`C126_no_directory`); the user sees diagnostics come and go, the reason is only logged as a warning.
* C128: the last check of `_test_method` compares `diff_violation(...)` with the diff made by the same call while linting; it can fail only for an empty `FlattenSentinel` (`C128_diff_vacuous`).
* C95: `fixit debug` needs `rich`, an optional dependency: with the fallback `pprint.pprint`, `pprint(">>> ", path)` takes the path for the output stream and raises `AttributeError` (`C95_needs_rich`). It makes an instance of every dropped class only to show its name, and fails when that fails, although the class is not used (`C95_dropped_raises`).
* C130: if the configuration for the named file cannot be read, `fixit fix - name` exits with 0 and writes nothing to standard output: an editor that replaces its buffer by the output loses the text (`C130_lost`).
* C132: `fixit fix --automatic` runs the configured formatter on, and rewrites, every file that has a violation, even if none of its violations has a fix; answering yes to every question leaves such a file alone (`C132_reformats`).
* C133, C23: options of rules (`[tool.fixit.options]`) are merged but nothing reads them: no rule can see them (`C133_no_effect`). The configuration guide's example of options in an override, `[[tool.fixit.overrides.options]]`, is an array of tables and is refused with ConfigError (`C23_options_array`, `C23_documented_override`).
* C134: `read_configs` resolves symbolic links, so the tables of a shared `fixit.toml` that is linked into a project are scoped to the directory the link leads to: they select nothing in the project (`C134_linked_from_elsewhere`, `C134_shared_rules_run`), while `root = true` and the output settings still count. `validate_config` uses the directory of the link instead, so it can accept a local rule that linting cannot find (`C134_validate_misled`).
* C136: of two fixes for one node only one is applied, that of the rule that comes last, and the order of the rules is that of a Python set of classes: the result of `fixit fix --automatic` can differ from one process to the next (`C136_clash`). Bundled rules do this: on `x is 1 == None` ComparePrimitivesByEqual and CompareSingletonPrimitivesByIs report the same comparison, and their replacements always differ (`C136_bundled`).
* C138: an override path that is absolute or leads out of the project keeps meaning the old place when the project is moved: its settings then silently apply to nothing (`C138_absolute_override`).
* C139: `fixit_paths(..., parallel=True)` does not notice that a file is given twice, and processes rewrite it without a lock. With a rule that fixes empty files (adds a header) a file can lose everything but the header (`C139_empty_is_needed`); with a fix that needs a second pass the end of a longer text can stay behind a shorter one (`C139_once_is_needed`). `fixit fix` is not concerned: it does not use the pool.
* C140: disabling a module does not disable a rule of it that some enclosing configuration enables by name: it keeps reporting (`C140_named_survives`); the more specific reference wins over the nearer one.
* C141: `fixit test` lints its code as `valid.py` / `invalid.py` in the working directory, with that directory as root: a rule whose metadata depends on the place of the file (`FullyQualifiedNameProvider`, `FilePathProvider`) can pass there and say nothing in the project (`C141_elsewhere`).
* C145: files are truncated and then written in place: a fixing run that is interrupted while it rewrites a file can leave it empty or cut off, and repeating the run accepts an empty file as clean (`C145_emptied_stays_empty`).
