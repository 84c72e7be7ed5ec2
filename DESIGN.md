# A Lean 4 model of Instagram/Fixit

## Layout

* `properties.jsonl` – the properties (English), C01…
* `MANIFEST.json` – property → theorems, status.
* `lean/Verif/Py/*` – the fragment of Python semantics the code relies on (strings, backtracking regular expressions, orders, generators).
* `lean/Verif/Model/*` – the model of `/repo/src/fixit`, one file per source module (rules under `Model/Rules`); every definition cites file and lines.
* `lean/Verif/Spec/*` – small independent specifications used in theorem statements. They do not call the model's helper functions (they use its data types).
* `lean/Verif/Proof/*` – helper lemmas.
* `lean/Verif/Props/*` – the property theorems, each with an `example` (or a concrete theorem) showing that its hypotheses are met by a case that is not trivial.
* `seeded/LOG.jsonl` – seeded-bug experiments: definition, edit, claim, theorems that failed, what was tightened.
* `tools/` – scripts that write `properties.jsonl`, `MANIFEST.json` and this file (`tools/design.py` appends the table at the end).

## Trusted base

* Lean 4.33.0's kernel and the axioms `propext`, `Quot.sound`, `Classical.choice`. No theorem depends on another axiom; no compiled evaluation is trusted
  (`decide +kernel` runs in the kernel). Nothing of Mathlib is imported.
* The reading of `/repo` as text: the model is tied to the code by citations only; nothing was executed.
* The assumptions on the environment listed below, per area. Whatever is a *parameter* there is universally quantified in the theorems; whatever is an *assumption*
  restricts what the theorems say about the real program.

## How a property is stated

A property is a theorem about the functions of the model, in terms of what a user gives and sees: files, comments, configuration tables, answers, printed text, exit codes,
source text before and after. Where the natural property is false of the code, `properties.jsonl` states the exact condition under which it holds, the theorem has that
condition, and a separate theorem exhibits the failure on a concrete case; these are listed under *Findings*.

## Areas: what is modelled, what is assumed, how it is proved

### Suppression directives and reports (C01–C07, C71–C74) — `rule.py`, `ftypes.py`
Modelled: `LintRule.__init__` (name), `__str__`, `node_comments`, `ignore_lint`, `report`; `LintIgnoreRegex` as a term of a backtracking regex engine with Python's priorities
(`Py/Re`). A node is seen through the attributes that the code reads with `getattr`; a position in a module gives the chain node → parent → … → Module.
Parameters: `\w` (any class without white space, comma, colon and hash), `str.lower`. `\s` is the concrete Unicode class. Positions and node ranges are parameters.
Proof: the engine's first match equals an independent declarative grammar (`Spec/Directive`) for every string; the comments looked at equal the declarative `Associated`
(`Spec/Comments`); the rest is a case analysis over the chain.

### Rule references and tags (C08–C14, C58) — `config.py:parse_rule`, `ftypes.py`, `cli.py:main`
`QualifiedRuleRegex` runs in the same engine (including `$` before a final newline); sets are lists up to an arbitrary permutation. Assumed: Python's string order is the
lexicographic order of code points.

### Configuration (C15–C27) — `config.py`
Paths are resolved component lists: POSIX. Following links from the path of a configuration file is a parameter (`FS.real`, C134); elsewhere there are no symbolic links (`resolve` of the `path` of an override is lexical). TOML values are an inductive type; reading, `tomllib.loads`, `Version(…)`, the running version,
registered formatters and the file system are parameters. `merge_configs` is modelled statement by statement with its dictionary pops. Exceptions are values that carry the class.
Assumed: TOML tables have distinct keys (needed for C20 only); exceptions of the parameters are subclasses of `Exception`.
Proof: loop invariants over the list of configurations, against `Spec/Config` (sections that apply, mentions, nearest value).

### Rule collection (C28–C33, C75, C76) — `config.py:find_rules`, `walk_module`, `collect_rules`, `validate_config`, `local_rule_loader`; `util.py:append_sys_path`
Modules are trees with attributes and submodules whose import may raise; the state of the import system is abstract. Class objects carry the execution that made them.
Assumed: imports do not change `sys.path`; plain modules have no `__path__`; local modules are executed afresh on every load since `local_rule_loader` removes them from `sys.modules`;
classes are hashed by identity; set iteration order is arbitrary (a permutation parameter).

### Engine (C34–C41) — `engine.py`
Trees with node identity and concatenative code generation (`Model/Tree`): fixed text, indentation, required, optional and sequence children, default separators, empty bodies.
libCST's `visit`, `deep_replace`, `code` and its errors are modelled from its documented behaviour; parsing is a parameter with `code (parse s) = s`.
Durations are arbitrary numbers. Metadata providers (`FullRepoManager`) are part of the parameter "what the visitors do".
Proof: structural induction over trees; a segmentation of the text in holes and fixed pieces (`Spec/Tree`) for locality and order-independence.

### API (C42–C54, C69, C77, C78) — `api.py`, `format.py`, `util.py:capture`
Generators are a resumption type with effects on a world (files, events); a history is the list of values sent, so that consumers that stop early are covered.
Parameters: parser, rules, configuration, formatter, diff, failing reads and writes (the write may fail after any prefix), standard input. `write_bytes` is truncate-then-write.
Not modelled: tracebacks, logging, `generator.throw` and `close`. `trailrunner.walk` is a parameter; `trailrunner.run_iter` is assumed to run the function once per path in some
process and to hand out each list when it is complete; processes share only the file system; steps of different processes interleave arbitrarily; pickling is modelled in `Model/Pool` (C120), where a list of results that cannot be rebuilt makes `run_iter` raise.
`Stable` (fixing a file does not change the configuration or rules of another) is a hypothesis of C51 and discharged from the file system in C93.

### capture, chdir (C59–C61, C70) — `util.py`
State machines over the same generators; `os.chdir` may fail.

### Command line (C55–C57, C79, C80, C92–C95) — `cli.py`, `api.py:print_result`
Printed text is modelled without colours; `echo` does not raise; `click.prompt` is a reply `y`, `n`, `q` or an abort, its text is not part of the output; click's own argument
parsing is not modelled (the parsed options are the input). `--output-format` strings are the names of the enumeration. `fixit debug`: the line with the options and the layout of
`pprint` are left out. `fixit lsp` only starts the server.

### Language server (C62–C68, C127) — `lsp.py`
An event machine: notifications, timers, steps of the threads that validate, format requests, changes of files and of documents. A timer thread that has passed its check cannot be
cancelled. Time itself is not modelled (any timer may fire at any time). `pygls`' document store, URI conversion, encoding are parameters. A format request takes the same steps as a
validation (read the source, look in the cache, store, read the cache, lint and reply) and other threads may go on in between; `.format` is the same in one go (C127_at_once).
In the code the main thread takes no message before it has replied; in the model it may, so there are more histories than real ones.
The meaning of an edit is that of the protocol (UTF-16 columns), written in `Spec/Lsp`.

### Rule tests (C90–C92) — `testing.py`, `cli.py:test`
`textwrap.dedent`, `unittest`'s loader and runner from their documentation; an assertion is the values it compares or shows, without the text around them; no `SkipTest`.

### The whole program (C93–C95, and the end-to-end theorems below) — `Model/System`, `Model/Commands`
The environment of the engine is *built* from the models of configuration, collection and `report`; what the visitors of rules do is a parameter.

### Visiting (C96) — `rule.py:get_visitors`, `engine.py:100-103`
libCST's batched visitor: one walk; at a node the `visit_` methods in rule order, then the children, then the `leave_` methods. Rules keep private state; the only state shared
is metadata, of which the sets of `FullyQualifiedNameProvider` can be changed by a rule (`pop`) and are modelled as a store.

### The bundled rules (C81–C89, C97–C113)
Every rule in `rules/`, `rules/extra/` and `upgrade/` is modelled as a function from libCST's documented data to what it reports.
`Model/Cst` is libCST's expression data without white space and comments; statements are modelled as far as the rule looks. Qualified names, scopes, `deep_equals`, `code_for_node`,
`parse_expression`, `evaluated_value` are parameters, with their laws as hypotheses where a theorem needs them.
The meaning of Python is in `Spec/PyEval` (evaluation with effects and exceptions over an arbitrary interpretation of names, calls, operators and attributes),
`Spec/StrLit` and `Spec/Percent` (literals and `%`), `Spec/PyText` (parentheses), `Spec/Scopes` (names), `Spec/RulesClasses` (C3 linearisation).
Values are compared by identity; iterations are finite; laws of builtins (`isinstance`, `any`, `all`, `list`, `dict`, …, `unittest` assertions) are hypotheses that say what the
documentation says. What is not claimed: behaviour under programs that rebind builtins in ways the rule does not look at (each such gap is a finding).
Assumed per rule: a sort of two or more elements compares each of them (C104); making text of a value has no effects and agrees between `%s` and f-strings (C110);
libCST's scopes follow Python's naming rules, assignment expressions in comprehensions left out (C111).

### Fixing again and again (C114, C115) — `Spec/Converge`
No new code: `Offered` collects the fixes of the modelled rules, `Step` replaces one node anywhere in an expression. Termination by a weight that every fix makes smaller, in any order and
for any metadata. C115 asks each rule about its own replacement.

### Rules in the whole program, rule classes, black, errors between processes (C116–C119) — `engine.py`, `rule.py`, `format.py`, `config.py`
`Model/Walk` puts the batched visit of `Model/Visit` into the whole program of `Model/System` and adds the preparation of metadata (which providers need the repository). Assumed: rules are
visitor state machines; the metadata of a module do not depend on which other providers are computed; a visitor method that raises makes no report before.
`Model/Subclass` looks at classes through their method resolution order. `Model/Formatters` and `Model/Pickle` take black's `NothingChanged` and Python's `__reduce__` protocol from their documentation.

### The bundled rules in the whole program (C121) — `rules/`, `rules/extra/`
`Model/Rules/Bundled` makes visitors (methods, messages, state) of the functions in the other rule modules; `Looks` is what libCST shows the rules about each numbered node, and
`Spec.LooksRight` says that it fits the module. `Spec/Bundled` says, per rule, which nodes it reports (`Offends`), with which message (`Message`) and when it raises (`RaisesOn`).
`C121_found` composes this with C116 (the batched visit) and C01–C07 (comments).

### Messages of configuration errors (C122) — `config.py`
`Err.config` carries the message in pieces (text and values shown with `!r`); `Py/Repr` is `repr` of strings after CPython, `Spec/Messages` says which text belongs to which mistake.
Assumed: which characters beyond ASCII are printable, and how floats and dates are written, is left open.

### Adding tests to a module, starting the server (C123, C124) — `testing.py`, `cli.py`, `lsp.py`
`Model/TestModule` is `add_lint_rule_tests_to_module`: attributes of a module are strings, generated classes or anything else. `Model/Serve` is `fixit lsp` and `LSP.start`; what a channel does until it
ends is a parameter, which may depend on the channels served before.

### The messages of validate-config (C125) — `config.py`
`Model/ValidateText` renders the reports of `validate_config`; `Spec.glances` lists what there is to come across in a table, `Spec.Transcript` what is said about it. Printing (rich or pprint) is not modelled.

### Threads that collect rules (C126) — `util.py`, `config.py`, `lsp.py`

`Model/Threads`: a small-step model of `collect_rules` as far as it touches what threads share: the test and the append and the removal of `append_sys_path`, the import of `fixit.local`, the assignment to its `__path__`, the import of the module
and the removal from `sys.modules`. Any number of threads, any schedule (a list of thread numbers). Proofs: an invariant counting who holds which directory (`PathInv`), one for a thread with its own directory (`OwnInv`), one for `fixit.local`
under the hypothesis that at no moment two threads are in that part (`LocalState`), a measure for termination. Left out: modules importing further local modules; the interpreter's switch points finer than one access.

### Standard input as a file (C130) — `api.py`, `cli.py`
No new code: the closed forms of `fixit_stdin` and `fixit_file` (both are `fixit_bytes` and then a write) are compared from two worlds that differ in the named file only; at the level of the API, of the commands and of the whole program.

### Rule modules that change `sys.path` (C30) — `util.py`
`Model/SysPath`: `append_sys_path` around a body that hands back the list as it leaves it. `collect_rules` itself is modelled with imports that leave `sys.path` alone; `withSysPath_quiet` connects the two.

### The same from every side (C131, C132) — `api.py`, `cli.py`, `lsp.py`
No new model. C131 compares the closed forms of the runs of `fixit_file` with and without autofix, for any answers, with the publications and the formatting replies of the server.
C132 takes the session theorem of C57 apart for a constant reply: with yes everywhere the accepted violations are the fixable ones, and violations without fix play no part in
`apply_replacements` (`replacements_usable`), so the end of each file's run is that of the automatic one; hence the same results, files, output and summary.

### What of a configuration counts (C133) — `config.py`, `engine.py`
Emptying the options tables commutes with every step of the merge (`Merged.cleared`), with reading and with `generate_config`. Two environments that differ only by a change of the configuration that neither
`collect_rules` nor the visit nor the formatter notices have the same generators (`fixitFile_reconfigured`, `fixitPaths_reconfigured`), hence the same runs.

### Linked configuration files (C134) — `config.py`
`FS.real` is `path.resolve()` in `read_configs`. The theorems reduce to those about reading (C16), merging (C21, C22) and validation (C32) at the resolved paths.

### Files in turn (C135), and the order of sets (C136) — `api.py`, `config.py`
C135: without the pool, the run over several paths is the runs on the files one after the other, each from the files the one before left (`Spec.inTurn`).
C136: `Outside.reordered` is the same program with other iteration orders of its sets. Selection is compared by membership (C28), a visit rule by rule (C96, C116), and the content of an
automatic fix by C36. What preparing metadata raises is assumed to depend on the set of providers only (`ProviderSets`), as in libcst, where it is a set.

### Locality (C137) — `config.py`, `api.py`
No new model. The search up to the top starts with the search up to the nearest root directory, and reading stops there.

### Relocation (C138) — `config.py`, `api.py`, `util.py`

Two places `P` and `Q`, `moved P Q` replaces the one by the other in a path. Each step of `merge_configs` is shown to commute with it (`parseRule_moved`, `processSubpath_moved`,
`applyOverrides_moved`, `mergeStep_moved`), using that rule references are compared and sorted without their directory; discovery and reading are cut off at `P` as in C137. The rules collected and the runs
of `fixit_file` follow. `SameImports` and `TreatedAlike` say what is asked of the import system, the diff and the formatters. Override paths must be relative and stay in the project (`StaysInside`).

### Processes on the same file (C139) — `api.py`

The pool model (`Worker`, `runPool`) interleaves single steps of the workers; opening for writing truncates, and writing starts at offset 0 and leaves what is behind (`World.overwrite`).
`Quiet` says that what a worker does between reading and writing changes no file and does not depend on the linted files; `Tail` says what is left of a worker after its read. An invariant
(`Racing`, with the stage of each worker as ghost state) is kept by every step of every worker: the file is old and nobody has opened it, or it is new, or it is empty and somebody is about to write.

### One reference more (C140) — `config.py`, `engine.py`

`OneMoreDisabled` relates two merged configurations; `C140_config` shows that adding one mention to `disable` in the nearest table leads to it (by C17, last mention wins, and C09, equal text equal reference). `C140_selected` is the exact change of the set of selected rules (from the characterisation of `collect_rules` in C28), `C140_still_lints` that nothing can newly fail, and `C140_fewer` compares what is found, rule by rule, by the closed form of a walk over the tree with independent visitors (C116, C136). Proof: both lists of violations are concatenations over the selected rules of a block per rule that depends on the rule only.

### Tests and projects (C141) — `testing.py`, `engine.py`, `api.py`

The test of a rule is the model of `_test_method` run in the program with visitors (`Outside.walking`), with the rule instance the program makes; the project is any set of files, path and configuration for which linting goes through. `tested_block` shows that what the test saw is the block of this rule in what is found in the file: both are `Recorded` from the reports of the rule visiting alone, which is a function.

### One reference more (C140, C143) — `config.py`, `engine.py`

Two configurations that differ in one mention, the last one: by C17 the merged lists differ in that reference only. Selection is compared through C28's characterisation, runs rule by rule through C116.

### Restricted runs (C144) — `config.py`, `ftypes.py`

The options change one field of the configuration (`config_withTags`); the contribution of a rule to a run is determined by the rule and the file (`block_unique`), so runs are compared as permutations of concatenated contributions.

### One comment more (C142) — `rule.py`, `engine.py`

`CommentIn` lists the free places of a node where `node_comments` looks, `CommentWritten` says that seen from every node either nothing changed or one node around it has the comment. The specification of
which comments belong to a node (`Associated`, C12) is compared for the two trees; with the exact characterisation of a run (C116) the violations of the one are those of the other, filtered.

### Texts of messages (C121) — `rules/`
`Spec/BundledMessages` is generated from the source by `tools/gen_messages.py` (Python's `ast`); the messages in the model are compared with it.

### Interrupted runs (C77, C145) — `api.py`
`Spec/Crash`: a run can die between two of its steps (`Gen.worlds`) or in the middle of one (`Midway`): a file that the step changes then holds any beginning of what it is given. A point of a sequence of generators
lies in one of them (`crash_bind`); the file events of one file are a beginning of `opened, wrote` (C43), and files do not influence each other (C52). In the pool every worker may be in the middle of its next step
(`PoolCrash`).

### Lint and fix agree about clean files (C146) — `cli.py`
The exit status of `lint` is a statement about each file on its own (C55), whatever the schedule (C51); a file whose own lint run is one clean result gives that result and no write under every mode and answers of `fix`
(`clean_run`), so the dialogue of C57 has no question in it. Conversely a dialogue that prints only its summary has only clean results (C79), and each file's results are those of its own run.

### Splitting a run (C147) — `api.py`, `cli.py`
In one process the generator over `fs ++ gs` is the one over `fs` followed by the one over `gs`, from the world in between (`drain_eachFile_append`). Several processes at once, each a sequential `fixit_paths` over its
arguments (`Spec.startRuns`), are simulated by a pool with one worker for each file (`runs_as_pool`): a process is the join of its file workers, of which those before the current one are done and those behind it have
not begun; each of its steps is a step of the current one, or none. Everything proved about the pool under any schedule (C51, C77) carries over.

## Not modelled, and why
* `tomllib`, `packaging`, `click`, `pygls`, `libcst`, `trailrunner`, `moreorless`, `black`, `ufmt`: dependencies, not in `/repo`; parameters.
* `scripts/`, `docs/`, `tests/`: not part of the program.
* `testing.get_fixture_path`, `testing.validate_patch`: not called by anything.
* Logging and `--debug`: no effect on results.
* Running time, memory, real threads and signals.

## Findings
Behaviours of the code for which the natural property fails. Each has a theorem with a concrete witness.
* C08, C14, C71–C74: `fixit.rules\n` is a valid reference; `--tags a,` raises `IndexError`; `# lint-ignored` silences every rule; only the first directive of a comment counts; `FooRuleRule` cannot be silenced by the name it is reported under; a violation at a `CodePosition` extends to the next line.
* C11: a local rule enabled by two files is loaded from the outermost one. C25: `--config-file` outside the target's tree is read but its tables do not apply. C23: some malformed configurations escape as other exceptions. An inner `formatter = ""` cannot reset an outer one. `Config.options` is not used by the engine.
* C30: `sys.path` keeps the added entry when collecting raises; a rule module that puts its own directory in front makes Fixit remove that entry and keep its own (`C30_keeps_own_entry`), one that takes it off makes collecting fail (`C30_entry_gone`). C28: the order of rules depends on hashing. C75: each reference to a local rule makes new classes. C76: `validate-config` ignores every error outside rule references.
* C37: a replacement can change text next to it (default separators, `pass` in an emptied body). C41: metrics are keyed by rule name, so equal names collide. C53: a fix that empties a file is dropped. C77: `write_bytes` is not atomic. C78: a violation without a fix still leads to formatting.
* C51: an answer sent under the process pool raises; the same file given twice is a race. C50: `./-` is standard input.
* C55, C57: a broken configuration ends `lint` with a traceback; `fix` exits with 0 after errors; `q` discards the answers for the current file; fixes are counted that are never written. C79: a custom template can raise. C80: `fix --diff -` prints the diff into the fixed source.
* C60, C61: `respond` before the first value raises; iterating again replaces the result by `None`.
* C62, C67, C68: a stale validation may publish last; formatting adds a line break each time, uses the wrong columns for characters outside the BMP, fails on the empty document; configurations are cached for ever.
* C66: a validation reads the text when its timer has run, so diagnostics may be those of a newer text than the version they are published with (`C66_newer_text`).
* C68: the cache is filled without a lock: a format request under way when a validation publishes can put its older configuration in the cache, and later validations use that one (`C68_request_overtakes`).
* C91, C92: an empty `expected_replacement` is not looked at; a rule that does not load passes `fixit test`; two rules with the same class name share one entry.
* C81–C89: incomplete or unsound corners of the expression rules (`C81_incomplete`, `C82_value_changes`, `C82_parentheses_lost`, `C83_meaning_changes`, `C84_loop`, `C85_parameter`, `C85_called_early`, `C86_async`, `C87_keyword`, `C87_star`, `C87_star_in_pair`, `C88_crash`, `C88_truncates`, `C88_star`, `C89_message`).
* C97–C103: `C97_second_argument`, `C97_local_class`, `C98_forgets`, `C98_default`, `C99_attribute`, `C100_annotated`, `C101_alias_lost`, `C101_compound_lost`, `C101_only_last`, `C101_relative`, `C101_twice`, `C102_base_not_renamed`, `C102_suffix_raises`, `C103_column_lost`, `C103_name_not_renamed`.
* C104–C113: `C104_moves_between`, `C104_attribute_target`, `C104_tuple_target`, `C105_shadowed`, `C106_import`, `C107_missed`, `C108_two_nones`, `C108_star`, `C109_empty`, `C110_drops`, `C110_star`, `C110_variable`, `C110_unicode`, `C110_display`, `C110_escape`, `C110_named`, `C110_quote`, `C111_captured`, `C111_unknown`, `C111_import`, `C111_nonlocal`, `C111_quoted`, `C111_posonly`, `C111_star`, `C111_module`, `C112_double`, `C113_spelling`.
* C114, C115: with both comparison rules fixing never ends (`C114_both_never`); a fix can make the node around it reportable (`C114_new_violation`: `list(tuple([1]))`); some replacements are reported again by their own rule (`C115_lambda_again`, `C115_suffix` for `…RuleRule`, `C115_quoted_again`, `C115_abc_again`).
* C116: a rule that raises hides what all other rules found in the file (`C116_raises`).
* C117: `AUTOFIX` is inherited: a derived rule whose own `INVALID` has no replacement still has `AUTOFIX = True` (`C117_kept`).
* C118: with `formatter = "black"`, a fix whose result is already in black's style is lost with an error, because `black.format_file_contents` raises `NothingChanged` and `BlackFormatter.format` does not catch it (`C118_lost`); `fix --automatic` reports an error for every black-formatted file that has a violation without fix (`C118_unfixable`).
* C120: in the process pool, an exception of a rule that cannot be unpickled (a class whose `__init__` takes other arguments than it hands to `super().__init__`) ends the whole run: the other files’ results are lost, although C52 promises otherwise for sequential runs (`C120_breaks`).
* C122: an unknown `output-format` is answered with the literal text `output-format: unknown value {value!r}` (the string is not an f-string), and a value that should be an array or table is always said to be of `<class 'str'>` (`type(key)` instead of `type(value)`) (`C122_unhelpful`); the text never names the config file.
* C123: `add_lint_rule_tests_to_module` passes rule *classes* over in silence, although its docstring asks for "a collection of classes extending `LintRule`": no test is added and the suite passes (`C123_classes_ignored`). In a script (`__package__` is `None`) the call fails with a bare AssertionError, after the classes were added (`C123_script`).
* C124: `fixit lsp --tcp PORT` also serves standard input and output when the TCP server ends, since `--stdio` defaults to true and is not turned off by the other options; port 0 ("any port") is taken as no port (`C124_stdio_too`, `C124_nothing`).
* C125: `validate-config` stops at the first setting of the wrong type: rules in later overrides are not checked and nothing says so (`C125_hides_the_rest`).
* C126: the server's threads share `sys.path` and `fixit.local` without a lock. Two documents validated at the same time whose configurations share a root-import directory: one can look for its rules after the other has removed the directory (`C126_shared_directory`). Two documents with local rules: one can be linted with the other directory's rules (`C126_wrong_directory`, `C126_cached_module`), or, because the other thread has just removed `fixit.local` from `sys.modules`, without any (`C126_no_directory`); the user sees diagnostics come and go, the reason is only logged as a warning.
* C128: the last check of `_test_method` compares `diff_violation(...)` with the diff made by the same call while linting; it can fail only for an empty `FlattenSentinel` (`C128_diff_vacuous`).
* C95: `fixit debug` needs `rich`, an optional dependency: with the fallback `pprint.pprint`, `pprint(">>> ", path)` takes the path for the output stream and raises `AttributeError` (`C95_needs_rich`). It makes an instance of every dropped class only to show its name, and fails when that fails, although the class is not used (`C95_dropped_raises`).
* C130: if the configuration for the named file cannot be read, `fixit fix - name` exits with 0 and writes nothing to standard output: an editor that replaces its buffer by the output loses the text (`C130_lost`).
* C132: `fixit fix --automatic` runs the configured formatter on, and rewrites, every file that has a violation, even if none of its violations has a fix; answering yes to every question leaves such a file alone (`C132_reformats`).
* C133, C23: options of rules (`[tool.fixit.options]`) are merged but nothing reads them: no rule can see them (`C133_no_effect`). The configuration guide's example of options in an override, `[[tool.fixit.overrides.options]]`, is an array of tables and is refused with ConfigError (`C23_options_array`, `C23_documented_override`).
* C134: `read_configs` resolves symbolic links, so the tables of a shared `fixit.toml` that is linked into a project are scoped to the directory the link leads to: they select nothing in the project (`C134_linked_from_elsewhere`, `C134_shared_rules_run`), while `root = true` and the output settings still count. `validate_config` uses the directory of the link instead, so it can accept a local rule that linting cannot find (`C134_validate_misled`).
* C136: of two fixes for one node only one is applied, that of the rule that comes last, and the order of the rules is that of a Python set of classes: the result of `fixit fix --automatic` can differ from one process to the next (`C136_clash`). Bundled rules do this: on `x is 1 == None` ComparePrimitivesByEqual and CompareSingletonPrimitivesByIs report the same comparison, and their replacements always differ (`C136_bundled`).
* C138: an override path that is absolute or leads out of the project keeps meaning the old place when the project is moved: its settings then silently apply to nothing (`C138_absolute_override`).
* C139: `fixit_paths(..., parallel=True)` does not notice that a file is given twice, and processes rewrite it without a lock. With a rule that fixes empty files (adds a header) a file can lose everything but the header (`C139_empty_is_needed`); with a fix that needs a second pass the end of a longer text can stay behind a shorter one (`C139_once_is_needed`). `fixit fix` is not concerned: it does not use the pool.
* C140: disabling a module does not disable a rule of it that some enclosing configuration enables by name: it keeps reporting (`C140_named_survives`); the more specific reference wins over the nearer one.
* C141: `fixit test` lints its code as `valid.py` / `invalid.py` in the working directory, with that directory as root: a rule whose metadata depends on the place of the file (`FullyQualifiedNameProvider`, `FilePathProvider`) can pass there and say nothing in the project (`C141_elsewhere`).
* C145: files are truncated and then written in place: a fixing run that is interrupted while it rewrites a file can leave it empty or cut off, and repeating the run accepts an empty file as clean (`C145_emptied_stays_empty`).

## Table of properties

What is modelled is given by the source anchors, how it is proved by the files of the theorems.

| property | title | source modelled | theorems in | status |
|---|---|---|---|---|
| C01 | A bare directive silences every rule | `ftypes.py:LintIgnoreRegex`, `rule.py:LintRule.ignore_lint`, `rule.py:LintRule.report` | Props/Suppression | proved |
| C02 | A named directive silences exactly the rules it names | `ftypes.py:LintIgnoreRegex`, `rule.py:LintRule.ignore_lint` | Props/Suppression | proved |
| C03 | lint-ignore and lint-fixme are interchangeable | `ftypes.py:LintIgnoreRegex`, `rule.py:LintRule.ignore_lint` | Props/Suppression | proved |
| C04 | Ordinary comments never silence a violation | `ftypes.py:LintIgnoreRegex`, `rule.py:LintRule.ignore_lint` | Props/Suppression | proved |
| C05 | Directive lookup is local to the reported node's own statement | `rule.py:LintRule.node_comments` | Props/Suppression | proved |
| C06 | report records exactly one faithful violation | `rule.py:LintRule.__init__`, `rule.py:LintRule.report` | Props/Report, Props/Suppression | proved |
| C07 | The directive regex recognises exactly the documented directive grammar | `ftypes.py:LintIgnoreRegex` | Props/Basics, Props/Suppression | proved |
| C08 | Rule references are accepted exactly according to the grammar | `config.py:parse_rule`, `ftypes.py:QualifiedRuleRegex` | Props/Refs | proved |
| C09 | A rule reference round-trips | `config.py:parse_rule`, `ftypes.py:QualifiedRule` | Props/Refs | proved |
| C10 | Local references are bound to a directory and absolute ones are not | `config.py:parse_rule` | Props/Refs | proved |
| C11 | A local rule is loaded relative to the config that enabled it | `config.py:merge_configs`, `ftypes.py:QualifiedRule` | Props/Merge | proved |
| C12 | Tag selection is include-any and exclude-wins | `ftypes.py:Tags.__bool__`, `ftypes.py:Tags.__contains__` | Props/Refs | proved |
| C13 | Parsing a tag filter is exact and order-insensitive | `ftypes.py:Tags.parse` | Props/Refs | proved |
| C14 | Parsing a tag filter fails exactly on blank entries | `ftypes.py:Tags.parse` | Props/Refs | proved |
| C15 | Config discovery finds exactly the candidate files between the target and the root | `config.py:locate_configs` | Props/Discovery | proved |
| C16 | Reading configs keeps order, skips empty ones and stops at root | `config.py:read_configs` | Props/Discovery | proved |
| C17 | The last applicable mention of a rule wins | `config.py:merge_configs` | Props/Merge | proved |
| C18 | The merged enable and disable lists are disjoint, sorted and duplicate-free | `config.py:merge_configs` | Props/Merge | proved |
| C19 | Scalar settings come from the nearest applicable table that sets them | `config.py:merge_configs` | Props/Merge | proved |
| C20 | Rule options come whole from the nearest applicable table | `config.py:get_options`, `config.py:merge_configs` | Props/Merge | proved |
| C21 | Overrides apply only to files under their path | `config.py:merge_configs` | Props/Config | proved |
| C22 | enable-root-import is confined to the root config and to the root directory | `config.py:collect_rules`, `config.py:merge_configs` | Props/Basics, Props/Config | proved |
| C23 | A malformed configuration is rejected | `config.py:get_options`, `config.py:get_sequence`, `config.py:merge_configs` | Props/Config, Props/ConfigErrors, Props/RuleOptionsCases | proved |
| C24 | Command-line options override file configuration and nothing else | `config.py:generate_config` | Props/Discovery | proved |
| C25 | An explicit config file is used instead of discovery | `config.py:generate_config`, `config.py:merge_configs` | Props/Discovery | proved |
| C26 | Configuration resolution is deterministic | `config.py:merge_configs` | Props/Merge | proved |
| C27 | Unknown options are reported and change nothing | `config.py:merge_configs` | Props/Config | proved |
| C28 | The rules run are exactly the enabled, not-disabled, tag- and version-compatible ones | `config.py:collect_rules` | Props/Collect | proved |
| C29 | A rule reference that fails to load affects only itself | `config.py:collect_rules` | Props/Collect | proved |
| C30 | sys.path is restored after collecting rules | `config.py:collect_rules`, `util.py:append_sys_path` | Props/Collect, Props/SysPath | proved |
| C31 | Rule discovery covers a package's direct modules and no sub-packages | `config.py:find_rules`, `config.py:walk_module` | Props/Loader | proved |
| C32 | validate-config reports exactly the broken references | `config.py:validate_config` | Props/Commands, Props/Validate | proved |
| C33 | Every rule that was collected and dropped has a recorded reason | `config.py:collect_rules` | Props/Collect | proved |
| C34 | Applying no fixes reproduces the file byte for byte | `engine.py:LintRunner.apply_replacements` | Props/Engine | proved |
| C35 | When replaced nodes are nested the outermost wins | `engine.py:LintRunner.apply_replacements` | Props/Engine | proved |
| C36 | Applying fixes does not depend on their order | `engine.py:LintRunner.apply_replacements` | Props/Engine | proved |
| C37 | Fixes only change the text of the replaced nodes | `engine.py:LintRunner.apply_replacements` | Props/Engine | proved |
| C38 | The diff shown for a violation is the effect of applying it alone | `engine.py:LintRunner.apply_replacements`, `engine.py:LintRunner.collect_violations`, `engine.py:diff_violation` | Props/Engine, Props/Violations | proved |
| C39 | Every recorded violation is yielded exactly once, in rule order | `engine.py:LintRunner.collect_violations` | Props/Violations | proved |
| C40 | Metrics count what was yielded and the hook runs exactly once, at the end | `engine.py:LintRunner.collect_violations` | Props/Violations | proved |
| C41 | Per-rule metrics add up to the total when rule names are distinct | `engine.py:LintRunner.collect_violations`, `rule.py:LintRule.__init__` | Props/Violations | proved |
| C42 | Linting never modifies files | `api.py:fixit_bytes`, `api.py:fixit_file`, `api.py:fixit_paths` | Props/Api | proved |
| C43 | A file is written at most once and only with the fully fixed content | `api.py:fixit_bytes`, `api.py:fixit_file` | Props/Api | proved |
| C44 | A file yields one clean result or its violations | `api.py:fixit_bytes` | Props/Api | proved |
| C45 | Failures become results, not exceptions | `api.py:fixit_bytes`, `api.py:fixit_file`, `api.py:fixit_stdin` | Props/Api, Props/ApiErrors, Props/Stdin | proved |
| C46 | Autofix applies every fix and cannot be vetoed | `api.py:fixit_bytes`, `api.py:fixit_file` | Props/Api | proved |
| C47 | Interactive fixing applies exactly the accepted fixes | `api.py:fixit_bytes`, `util.py:capture` | Props/Api | proved |
| C48 | Fixing standard input prints the fixed source exactly once | `api.py:fixit_stdin` | Props/Stdin | proved |
| C49 | Stopping early leaves the file untouched | `api.py:fixit_file`, `api.py:fixit_paths`, `cli.py:fix` | Props/Api, Props/Stopping | proved |
| C50 | Path arguments are dispatched as documented | `api.py:fixit_paths` | Props/Paths | proved |
| C51 | Parallel and sequential runs agree | `api.py:_fixit_file_wrapper`, `api.py:fixit_paths` | Props/BatchesEnd, Props/Paths, Props/PathsCases | proved |
| C52 | One failing file does not affect the others | `api.py:fixit_file`, `api.py:fixit_paths` | Props/Paths | proved |
| C53 | A fix that would empty the file is never applied | `api.py:fixit_file`, `api.py:fixit_stdin` | Props/Api, Props/ApiCases, Props/Results | proved |
| C54 | Every result names the file it is about | `api.py:fixit_bytes`, `api.py:fixit_file` | Props/Api, Props/Results | proved |
| C55 | The lint exit status reflects exactly what was found | `api.py:print_result`, `cli.py:lint` | Props/Cli, Props/CliCases | proved |
| C56 | The summary counts are exact | `cli.py:lint`, `cli.py:splash` | Props/Cli | proved |
| C57 | Interactive `fix` applies what the user accepted | `cli.py:fix`, `cli.py:upgrade`, `util.py:capture` | Props/CliAuto, Props/CliCases, Props/CliFiles, Props/CliFix | proved |
| C58 | The --rules option parses to the sorted set of named rules | `cli.py:main`, `config.py:parse_rule` | Props/Refs | proved |
| C59 | capture is transparent | `util.py:capture` | Props/Capture | proved |
| C60 | capture delivers each response exactly once | `util.py:capture` | Props/Capture | proved |
| C61 | capture.result is the generator's return value | `util.py:capture` | Props/Capture | proved |
| C62 | The last version of a document is validated | `lsp.py:Debouncer`, `lsp.py:LSP._validate`, `lsp.py:debounce` | Props/LspCases, Props/LspFair, Props/LspLatest | proved |
| C63 | One waiting validation per document, none published twice | `lsp.py:Debouncer`, `lsp.py:LSP.validate` | Props/LspHistory | proved |
| C64 | Documents do not disturb each other | `lsp.py:LSP.load_config`, `lsp.py:LSP.validate` | Props/LspApart | proved |
| C65 | A non-positive debounce interval validates synchronously | `lsp.py:LSP._validate`, `lsp.py:debounce` | Props/LspHistory | proved |
| C66 | Published diagnostics mirror the violations | `lsp.py:LSP._validate`, `lsp.py:LSP.diagnostic_generator` | Props/Lsp, Props/LspCases, Props/LspFresh | proved |
| C67 | LSP formatting applies all fixes to the document | `lsp.py:LSP.format` | Props/Basics, Props/LspCases, Props/LspFormat, Props/LspFormatAny | proved |
| C68 | The LSP settles on one configuration per path | `lsp.py:LSP.load_config` | Props/Lsp, Props/LspCache, Props/LspCases | proved |
| C69 | Formatting uses the configured formatter and nothing else | `format.py:format_module` | Props/Api | proved |
| C70 | chdir always restores the working directory | `util.py:chdir` | Props/Capture | proved |
| C71 | What makes a comment a directive | `ftypes.py:LintIgnoreRegex`, `rule.py:LintRule.ignore_lint` | Props/Report, Props/Suppression | proved |
| C72 | A violation reported at a position extends to the next line | `rule.py:LintRule.report` | Props/Report, Props/Suppression | proved |
| C73 | The first directive of each comment decides | `rule.py:LintRule.ignore_lint` | Props/Report, Props/Suppression | proved |
| C74 | Which names silence a rule | `rule.py:LintRule.__init__`, `rule.py:LintRule.ignore_lint` | Props/Report, Props/Suppression | proved |
| C75 | Local rules are loaded afresh by every reference | `config.py:collect_rules`, `config.py:local_rule_loader` | Props/Loader | proved |
| C76 | validate-config looks at rule references only | `config.py:merge_configs`, `config.py:validate_config` | Props/Validate | proved |
| C77 | Crash states of a file being fixed | `api.py:fixit_file` | Props/Api, Props/ApiCases, Props/Interrupted, Props/Paths | proved |
| C78 | Files without an applicable fix are rewritten only by a configured formatter | `api.py:fixit_bytes`, `format.py:format_module` | Props/Api, Props/ApiCases | proved |
| C79 | Reports are complete and faithful | `api.py:print_result` | Props/Cli, Props/CliFix | proved |
| C80 | `fix -` prints the fixed source and nothing else on standard output | `api.py:fixit_stdin`, `api.py:print_result`, `cli.py:fix` | Props/CliCases, Props/CliFix | proved |
| C81 | NoStaticIfCondition reports only conditions that cannot come out both ways | `rules/no_static_if_condition.py:NoStaticIfCondition` | Props/RulesStatic | proved |
| C82 | CollapseIsinstanceChecks keeps the outcome of the condition | `rules/chained_instance_check.py:CollapseIsinstanceChecks` | Props/RulesIsinstance, Props/RulesIsinstanceCases, Props/RulesIsinstanceShape | proved |
| C83 | The two comparison rules change exactly the offending operators | `rules/compare_primitives_by_equal.py:ComparePrimitivesByEqual`, `rules/compare_singleton_primitives_by_is.py:CompareSingletonPrimitivesByIs` | Props/RulesCompare | proved |
| C84 | The two comparison rules contradict each other on literal-against-singleton comparisons | `rules/compare_primitives_by_equal.py:ComparePrimitivesByEqual`, `rules/compare_singleton_primitives_by_is.py:CompareSingletonPrimitivesByIs` | Props/RulesCompare | proved |
| C85 | NoRedundantLambda reports exactly forwarding lambdas, and its replacement behaves the same when called | `rules/no_redundant_lambda.py:NoRedundantLambda` | Props/RulesLambda | proved |
| C86 | NoRedundantListComprehension keeps the answer of any/all | `rules/no_redundant_list_comprehension.py:NoRedundantListComprehension` | Props/RulesQuantify | proved |
| C87 | RewriteToLiteral rewrites exactly the container calls that are literals, to the same value | `rules/rewrite_to_literal.py:RewriteToLiteral` | Props/RulesLiteral | proved |
| C88 | RewriteToComprehension rewrites exactly list/set/dict calls of comprehensions, to the same value | `rules/rewrite_to_comprehension.py:RewriteToComprehension` | Props/RulesComprehension | proved |
| C89 | The unittest rules replace assertions by equivalent ones | `rules/deprecated_unittest_asserts.py:DeprecatedUnittestAsserts`, `rules/no_assert_true_for_comparison.py:NoAssertTrueForComparisons`, `rules/use_assert_in.py:UseAssertIn`, `rules/use_assert_is_not_none.py:UseAssertIsNotNone` | Props/RulesUnittest | proved |
| C90 | Test code is moved left by its common margin, and only that | `testing.py:_dedent` | Props/Dedent | proved |
| C91 | A rule test case passes exactly when linting and fixing the code give what the case says | `testing.py:LintRuleTestCase._test_method` | Props/Testing, Props/TestingFix | proved |
| C92 | `fixit test` runs each case of each selected rule once and its exit code says whether all passed | `cli.py:test`, `testing.py:add_lint_rule_tests_to_module`, `testing.py:gen_test_methods_for_rule`, `testing.py:generate_lint_rule_test_cases` | Props/Suite | proved |
| C93 | From configuration to exit status: what is reported is what the selected rules say and no comment silences | `api.py:fixit_file`, `cli.py:fix`, `cli.py:lint`, `config.py:collect_rules`, `config.py:generate_config`, `rule.py:LintRule.report` | Props/Commands, Props/System, Props/SystemFails | proved |
| C94 | `--rules` and `upgrade` replace the configured rules and nothing else selects | `cli.py:main`, `cli.py:upgrade`, `config.py:generate_config` | Props/Commands | proved |
| C95 | `fixit debug` shows the rules linting would use | `cli.py:debug`, `config.py:collect_rules`, `pyproject.toml:optional-dependencies` | Props/Commands | proved |
| C96 | Rules visited together do not influence each other | `engine.py:LintRunner.collect_violations`, `rule.py:LintRule.get_visitors` | Props/RulesTogether, Props/Visit | proved |
| C97 | NoRedundantArgumentsSuper reports exactly the calls that name the classes around them | `rules/no_redundant_arguments_super.py:NoRedundantArgumentsSuper` | Props/RulesSuper | proved |
| C98 | UseAsyncSleepInAsyncDef reports exactly `time.sleep` directly in an `async def` | `rules/use_async_sleep_in_async_def.py:UseAsyncSleepInAsyncDef` | Props/RulesAsync | proved |
| C99 | UseTypesFromTyping reports exactly builtin types inside annotations | `rules/use_types_from_typing.py:UseTypesFromTyping` | Props/RulesAsync | proved |
| C100 | NoStringTypeAnnotation reports exactly quoted annotations outside `Literal` | `rules/no_string_type_annotation.py:NoStringTypeAnnotation` | Props/RulesQuoted | proved |
| C101 | DeprecatedABCImport: exactly what is reported and how it is fixed | `rules/deprecated_abc_import.py:DeprecatedABCImport` | Props/RulesAbc | proved |
| C102 | The upgrade rules for renamed classes: exactly what each reports, and what they do to each other | `engine.py:LintRunner.collect_violations`, `upgrade/deprecated_import.py:FixitDeprecatedImport`, `upgrade/remove_rule_suffix.py:FixitRemoveRuleSuffix` | Props/RulesTogether, Props/RulesUpgrade | proved |
| C103 | The upgrade of test cases keeps every other argument | `upgrade/deprecated_testcase_keywords.py:FixitDeprecatedTestCaseKeywords` | Props/RulesTestCase, Props/RulesTogether | proved |
| C104 | SortedAttributes sorts exactly the plain assignments of marked classes and only moves lines | `rules/sorted_attributes_rule.py:SortedAttributes` | Props/RulesSorted | proved |
| C105 | NoInheritFromObject removes `object` from the bases and keeps the method resolution order | `rules/no_inherit_from_object.py:NoInheritFromObject` | Props/RulesObject | proved |
| C106 | NoNamedTuple removes exactly the NamedTuple bases and adds one decorator | `rules/no_namedtuple.py:NoNamedTuple` | Props/RulesClassStmt | proved |
| C107 | AvoidOrInExcept reports only handlers whose second operand is dead | `rules/avoid_or_in_except.py:AvoidOrInExcept` | Props/RulesClassStmt | proved |
| C108 | ReplaceUnionWithOptional reports exactly two-member unions with None and keeps the type | `rules/replace_union_with_optional.py:ReplaceUnionWithOptional` | Props/RulesClassStmt | proved |
| C109 | NoRedundantFString keeps the value | `rules/no_redundant_fstring.py:NoRedundantFString` | Props/RulesFString | proved |
| C110 | UseFstring makes an f-string with the value of the formatting | `rules/use_fstring.py:EscapeStringQuote`, `rules/use_fstring.py:UseFstring`, `rules/use_fstring.py:_gen_match_simple_expression`, `rules/use_fstring.py:_match_simple_string` | Props/RulesUseFstring | proved |
| C111 | UseClsInClassmethod renames the first parameter without changing what names mean | `rules/cls_in_classmethod.py:UseClsInClassmethod`, `rules/cls_in_classmethod.py:_RenameTransformer` | Props/RulesCls | proved |
| C112 | ExplicitFrozenDataclass adds exactly one option | `rules/extra/explicit_frozen_dataclass.py:ExplicitFrozenDataclass` | Props/RulesExtra | proved |
| C113 | UseLintFixmeComment reports exactly the comments that start with `# noqa` | `rules/extra/use_lint_fixme_comment.py:UseLintFixmeComment` | Props/RulesExtra | proved |
| C114 | Fixing with the bundled expression rules comes to an end | `engine.py:LintRunner.collect_violations`, `rule.py:LintRule.report`, `rules/` | Props/Converge | proved |
| C115 | A fix makes its own violation go away | `rule.py:LintRule.report`, `rules/`, `upgrade/` | Props/GoAway, Props/RulesClassStmt, Props/RulesCls, Props/RulesExtra, Props/RulesSorted | proved |
| C116 | What one rule reports about a file does not depend on the other rules | `api.py:fixit_bytes`, `engine.py:LintRunner.collect_violations`, `rule.py:LintRule.get_visitors`, `rule.py:LintRule.report` | Props/Walk | proved |
| C117 | Every rule class can report and be silenced, and AUTOFIX says whether a fix is known | `engine.py:LintRunner.collect_violations`, `rule.py:LintRule.__init_subclass__` | Props/Subclass | proved |
| C118 | Fixing with the formatter black | `api.py:fixit_bytes`, `format.py:BlackFormatter.format`, `format.py:format_module` | Props/Black | proved |
| C119 | Configuration and collection errors survive the way between processes | `config.py:CollectionError`, `config.py:ConfigError` | Props/Pickle | proved |
| C120 | Results come back from the process pool, or the run breaks | `api.py:_fixit_file_wrapper`, `api.py:fixit_paths`, `config.py:CollectionError` | Props/Pool | proved |
| C121 | What the bundled rules report about a file | `engine.py:LintRunner.collect_violations`, `rule.py:LintRule.report`, `rules/__init__.py`, `rules/extra/__init__.py` | Props/BundledCases, Props/BundledFixes, Props/BundledMain, Props/BundledOnce, Props/BundledSystem, Props/BundledTexts | proved |
| C122 | What a configuration error says | `api.py:print_result`, `config.py:get_options`, `config.py:get_sequence`, `config.py:merge_configs`, `config.py:parse_rule` | Props/Messages, Props/MessagesQuotes | proved |
| C123 | Adding the tests of rules to a module | `testing.py:add_lint_rule_tests_to_module`, `testing.py:gen_all_test_methods`, `testing.py:generate_lint_rule_test_cases` | Props/TestModule | proved |
| C124 | What `fixit lsp` listens on | `cli.py:lsp`, `ftypes.py:LSPOptions`, `lsp.py:LSP.start` | Props/Serve | proved |
| C125 | What `validate-config` says | `config.py:parse_rule`, `config.py:validate_config` | Props/ValidateText | proved |
| C126 | Collecting rules in several threads at once | `config.py:collect_rules`, `config.py:find_rules`, `config.py:local_rule_loader`, `lsp.py:Debouncer`, `util.py:append_sys_path` | Props/Threads | proved |
| C127 | Formatting while documents are validated | `lsp.py:LSP.diagnostic_generator`, `lsp.py:LSP.format`, `lsp.py:LSP.load_config` | Props/LspRequests | proved |
| C128 | A failing rule test names the first discrepancy | `testing.py:LintRuleTestCase._test_method` | Props/TestingMessages | proved |
| C129 | Everything a run prints, and in which style | `api.py:print_result`, `cli.py:fix`, `cli.py:lint`, `cli.py:splash`, `config.py:generate_config` | Props/Output, Props/OutputInteractive | proved |
| C130 | Standard input is treated as the file it stands for | `api.py:fixit_file`, `api.py:fixit_paths`, `api.py:fixit_stdin`, `cli.py:fix`, `cli.py:lint` | Props/StdinAsFile, Props/StdinProgram | proved |
| C131 | Linting, fixing and the editor see the same violations | `api.py: fixit_bytes, fixit_file`, `lsp.py: LSP.diagnostic_generator, LSP._validate, LSP.format` | Props/Agree | proved |
| C132 | Yes to every question is --automatic, no to every question is lint | `api.py: fixit_bytes, fixit_file, fixit_paths`, `cli.py: fix`, `engine.py: LintRunner.apply_replacements` | Props/YesCases, Props/YesToAll | proved |
| C133 | The options of rules have no effect | `config.py:collect_rules`, `config.py:get_options`, `config.py:merge_configs`, `docs/guide/configuration.rst:rule-options`, `engine.py:LintRunner.collect_violations` | Props/RuleOptions | proved |
| C134 | A configuration file that is a symbolic link acts where the link leads | `config.py:locate_configs`, `config.py:merge_configs`, `config.py:read_configs`, `config.py:validate_config` | Props/Links | proved |
| C135 | A sequential run handles the files strictly one after the other | `api.py:fixit_file`, `api.py:fixit_paths` | Props/InTurn | proved |
| C136 | Hash order shows only as the order of results | `config.py:collect_rules`, `config.py:merge_configs`, `engine.py:LintRunner.apply_replacements`, `rules/compare_primitives_by_equal.py`, `rules/compare_singleton_primitives_by_is.py` | Props/Reordered, Props/ReorderedCases, Props/RulesCompare | proved |
| C137 | Nothing outside the project counts | `api.py:fixit_file`, `config.py:generate_config`, `config.py:locate_configs`, `config.py:read_configs` | Props/Locality, Props/LocalityCases | proved |
| C138 | A project can be moved | `api.py: fixit_file, fixit_bytes`, `config.py: locate_configs, read_configs, merge_configs, generate_config, collect_rules`, `util.py: append_sys_path` | Props/Moved, Props/MovedCases | proved |
| C139 | The same file given to several processes ends up fixed once | `api.py: fixit_paths, fixit_file, _fixit_file_wrapper` | Props/BatchesOverlap, Props/SameFile, Props/SameFileCases, Props/SameFileEnd | proved |
| C140 | Disabling one more reference removes exactly the violations of its rules | `config.py: merge_configs, collect_rules`, `engine.py: LintRunner.collect_violations` | Props/OneMore, Props/OneMoreCases | proved |
| C141 | A passing rule test predicts what the rule does in every project | `api.py: fixit_bytes, fixit_file`, `engine.py: LintRunner.collect_violations`, `testing.py: LintRuleTestCase._test_method` | Props/TestPredicts, Props/TestPredictsCases | proved |
| C142 | Writing a comment into a file takes exactly the violations it silences away | `api.py: fixit_bytes`, `engine.py: LintRunner.collect_violations`, `rule.py: LintRule.node_comments, LintRule.ignore_lint, LintRule.report` | Props/CommentAdded | proved |
| C143 | Enabling one more reference adds violations of its rules only | `config.py: merge_configs, collect_rules`, `engine.py: LintRunner.collect_violations` | Props/OneEnabled | proved |
| C144 | A restricted run shows its part of the full run | `config.py: generate_config, collect_rules`, `engine.py: LintRunner.collect_violations`, `ftypes.py: Tags` | Props/Narrow | proved |
| C145 | An interrupted fixing run can be repeated | `api.py:fixit_bytes`, `api.py:fixit_file`, `api.py:fixit_paths` | Props/Interrupted, Props/InterruptedCases | proved |
| C146 | A clean lint means there is nothing to fix, and the other way round | `api.py: fixit_paths, print_result`, `cli.py: lint, fix` | Props/CleanLint, Props/CleanStdin | proved |
| C147 | A run over many files can be split into several, also at the same time | `api.py: fixit_paths, fixit_file`, `cli.py: lint, fix` | Props/Batches, Props/BatchesEnd, Props/SplitRun | proved |
