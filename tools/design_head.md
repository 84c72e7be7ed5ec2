# A Lean 4 model of Instagram/Fixit

## Layout

* `properties.jsonl` – the properties (English), C01…
* `MANIFEST.json` – property → theorems, status.
* `lean/Verif/Py/*` – the fragment of Python semantics the code relies on (strings, backtracking regular expressions, orders, generators).
* `lean/Verif/Model/*` – the model of `/repo/src/fixit`, one file per source module (rules under `Model/Rules`); every definition cites file and lines.
* `lean/Verif/Spec/*` – small independent specifications used in theorem statements. They do not call the model's helper functions (they use its data types).
* `lean/Verif/Proof/*` – helper lemmas.
* `lean/Verif/Props/*` – the property theorems, each with an `example` (or a concrete theorem) showing that its hypotheses are met by a case that is not trivial.
* `seeded/LOG.jsonl` – seeded-bug experiments: definition, edit, claim, theorems that failed, what was tightened.
* `tools/` – scripts that write `properties.jsonl`, `MANIFEST.json` and this file (`tools/design.py` appends the table at the end).

## Trusted base

* Lean 4.33.0's kernel and the axioms `propext`, `Quot.sound`, `Classical.choice`. No theorem depends on another axiom; no compiled evaluation is trusted
  (`decide +kernel` runs in the kernel). Nothing of Mathlib is imported.
* The reading of `/repo` as text: the model is tied to the code by citations only; nothing was executed.
* The assumptions on the environment listed below, per area. Whatever is a *parameter* there is universally quantified in the theorems; whatever is an *assumption*
  restricts what the theorems say about the real program.

## How a property is stated

A property is a theorem about the functions of the model, in terms of what a user gives and sees: files, comments, configuration tables, answers, printed text, exit codes,
source text before and after. Where the natural property is false of the code, `properties.jsonl` states the exact condition under which it holds, the theorem has that
condition, and a separate theorem exhibits the failure on a concrete case; these are listed under *Findings*.

## Areas: what is modelled, what is assumed, how it is proved

### Suppression directives and reports (C01–C07, C71–C74) — `rule.py`, `ftypes.py`
Modelled: `LintRule.__init__` (name), `__str__`, `node_comments`, `ignore_lint`, `report`; `LintIgnoreRegex` as a term of a backtracking regex engine with Python's priorities
(`Py/Re`). A node is seen through the attributes that the code reads with `getattr`; a position in a module gives the chain node → parent → … → Module.
Parameters: `\w` (any class without white space, comma, colon and hash), `str.lower`. `\s` is the concrete Unicode class. Positions and node ranges are parameters.
Proof: the engine's first match equals an independent declarative grammar (`Spec/Directive`) for every string; the comments looked at equal the declarative `Associated`
(`Spec/Comments`); the rest is a case analysis over the chain.

### Rule references and tags (C08–C14, C58) — `config.py:parse_rule`, `ftypes.py`, `cli.py:main`
`QualifiedRuleRegex` runs in the same engine (including `$` before a final newline); sets are lists up to an arbitrary permutation. Assumed: Python's string order is the
lexicographic order of code points.

### Configuration (C15–C27) — `config.py`
Paths are resolved component lists: POSIX. Following links from the path of a configuration file is a parameter (`FS.real`, C134); elsewhere there are no symbolic links (`resolve` of the `path` of an override is lexical). TOML values are an inductive type; reading, `tomllib.loads`, `Version(…)`, the running version,
registered formatters and the file system are parameters. `merge_configs` is modelled statement by statement with its dictionary pops. Exceptions are values that carry the class.
Assumed: TOML tables have distinct keys (needed for C20 only); exceptions of the parameters are subclasses of `Exception`.
Proof: loop invariants over the list of configurations, against `Spec/Config` (sections that apply, mentions, nearest value).

### Rule collection (C28–C33, C75, C76) — `config.py:find_rules`, `walk_module`, `collect_rules`, `validate_config`, `local_rule_loader`; `util.py:append_sys_path`
Modules are trees with attributes and submodules whose import may raise; the state of the import system is abstract. Class objects carry the execution that made them.
Assumed: imports do not change `sys.path`; plain modules have no `__path__`; local modules are executed afresh on every load since `local_rule_loader` removes them from `sys.modules`;
classes are hashed by identity; set iteration order is arbitrary (a permutation parameter).

### Engine (C34–C41) — `engine.py`
Trees with node identity and concatenative code generation (`Model/Tree`): fixed text, indentation, required, optional and sequence children, default separators, empty bodies.
libCST's `visit`, `deep_replace`, `code` and its errors are modelled from its documented behaviour; parsing is a parameter with `code (parse s) = s`.
Durations are arbitrary numbers. Metadata providers (`FullRepoManager`) are part of the parameter "what the visitors do".
Proof: structural induction over trees; a segmentation of the text in holes and fixed pieces (`Spec/Tree`) for locality and order-independence.

### API (C42–C54, C69, C77, C78) — `api.py`, `format.py`, `util.py:capture`
Generators are a resumption type with effects on a world (files, events); a history is the list of values sent, so that consumers that stop early are covered.
Parameters: parser, rules, configuration, formatter, diff, failing reads and writes (the write may fail after any prefix), standard input. `write_bytes` is truncate-then-write.
Not modelled: tracebacks, logging, `generator.throw` and `close`. `trailrunner.walk` is a parameter; `trailrunner.run_iter` is assumed to run the function once per path in some
process and to hand out each list when it is complete; processes share only the file system; steps of different processes interleave arbitrarily; pickling is modelled in `Model/Pool` (C120), where a list of results that cannot be rebuilt makes `run_iter` raise.
`Stable` (fixing a file does not change the configuration or rules of another) is a hypothesis of C51 and discharged from the file system in C93.

### capture, chdir (C59–C61, C70) — `util.py`
State machines over the same generators; `os.chdir` may fail.

### Command line (C55–C57, C79, C80, C92–C95) — `cli.py`, `api.py:print_result`
Printed text is modelled without colours; `echo` does not raise; `click.prompt` is a reply `y`, `n`, `q` or an abort, its text is not part of the output; click's own argument
parsing is not modelled (the parsed options are the input). `--output-format` strings are the names of the enumeration. `fixit debug`: the line with the options and the layout of
`pprint` are left out. `fixit lsp` only starts the server.

### Language server (C62–C68, C127) — `lsp.py`
An event machine: notifications, timers, steps of the threads that validate, format requests, changes of files and of documents. A timer thread that has passed its check cannot be
cancelled. Time itself is not modelled (any timer may fire at any time). `pygls`' document store, URI conversion, encoding are parameters. A format request takes the same steps as a
validation (read the source, look in the cache, store, read the cache, lint and reply) and other threads may go on in between; `.format` is the same in one go (C127_at_once).
In the code the main thread takes no message before it has replied; in the model it may, so there are more histories than real ones.
The meaning of an edit is that of the protocol (UTF-16 columns), written in `Spec/Lsp`.

### Rule tests (C90–C92) — `testing.py`, `cli.py:test`
`textwrap.dedent`, `unittest`'s loader and runner from their documentation; an assertion is the values it compares or shows, without the text around them; no `SkipTest`.

### The whole program (C93–C95, and the end-to-end theorems below) — `Model/System`, `Model/Commands`
The environment of the engine is *built* from the models of configuration, collection and `report`; what the visitors of rules do is a parameter.

### Visiting (C96) — `rule.py:get_visitors`, `engine.py:100-103`
libCST's batched visitor: one walk; at a node the `visit_` methods in rule order, then the children, then the `leave_` methods. Rules keep private state; the only state shared
is metadata, of which the sets of `FullyQualifiedNameProvider` can be changed by a rule (`pop`) and are modelled as a store.

### The bundled rules (C81–C89, C97–C113)
Every rule in `rules/`, `rules/extra/` and `upgrade/` is modelled as a function from libCST's documented data to what it reports.
`Model/Cst` is libCST's expression data without white space and comments; statements are modelled as far as the rule looks. Qualified names, scopes, `deep_equals`, `code_for_node`,
`parse_expression`, `evaluated_value` are parameters, with their laws as hypotheses where a theorem needs them.
The meaning of Python is in `Spec/PyEval` (evaluation with effects and exceptions over an arbitrary interpretation of names, calls, operators and attributes),
`Spec/StrLit` and `Spec/Percent` (literals and `%`), `Spec/PyText` (parentheses), `Spec/Scopes` (names), `Spec/RulesClasses` (C3 linearisation).
Values are compared by identity; iterations are finite; laws of builtins (`isinstance`, `any`, `all`, `list`, `dict`, …, `unittest` assertions) are hypotheses that say what the
documentation says. What is not claimed: behaviour under programs that rebind builtins in ways the rule does not look at (each such gap is a finding).
Assumed per rule: a sort of two or more elements compares each of them (C104); making text of a value has no effects and agrees between `%s` and f-strings (C110);
libCST's scopes follow Python's naming rules, assignment expressions in comprehensions left out (C111).

### Fixing again and again (C114, C115) — `Spec/Converge`
No new code: `Offered` collects the fixes of the modelled rules, `Step` replaces one node anywhere in an expression. Termination by a weight that every fix makes smaller, in any order and
for any metadata. C115 asks each rule about its own replacement.

### Rules in the whole program, rule classes, black, errors between processes (C116–C119) — `engine.py`, `rule.py`, `format.py`, `config.py`
`Model/Walk` puts the batched visit of `Model/Visit` into the whole program of `Model/System` and adds the preparation of metadata (which providers need the repository). Assumed: rules are
visitor state machines; the metadata of a module do not depend on which other providers are computed; a visitor method that raises makes no report before.
`Model/Subclass` looks at classes through their method resolution order. `Model/Formatters` and `Model/Pickle` take black's `NothingChanged` and Python's `__reduce__` protocol from their documentation.

### The bundled rules in the whole program (C121) — `rules/`, `rules/extra/`
`Model/Rules/Bundled` makes visitors (methods, messages, state) of the functions in the other rule modules; `Looks` is what libCST shows the rules about each numbered node, and
`Spec.LooksRight` says that it fits the module. `Spec/Bundled` says, per rule, which nodes it reports (`Offends`), with which message (`Message`) and when it raises (`RaisesOn`).
`C121_found` composes this with C116 (the batched visit) and C01–C07 (comments).

### Messages of configuration errors (C122) — `config.py`
`Err.config` carries the message in pieces (text and values shown with `!r`); `Py/Repr` is `repr` of strings after CPython, `Spec/Messages` says which text belongs to which mistake.
Assumed: which characters beyond ASCII are printable, and how floats and dates are written, is left open.

### Adding tests to a module, starting the server (C123, C124) — `testing.py`, `cli.py`, `lsp.py`
`Model/TestModule` is `add_lint_rule_tests_to_module`: attributes of a module are strings, generated classes or anything else. `Model/Serve` is `fixit lsp` and `LSP.start`; what a channel does until it
ends is a parameter, which may depend on the channels served before.

### The messages of validate-config (C125) — `config.py`
`Model/ValidateText` renders the reports of `validate_config`; `Spec.glances` lists what there is to come across in a table, `Spec.Transcript` what is said about it. Printing (rich or pprint) is not modelled.

### Threads that collect rules (C126) — `util.py`, `config.py`, `lsp.py`

`Model/Threads`: a small-step model of `collect_rules` as far as it touches what threads share: the test and the append and the removal of `append_sys_path`, the import of `fixit.local`, the assignment to its `__path__`, the import of the module
and the removal from `sys.modules`. Any number of threads, any schedule (a list of thread numbers). Proofs: an invariant counting who holds which directory (`PathInv`), one for a thread with its own directory (`OwnInv`), one for `fixit.local`
under the hypothesis that at no moment two threads are in that part (`LocalState`), a measure for termination. Left out: modules importing further local modules; the interpreter's switch points finer than one access.

### Standard input as a file (C130) — `api.py`, `cli.py`
No new code: the closed forms of `fixit_stdin` and `fixit_file` (both are `fixit_bytes` and then a write) are compared from two worlds that differ in the named file only; at the level of the API, of the commands and of the whole program.

### Rule modules that change `sys.path` (C30) — `util.py`
`Model/SysPath`: `append_sys_path` around a body that hands back the list as it leaves it. `collect_rules` itself is modelled with imports that leave `sys.path` alone; `withSysPath_quiet` connects the two.

### The same from every side (C131, C132) — `api.py`, `cli.py`, `lsp.py`
No new model. C131 compares the closed forms of the runs of `fixit_file` with and without autofix, for any answers, with the publications and the formatting replies of the server.
C132 takes the session theorem of C57 apart for a constant reply: with yes everywhere the accepted violations are the fixable ones, and violations without fix play no part in
`apply_replacements` (`replacements_usable`), so the end of each file's run is that of the automatic one; hence the same results, files, output and summary.

### What of a configuration counts (C133) — `config.py`, `engine.py`
Emptying the options tables commutes with every step of the merge (`Merged.cleared`), with reading and with `generate_config`. Two environments that differ only by a change of the configuration that neither
`collect_rules` nor the visit nor the formatter notices have the same generators (`fixitFile_reconfigured`, `fixitPaths_reconfigured`), hence the same runs.

### Linked configuration files (C134) — `config.py`
`FS.real` is `path.resolve()` in `read_configs`. The theorems reduce to those about reading (C16), merging (C21, C22) and validation (C32) at the resolved paths.

### Files in turn (C135), and the order of sets (C136) — `api.py`, `config.py`
C135: without the pool, the run over several paths is the runs on the files one after the other, each from the files the one before left (`Spec.inTurn`).
C136: `Outside.reordered` is the same program with other iteration orders of its sets. Selection is compared by membership (C28), a visit rule by rule (C96, C116), and the content of an
automatic fix by C36. What preparing metadata raises is assumed to depend on the set of providers only (`ProviderSets`), as in libcst, where it is a set.

### Locality (C137) — `config.py`, `api.py`
No new model. The search up to the top starts with the search up to the nearest root directory, and reading stops there.

### Relocation (C138) — `config.py`, `api.py`, `util.py`

Two places `P` and `Q`, `moved P Q` replaces the one by the other in a path. Each step of `merge_configs` is shown to commute with it (`parseRule_moved`, `processSubpath_moved`,
`applyOverrides_moved`, `mergeStep_moved`), using that rule references are compared and sorted without their directory; discovery and reading are cut off at `P` as in C137. The rules collected and the runs
of `fixit_file` follow. `SameImports` and `TreatedAlike` say what is asked of the import system, the diff and the formatters. Override paths must be relative and stay in the project (`StaysInside`).

### Processes on the same file (C139) — `api.py`

The pool model (`Worker`, `runPool`) interleaves single steps of the workers; opening for writing truncates, and writing starts at offset 0 and leaves what is behind (`World.overwrite`).
`Quiet` says that what a worker does between reading and writing changes no file and does not depend on the linted files; `Tail` says what is left of a worker after its read. An invariant
(`Racing`, with the stage of each worker as ghost state) is kept by every step of every worker: the file is old and nobody has opened it, or it is new, or it is empty and somebody is about to write.

### One reference more (C140) — `config.py`, `engine.py`

`OneMoreDisabled` relates two merged configurations; `C140_config` shows that adding one mention to `disable` in the nearest table leads to it (by C17, last mention wins, and C09, equal text equal reference). `C140_selected` is the exact change of the set of selected rules (from the characterisation of `collect_rules` in C28), `C140_still_lints` that nothing can newly fail, and `C140_fewer` compares what is found, rule by rule, by the closed form of a walk over the tree with independent visitors (C116, C136). Proof: both lists of violations are concatenations over the selected rules of a block per rule that depends on the rule only.

### Tests and projects (C141) — `testing.py`, `engine.py`, `api.py`

The test of a rule is the model of `_test_method` run in the program with visitors (`Outside.walking`), with the rule instance the program makes; the project is any set of files, path and configuration for which linting goes through. `tested_block` shows that what the test saw is the block of this rule in what is found in the file: both are `Recorded` from the reports of the rule visiting alone, which is a function.

### One reference more (C140, C143) — `config.py`, `engine.py`

Two configurations that differ in one mention, the last one: by C17 the merged lists differ in that reference only. Selection is compared through C28's characterisation, runs rule by rule through C116.

### Restricted runs (C144) — `config.py`, `ftypes.py`

The options change one field of the configuration (`config_withTags`); the contribution of a rule to a run is determined by the rule and the file (`block_unique`), so runs are compared as permutations of concatenated contributions.

### One comment more (C142) — `rule.py`, `engine.py`

`CommentIn` lists the free places of a node where `node_comments` looks, `CommentWritten` says that seen from every node either nothing changed or one node around it has the comment. The specification of
which comments belong to a node (`Associated`, C12) is compared for the two trees; with the exact characterisation of a run (C116) the violations of the one are those of the other, filtered.

### Texts of messages (C121) — `rules/`
`Spec/BundledMessages` is generated from the source by `tools/gen_messages.py` (Python's `ast`); the messages in the model are compared with it.

### Interrupted runs (C77, C145) — `api.py`
`Spec/Crash`: a run can die between two of its steps (`Gen.worlds`) or in the middle of one (`Midway`): a file that the step changes then holds any beginning of what it is given. A point of a sequence of generators
lies in one of them (`crash_bind`); the file events of one file are a beginning of `opened, wrote` (C43), and files do not influence each other (C52). In the pool every worker may be in the middle of its next step
(`PoolCrash`).

### Lint and fix agree about clean files (C146) — `cli.py`
The exit status of `lint` is a statement about each file on its own (C55), whatever the schedule (C51); a file whose own lint run is one clean result gives that result and no write under every mode and answers of `fix`
(`clean_run`), so the dialogue of C57 has no question in it. Conversely a dialogue that prints only its summary has only clean results (C79), and each file's results are those of its own run.

### Splitting a run (C147) — `api.py`, `cli.py`
In one process the generator over `fs ++ gs` is the one over `fs` followed by the one over `gs`, from the world in between (`drain_eachFile_append`). Several processes at once, each a sequential `fixit_paths` over its
arguments (`Spec.startRuns`), are simulated by a pool with one worker for each file (`runs_as_pool`): a process is the join of its file workers, of which those before the current one are done and those behind it have
not begun; each of its steps is a step of the current one, or none. Everything proved about the pool under any schedule (C51, C77) carries over.

## Not modelled, and why
* `tomllib`, `packaging`, `click`, `pygls`, `libcst`, `trailrunner`, `moreorless`, `black`, `ufmt`: dependencies, not in `/repo`; parameters.
* `scripts/`, `docs/`, `tests/`: not part of the program.
* `testing.get_fixture_path`, `testing.validate_patch`: not called by anything.
* Logging and `--debug`: no effect on results.
* Running time, memory, real threads and signals.

## Findings
Behaviours of the code for which the natural property fails. Each has a theorem with a concrete witness.
