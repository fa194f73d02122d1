# Formal model of mcpyrate in Lean 4 — design

Source modelled: `/repo/mcpyrate` (mcpyrate 3.6.4, Python), read as text only.
Lean project: `/verif/lean`. Properties: `/verif/properties.jsonl`. Status per
property: `/verif/MANIFEST.json`. Wrong-program experiments: `/verif/seeded/LOG.jsonl`
(by hand) and `/verif/seeded/MUTATIONS.jsonl` (automatic).

## Layout

* `Verif/Py/*`    – the Python data the code works on (AST values, dictionaries, paths).
* `Verif/Model/*` – the model, function by function; each definition cites file and lines.
* `Verif/Spec/*`  – small independent specifications used in theorem statements.
* `Verif/Lemmas/*`– helper lemmas.
* `Verif/Props/*` – the property theorems, each with a concrete instance of its hypotheses,
  and refutations (`…_violated`) where the code does not have the property.
* `Verif/Axioms.lean` – `#print axioms` of every property theorem.

## Modelling conventions

* An AST is a *value* (`Val`): class, location attributes, list of (field, value). Field and class
  names are enumerations; user-defined classes (markers) are named. A missing field is a field
  absent from the list (Python: attribute deleted or never set). In-place mutation becomes
  returning the new value. Object identity is dropped except where the property is about
  identity (fix_ctx with sharing, the capture lookup cache): those have heap models.
* Exceptions are values. `try/finally` is modelled by running the cleanup on both results.
* Arbitrary user code (macro functions, walkers' examine/transform, dialect transformers) is
  either an arbitrary Lean function or, where it calls back into the library, a program in a free
  monad whose operations are the library calls, so theorems quantify over all behaviours
  including raising and catching exceptions at any point.
* Unbounded recursion through user code takes fuel; theorems hold for every fuel at which the run
  finishes (partial correctness: "if the Python call returns or raises, then …").

## Tests against wrong programs

`seeded/LOG.jsonl` has one line for each bug seeded by hand. Where a theorem survived at first, it was
tightened, and `tightened` names it. `seeded/MUTATIONS.jsonl` has one line for each change made by a script
that alters one token of a model definition (911 changes that compile).
The first two runs took one sample per definition and operator.

* First run, on the model at the state of C59, 509 changes: 351 made a theorem or lemma fail, 12 only an example, and 146
  nothing (`result`). The survivors were tried again later, when C47 and the theorems on quotes had become stronger
  (`now`): 416 make a theorem or lemma fail, 7 only an example, and **86 make nothing fail**. Each of the 93 has
  a `note`. About 45 of them change which exception is raised for a malformed tree or argument, which no property claims.
  17 have no observable effect. The others are in parts that the theorems leave out, as the notes say; 3 are gaps in the
  sense that a theorem on f-strings would find them.
* Second run, on the definitions added after that, 249 changes: 229 made a theorem or lemma fail, 3 only an example, and 17
  nothing. 7 of the 20 led to stronger theorems (`tightened`), and were tried again. **13 still make nothing fail**; each
  has a `note`, one of them is a gap (C63).
* Third run (`run`: 3), over all of the model again, in random order, and stopped after 236 of about 1020 changes for lack
  of time. 153 compile: 135 made a theorem or lemma fail, 2 only an example, and 16 nothing. 4 of the 18 led to stronger
  theorems (`tightened`), which the same edits make fail (see LOG.jsonl). **13 still make nothing fail**, and 1 only an
  example; each has a `note`: 9 change which exception is raised for malformed code, 4 have no effect, and one changes how
  markers are laid out, which no property claims.

## Plan per property

| id | model | proof |
|----|-------|-------|
| C01 | gensym over a UUID stream with the set of previous names | invariant over call histories |
| C02 | scrub_uuid on character lists, Python `int(s, 16)` grammar | direct; idempotence refuted |
| C03 | flatten on nested lists | structural induction, against a leaf specification |
| C04 | rename as generic AST map | against the table of identifier fields; missed fields refuted |
| C05 | tracker stack machine, programs with exceptions | induction on programs |
| C06 | split/inject on statement lists | refuted at "only future-imports"; rest proved partial |
| C07 | heap of Bunches and dicts | refinement to abstract maps over op sequences |
| C08 | ordered dictionary filter | direct; `global_only` refuted |
| C09 | walker with free-monad examine/transform | induction on programs/fuel |
| C10, C11 | generic AST, class predicate | structural induction |
| C12 | ctx fixer with state override table | against a positional specification |
| C13 | heap model | refuted with concrete graphs; proved for graphs in which nodes with a registered context are used once, by an invariant with a ghost map from objects to the nodes they are versions of |
| C14 | fix_locations | structural induction per mode |
| C15–C23 | expander with macros as free-monad programs | induction on fuel |
| C24 | collector | against the same invocation specification; exception case refuted |
| C25, C26 | find_macros/get_macros over a module environment | induction on bodies |
| C27 | registry | invariant over histories |
| C28 | paths as strings | sibling-prefix case refuted; partial |
| C29–C31 | splicing | structural induction; documented argument form refuted |
| C32, C33 | astify/unastify and an evaluator of constructor calls | structural induction |
| C34 | splice_ast_literals | refuted for nested non-list fields; partial |
| C35 | quote-level machine | induction on nesting |
| C36–C38 | captures, registry, id-keyed cache | histories; id reuse refuted |
| C39, C40 | extract_phase, multiphase driver | induction on bodies/phases; crash leak refuted |
| C41 | dialect loop | fuel induction |
| C42 | scanner of source text | refuted; partial |
| C43, C44 | sys.modules state machine | direct; leaks refuted |
| C45, C46 | dependency graph with caches | reachability; cycles refuted |
| C47 | the unparser, and a lexer and a parser for expressions, patterns and statements | round trip by induction on the trees; what the parser returns is such a tree, by induction on its depth; collisions refuted |
| C48 | hook state machine | histories |
| C49 | directory trees | structural induction |
| C50 | stepping loop | fuel induction |
| C51 | `expand`, `_visit_expansion` in the expander model | C12, C14 applied to the output of the macro function |
| C52 | `expand_first` as user code of the expander model (it uses two other expanders) | the call is a visit with fewer bindings; then the lemmas behind C15, C18; a relation on states saying that what is applied directly is what the name is bound to |
| C53 | the four macros as user code of the expander model, on top of the models of `q` and `unastify` | the code that `q` makes has no invocations and survives the expander's fixers, and `unastify` inverts it (C33), so the macros are an expansion followed by a quote (C32); with unquotes, the commands survive the fixers, and `unastify` brings them back (C35, C58); the first expansion changes nothing else in that code than the unquoted expressions |
| C54 | the macros as user code of the expander model; evaluation of the generated code by the evaluator of C32, in an arbitrary host; `runtime_expand` as a new expander | the code of each captured macro evaluates to it (C36), so the code is a call of `runtime_expand` with a snapshot of the bindings; C18 applies to that expander |
| C55 | the macro as user code; evaluation of the generated code as in C54 | the code is a call of `fix_locations` with a reference node that has the location of the invocation; then C14 |
| C56 | the macro as user code; evaluation of the generated code as in C54 | the code is a call of `step_expansion` with a snapshot of the bindings (C54) and the quoted arguments (C32); then C50 |
| C57 | the expander model of C15–C23 and `step_expansion` of C50 | relational big-step semantics without the state (macros that only return), equal to the model in both directions; one-layer lemma by induction on the depth of the recursive expansion; then induction on the number of layers |
| C58 | the operators of C35, the code generator and evaluator of C32, C34 | what the argument stands for at level 1 (C35) is a template of C34; the compiled code then builds what the template means, by induction on the tree, with a relational specification of the commands; for captured macros, the same with the names that gensym makes threaded through |
| C59 | `expand` as the composition of the models of its stages, on one state of the process | each stage is replaced by its specification (C41, C42, C25, the expander, C11, C12, C27); the text, tree and list cases meet at the initial tree; plain modules by the identity theorems of the stages |
| C60 | `run` on top of C59 and C43, with Python's compiler and `exec` as parameters | every kind of module argument is reduced to a given module; then by composition, with C59 for modules without macros |
| C61 | `runsource` of the console, on top of C25, the macro expander and C27; parser, compiler and running code are parameters | a relation for the stages of one input, by composition; induction over the inputs of a session for the bindings |
| C62 | `dump` as a function from trees to text, on the `repr` of C47; escape codes are parameters | induction on trees: the text of a subtree determines it and where it ends; removing escape codes commutes with `dump`; the multi-line text is a function of the one-line text (a scanner with a stack of columns) |
| C63 | `import_module_as_main` and `main` of macropython; finders, loaders, `import_module` and programs are arbitrary functions on the state | equations for each case, with a relation for the search; sys.path by C28; refuted for packages, the installed command and dotted file names |
| C64 | the IPython extension: the transformer, the callback after a cell, loading, unloading, the magics; IPython's loop over transformers and callbacks is part of the model, running a cell is an arbitrary function on the state | the pieces are those of C61; invariant over sessions for what is registered; refuted for unloading and for the mode eval |
| C65 | format_bindings, show_bindings, format_macrofunction; what is shown of a function (module, qualified name, repr) and the color codes are parameters | the sorted list of bindings is unique; the report can be read back line by line; colors as in C62; the macro by C23; refuted for global bindings |
| C66 | get_lineno, format_location, format_context, SourceLocationInfoValidator; the source text and the color codes are parameters | induction over the tree; line numbers as text read back; lines of a text are unique, and colors do not change them; the collected nodes by the preorder; refuted for 0, None, markers, and nodes that have no locations |
| C67 | the transformers and postprocessors with the messages of the debug mode, StepExpansion as a separate class; the colors and the texts of contents are parameters | simulation of the run with a dialect that does nothing; the messages as a function of the calls |
| C68 | multiphase_expand with its messages, isdebug, the macros phase and step_phases; formats of trees are parameters | simulation of C39's driver; the messages as a relation over the phases; misplaced invocations by completeness of a visit (C17) |
| C69 | all methods of the unparser with colors, debug mode and captures; builtins, macros and the tests for captures are parameters | simulation of the plain methods, method by method; relations `Painted` and `Annotated` between the texts |
| C70 | `namemacro`, `parametricmacro` and their tests on a heap of objects; Python's attribute lookup for functions, classes, instances and bound methods; `functools.wraps` | induction over histories: invariant that each object's places of lookup are those of its definition |
| C71 | an import: `source_to_xcode` and `path_xstats` as called by Python's `SourceLoader.get_code`, with bytecode files; the compiler is an arbitrary function | invariant over histories of edits, damage and imports: bytecode is up to date, or older than a file that is depended on (C45, C46) |
| C72 | `setcolor`, `colorize`, the codes of ansi.py and the color scheme; the terminal is part of the specification | induction on the nesting of colors; each code by computation |

## Trusted base

* Lean 4.33.0's kernel; axioms at most `propext`, `Classical.choice`, `Quot.sound`.
* The reading of the Python source embodied in the model definitions and of the Python run-time
  semantics they rely on (`ast.NodeTransformer`, dictionaries, `try/finally`, string methods).

`Verif/Axioms.lean` prints the axioms of every property theorem during the build. Each uses a subset
of the three above; none uses an axiom declared in this project, `sorryAx` or `Lean.ofReduceBool`.

Parameters of the model, i.e. things a theorem holds for *all* choices of (subject to hypotheses
written in the theorem): macro functions, postprocessors, dialect classes, walkers' methods, the UUID
generator, `importlib`, the file system and `Path.resolve`, Unicode tables, `pickle`, `eval` of names,
the text of error messages' source locations.

## Code that is modelled

| file | modelled (lines) | in `Verif/Model/` | not modelled |
|------|------------------|-------------------|--------------|
| activate.py | all | Activate | |
| astdumper.py | all | Dump | |
| astfixers.py | all | FixCtx, FixCtxShared (heap), FixLocations | |
| bunch.py | all but `__repr__` | Bunch | `__repr__` |
| colorizer.py | 24-30, setcolor, colorize 36-95, ColorScheme 118-180 | Colorizer; with the codes as parameters also Dump, Bindings, UnparseColor | Colorama |
| compiler.py | expand 33-183, singlephase_expand 281-312; compile, run 186-278, 317-438; create_module, temporary_module 441-586 | Compiler, RunCode, Modules | code objects (a parameter) |
| core.py | all | Expander, Postprocess | text of messages, except the telescoping (C20) |
| coreutils.py | 19-199, 257-304 | Paths, MacroImport, GetMacros, FutureImports | `_mcpyrate_attr` as part of Quotes only |
| debug.py | 27-266 | StepExpansion, Bindings, SourceInfo | |
| dialects.py | 35-123, 126-443 | Dialects, DialectSource, DialectSteps | |
| expander.py | all | Expander, Collector, FindMacros, Postprocess, Declare | |
| importer.py | 21-27, 59-224 | Importer, ImportCode | the list of the files of the standard library (83-93) |
| markers.py | all | Markers | |
| metatools.py | expand_first; expand1sq, expandsq, expand1s, expands; macro_bindings, expand1rq, expandrq, expand1r, expandr, runtime_expand1, runtime_expand; fill_location, stepr (all) | ExpandFirst, ExpandStatic, ExpandRuntime, FillLocation, Stepr | |
| multiphase.py | 36-414 | Multiphase, MultiphaseDebug | colors, texts of the errors |
| pycachecleaner.py | all | Pycache | |
| quotes.py | all | Quotes, QuoteOps, Captures, LookupValue | text of error messages |
| splicing.py | all | Splicing | |
| unparser.py | all node types of Python 3.12, with colors and debug mode | Unparse, UnparseColor | texts of the errors; nodes of Python 3.7 and earlier |
| utils.py | 20-345 | Utils, Rename, FutureImports, Bindings, SourceInfo | |
| walkers.py | all | Walkers | |
| repl/console.py | `MacroConsole.runsource`, `_internal_execute`, `_refresh_macro_functions` | Console | `__init__` and `interact` are not modelled; OverflowError is left out |
| repl/macropython.py | import_module_as_main, main 31-283 | Macropython | parsing the command line; setting up readline, numpy and matplotlib; cutting of tracebacks |
| repl/iconsole.py | all but the text of messages and `%%ignore_importerror` | IConsole | IPython itself, except its loops over transformers and callbacks |
| ansi.py | 9-35, 51-103 | Colorizer | title, clearing, cursor |
| repl/utils.py | nothing | | printing docstrings |

Standard library parts the code relies on and that are modelled: `ast.NodeTransformer`/`NodeVisitor`
(`Py/Transform`, `Py/Walk`), `ast` field tables (`Py/Ast`, `Py/Fields`), insertion-ordered dictionaries
(`Py/Dict`), `int(s, 16)`, `repr` of constants, the regular expression of the dialect scanner
(backtracking matcher), and for C47 a lexer and a parser of Python (`Spec/PyLexer`, `Spec/PyGrammar`,
`Spec/PyPatterns`, `Spec/PyStatements`, `Spec/PyParser`).

Left out throughout: object identity of AST nodes (except in FixCtxShared, where it matters),
subclasses of AST classes that are neither Python's nor markers, signals and threads, memory
exhaustion; the recursion limit is modelled only where stated (C45, C47).

## Where the code does not have the property

Each is a theorem ending in `_violated` with a concrete witness; the rest of the property is proved as
`_partial`.

| theorem | what goes wrong |
|---------|-----------------|
| C04_rename_violated | `rename` misses `MatchMapping.rest`, `MatchClass.kwd_attrs`, type parameters |
| C06_only_future_violated, C06_empty_docstring_violated, C06_number_violated | `split_futureimports` on a body of future-imports only; empty docstring; leading non-string constant |
| C07_bunch_copy_violated | `Bunch.copy` with a key `self` or a non-string key |
| C09_empty_state_violated, C09_emptied_state_violated | an empty walker state is falsy, so it is not pushed, or not popped |
| C13_with_violated, C13_assign_violated, C13_tuple_violated, C13_subscript_violated | `fix_ctx` with a node object used in several places |
| C14_reference_violated, C14_update_violated | nodes with a start but no end position, or vice versa |
| C15_empty_suite_violated | `visit([])` returns None |
| C18_violated, C18_bindings_violated | `k[a][b]` where `k[a]` expands to a macro's name; a macro that binds a macro |
| C21_name_args_violated, C21_async_violated | identifier macros get `args=None`; decorators of `async def` are not looked at |
| C23_coverage_violated | invocation with column but no line: AttributeError |
| C24_call_violated, C24_comment_violated | MacroCollector raises on code that the expander accepts |
| C28_sibling_violated, C28_relative_violated, C28_depth_violated, C28_root_violated | `sys.path` entries matched as string prefixes, sorted by raw depth; relative entries; the root directory |
| C30_single_template_violated, C30_single_compound_violated | `splice_statements` with a single statement as template loses the body |
| C31_docstring_violated, C31_only_imports_violated, C31_empty_suite_violated | two docstrings; a module of imports only; extraction leaves an empty suite |
| C32_complex_violated, C32_double_star_violated | complex numbers cannot be quoted; `q[{**d}]` raises TypeError |
| C33_positional_violated | `unastify` accepts code that is not the output of a quote |
| C34_below_field_violated, C34_double_star_violated | list unquote below a non-list field; next to `{**d}` |
| C35_items_violated, C35_coverage_violated | inner quotes in block mode are not preserved literally |
| C37_clash_violated | unique names of captures from two processes may clash; only the UUID generator prevents it |
| C36_lookup_violated | the value of another capture is returned, when an `id` is reused (see C38) |
| C38_reuse_violated | the cache of `lookup_value` is keyed by `id` of a value that may have been freed |
| C39_tuple_violated | `with phase[n,]` |
| C40_exception_violated, C40_empty_violated, C40_none_violated | the temporary module stays in `sys.modules`; a None entry is deleted |
| C42_consecutive_violated, C42_following_violated, C42_following_raises_violated, C42_unicode_violated | the regular expression of the dialect scanner runs over line ends; non-ASCII names |
| C44_unnamed_violated, C44_existing_violated, C44_existing_error_violated, C44_bodyRemoves_violated | unnamed module stays; existing entry is deleted; attribute on the parent stays if the body removed the entry |
| C45_cycle_violated, C45_older_violated | cyclic macro dependencies: RecursionError; edit with an older time |
| C47_dictUnpacking_violated, C47_emptySubscript_violated, C47_fstring_violated, C47_expression_violated, C47_typeParams_violated, C47_withTuple_violated | `{**d}`, `a[()]`, braces in f-strings, `ast.Expression`, type parameters of functions and classes, `with ((a, b)):` |
| C47_nestedOr_violated, C47_nestedAs_violated, C47_mappingKey_violated, C47_complexPattern_violated | the patterns `(1 \| 2) \| 3`, `(1 as x) \| (2 as x)`, `(1 as x) as y`, `{-1: x}`, `-1 + 2j` |
| C48_reload_violated | reloading `mcpyrate.activate` while active |
| C49_link_violated, C49_inner_link_violated | symbolic links called `__pycache__`, or in a cache |
| C50_call_violated, C50_dump_violated | `step_expansion`: collector raises; "dump" of an empty result |
| C52_global_violated, C52_identifier_violated, C52_quoted_violated | `expand_first`: globally bound macros are expanded too; identifier macros and `q[h[m]]` are rejected |
| C53_block_violated, C53_block_expands_violated, C53_rejects_violated | `with expandsq as x:` (and `expand1sq`, and `with expands:`) always raises; `expands[f(x)]` raises NotImplementedError where the docstring promises TypeError |
| C54_block_violated | `with expandr:` is accepted, but its code has a list in the place of an expression |
| C56_same_violated | `stepr`: stepping through `f()[x]` raises SyntaxError, where `expandr` returns it |
| C57_violated, C57_empty_violated | `k[a][b]` where `k[a]` expands to the name of a macro: expanding at once and layer by layer differ; stepping through an empty list of statements gives `[]`, expanding it `None` |
| C58_coverage_violated | `with a:` inside of a quote puts another statement (an assignment to `_mcpyrate_coverage`) into the quoted code |
| C60_docstring_violated | `run`: a number (or other constant) as first statement becomes the docstring |
| C61_comment_violated | an input that ends with a question mark, such as the comment `# why?`, can end the interactive session with a SyntaxError |
| C61_qualname_violated | importing a macro defined inside of a function or class ends the interactive session with a SyntaxError |
| C61_import_violated | a macro module that raises, for example, RuntimeError when imported ends the interactive session |
| C63_package_violated, C63_subpackage_violated, C63_namespace_violated | `macropython -m pkg` imports `pkg.__main__` as an ordinary module, so `if __name__ == "__main__"` does not hold; for `-m pkg.sub`, `pkg/sub/__init__.py` is run as `__main__` and `pkg/sub/__main__.py` is not run; `-m` with a namespace package is an AttributeError |
| C63_error_violated | a ModuleNotFoundError raised by `pkg/__main__.py` is reported as a missing `pkg.__main__`; an ImportError without message becomes a TypeError |
| C63_installed_violated | with the installed command (entry point), `sys.modules["__main__"]` is set to None when the program raises an exception |
| C63_dottedFile_violated | `macropython a.b.py` is a ValueError |
| C63_sourceless_violated, C63_emptyPath_violated | a package without source code is run as a script, with `__package__` set to `"__main__"`; if `sys.path` is empty, IndexError is raised |
| C64_unload_violated, C64_reload_violated | unloading the IPython extension unregisters nothing: `__del__` is never called, because what is registered refers to the extension. Macros are still expanded; after loading it again `%macros` does not show the macros in effect |
| C64_eval_violated | `%%dump_ast --mode eval --expand yes` always fails: the transformer looks for macro-imports in a body that is not a list |
| C65_all_violated | `show_bindings` asks for the local bindings only, so macros captured by hygienic unquotes are not shown, although its description explains how to recognise them |
| C66_zero_violated | a line number 0 inside of a tree is skipped, `None` is returned |
| C66_none_violated | a node with `lineno = None` hides the line numbers of its children |
| C66_marker_violated | in a marker with a body the other fields are not searched for a line number |
| C66_ctx_violated | the location validator reports `Load()` and other nodes that can not have locations |
| C69_space, C69_nameless | (stronger forms than the property) a clause ` for x in y` unparsed by itself keeps the space in front when colored; a class name that is not a string is formatted when colored, a TypeError without colors |
| C71_second_violated | a module that is edited within a second of its last compilation is not compiled again, even if its length has changed (`path_stats` gives no size, so Python does not compare it) |
| C71_deleted_violated | when a file with macros is deleted, modules that use it are still imported from old bytecode, if they are newer |
| C71_helper_violated | changes of a module that a macro definition imports in the ordinary way are not noticed |
| C72_no_terminal_violated | if `sys.stderr` is not a terminal, the styles ITALIC, URL, BLINK and BLINK2 are still written, and are not reset |
