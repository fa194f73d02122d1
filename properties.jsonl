{"id": "C01", "title": "gensym never repeats a name", "statement": "In one process, no call to gensym ever returns a name that an earlier call returned, whatever basenames were used and even if the UUID source repeats itself. Each returned name is the basename, an underscore and the UUID (just the UUID for an empty basename), and a truthy non-str basename raises TypeError and leaves no trace.", "quantifier": "every history of gensym calls, every basename, every UUID source", "why_tests_cant": "Collisions depend on the whole call history and on UUID repetitions that a test run never produces.", "anchors": ["mcpyrate/utils.py:gensym"]}
{"id": "C02", "title": "scrub_uuid undoes gensym", "statement": "scrub_uuid(gensym(name)) == name for every nonempty name, and a name whose part after its last underscore is not a 32-character hexadecimal integer literal is returned unchanged. (Whether scrubbing twice is the same as scrubbing once is also settled.)", "quantifier": "every name and every UUID string", "why_tests_cant": "Names are unbounded strings that may themselves contain underscores and earlier UUIDs.", "anchors": ["mcpyrate/utils.py:scrub_uuid", "mcpyrate/utils.py:gensym"]}
{"id": "C03", "title": "flatten keeps exactly the leaves, in order", "statement": "flatten(lst) returns the list of the non-list, non-None leaves of lst in left-to-right order, at any nesting depth; it is idempotent and compatible with concatenation. With recursive=False it removes exactly one nesting level and the None values of the outer level.", "quantifier": "every arbitrarily nested list", "why_tests_cant": "Nesting depth and shape are unbounded.", "anchors": ["mcpyrate/utils.py:flatten"]}
{"id": "C04", "title": "rename changes every occurrence of a name and nothing else", "statement": "rename(old, new, tree) replaces every identifier equal to old by new, in every place of the AST that holds an identifier, leaves everything else alone, never changes the tree shape, is undone by rename(new, old) when new did not occur before, and composes.", "quantifier": "every AST and every pair of names", "why_tests_cant": "The identifier-bearing places are spread over some thirty node types and arbitrary depth; one missed field is invisible to tests that do not use that node type.", "anchors": ["mcpyrate/utils.py:rename"]}
{"id": "C05", "title": "NestingLevelTracker is properly scoped", "statement": "Inside the dynamic extent of any properly nested use of set_to and changed_by, the tracker value is what the innermost active context asked for; when a context exits, normally or by an exception, the value is what it was when that context was entered; the value is never negative, and a request for a negative value raises ValueError and changes nothing.", "quantifier": "every program of nested contexts, with exceptions raised at any point", "why_tests_cant": "All nestings and all crash points.", "anchors": ["mcpyrate/utils.py:NestingLevelTracker"]}
{"id": "C06", "title": "Future-import splitting and injection", "statement": "split_futureimports splits a module body into docstring, leading future-imports and the rest: the three parts concatenate to the body, the middle part is the maximal run of future-imports after the docstring, and inject_after_futureimports puts the new statements after all of those future-imports and before everything else.", "quantifier": "every statement list", "why_tests_cant": "Boundary cases (empty body, body consisting only of future-imports, docstring only) and unbounded lengths.", "anchors": ["mcpyrate/coreutils.py:split_futureimports", "mcpyrate/coreutils.py:inject_after_futureimports", "mcpyrate/utils.py:getdocstring"]}
{"id": "C07", "title": "Bunch behaves like a dictionary with attribute access", "statement": "After any sequence of operations a Bunch answers every read like a plain dict that received the same writes; attribute access and item access agree on non-reserved names; reserved names cannot be assigned as attributes; copy is independent of the original; replace installs a copy.", "quantifier": "every operation sequence over any number of Bunch objects", "why_tests_cant": "Aliasing and operation order cannot be enumerated.", "anchors": ["mcpyrate/bunch.py:Bunch", "mcpyrate/bunch.py:bunchify"]}
{"id": "C08", "title": "extract_bindings returns exactly the wanted bindings", "statement": "extract_bindings(bindings, *functions) contains a name with a value exactly when the name has that value in bindings and the value is one of the functions, in the order of bindings; it depends only on the set of functions (the global_only flag has no influence).", "quantifier": "every bindings dictionary and every set of functions", "why_tests_cant": "All alias configurations.", "anchors": ["mcpyrate/utils.py:extract_bindings"]}
{"id": "C09", "title": "Walker state is scoped to the subtree", "statement": "With ASTVisitor/ASTTransformer, while a subtree registered by withstate is being visited the state is the updated copy; when the visit of that subtree ends, normally or by an exception, the previous state object is current again, and changes made to the temporary state are not visible outside it; collect appends in visiting order and survives state changes.", "quantifier": "every tree, every examine/transform behaviour (as a program of walker calls), every exception point", "why_tests_cant": "The behaviour of user-defined examine/transform is arbitrary code.", "anchors": ["mcpyrate/walkers.py:BaseASTWalker", "mcpyrate/walkers.py:ASTVisitor.visit", "mcpyrate/walkers.py:ASTTransformer.visit"]}
{"id": "C10", "title": "get_markers finds every marker", "statement": "get_markers(tree, cls) returns every instance of cls reachable in tree, once per occurrence, in pre-order, and check_no_markers_remaining raises exactly when there is one.", "quantifier": "every AST or suite and every marker class hierarchy", "why_tests_cant": "Markers can be nested at any depth, inside other markers.", "anchors": ["mcpyrate/markers.py:get_markers", "mcpyrate/markers.py:check_no_markers_remaining"]}
{"id": "C11", "title": "delete_markers removes every marker and nothing else", "statement": "After delete_markers(tree, cls) no instance of cls remains anywhere; each marker has been replaced by its processed body (spliced when the body is a list in a suite); a tree without such markers is returned unchanged; the operation is idempotent.", "quantifier": "every AST with markers in any position, bodies that are nodes or lists of nodes", "why_tests_cant": "Nesting of markers within markers and splicing of list bodies at any depth.", "anchors": ["mcpyrate/markers.py:delete_markers"]}
{"id": "C12", "title": "fix_ctx assigns the right context to every node", "statement": "After fix_ctx, every Name/Attribute/Subscript/Starred/List/Tuple node has the ctx its syntactic position requires (Store for assignment-like targets, Del for del targets, inherited through Starred/List/Tuple, Load elsewhere), nothing but ctx fields changed, and a second run changes nothing.", "quantifier": "every AST without shared nodes", "why_tests_cant": "Positions nest arbitrarily (targets inside subscripts inside targets...).", "anchors": ["mcpyrate/astfixers.py:fix_ctx", "mcpyrate/astfixers.py:_CtxFixer"]}
{"id": "C13", "title": "fix_ctx handles shared nodes", "statement": "With copy_seen_nodes=True, fix_ctx gives every position the right ctx even when the same node object was spliced into several positions that need different ctx.", "quantifier": "every AST object graph, with arbitrary sharing", "why_tests_cant": "Sharing patterns are unbounded and depend on object identity.", "anchors": ["mcpyrate/astfixers.py:fix_ctx", "mcpyrate/walkers.py:BaseASTWalker.withstate"]}
{"id": "C14", "title": "fix_locations fills in locations as documented", "statement": "After fix_locations with a located reference node, every node that can carry a location has one; mode 'reference' changes only missing attributes and sets them from the reference node; mode 'overwrite' sets all of them to the reference node's; mode 'update' uses the nearest located ancestor, exactly like ast.fix_missing_locations seeded from the reference node; without a located reference node nothing changes.", "quantifier": "every AST or suite, every reference node, every mode", "why_tests_cant": "Partially located trees of any shape.", "anchors": ["mcpyrate/astfixers.py:fix_locations"]}
{"id": "C15", "title": "The expander leaves alone what it must leave alone", "statement": "visit returns its argument unchanged when the expander has no bindings, when the tree is marked Done, and when the tree contains no macro invocation; expansion never looks into a subtree marked Done: outside of the invocations that are expanded, such subtrees are unchanged, and no macro is applied to one.", "quantifier": "every tree, every set of bindings, arbitrary macro functions", "why_tests_cant": "Quantifies over all trees and all macro functions.", "anchors": ["mcpyrate/core.py:BaseMacroExpander.visit", "mcpyrate/expander.py:MacroExpander"]}
{"id": "C16", "title": "Expansion mode is restored", "statement": "When visit, visit_once or visit_recursively returns or raises, the expander's recursive mode (and the debug hook) is what it was at the call, however macros re-enter the expander, raise, or catch exceptions; inside visit_recursively the mode is recursive (except while an identifier macro runs, which sees non-recursive mode) and inside visit_once it is not.", "quantifier": "every tree, arbitrary macro functions that call back into the expander and raise or catch exceptions at any point", "why_tests_cant": "All re-entrant call patterns and all exception points.", "anchors": ["mcpyrate/core.py:BaseMacroExpander._recursive_mode", "mcpyrate/core.py:BaseMacroExpander.visit_once", "mcpyrate/core.py:BaseMacroExpander.visit_recursively", "mcpyrate/core.py:BaseMacroExpander.debughook"]}
{"id": "C17", "title": "visit_once makes one pass and protects its result", "statement": "visit_once returns a Done marker, later expansions leave its contents as they are, and no macro output produced during the pass is itself expanded.  Each invocation that is not inside of another one is expanded exactly once.", "quantifier": "every tree and all macro functions", "why_tests_cant": "Quantifies over all macro outputs.", "anchors": ["mcpyrate/core.py:BaseMacroExpander.visit_once", "mcpyrate/core.py:BaseMacroExpander._visit_expansion"]}
{"id": "C18", "title": "Recursive expansion runs until no macro invocations are left", "statement": "When visit_recursively (or expand_macros) returns, the result contains no invocation of a bound macro outside Done-marked parts.", "quantifier": "every tree, every set of bindings, all macro functions whose expansion terminates", "why_tests_cant": "Depends on what arbitrary macros return.", "anchors": ["mcpyrate/core.py:BaseMacroExpander.visit_recursively", "mcpyrate/core.py:BaseMacroExpander._visit_expansion", "mcpyrate/expander.py:MacroExpander.visit_Subscript", "doc/main.md"]}
{"id": "C19", "title": "Local macro bindings shadow global ones", "statement": "isbound(name) is the local binding if there is one, else the global one, else False; with global_only it ignores local ones; the expander applies exactly the function isbound reports.", "quantifier": "every pair of binding dictionaries and every name", "why_tests_cant": "All combinations of bindings.", "anchors": ["mcpyrate/core.py:BaseMacroExpander.isbound", "mcpyrate/core.py:BaseMacroExpander.__init__"]}
{"id": "C20", "title": "Errors in macros surface as one telescoped report", "statement": "Any exception (instance of Exception) raised by a macro function and not handled by another macro reaches the caller of the outermost expansion as a MacroApplicationError whose cause is the original exception and whose message lists the use sites of all active invocations, outermost first, under a single header; a macro that returns neither an AST, an iterable of ASTs nor None raises such an error.", "quantifier": "every nesting depth of invocations, every exception, every return value", "why_tests_cant": "Nesting depth is unbounded.", "anchors": ["mcpyrate/core.py:BaseMacroExpander.expand"]}
{"id": "C21", "title": "Macro invocation syntax is recognised as documented", "statement": "The four invocation types are recognised exactly on the documented syntax; macro arguments are interpreted only for parametric macros; names are expanded as identifier macros only when declared so; the macro receives exactly the documented tree, args and optional_vars.", "quantifier": "every AST node and every set of bindings", "why_tests_cant": "All shapes of candidate nodes.", "anchors": ["mcpyrate/expander.py:destructure_candidate", "mcpyrate/expander.py:MacroExpander.ismacrocall", "mcpyrate/expander.py:MacroExpander.visit_Subscript", "mcpyrate/expander.py:MacroExpander.visit_With"]}
{"id": "C22", "title": "Several macros on one statement apply in the documented order", "statement": "Block macros of one with statement apply left to right, decorator macros innermost to outermost; non-macro items and decorators keep their order; the with statement disappears exactly when all its items have been popped.", "quantifier": "any number of macro and non-macro items, in any interleaving", "why_tests_cant": "List lengths and interleavings are unbounded.", "anchors": ["mcpyrate/expander.py:MacroExpander.visit_With", "mcpyrate/expander.py:MacroExpander._visit_Decorated", "mcpyrate/expander.py:MacroExpander._detect_macro_items"]}
{"id": "C23", "title": "Deleting an invocation leaves correct code and coverage", "statement": "If an expr or name macro returns None, the invocation is replaced by an expression that evaluates to None at run time; if a block or decorator macro returns None the invocation disappears, and in every case where the invocation has location information the output starts with a dummy assignment located at the invocation.", "quantifier": "every invocation, with complete, partial or missing location information", "why_tests_cant": "All combinations of location attributes and macro results.", "anchors": ["mcpyrate/expander.py:_insert_coverage_dummy_stmt", "mcpyrate/expander.py:_make_coverage_dummy_expr"]}
{"id": "C24", "title": "MacroCollector agrees with MacroExpander", "statement": "MacroCollector reports at least one invocation exactly when the expander would apply a macro somewhere in the tree, reports each (name, type) pair once, and never raises on code the expander accepts.", "quantifier": "every tree and every set of bindings", "why_tests_cant": "Two independently written detectors must agree on all trees.", "anchors": ["mcpyrate/expander.py:MacroCollector", "mcpyrate/expander.py:MacroExpander"]}
{"id": "C25", "title": "find_macros binds and removes all macro-imports", "statement": "find_macros returns the union of the bindings of all top-level macro-imports, later imports overriding earlier ones; with transform it replaces each macro-import by an absolute import of the module (or a coverage dummy or nothing for self-macro-imports), so that no macro-import remains at the top level, and leaves all other statements unchanged and in order.", "quantifier": "every module body and every module environment", "why_tests_cant": "Any number and interleaving of imports.", "anchors": ["mcpyrate/expander.py:find_macros", "mcpyrate/coreutils.py:ismacroimport"]}
{"id": "C26", "title": "Macro-imports resolve to the right objects or fail loudly", "statement": "get_macros binds each imported name (or its alias) to the attribute of that name in the absolutely resolved module, ignores the magic first name, and raises exactly when the module cannot be resolved, the name is missing or not callable, or an alias is used where not allowed.", "quantifier": "every import statement, file name and module environment", "why_tests_cant": "All combinations of relative levels, aliases and environments.", "anchors": ["mcpyrate/coreutils.py:get_macros", "mcpyrate/coreutils.py:resolve_package"]}
{"id": "C27", "title": "Postprocessors run once each, in registration order", "statement": "After any sequence of add_postprocessor and remove_postprocessor, the registered hooks are exactly those added and not removed since, each once, in order of (last) registration, and global_postprocess applies them in that order after removing the expander's markers and fixing ctx.", "quantifier": "every registration history", "why_tests_cant": "Histories are unbounded.", "anchors": ["mcpyrate/core.py:add_postprocessor", "mcpyrate/core.py:remove_postprocessor", "mcpyrate/core.py:global_postprocess"]}
{"id": "C28", "title": "Package resolution finds the right sys.path entry", "statement": "match_syspath returns a sys.path entry the file really lies under, the deepest such entry, and fails when there is none; relativize returns the path below that entry; resolve_package is the dotted form of the directory path and rejects files at the root of an entry.", "quantifier": "every file name and every sys.path", "why_tests_cant": "All prefix relationships between directory names.", "anchors": ["mcpyrate/coreutils.py:match_syspath", "mcpyrate/coreutils.py:relativize", "mcpyrate/coreutils.py:resolve_package"]}
{"id": "C29", "title": "splice_expression replaces every tag with an independent copy", "statement": "splice_expression(expr, template, tag) replaces every occurrence of the tag name (also inside invisible Expr statements) by expr and changes nothing else; the result contains no tag if expr does not; each paste is an independent copy.", "quantifier": "every expression, template and tag", "why_tests_cant": "Any number of tags at any depth.", "anchors": ["mcpyrate/splicing.py:splice_expression"]}
{"id": "C30", "title": "splice_statements replaces every tag statement with the body", "statement": "splice_statements(body, template, tag) replaces every expression statement consisting of the tag by the statements of body, in order, changes nothing else, and does this for every documented argument form (single statement or list, for both body and template).", "quantifier": "every body, template and tag", "why_tests_cant": "Any number of tags at any depth, all argument forms.", "anchors": ["mcpyrate/splicing.py:splice_statements"]}
{"id": "C31", "title": "splice_dialect produces the documented module layout", "statement": "splice_dialect returns: docstring (user's, then template's), future-imports, the user's __all__, the template's and then the user's dialect-imports, the template's and then the user's macro-imports, then the template with the remaining user code in place of the tag; no statement is lost or duplicated and relative order is kept within each group.", "quantifier": "every user module body and template", "why_tests_cant": "Combinations of the statement groups in any interleaving.", "anchors": ["mcpyrate/splicing.py:splice_dialect"]}
{"id": "C32", "title": "Quoted code evaluates to the quoted AST", "statement": "Running the code produced by astify for a tree builds a tree equal to the original, for every AST that Python can parse; in particular q[...] of code without unquotes yields the AST of that code.", "quantifier": "every AST", "why_tests_cant": "All node types, constants and nesting.", "anchors": ["mcpyrate/quotes.py:astify"]}
{"id": "C33", "title": "unastify inverts astify", "statement": "unastify(astify(tree)) == tree, including source locations, and unastify rejects input that is not a quote result.", "quantifier": "every AST", "why_tests_cant": "All node types, constants and nesting.", "anchors": ["mcpyrate/quotes.py:astify", "mcpyrate/quotes.py:unastify"]}
{"id": "C34", "title": "List unquotes are spliced wherever they are admissible", "statement": "When a quoted tree contains a list-valued AST unquote in a list position, the final tree has the items of that list in its place, at any depth; a list unquote in a non-list position is an error; no splice marker survives.", "quantifier": "every quoted tree with splice markers anywhere", "why_tests_cant": "Depth and combination of list and non-list fields.", "anchors": ["mcpyrate/quotes.py:splice_ast_literals"]}
{"id": "C35", "title": "Nested quotes and unquotes match up", "statement": "Inside nested quasiquotes an unquote is interpolated exactly when its quote level drops to zero; inner quotes and their unquotes are preserved literally; an unquote outside any quote is an error; the quote level is restored after every exit.", "quantifier": "every nesting of quotes and unquotes, exceptions included", "why_tests_cant": "Nesting depth is unbounded.", "anchors": ["mcpyrate/quotes.py:q", "mcpyrate/quotes.py:u", "mcpyrate/quotes.py:a", "mcpyrate/quotes.py:_quotelevel"]}
{"id": "C36", "title": "Hygienic captures are recognised and recovered", "statement": "The AST produced by a hygienic value capture is recognised by is_captured_value, which returns exactly the captured name and frozen value; the one produced by a macro capture is recognised by is_captured_macro; no node is both; looking up a captured value yields the value that was captured.", "quantifier": "every captured name and value", "why_tests_cant": "All names, values and enclosing trees.", "anchors": ["mcpyrate/quotes.py:capture_value", "mcpyrate/quotes.py:is_captured_value", "mcpyrate/quotes.py:capture_macro", "mcpyrate/quotes.py:is_captured_macro"]}
{"id": "C37", "title": "Captured macros stay bound to the captured function", "statement": "Once a hygienic macro capture has been looked up, its unique name is bound globally to the captured macro function in every expander, is never rebound by later lookups, and different captures never share a unique name.", "quantifier": "every history of captures and lookups", "why_tests_cant": "Histories are unbounded.", "anchors": ["mcpyrate/quotes.py:capture_macro", "mcpyrate/quotes.py:lookup_macro"]}
{"id": "C38", "title": "Captured value lookup is independent of history", "statement": "lookup_value(key) always returns the unpickled value of that key, whatever was looked up before and whichever objects have been garbage-collected in between.", "quantifier": "every history of lookups, allocations and deallocations", "why_tests_cant": "Object identity reuse depends on the garbage collector.", "anchors": ["mcpyrate/quotes.py:lookup_value"]}
{"id": "C39", "title": "Multi-phase compilation stages code as documented", "statement": "Extracting phases from the highest to 0 gives, at each phase k, exactly the code of phases >= k in textual order with the phase headers removed (plus the future-imports of the module and the assignment to __phase__), nothing is lost or duplicated, and code of phase k is never present before phase k.", "quantifier": "every module body with any number of phase blocks in any order", "why_tests_cant": "Number, order and numbering of phases are unbounded.", "anchors": ["mcpyrate/multiphase.py:extract_phase", "mcpyrate/multiphase.py:detect_highest_phase", "mcpyrate/multiphase.py:multiphase_expand"]}
{"id": "C40", "title": "Multi-phase compilation restores sys.modules", "statement": "When multiphase_expand ends, normally or by an exception, the sys.modules entry of the module being compiled is what it was before.", "quantifier": "every module, every number of phases, an exception at any phase", "why_tests_cant": "All crash points.", "anchors": ["mcpyrate/multiphase.py:multiphase_expand"]}
{"id": "C41", "title": "Dialect AST transformers run once each, in order", "statement": "The AST transformers of all top-level dialect-imports run left to right, in order of appearance after each rescan; the input of each has its own and all earlier dialect-imports removed; when transform_ast returns no dialect-import remains at the top level; the postprocessors run over the same dialect instances in the same order.", "quantifier": "every module body and arbitrary dialect transformers that may add or remove dialect-imports", "why_tests_cant": "Transformers are arbitrary functions.", "anchors": ["mcpyrate/dialects.py:DialectExpander._transform", "mcpyrate/dialects.py:DialectExpander.find_dialectimport_ast", "mcpyrate/dialects.py:DialectExpander.postprocess_ast"]}
{"id": "C42", "title": "Dialect source scanning sees each single-line dialect-import", "statement": "In the source transformation step, each dialect-import line (at column one, on one line) is found as exactly that line, in order of appearance, whatever text surrounds it.", "quantifier": "every source text", "why_tests_cant": "The surrounding text is arbitrary non-Python text.", "anchors": ["mcpyrate/dialects.py:DialectExpander.find_dialectimport_source"]}
{"id": "C43", "title": "create_module registers modules like Python does", "statement": "create_module puts the new module in sys.modules under its dotted name, sets it as attribute of its parent package and sets its metadata, raises ModuleNotFoundError when the parent is missing, and changes nothing when it raises.", "quantifier": "every sys.modules state and every argument combination", "why_tests_cant": "All package states.", "anchors": ["mcpyrate/compiler.py:create_module"]}
{"id": "C44", "title": "temporary_module cleans up", "statement": "When the temporary_module context exits, normally or by an exception, sys.modules and the parent package's attributes are what they were before it was entered.", "quantifier": "every sys.modules state, every argument combination, every exit path", "why_tests_cant": "All initial states and crash points.", "anchors": ["mcpyrate/compiler.py:temporary_module"]}
{"id": "C45", "title": "A macro change invalidates the bytecode of every dependent module", "statement": "The modification time reported for a source file is the maximum over the file and all files it depends on through macro-imports and dialect-imports, transitively; so editing any of them makes the reported time newer.", "quantifier": "every dependency graph and every edit history", "why_tests_cant": "Graphs of any size and shape, including cycles.", "anchors": ["mcpyrate/importer.py:path_stats", "mcpyrate/importer.py:path_xstats"]}
{"id": "C46", "title": "Import-statement caching is transparent", "statement": "path_stats gives the same result with any mixture of in-memory cache, valid, stale or unreadable on-disk caches as it would with no cache, as long as a changed file has a changed modification time.", "quantifier": "every history of file edits, lookups and cache clears", "why_tests_cant": "Histories are unbounded.", "anchors": ["mcpyrate/importer.py:path_stats"]}
{"id": "C47", "title": "unparse output determines the AST", "statement": "For every AST that Python can parse, unparse returns source text that parses back to the same AST; in particular two different ASTs never unparse to the same text.", "quantifier": "every AST", "why_tests_cant": "Operator nesting and node combinations are unbounded.", "anchors": ["mcpyrate/unparser.py:Unparser", "mcpyrate/unparser.py:unparse"]}
{"id": "C48", "title": "Activation hooks install and restore cleanly", "statement": "After any sequence of activate and deactivate calls the import hooks are mcpyrate's exactly when the last call was activate, and otherwise the standard ones.", "quantifier": "every sequence of calls", "why_tests_cant": "Sequences are unbounded.", "anchors": ["mcpyrate/activate.py:activate", "mcpyrate/activate.py:deactivate"]}
{"id": "C49", "title": "Bytecode cache cleaning removes caches only", "statement": "deletepycachedirs(path) removes every __pycache__ directory below path with everything in it, and nothing else; getpycachedirs lists exactly those directories.", "quantifier": "every directory tree", "why_tests_cant": "Tree shapes are unbounded.", "anchors": ["mcpyrate/pycachecleaner.py:getpycachedirs", "mcpyrate/pycachecleaner.py:deletepycachedirs"]}
{"id": "C50", "title": "Expansion stepping reaches the fully expanded result", "statement": "Stepping the expansion (one expand-once pass at a time until the collector reports nothing) ends in a tree in which no invocation is left, and shows every intermediate step.", "quantifier": "every tree and all macro functions", "why_tests_cant": "The number of steps is unbounded.", "anchors": ["mcpyrate/debug.py:step_expansion"]}
{"id": "C51", "title": "Macro output is used verbatim", "statement": "What a macro function returns is what ends up in place of its invocation: the expander fills in source locations where they are missing (from the invocation) and sets ctx fields as their positions require, keeps locations that are there, expands further if asked to, and changes nothing else.", "quantifier": "every tree, binding, macro function and output, all four invocation types", "why_tests_cant": "Outputs are arbitrary trees; locations may be there or missing at every node.", "anchors": ["mcpyrate/core.py:BaseMacroExpander.expand", "mcpyrate/core.py:BaseMacroExpander._visit_expansion", "mcpyrate/expander.py:MacroExpander"]}
{"id": "C52", "title": "expand_first expands the given macros, and only these", "statement": "with expand_first[m0, ...]: body gives the body with all invocations of the given macros (under any of their names) recursively expanded, before any other macros; everything else in the body stays as it was.  Arguments that are not names of macros, missing arguments, an as-part, or use as another kind of macro raise SyntaxError.", "quantifier": "every body, list of names, set of bindings and all macro functions", "why_tests_cant": "Bodies and macros are arbitrary programs; that other macros are left alone must hold for all of them.", "anchors": ["mcpyrate/metatools.py:expand_first"]}
{"id": "C53", "title": "Static expansion of quoted code gives the expansion, quoted", "statement": "expandsq[x] evaluates at run time to the AST that x expands to with the macros of the use site (expand1sq: when one layer of macros is expanded); expands[q[x]] and expand1s[q[x]] do the same.  As a block macro, expandsq assigns the expanded statements to the as-name.  Used as another kind of macro these raise SyntaxError; an argument of expands that is not quoted code raises TypeError.", "quantifier": "every piece of code, every set of bindings and all macro functions", "why_tests_cant": "Code and macros are arbitrary; the round trip through quote and unquote must not lose anything.", "anchors": ["mcpyrate/metatools.py:expand1sq", "mcpyrate/metatools.py:expandsq", "mcpyrate/metatools.py:expand1s", "mcpyrate/metatools.py:expands"]}
{"id": "C54", "title": "Run-time expansion uses the macros of the use site", "statement": "expandr[tree] evaluates at run time to the expansion of the value of tree with the macros that were bound at the use site when expandr itself was expanded, also in another process (expand1r: one layer of macros).  expandrq[x] is expandr[q[x]], and with expandrq as name: assigns the expanded statements to name.  macro_bindings evaluates to a dictionary of these macros.  Macros that cannot be pickled are an error at macro expansion time; wrong use is a SyntaxError.", "quantifier": "every tree, set of bindings, run-time environment and all macro functions", "why_tests_cant": "Bindings are arbitrary, and the code runs in another process, possibly much later.", "anchors": ["mcpyrate/metatools.py:macro_bindings", "mcpyrate/metatools.py:expandr", "mcpyrate/metatools.py:expand1r", "mcpyrate/metatools.py:expandrq", "mcpyrate/metatools.py:expand1rq", "mcpyrate/metatools.py:runtime_expand", "mcpyrate/metatools.py:runtime_expand1"]}
{"id": "C55", "title": "fill_location fills in the location of its use site at run time", "statement": "fill_location[tree] evaluates at run time to the value of tree in which every node without a source location has the line and column where this invocation of fill_location starts; locations that are there are kept, and nothing else changes.  An invocation without a location, or use as another kind of macro, raises SyntaxError.", "quantifier": "every tree, use site and run-time environment", "why_tests_cant": "Run-time trees are arbitrary, with locations there or missing at every node.", "anchors": ["mcpyrate/metatools.py:fill_location"]}
{"id": "C56", "title": "Stepping at run time uses the macros and arguments of the use site", "statement": "stepr[args][tree] evaluates at run time to what step_expansion, with these arguments and the macros that were bound at the use site when stepr was expanded, makes of the value of tree; the result is the same as that of expandr[tree].  Macros that cannot be pickled are an error at macro expansion time; wrong use is a SyntaxError.", "quantifier": "every tree, list of arguments, set of bindings, run-time environment and all macro functions", "why_tests_cant": "Bindings and trees are arbitrary, and the code runs in another process, possibly much later.", "anchors": ["mcpyrate/metatools.py:stepr", "mcpyrate/debug.py:step_expansion"]}
{"id": "C57", "title": "Expanding layer by layer gives the same as expanding at once", "statement": "Expanding a tree once, and then expanding the result recursively, gives the same tree as expanding it recursively; so does expanding it once, repeatedly, until no macro invocations are left; so does stepping through the expansion with step_expansion.  If one of these finishes, so do the others.", "quantifier": "every tree, set of bindings and all macro functions that do not use the expander themselves", "why_tests_cant": "How invocations nest, and what macros expand to, is arbitrary; the equality needs an induction over whole expansions.", "anchors": ["mcpyrate/core.py:BaseMacroExpander.visit_once", "mcpyrate/core.py:BaseMacroExpander.visit_recursively", "mcpyrate/core.py:BaseMacroExpander._visit_expansion", "mcpyrate/debug.py:step_expansion"]}
{"id": "C58", "title": "Quasiquoted code evaluates to the tree with its unquotes filled in", "statement": "q[tree], when it is evaluated, gives the syntax tree of tree, where u[e] is replaced by an expression for the value of e, n[e] by the expression in the string e, a[e] by the syntax tree e or the items of the list e, s[e] and t[e] by a list or tuple display of the items of e, h[e] by a reference to the value of e; the arguments are evaluated from left to right.  with q as name: assigns the list of statements to name.  An operator that is used as another kind of macro raises SyntaxError.", "quantifier": "every quoted tree, with any number of unquotes and inner quotes, and all values of the unquoted expressions", "why_tests_cant": "Trees, unquotes and values are arbitrary, and expansion, code generation and evaluation have to fit together for all of them.", "anchors": ["mcpyrate/quotes.py:q", "mcpyrate/quotes.py:u", "mcpyrate/quotes.py:n", "mcpyrate/quotes.py:a", "mcpyrate/quotes.py:s", "mcpyrate/quotes.py:t", "mcpyrate/quotes.py:h", "mcpyrate/quotes.py:astify", "mcpyrate/quotes.py:splice_ast_literals"]}
{"id": "C59", "title": "A module is expanded in stages, in a fixed order", "statement": "expand(source, filename, self_module=name) applies the dialects that transform the text, parses, applies the dialects that transform the tree, runs the macro-imports from top to bottom, expands the macros with the bindings these give, removes the expander's markers and fixes the contexts, calls the global postprocessors that are registered by then, and then the postprocessors of the dialects that were applied; the result contains no AST markers.  An exception raised by a macro or a postprocessor comes out after all earlier stages, and no later stage runs.  Text, bytes, a tree, and a list of statements give the same.  A module that uses none of the features is returned unchanged, and nothing else happens.  A module that asks for multi-phase compilation is handed to the multi-phase compiler, with an error if its name is not given.  Anything else as source raises TypeError.", "quantifier": "every source, set of bindings and postprocessors, and all macro functions, dialects and postprocessors, with arbitrary side effects", "why_tests_cant": "The stages run arbitrary code that changes the state the later stages use; the order must hold for every combination.", "anchors": ["mcpyrate/compiler.py:expand", "mcpyrate/compiler.py:singlephase_expand", "mcpyrate/expander.py:expand_macros", "mcpyrate/multiphase.py:ismultiphase"]}
{"id": "C60", "title": "run executes code once, in its module, after setting the docstring", "statement": "run(source, module) expands and compiles the source, sets the docstring of the module, runs the code in the namespace of the module, and returns the module.  Without a module it first creates a new one, with a unique name, and registers it in sys.modules; a name stands for the module of that name in sys.modules, or raises ModuleNotFoundError.  A tree or list of statements for a module without source file is unparsed first.  The docstring is the first statement of the expansion if that is a string, and None otherwise or if the source is a code object.  If the code cannot be expanded or compiled, it is not run and the docstring is not touched.  A module that uses no macros or dialects is compiled and run like Python does it.", "quantifier": "every source, module argument, state of the interpreter, and all macros, dialects and code", "why_tests_cant": "Sources and module states are arbitrary, and expanding and running code can do anything to the state.", "anchors": ["mcpyrate/compiler.py:run", "mcpyrate/compiler.py:compile", "mcpyrate/compiler.py:_compile", "mcpyrate/utils.py:getdocstring"]}
{"id": "C61", "title": "Macros imported in an interactive session hold from that input on, and errors do not end the session", "statement": "In an interactive console, the macros imported by an input are bound when that input is expanded, and stay bound; a name is bound to what the last successful macro-import of it gave.  from __self__ import macros, k binds the present value of the variable k.  An input is expanded, compiled and run once.  If it cannot be parsed, imported, expanded or compiled, the error is shown, nothing is run, and the session goes on.  An incomplete input changes nothing.  macros? shows the bindings; obj? and obj?? run without macro expansion.", "quantifier": "every sequence of inputs, session state, and all macro functions, postprocessors and code", "why_tests_cant": "Sessions are of any length, and the macros and the code that is run can do anything to the state the next input starts from.", "anchors": ["mcpyrate/repl/console.py:MacroConsole.runsource", "mcpyrate/repl/console.py:MacroConsole._internal_execute", "mcpyrate/repl/console.py:MacroConsole._refresh_macro_functions"]}
{"id": "C62", "title": "The dump of a tree shows the whole tree", "statement": "Two trees, or lists of trees, with the same dump are equal, but for source locations if these are not included; if they are included, a location attribute that is missing cannot be told from one that is None.  The dump depends on nothing else.  With colors, the text that a terminal shows is the same as without.  On several lines, the items of each pair of brackets are on lines of their own, below each other, and the rest is as on one line.  Anything that is not a tree or a list raises TypeError.", "quantifier": "every pair of trees, and all options", "why_tests_cant": "Trees, names and strings are arbitrary; strings can contain brackets, commas and quotes that look like parts of a dump.", "anchors": ["mcpyrate/astdumper.py:dump", "mcpyrate/colorizer.py:colorize", "mcpyrate/colorizer.py:setcolor"]}
{"id": "C63", "title": "macropython runs a program as __main__", "statement": "macropython -m name imports the package that contains the module, finds the module as an import does, and runs its code once, as __main__: __name__ is '__main__', __package__ is the name of the package or empty, and sys.modules['__main__'] is the module while it runs and afterwards.  If it raises an exception, that is passed on, and sys.modules['__main__'] is again what it was at first.  If the name is that of a package, the package is imported, and then its submodule __main__ is run in this way; if there is no such submodule, ImportError is raised.  If the module is not found, ModuleNotFoundError is raised.  macropython file runs the file in this way, with an empty __package__.  The first item of sys.path is the directory of the file, or for -m the current directory; the other items stay.", "quantifier": "every name, file, state of sys.path and sys.modules, import system and program, with arbitrary side effects and exceptions", "why_tests_cant": "Finders, loaders and programs are arbitrary code that can raise anywhere and change the state the next step uses.", "anchors": ["mcpyrate/repl/macropython.py:import_module_as_main", "mcpyrate/repl/macropython.py:main"]}
{"id": "C64", "title": "Macros in IPython sessions", "statement": "With the IPython extension loaded, the macro-imports of a cell hold for that cell and for all later ones, and the latest import of a name counts. A cell that cannot be expanded is rejected with the message of the error, whatever the error is; it is not run, and the session goes on with the extension still active. A cell is run once, after expansion. Loading the extension twice changes nothing; after unloading it macros are no longer expanded; %macros shows the macros that are in effect; %%dump_ast can show the expansion of a cell in each mode.", "quantifier": "all sessions: any cells, any macros and modules, any sequence of loading and unloading", "why_tests_cant": "A session has state that any earlier cell, macro or failure may have changed, and the extension lives inside of IPython, which unit tests do not run.", "anchors": ["mcpyrate/repl/iconsole.py:InteractiveMacroTransformer", "mcpyrate/repl/iconsole.py:IMcpyrateExtension", "mcpyrate/repl/iconsole.py:load_ipython_extension", "mcpyrate/repl/iconsole.py:AstMagics"]}
{"id": "C65", "title": "The report of macro bindings shows exactly the bindings in effect", "statement": "format_bindings lists each macro binding of the expander one time, sorted by name, with the module and qualified name of its macro function; if asked to, it includes the global bindings that are not shadowed.  Two reports are the same only if they are for the same file name and show the same bindings.  Coloring changes nothing but the colors.  The identifier macro show_bindings prints the report of all bindings that are in effect when it is reached, changes nothing else, and leaves an expression that evaluates to None; used with another syntax it raises SyntaxError.", "quantifier": "every set of bindings, all macro functions, names and file names, and all states of the expander", "why_tests_cant": "The bindings, names and functions are arbitrary, and hygienic captures add bindings while expansion goes on.", "anchors": ["mcpyrate/debug.py:format_bindings", "mcpyrate/debug.py:show_bindings", "mcpyrate/utils.py:format_macrofunction"]}
{"id": "C66", "title": "Source locations in messages are those of the tree", "statement": "The line number that a message gives for a tree is the first one that occurs in it, depth first, and None if there is none.  A location is shown as file:line: code, with the code on the lines below if it has several lines.  The context shown for a tree is its source code, or the first n lines and '...' if it has more than n.  The validator of location information collects exactly the nodes that should have locations and do not, each one time, in the order of the tree, with the names of the missing attributes; what is not a tree is refused.", "quantifier": "every tree or list of trees, file name, text and set of attributes", "why_tests_cant": "Trees made by macros have any mixture of present, missing and None locations at any depth.", "anchors": ["mcpyrate/utils.py:get_lineno", "mcpyrate/utils.py:format_location", "mcpyrate/utils.py:format_context", "mcpyrate/debug.py:SourceLocationInfoValidator"]}
{"id": "C67", "title": "The StepExpansion dialect shows each step and changes nothing", "statement": "If StepExpansion is dialect-imported, the dialect expander gives the same results and errors, and has the same effects, as with a dialect that does nothing in its place.  From its first transformer on, every step that a dialect takes is shown: the name of the transformer, the number of the step, counted from one without gaps through source transformers, AST transformers and postprocessors, and the content after the step.  The content before the AST transformers and before the postprocessors is shown too, and the number of steps when each part is complete.  Nothing is shown if StepExpansion has not run.", "quantifier": "all sets of dialects, with arbitrary transformers that can raise, do nothing or return something empty; all source texts and trees; any number and position of uses of StepExpansion", "why_tests_cant": "Dialects are arbitrary code, and the steps before and after StepExpansion depend on all of them.", "anchors": ["mcpyrate/dialects.py:StepExpansion", "mcpyrate/dialects.py:DialectExpander"]}
{"id": "C68", "title": "Debug mode of the multi-phase compiler shows each phase and changes nothing", "statement": "If step_phases is macro-imported from mcpyrate.debug, multi-phase compilation gives the same result or exception, in the same state, as without; it announces the module, and then, for each phase from the highest down to 0 (or to the one that fails), shows its number and the code that is compiled in it, before compiling it.  Without the import it is silent.  A phase or step_phases that is left for the macro expander, anywhere outside of other macro invocations, never compiles.", "quantifier": "all modules with any number of phases, wherever compilation fails; all positions of misplaced invocations", "why_tests_cant": "The phases are arbitrary code, and compilation can end in any of them.", "anchors": ["mcpyrate/multiphase.py:multiphase_expand", "mcpyrate/multiphase.py:isdebug", "mcpyrate/multiphase.py:phase", "mcpyrate/multiphase.py:step_phases"]}
{"id": "C69", "title": "Colors and debug mode only add to unparsed code", "statement": "Whatever `unparse` can show without colors it can show with `color=True`, and the text is the same up to white space around it, once the terminal codes are removed; each color is switched off where its text ends. With neither colors nor debug mode the expander and the builtins have no effect. With `debug=True` the output is the same code, where lines have the line numbers of the statements in front, and where `Expr` and top level nodes are marked and hygienic captures are shown by name; each statement of a suite begins a line with its own line number.", "quantifier": "all syntax trees, well-formed or not, all color schemes whose reset code does not begin or end with white space, all expanders, all recursion limits", "why_tests_cant": "There are about seventy kinds of nodes, each with its own method, and colored and plain output are separate branches; tests compare a few strings without colors.", "anchors": ["mcpyrate/unparser.py:Unparser", "mcpyrate/unparser.py:unparse", "mcpyrate/colorizer.py:colorize", "mcpyrate/colorizer.py:setcolor"]}
{"id": "C70", "title": "A macro declaration applies to exactly the declared object and what sees its attributes", "statement": "The decorators namemacro and parametricmacro return the object they are given.  After any history, isnamemacro and isparametricmacro are true of exactly the objects that have been declared so: the object itself, its class or a base class of it, the function of a bound method, or one of these that took over the declaration by functools.wraps.  So the expander treats names as identifier macros, and accepts macro arguments, exactly for those.  A declaration stays; declaring one object says nothing about another that does not see its attributes, nor about the other declaration; a plain wrapper around a declared function is not declared.  If attributes of the object cannot be set, the decorator raises AttributeError and nothing changes.", "quantifier": "all histories of definitions of functions, classes, instances, bound methods and builtins, of declarations and uses of functools.wraps, with failing steps; all bindings and invocations", "why_tests_cant": "Macro functions are made, decorated, wrapped and aliased in any order, and the same function may be declared several times and bound to several names.", "anchors": ["mcpyrate/expander.py:namemacro", "mcpyrate/expander.py:isnamemacro", "mcpyrate/expander.py:parametricmacro", "mcpyrate/expander.py:isparametricmacro", "mcpyrate/expander.py:MacroExpander.ismacrocall"]}
{"id": "C71", "title": "Imported code is up to date", "statement": "With the import hooks in place, importing a module runs the code that its source, as it is now, is compiled to, with its macros and dialects as they are now; whether the code comes from the bytecode cache or is compiled anew, and whatever files have been written, caches damaged and modules imported before.  Code that is up to date is not compiled again.", "quantifier": "every history of file edits, damage to caches and imports, in any order; every dependency graph", "why_tests_cant": "Whether stale bytecode is used depends on the order and the times of all edits and imports before, in any number of modules.", "anchors": ["mcpyrate/importer.py:source_to_xcode", "mcpyrate/importer.py:path_xstats", "mcpyrate/importer.py:path_stats", "mcpyrate/activate.py"]}
{"id": "C72", "title": "Colors apply to the given text, and to nothing after it", "statement": "colorize(text, *colors) shows exactly the text on a terminal, all of it in the given colors and styles, whatever the terminal did before, and after it the terminal is in its default style.  setcolor(*colors) shows nothing, and what follows is in that style; with reset=False the colors are added to what was in effect.  Tuples of colors, nested in any way, are applied from left to right.  The names in Fore, Back and Style have the effects that they say, and no others exist.  Every setting of the color scheme can be used.  Anything but strings, lists and tuples raises TypeError.  If there is no terminal, no codes are written.", "quantifier": "all texts, all nested lists and tuples of colors, all states of the terminal", "why_tests_cant": "Colors can be nested to any depth and combined in any order, and what a terminal shows depends on all codes that it has received before; tests see only the strings.", "anchors": ["mcpyrate/colorizer.py:colorize", "mcpyrate/colorizer.py:setcolor", "mcpyrate/colorizer.py:ColorScheme", "mcpyrate/ansi.py:AnsiCodes", "mcpyrate/ansi.py:code_to_chars"]}
