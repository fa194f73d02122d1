{
 "claims": [
  {
   "property": "C01",
   "status": "proved",
   "theorems": [
    "Mcpyrate.C01_gensym_fresh",
    "Mcpyrate.C01_gensym_remembers",
    "Mcpyrate.C01_gensym_shape",
    "Mcpyrate.C01_gensym_typeError",
    "Mcpyrate.C01_gensym_terminates"
   ],
   "note": "Every history, every UUID source (oracle list). Exotic __len__/__add__ of non-str basenames not covered."
  },
  {
   "property": "C02",
   "status": "proved",
   "theorems": [
    "Mcpyrate.C02_scrub_gensym",
    "Mcpyrate.C02_scrub_iff",
    "Mcpyrate.C02_scrub_unchanged",
    "Mcpyrate.C02_scrub_not_idempotent",
    "Mcpyrate.C02_scrub_accepts_nonuuid"
   ],
   "note": "Python int(s,16) grammar modelled; Unicode tables are a parameter. Idempotence settled in the negative."
  },
  {
   "property": "C03",
   "status": "proved",
   "theorems": [
    "Mcpyrate.C03_flatten_leaves",
    "Mcpyrate.C03_flatten_idempotent",
    "Mcpyrate.C03_flatten_hom",
    "Mcpyrate.C03_flatten_once",
    "Mcpyrate.C03_flatten_once_shallow"
   ],
   "note": "Against the printed form of the nested list."
  },
  {
   "property": "C04",
   "status": "partial",
   "theorems": [
    "Mcpyrate.C04_rename_exact_partial",
    "Mcpyrate.C04_rename_idents_partial",
    "Mcpyrate.C04_rename_shape_partial",
    "Mcpyrate.C04_rename_absent_partial",
    "Mcpyrate.C04_rename_compose_partial",
    "Mcpyrate.C04_rename_inverse_partial",
    "Mcpyrate.C04_rename_succeeds",
    "Mcpyrate.C04_rename_violated"
   ],
   "note": "rename is exact for the fields it handles; identifiers in MatchMapping.rest, MatchClass.kwd_attrs and PEP 695 type parameters are missed (C04_rename_violated)"
  },
  {
   "property": "C05",
   "status": "proved",
   "theorems": [
    "Mcpyrate.C05_tracker_scoped",
    "Mcpyrate.C05_tracker_nonneg",
    "Mcpyrate.C05_tracker_rejects"
   ],
   "note": "Refinement of the stack machine to a lexically scoped meaning, exceptions included."
  },
  {
   "property": "C06",
   "status": "partial",
   "theorems": [
    "Mcpyrate.C06_split_concat",
    "Mcpyrate.C06_split_future",
    "Mcpyrate.C06_split_partial",
    "Mcpyrate.C06_inject_partial",
    "Mcpyrate.C06_inject_keeps",
    "Mcpyrate.C06_inject_typeError",
    "Mcpyrate.C06_only_future_violated",
    "Mcpyrate.C06_empty_docstring_violated",
    "Mcpyrate.C06_number_violated"
   ],
   "note": "concatenation, order and error cases hold for every body; the split is as specified except for three kinds of bodies for which the code is wrong (violated theorems): only future-imports, empty docstring, leading non-string constant"
  },
  {
   "property": "C07",
   "status": "partial",
   "theorems": [
    "Mcpyrate.C07_bunch_refines_dict",
    "Mcpyrate.C07_bunch_effect",
    "Mcpyrate.C07_bunch_attr_item",
    "Mcpyrate.C07_bunchify_shares",
    "Mcpyrate.C07_bunch_eq",
    "Mcpyrate.C07_bunch_api",
    "Mcpyrate.C07_bunch_copy_violated",
    "Mcpyrate.C07_bunch_copy_partial"
   ],
   "note": "Dict refinement, attribute/item agreement, bunchify sharing proved. copy() violated for keys named \"self\" or non-string keys (proved counterexample); C07_bunch_copy_partial covers the rest."
  },
  {
   "property": "C08",
   "status": "proved",
   "theorems": [
    "Mcpyrate.C08_extract_bindings_mem",
    "Mcpyrate.C08_extract_bindings_order",
    "Mcpyrate.C08_extract_bindings_set"
   ],
   "note": "Dictionary as ordered item list."
  },
  {
   "property": "C09",
   "status": "partial",
   "theorems": [
    "Mcpyrate.C09_stack_restored_partial",
    "Mcpyrate.C09_outer_state_unchanged_partial",
    "Mcpyrate.C09_inner_state_partial",
    "Mcpyrate.C09_collected_grows_partial",
    "Mcpyrate.C09_init_ok",
    "Mcpyrate.C09_empty_state_violated",
    "Mcpyrate.C09_emptied_state_violated"
   ],
   "note": "Proved for states that are never empty; an empty Bunch is falsy so an empty temporary state is not pushed, and one emptied inside is not popped (proved counterexamples)."
  },
  {
   "property": "C10",
   "status": "proved",
   "theorems": [
    "Mcpyrate.C10_get_markers_preorder",
    "Mcpyrate.C10_get_markers_complete",
    "Mcpyrate.C10_check_no_markers"
   ],
   "note": "Trees and suites, any class predicate."
  },
  {
   "property": "C11",
   "status": "proved",
   "theorems": [
    "Mcpyrate.C11_no_markers_left",
    "Mcpyrate.C11_nothing_else",
    "Mcpyrate.C11_marker_is_body",
    "Mcpyrate.C11_succeeds",
    "Mcpyrate.C11_identity",
    "Mcpyrate.C11_idempotent",
    "Mcpyrate.C11_none_body"
   ],
   "note": "No markers left, nothing else changes (with position), identity, idempotence, success when bodies are nodes or lists of nodes; AttributeError for body None shown."
  },
  {
   "property": "C12",
   "status": "proved",
   "theorems": [
    "Mcpyrate.C12_ctx_correct",
    "Mcpyrate.C12_only_ctx",
    "Mcpyrate.C12_idempotent",
    "Mcpyrate.C12_identity",
    "Mcpyrate.C12_succeeds"
   ],
   "note": "every position gets the ctx Python's grammar requires, nothing else changes, idempotent, never fails on well-formed trees"
  },
  {
   "property": "C13",
   "status": "partial",
   "theorems": [
    "Mcpyrate.C13_partial",
    "Mcpyrate.C13_as_tree_partial",
    "Mcpyrate.C13_with_violated",
    "Mcpyrate.C13_assign_violated",
    "Mcpyrate.C13_tuple_violated",
    "Mcpyrate.C13_subscript_violated"
   ],
   "note": "false of the code: four object graphs with wrong ctx are exhibited; proved for acyclic graphs in which a node in a field with a context of its own is used only there, and a node used with different contexts has a ctx and no list of children (condition `Sharing`)"
  },
  {
   "property": "C14",
   "status": "partial",
   "theorems": [
    "Mcpyrate.C14_all_located",
    "Mcpyrate.C14_only_locations",
    "Mcpyrate.C14_no_reference",
    "Mcpyrate.C14_overwrite",
    "Mcpyrate.C14_reference",
    "Mcpyrate.C14_reference_only_missing_partial",
    "Mcpyrate.C14_reference_violated",
    "Mcpyrate.C14_update_partial",
    "Mcpyrate.C14_update_violated"
   ],
   "note": "holds except for nodes with a start but no end position or vice versa, where reference and update modes deviate (violated theorems)"
  },
  {
   "property": "C15",
   "status": "partial",
   "theorems": [
    "Mcpyrate.C15_no_bindings",
    "Mcpyrate.C15_done",
    "Mcpyrate.C15_no_invocation_partial",
    "Mcpyrate.C15_empty_suite_violated",
    "Mcpyrate.C15_elsewhere",
    "Mcpyrate.C15_done_not_expanded",
    "Mcpyrate.C15_done_kept"
   ],
   "note": "All clauses proved for all trees, bindings and macro programs, except that visit([]) returns None (C15_empty_suite_violated), so the no-invocation clause excludes the bare empty suite."
  },
  {
   "property": "C16",
   "status": "proved",
   "theorems": [
    "Mcpyrate.C16_restored",
    "Mcpyrate.C16_during"
   ],
   "note": "Arbitrary macro programs that re-enter the expander, raise and catch."
  },
  {
   "property": "C17",
   "status": "proved",
   "theorems": [
    "Mcpyrate.C17_done",
    "Mcpyrate.C17_one_pass",
    "Mcpyrate.C17_outermost"
   ],
   "note": "visit_once: one pass, each invocation at most once, also when the call raises; result wrapped in Done. A visit that succeeds expands all outermost invocations, if the macros leave the bindings as they are (C17_outermost)."
  },
  {
   "property": "C18",
   "status": "partial",
   "theorems": [
    "Mcpyrate.C18_recursive_partial",
    "Mcpyrate.C18_nothing_left",
    "Mcpyrate.C18_again_partial",
    "Mcpyrate.C18_violated",
    "Mcpyrate.C18_bindings_violated"
   ],
   "note": "After visit_recursively no invocations are left outside Done, for grammatical trees and macros that keep the bindings and return grammatical trees that are not just a macro's name; a visit of a tree without invocations returns it unchanged and calls no macro. Violated in general: k[a][b] where k[a] gives the name of a macro; a macro that binds another one."
  },
  {
   "property": "C19",
   "status": "proved",
   "theorems": [
    "Mcpyrate.C19_isbound",
    "Mcpyrate.C19_global",
    "Mcpyrate.C19_applied"
   ],
   "note": "Local bindings shadow global ones, also for the macros actually applied."
  },
  {
   "property": "C20",
   "status": "proved",
   "theorems": [
    "Mcpyrate.C20_surface",
    "Mcpyrate.C20_telescope",
    "Mcpyrate.C20_step",
    "Mcpyrate.C20_interrupt",
    "Mcpyrate.C20_return"
   ],
   "note": "Hypothesis hloc of C20_telescope: the first line of a formatted location differs from the header line (true unless a file name contains a newline)."
  },
  {
   "property": "C21",
   "status": "partial",
   "theorems": [
    "Mcpyrate.C21_applied_partial",
    "Mcpyrate.C21_rejected",
    "Mcpyrate.C21_not_invoked",
    "Mcpyrate.C21_invokes_iff",
    "Mcpyrate.C21_args",
    "Mcpyrate.C21_name_args_violated",
    "Mcpyrate.C21_async_violated"
   ],
   "note": "Detection is exact with respect to the specification Invokes; the code deviates from the documentation in two points (identifier macros get args=None; decorators of async def are not recognised), both proved as violated."
  },
  {
   "property": "C22",
   "status": "proved",
   "theorems": [
    "Mcpyrate.C22_block_order",
    "Mcpyrate.C22_decorator_order",
    "Mcpyrate.C22_block_pop",
    "Mcpyrate.C22_decorator_pop"
   ],
   "note": "Any number and interleaving of macro and ordinary items or decorators. The order theorems assume each macro leaves the remaining items in place (otherwise there is no documented order) and that no debug hook is installed; the pop theorems need neither."
  },
  {
   "property": "C23",
   "status": "partial",
   "theorems": [
    "Mcpyrate.C23_expr_deleted",
    "Mcpyrate.C23_name_deleted",
    "Mcpyrate.C23_stmt_deleted",
    "Mcpyrate.C23_stmt_kept",
    "Mcpyrate.C23_coverage_partial",
    "Mcpyrate.C23_coverage_violated"
   ],
   "note": "Deleted expr and name invocations evaluate to None, deleted blocks and decorated definitions disappear, the coverage dummy is at the invocation; violated when the invocation has a column but no line (C23_coverage_violated: AttributeError), C23_coverage_partial covers the rest."
  },
  {
   "property": "C24",
   "status": "partial",
   "theorems": [
    "Mcpyrate.C24_reports",
    "Mcpyrate.C24_complete",
    "Mcpyrate.C24_nothing",
    "Mcpyrate.C24_agrees",
    "Mcpyrate.C24_finishes",
    "Mcpyrate.C24_no_error_partial",
    "Mcpyrate.C24_call_violated",
    "Mcpyrate.C24_comment_violated"
   ],
   "note": "The collector reports each pair once and only invocations that are there, reports every invocation that is not part of an expression naming a macro, reports something exactly when the expander applies a macro (when both return), and always finishes. The part \"never raises on code the expander accepts\" is false: SyntaxError on f()[0] with f not a macro, AttributeError on a macro-decorated definition with a type comment; without these it is proved not to raise."
  },
  {
   "property": "C25",
   "status": "proved",
   "theorems": [
    "Mcpyrate.C25_transform",
    "Mcpyrate.C25_no_transform",
    "Mcpyrate.C25_complete",
    "Mcpyrate.C25_fails",
    "Mcpyrate.C25_none_left",
    "Mcpyrate.C25_others_kept"
   ],
   "note": "Bindings are the union in order; each top-level macro-import becomes an absolute import (self-macro-imports a coverage dummy or nothing); everything else kept; failures passed on."
  },
  {
   "property": "C26",
   "status": "proved",
   "theorems": [
    "Mcpyrate.C26_sound",
    "Mcpyrate.C26_complete",
    "Mcpyrate.C26_bad_name",
    "Mcpyrate.C26_no_module",
    "Mcpyrate.C26_self_errors",
    "Mcpyrate.C26_import_fails",
    "Mcpyrate.C26_relative_fails"
   ],
   "note": "get_macros succeeds exactly when the statement refers to an importable module and all names are callable attributes with allowed aliases; each failure's exception class. importlib is a parameter of the model."
  },
  {
   "property": "C27",
   "status": "proved",
   "theorems": [
    "Mcpyrate.C27_once",
    "Mcpyrate.C27_members",
    "Mcpyrate.C27_order",
    "Mcpyrate.C27_applied",
    "Mcpyrate.C27_finishes"
   ],
   "note": "add_postprocessor/remove_postprocessor as a registry with identity-based membership, global_postprocess as the chain of registered hooks in registration order. Hypotheses: a running postprocessor does not itself change the registry; the final fix_ctx is the tree version (unshared nodes)."
  },
  {
   "property": "C28",
   "status": "partial",
   "theorems": [
    "Mcpyrate.C28_match_partial",
    "Mcpyrate.C28_match_succeeds",
    "Mcpyrate.C28_match_fails_partial",
    "Mcpyrate.C28_deepest_partial",
    "Mcpyrate.C28_relative_partial",
    "Mcpyrate.C28_package_partial",
    "Mcpyrate.C28_sibling_violated",
    "Mcpyrate.C28_relative_violated",
    "Mcpyrate.C28_depth_violated",
    "Mcpyrate.C28_root_violated"
   ],
   "note": "match_syspath/relativize/resolve_package over an abstract file system. Proved when no sys.path entry is a mere string prefix of a sibling and depths are as resolved; the string-prefix match, the raw-depth ordering and the root directory are proved to violate the full property."
  },
  {
   "property": "C29",
   "status": "proved",
   "theorems": [
    "Mcpyrate.C29_replaces",
    "Mcpyrate.C29_count",
    "Mcpyrate.C29_no_tag_left",
    "Mcpyrate.C29_no_tag",
    "Mcpyrate.C29_empty_template",
    "Mcpyrate.C29_rejects"
   ],
   "note": "splice_expression as an ASTTransformer with its `first` flag; deep copies are recorded in the state because trees are values. Hypotheses: names have an id (parser output)."
  },
  {
   "property": "C30",
   "status": "partial",
   "theorems": [
    "Mcpyrate.C30_replaces_partial",
    "Mcpyrate.C30_no_tag_left_partial",
    "Mcpyrate.C30_one_tag_partial",
    "Mcpyrate.C30_edge",
    "Mcpyrate.C30_single_template_violated",
    "Mcpyrate.C30_single_compound_violated"
   ],
   "note": "Proved for templates that are lists. For a template that is a single statement the code loses the body (splicing.py:134-135), proved as two _violated theorems."
  },
  {
   "property": "C31",
   "status": "partial",
   "theorems": [
    "Mcpyrate.C31_layout_partial",
    "Mcpyrate.C31_single",
    "Mcpyrate.C31_edge",
    "Mcpyrate.C31_docstring_violated",
    "Mcpyrate.C31_only_imports_violated",
    "Mcpyrate.C31_empty_suite_violated"
   ],
   "note": "Full layout theorem for user modules and templates outside the C06 defects. Violations proved: two docstrings give a bare Constant, a module with only imports is rejected, extraction can leave an empty suite."
  },
  {
   "property": "C32",
   "status": "partial",
   "theorems": [
    "Mcpyrate.C32_quoted_partial",
    "Mcpyrate.C32_complex",
    "Mcpyrate.C32_complex_violated",
    "Mcpyrate.C32_quote_partial",
    "Mcpyrate.C32_double_star_violated",
    "Mcpyrate.C32_template",
    "Mcpyrate.C32_quote_template"
   ],
   "note": "The code that astify returns for any parsed tree without complex numbers evaluates, in every state, to the tree without locations (C32_quoted_partial); with complex numbers it raises TypeError (C32_complex, C32_complex_violated). q[...] of code without unquotes gives the tree exactly when all lists reached through lists contain nodes only, otherwise a TypeError (C32_quote_partial; q[{**d}]: C32_double_star_violated). Templates with all unquote operators evaluate to what they stand for (C32_template, C32_quote_template; macro captures are in C37)."
  },
  {
   "property": "C33",
   "status": "partial",
   "theorems": [
    "Mcpyrate.C33_inverse_partial",
    "Mcpyrate.C33_parsed_partial",
    "Mcpyrate.C33_locations",
    "Mcpyrate.C33_quote_partial",
    "Mcpyrate.C33_rejects",
    "Mcpyrate.C33_rejects_calls",
    "Mcpyrate.C33_positional_violated"
   ],
   "note": "First half, for templates (quoted code with unquotes as markers, no complex numbers), where set and dict objects are what Python makes of their items: unastify of astify's code gives the tree back, locations included when they are as the parser makes them (C33_inverse_partial, C33_parsed_partial, C33_quote_partial), and up to normalised locations otherwise (C33_locations). Macro captures come back under another name (C37_uncompile, C37_recapture). Second half (rejects input that is not a quote result) is false: C33_positional_violated shows that mcpyrate.quotes.ast.Name('x') is accepted though astify never returns it. What is rejected: nodes of classes unastify does not process (C33_rejects) and calls of functions not under mcpyrate (C33_rejects_calls)."
  },
  {
   "property": "C34",
   "status": "partial",
   "theorems": [
    "Mcpyrate.C34_filled",
    "Mcpyrate.C34_misplaced",
    "Mcpyrate.C34_no_marker",
    "Mcpyrate.C34_succeeds_partial",
    "Mcpyrate.C34_below_field_violated",
    "Mcpyrate.C34_double_star_violated",
    "Mcpyrate.C34_literal",
    "Mcpyrate.C34_block_literal",
    "Mcpyrate.C34_wrong_items",
    "Mcpyrate.C34_wrong_value"
   ],
   "note": "Whatever splice_ast_literals returns is the tree with every list unquote replaced by its items, at any depth, and has no marker left (C34_filled, C34_no_marker); misplaced list unquotes are errors (C34_misplaced); success is characterised exactly (C34_succeeds_partial). Violated: a list unquote in a list position below a non-list field is a RuntimeError (C34_below_field_violated), and next to {**d} a TypeError (C34_double_star_violated). Values and items of the wrong kind are a TypeError in a[], with a:, s[], t[] and n[] (C34_wrong_items, C34_wrong_value)."
  },
  {
   "property": "C35",
   "status": "partial",
   "theorems": [
    "Mcpyrate.C35_level_restored",
    "Mcpyrate.C35_outside",
    "Mcpyrate.C35_nested_partial",
    "Mcpyrate.C35_quote_partial",
    "Mcpyrate.C35_items_violated",
    "Mcpyrate.C35_coverage_violated"
   ],
   "note": "Proved in full: an unquote outside any quote is an error and does nothing; the quote level is restored after every exit. C35_nested_partial, C35_quote_partial: in expression mode, inner quotes and their unquotes are preserved, an unquote is interpolated exactly when the level drops to zero, a quote inside of code unquoted to level zero is compiled there, all else is copied, and the outermost quote is compiled from that. C35_items_violated, C35_coverage_violated: inner quotes in block mode are not preserved literally (items of a multi-item with are duplicated; a coverage statement is inserted). Missing: operators in block mode (C58_block_partial has the outermost quote in block mode); uses of other, globally bound macros in quoted code; debug hooks."
  },
  {
   "property": "C36",
   "status": "partial",
   "theorems": [
    "Mcpyrate.C36_alive_partial",
    "Mcpyrate.C36_noReuse_partial",
    "Mcpyrate.C36_lookup_violated",
    "Mcpyrate.C36_value",
    "Mcpyrate.C36_pending",
    "Mcpyrate.C36_macro",
    "Mcpyrate.C36_recognised_values",
    "Mcpyrate.C36_recognised_macros",
    "Mcpyrate.C36_not_both",
    "Mcpyrate.C36_locations",
    "Mcpyrate.C36_expanded",
    "Mcpyrate.C36_lookup_partial",
    "Mcpyrate.C36_import_raises"
   ],
   "note": "Recognition is proved completely: what capture_value/astify/capture_macro build is recognised with exactly the name and frozen data (C36_value, C36_pending, C36_macro), exactly those forms are recognised (C36_recognised_values, C36_recognised_macros), no node is both (C36_not_both), and locations, ctx and the expander's fixers do not matter (C36_locations, C36_expanded). Looking up, for a value that pickles without loss: C36_lookup_partial for a lookup not answered from lookup_value's cache; C36_alive_partial and C36_noReuse_partial with the cache, when no frozen value that was looked up is freed or no id is reused; C36_lookup_violated: otherwise the value of another capture may be returned (see C38). C36_import_raises: the recognisers can raise IndexError."
  },
  {
   "property": "C37",
   "status": "partial",
   "theorems": [
    "Mcpyrate.C37_bound_partial",
    "Mcpyrate.C37_bound_in_process",
    "Mcpyrate.C37_captured",
    "Mcpyrate.C37_never_rebound",
    "Mcpyrate.C37_never_rebound_by_code",
    "Mcpyrate.C37_unique",
    "Mcpyrate.C37_clash_violated",
    "Mcpyrate.C37_uncompile",
    "Mcpyrate.C37_recapture",
    "Mcpyrate.C37_recapture_name"
   ],
   "note": "For every history of captures, lookups, gensym calls and loads in one process: looked-up captures are bound to the unpickled function in every expander that has no local binding of that name (C37_bound_in_process, C37_captured), no name is ever rebound by events or by any code, error exits included (C37_never_rebound, C37_never_rebound_by_code), unique names differ (C37_unique). Uncompiling and recompiling captures the same function under the same name (C37_uncompile, C37_recapture, C37_recapture_name). For captures loaded from bytecode caches (C37_bound_partial) it is assumed that their unique names do not clash with others; C37_clash_violated shows only the UUID generator prevents that."
  },
  {
   "property": "C38",
   "status": "partial",
   "theorems": [
    "Mcpyrate.C38_alive_partial",
    "Mcpyrate.C38_no_reuse_partial",
    "Mcpyrate.C38_again",
    "Mcpyrate.C38_reuse_violated"
   ],
   "note": "The claim is false: C38_reuse_violated (a freed frozen value's id reused by another bytes object yields the stale value). True when looked-up frozen values stay alive (C38_alive_partial) or no id is reused for different contents (C38_no_reuse_partial), for all histories of allocations, frees and lookups. C38_again: an immediate second lookup gives the same value."
  },
  {
   "property": "C39",
   "status": "partial",
   "theorems": [
    "Mcpyrate.C39_code_unique",
    "Mcpyrate.C39_nothing_lost",
    "Mcpyrate.C39_staged_partial",
    "Mcpyrate.C39_staged_zero",
    "Mcpyrate.C39_tuple_violated"
   ],
   "note": "For modules as the parser makes them: phases n..1 are run and phase 0 expanded, each with exactly the code of its phase and higher plus future-imports and the __phase__ assignment; uniqueness and nothing-lost. The full statement fails for `with phase[n,]`."
  },
  {
   "property": "C40",
   "status": "partial",
   "theorems": [
    "Mcpyrate.C40_restored_partial",
    "Mcpyrate.C40_exception_violated",
    "Mcpyrate.C40_empty_violated",
    "Mcpyrate.C40_none_violated"
   ],
   "note": "Proved for a normal return if the entry was absent or true. The full statement fails: an exception at any phase, or an empty module, leaves the temporary module in sys.modules; a None entry is deleted."
  },
  {
   "property": "C41",
   "status": "proved",
   "theorems": [
    "Mcpyrate.C41_runs",
    "Mcpyrate.C41_import_fails",
    "Mcpyrate.C41_dialect_fails",
    "Mcpyrate.C41_no_dialects",
    "Mcpyrate.C41_order",
    "Mcpyrate.C41_terminates",
    "Mcpyrate.C41_input",
    "Mcpyrate.C41_left_to_right",
    "Mcpyrate.C41_postprocess",
    "Mcpyrate.C41_posted_dialects",
    "Mcpyrate.C41_inherited",
    "Mcpyrate.C41_post_inherited"
   ],
   "note": "Model of the dialect expander loop, the AST finder and the postprocessors for arbitrary dialect classes. Records of what ran: first dialect-import replaced, transformers left to right on each other's output, instances returned in order, errors classified; when transformers keep the dialect-imports all of them are processed once in order and the loop ends. Dialects that do not override the methods change nothing but their imports (C41_inherited, C41_post_inherited)."
  },
  {
   "property": "C42",
   "status": "partial",
   "theorems": [
    "Mcpyrate.C42_found_partial",
    "Mcpyrate.C42_once",
    "Mcpyrate.C42_order_partial",
    "Mcpyrate.C42_fails_partial",
    "Mcpyrate.C42_none_partial",
    "Mcpyrate.C42_inherited",
    "Mcpyrate.C42_consecutive_violated",
    "Mcpyrate.C42_following_violated",
    "Mcpyrate.C42_following_raises_violated",
    "Mcpyrate.C42_unicode_violated"
   ],
   "note": "Model of the regular expression (backtracking matcher with MULTILINE anchors), finditer and the source loop. Holds when the first non-blank line after each dialect-import has a parenthesis or backslash; violated in general: [^(\\\\]+ runs across line breaks, so consecutive dialect-imports and following text become part of the statement (C42_consecutive_violated, C42_following_violated); non-ASCII module names are not seen. Dialects that do not override transform_source leave the text (C42_inherited)."
  },
  {
   "property": "C43",
   "status": "proved",
   "theorems": [
    "Mcpyrate.C43_created",
    "Mcpyrate.C43_unchanged",
    "Mcpyrate.C43_no_parent",
    "Mcpyrate.C43_bad_args"
   ],
   "note": "createModule for all names, file names and states: registered like the importer does it, errors leave everything unchanged, TypeError and ModuleNotFoundError cases."
  },
  {
   "property": "C44",
   "status": "partial",
   "theorems": [
    "Mcpyrate.C44_removed_partial",
    "Mcpyrate.C44_not_created_partial",
    "Mcpyrate.C44_anyBody_partial",
    "Mcpyrate.C44_restored_partial",
    "Mcpyrate.C44_bodyRemoves_violated",
    "Mcpyrate.C44_unnamed_violated",
    "Mcpyrate.C44_existing_violated",
    "Mcpyrate.C44_existing_error_violated"
   ],
   "note": "C44_anyBody_partial: whatever the body does, the entry in sys.modules is gone afterwards and nothing else but the attribute on the parent differs from what the body left. C44_removed_partial: the attribute is gone too, if the body does not remove the module or its parent itself. C44_not_created_partial, C44_restored_partial for a name that is new. The full statement fails: without a name the module stays; a previously existing entry is deleted, even if the module is not created; if the body removes the entry itself, the attribute on the parent stays."
  },
  {
   "property": "C45",
   "status": "partial",
   "theorems": [
    "Mcpyrate.C45_newest_partial",
    "Mcpyrate.C45_edit_partial",
    "Mcpyrate.C45_succeeds_partial",
    "Mcpyrate.C45_hook",
    "Mcpyrate.C45_cycle_violated",
    "Mcpyrate.C45_older_violated"
   ],
   "note": "For files as the parser makes them: the result is the latest time over the transitive dependencies, a later edit makes it later, and there is a result whenever imports can be found and there is no cycle; the hook delegates as documented. The full statement fails: dependency cycles end in RecursionError, and an edit whose time is not the latest leaves the result unchanged."
  },
  {
   "property": "C46",
   "status": "proved",
   "theorems": [
    "Mcpyrate.C46_transparent",
    "Mcpyrate.C46_sound"
   ],
   "note": "After any history of edits, lookups (with any import configuration), deletions and damage of cache files, including failed writes, a lookup gives the same value or error as an uncached computation, and vice versa. Assumes that the text is a function of path and modification time, as the property says."
  },
  {
   "property": "C47",
   "status": "partial",
   "theorems": [
    "Mcpyrate.C47_expr_partial",
    "Mcpyrate.C47_exprInjective_partial",
    "Mcpyrate.C47_dictUnpacking_violated",
    "Mcpyrate.C47_emptySubscript_violated",
    "Mcpyrate.C47_fstring_violated",
    "Mcpyrate.C47_expression_violated",
    "Mcpyrate.C47_typeParams_violated",
    "Mcpyrate.C47_nestedOr_violated",
    "Mcpyrate.C47_nestedAs_violated",
    "Mcpyrate.C47_mappingKey_violated",
    "Mcpyrate.C47_complexPattern_violated",
    "Mcpyrate.C47_sourceExpr_partial",
    "Mcpyrate.C47_source_partial",
    "Mcpyrate.C47_sourceStatements_partial",
    "Mcpyrate.C47_sourceInjective_partial",
    "Mcpyrate.C47_module_partial",
    "Mcpyrate.C47_statements_partial",
    "Mcpyrate.C47_statement_partial",
    "Mcpyrate.C47_moduleInjective_partial",
    "Mcpyrate.C47_withTuple_violated"
   ],
   "note": "False as stated: {**d} raises an error, a[()] becomes a[], braces in f-strings are not doubled, ast.Expression raises TypeError, type parameters of functions and classes are dropped, a `with` whose only item is a tuple is written as a `with` of several items, and some nested patterns are written without the parentheses they need or with ones that are not allowed (the theorems ending in violated). Proved for the expressions other than those, and for modules, lists of statements and single statements, including match and type statements, other than type parameters of functions and classes, type comments and those patterns: the text that unparse returns is read back as the same tree by a reference lexer and parser for Python (with indentation), and different trees have different texts. f-strings are modelled but not covered by the positive theorems. So every source text that the reference parser accepts, and that has none of these constructs, is round-tripped (C47_source_partial). The recursion limit has to be large enough."
  },
  {
   "property": "C48",
   "status": "proved",
   "theorems": [
    "Mcpyrate.C48_last_call",
    "Mcpyrate.C48_standard",
    "Mcpyrate.C48_reload_inactive",
    "Mcpyrate.C48_reload_violated"
   ],
   "note": "After any sequence of activate/deactivate calls the hooks in effect are those of the last call; deactivate restores the hooks found at import. Remark (C48_reload_violated): reloading mcpyrate.activate itself while active captures its own hooks as the standard ones."
  },
  {
   "property": "C49",
   "status": "partial",
   "theorems": [
    "Mcpyrate.C49_depth",
    "Mcpyrate.C49_list_partial",
    "Mcpyrate.C49_delete_partial",
    "Mcpyrate.C49_left",
    "Mcpyrate.C49_not_a_directory",
    "Mcpyrate.C49_too_deep",
    "Mcpyrate.C49_link_violated",
    "Mcpyrate.C49_inner_link_violated"
   ],
   "note": "Proved for trees of any shape without symbolic links called __pycache__ or inside caches; trees too deep for Python raise an error and change nothing (C49_too_deep). With such links the code deletes files outside and/or raises (C49_link_violated, C49_inner_link_violated)."
  },
  {
   "property": "C50",
   "status": "partial",
   "theorems": [
    "Mcpyrate.C50_arguments",
    "Mcpyrate.C50_steps",
    "Mcpyrate.C50_finishes",
    "Mcpyrate.C50_nothing_left",
    "Mcpyrate.C50_shown",
    "Mcpyrate.C50_call_violated",
    "Mcpyrate.C50_dump_violated"
   ],
   "note": "step_expansion (debug.py) is modelled as a macro function of the expander model, with nested invocations, the debug hook and the printed messages. Proved: one expand-once pass per step on the previous tree until the collector reports nothing, all outcomes; no invocations left on return (for trees with nodes where the grammar has them); the messages in order. Violated: the collector may raise on accepted code, and \"dump\" raises TypeError when nothing is left of the tree."
  },
  {
   "property": "C51",
   "status": "proved",
   "theorems": [
    "Mcpyrate.C51_once",
    "Mcpyrate.C51_recursively"
   ],
   "note": "All four invocation types. Fitted says what happens to locations and ctx; ctx fields are right when only targets are in target positions (otherwise no ctx would be). Outputs of None are covered by C23."
  },
  {
   "property": "C52",
   "status": "partial",
   "theorems": [
    "Mcpyrate.C52_expanded",
    "Mcpyrate.C52_listed_partial",
    "Mcpyrate.C52_complete_partial",
    "Mcpyrate.C52_untouched",
    "Mcpyrate.C52_syntax_error",
    "Mcpyrate.C52_args_error",
    "Mcpyrate.C52_args_expanded",
    "Mcpyrate.C52_args_listed_partial",
    "Mcpyrate.C52_args_first",
    "Mcpyrate.C52_unbound_error",
    "Mcpyrate.C52_global_violated",
    "Mcpyrate.C52_identifier_violated",
    "Mcpyrate.C52_quoted_violated"
   ],
   "note": "C52_expanded: for names of macros that are not identifier macros the call is exactly a recursive visit of the body by an expander that knows these functions under all their names, and the global bindings. C52_args_first, C52_args_expanded: arguments in general are expanded first, and then it is the same for the names they expand to. C52_listed_partial, C52_args_listed_partial (only given macros are replaced) and C52_complete_partial (none is left) need macros that leave the bindings alone; C52_untouched; the SyntaxError cases. Violated: globally bound (hygienically captured) macros are expanded too; identifier macros and q[h[m]] are rejected as arguments."
  },
  {
   "property": "C53",
   "status": "partial",
   "theorems": [
    "Mcpyrate.C53_expandsq_partial",
    "Mcpyrate.C53_expands_partial",
    "Mcpyrate.C53_code_partial",
    "Mcpyrate.C53_value_partial",
    "Mcpyrate.C53_unquotes_partial",
    "Mcpyrate.C53_invocations_partial",
    "Mcpyrate.C53_expands_unquotes_partial",
    "Mcpyrate.C53_argument_partial",
    "Mcpyrate.C53_macro_partial",
    "Mcpyrate.C53_commands_partial",
    "Mcpyrate.C53_kinds",
    "Mcpyrate.C53_rejects",
    "Mcpyrate.C53_rejects_violated",
    "Mcpyrate.C53_block_violated",
    "Mcpyrate.C53_block_expands_violated"
   ],
   "note": "`C53_expandsq_partial`, `C53_expands_partial`: the macros behave exactly as expanding the argument and quoting the result, in all outcomes, for code without unquotes and complex numbers; `C53_code_partial`, `C53_value_partial`: the code evaluates to the expansion (without locations, see C32). `C53_unquotes_partial`, `C53_commands_partial`: the same for `expandsq` and `expand1sq` of code with unquotes, when there are no macro invocations inside of the unquotes; `C53_invocations_partial`: when there are, which are expanded by one layer first (and must not expand to lists of nodes); `C53_expands_unquotes_partial`: for `expands` and `expand1s` of quotes with unquotes, also when there are. `C53_kinds`, `C53_rejects`: the error cases. Violated: the block macros never return (`C53_block_violated`, `C53_block_expands_violated`), and a call as argument raises NotImplementedError instead of TypeError (`C53_rejects_violated`). `C53_argument_partial`, `C53_macro_partial`: other arguments of `expands` and `expand1s` that expand to quoted code, for instance through a macro that returns it. Missing: invocations inside of the unquotes of `expandsq` that expand to lists of nodes."
  },
  {
   "property": "C54",
   "status": "partial",
   "theorems": [
    "Mcpyrate.C54_bindings",
    "Mcpyrate.C54_expandr",
    "Mcpyrate.C54_expandrq",
    "Mcpyrate.C54_expandrq_block",
    "Mcpyrate.C54_expandrq_raises",
    "Mcpyrate.C54_value_partial",
    "Mcpyrate.C54_unquotes_partial",
    "Mcpyrate.C54_unquotes_block_partial",
    "Mcpyrate.C54_unpicklable",
    "Mcpyrate.C54_kinds",
    "Mcpyrate.C54_block_violated",
    "Mcpyrate.C54_runtime",
    "Mcpyrate.C54_bound",
    "Mcpyrate.C54_complete_partial"
   ],
   "note": "The code made by expandr, expand1r, expandrq, expand1rq and macro_bindings, run anywhere, calls the expander with a snapshot of the bindings of the use site (unquotes allowed); errors included.  The tree that is expanded is what the quote evaluates to: C54_value_partial (code without unquotes), C54_unquotes_partial and C54_unquotes_block_partial (with unquotes, under the conditions of C58).  C54_complete_partial is under the conditions of C18.  with expandr: is violated.  The cache of lookup_value is left out (C38)."
  },
  {
   "property": "C55",
   "status": "proved",
   "theorems": [
    "Mcpyrate.C55_fill",
    "Mcpyrate.C55_located",
    "Mcpyrate.C55_quoted",
    "Mcpyrate.C55_errors"
   ],
   "note": "The macro is modelled as user code of the expander, the generated code is evaluated in an arbitrary host. The argument is not `*x`, which the grammar does not allow there."
  },
  {
   "property": "C56",
   "status": "partial",
   "theorems": [
    "Mcpyrate.C56_stepr",
    "Mcpyrate.C56_arguments",
    "Mcpyrate.C56_unpicklable",
    "Mcpyrate.C56_complex",
    "Mcpyrate.C56_kinds",
    "Mcpyrate.C56_nothing_left_partial",
    "Mcpyrate.C56_same_partial",
    "Mcpyrate.C56_same_violated"
   ],
   "note": "The code made by stepr is a call of step_expansion with the bindings of the use site and these arguments, and nothing is left to expand when that returns; the result is not always that of expandr (C56_same_violated); it is under the conditions of C57 (C56_same_partial)."
  },
  {
   "property": "C57",
   "status": "partial",
   "theorems": [
    "Mcpyrate.C57_layer_partial",
    "Mcpyrate.C57_layers_partial",
    "Mcpyrate.C57_stepping_partial",
    "Mcpyrate.C57_stepping_finishes_partial",
    "Mcpyrate.C57_violated",
    "Mcpyrate.C57_empty_violated"
   ],
   "note": "Proved both ways (same result, and one finishes if the other does) for macros that return without using the expander, for trees and expansions with statements only where statements can be, and provided that nothing in the place of a macro name expands to the name of a macro; stepping for the summary reports, if the collector does not raise. Violated without the proviso (C57_violated), and for the empty list of statements (C57_empty_violated)."
  },
  {
   "property": "C58",
   "status": "partial",
   "theorems": [
    "Mcpyrate.C58_quote_partial",
    "Mcpyrate.C58_inner_partial",
    "Mcpyrate.C58_refused",
    "Mcpyrate.C58_block_partial",
    "Mcpyrate.C58_succeeds_partial",
    "Mcpyrate.C58_block_succeeds_partial",
    "Mcpyrate.C58_macros_partial",
    "Mcpyrate.C58_inner_macros_partial",
    "Mcpyrate.C58_block_macros_partial",
    "Mcpyrate.C58_noCommands",
    "Mcpyrate.C58_wrong_use",
    "Mcpyrate.C58_astBlock_partial",
    "Mcpyrate.C58_astBlock_refused",
    "Mcpyrate.C58_coverage_violated",
    "Mcpyrate.C58_captureName"
   ],
   "note": "What quoted code evaluates to: `C58_quote_partial` (expressions), `C58_inner_partial` (quotes inside of unquoted code), `C58_block_partial` (`with q as name`), `C58_astBlock_partial` and `C58_astBlock_refused` (`with a:` one level deep, as a macro: the command that it leaves), `C58_captureName` (`h` captures a name itself, also the name of an identifier macro), SyntaxError for operators used in another way (`C58_wrong_use`); quotes that capture macros: `C58_macros_partial`, `C58_inner_macros_partial`, `C58_block_macros_partial` (a captured macro becomes a new name that is bound to it); no commands of the quasiquote system are left in the code (`C58_noCommands`); `u[e]` of a value that contains something that cannot be written as an expression raises an error (`C58_refused`); when evaluation succeeds: `C58_succeeds_partial`, `C58_block_succeeds_partial` (all unquotes get values that their operators accept, and list unquotes are items of lists). `C58_coverage_violated`: `with a:` inside of a quote adds another statement. Missing: `with a:` in deeper quotes; what `u[e]` gives for values with markers or malformed trees in them, and for sets and dicts that Python does not rebuild from their items; whether evaluation succeeds for these, and for quotes that capture macros."
  },
  {
   "property": "C59",
   "status": "proved",
   "theorems": [
    "Mcpyrate.C59_deterministic",
    "Mcpyrate.C59_stages",
    "Mcpyrate.C59_raises",
    "Mcpyrate.C59_no_markers",
    "Mcpyrate.C59_multiphase",
    "Mcpyrate.C59_plain",
    "Mcpyrate.C59_forms",
    "Mcpyrate.C59_type_errors",
    "Mcpyrate.C59_parse_error"
   ],
   "note": "The stages are those of `Stages`, built from the specifications of C25, C27, C41 and C42. The multi-phase compiler is a parameter here; it has C39 and C40. The stage theorems are for modules as the parser makes them (`ParsedModule`) and for dialects that return such modules; global postprocessors do not register or remove postprocessors while they run, as in C27. Errors of the library itself, in a stage, are not told apart in C59_raises; they are those of C25, C26, C41."
  },
  {
   "property": "C60",
   "status": "partial",
   "theorems": [
    "Mcpyrate.C60_deterministic",
    "Mcpyrate.C60_new_module",
    "Mcpyrate.C60_by_name",
    "Mcpyrate.C60_bad_module",
    "Mcpyrate.C60_source_partial",
    "Mcpyrate.C60_code",
    "Mcpyrate.C60_not_compiled",
    "Mcpyrate.C60_plain_partial",
    "Mcpyrate.C60_docstring_violated"
   ],
   "note": "The theorems about source code ask that the first statement is not a constant other than a string or None: such a constant becomes the docstring (C60_docstring_violated). `exec`, `builtins.compile` and the unparser are parameters. Modules whose `__file__` is not a string are simplified to a TypeError."
  },
  {
   "property": "C61",
   "status": "partial",
   "theorems": [
    "Mcpyrate.C61_deterministic",
    "Mcpyrate.C61_answer",
    "Mcpyrate.C61_finishes",
    "Mcpyrate.C61_finishes_early",
    "Mcpyrate.C61_incomplete",
    "Mcpyrate.C61_macros",
    "Mcpyrate.C61_object",
    "Mcpyrate.C61_inputs",
    "Mcpyrate.C61_history",
    "Mcpyrate.C61_self",
    "Mcpyrate.C61_goes_on_partial",
    "Mcpyrate.C61_macro_error",
    "Mcpyrate.C61_comment_violated",
    "Mcpyrate.C61_qualname_violated",
    "Mcpyrate.C61_import_violated"
   ],
   "note": "The session does not always go on: C61_comment_violated, C61_qualname_violated, C61_import_violated. C61_goes_on_partial says when an ordinary input ends it, for code that does not raise SystemExit or change the macro bindings. The history theorem is for macros and code that do not change the local bindings themselves (`macro(f)` does). Parser, `codeop`, compiler and `runcode` are parameters. The stages are proved as necessary for every finished input (C61_answer), with determinism; C61_finishes: there is an outcome whenever the expansion of the input and all code that is run finish; C61_finishes_early: the outcome of an input that is not parsed or whose macro-imports raise."
  },
  {
   "property": "C62",
   "status": "proved",
   "theorems": [
    "Mcpyrate.C62_determines",
    "Mcpyrate.C62_depends",
    "Mcpyrate.C62_color",
    "Mcpyrate.C62_colorDetermines",
    "Mcpyrate.C62_layout",
    "Mcpyrate.C62_typeError"
   ],
   "note": "For trees whose constants and class names are as Python has them (Spec/Dump.lean: Regular). The repr of float and complex numbers is part of the tree, of str, bytes and int it is modelled. Instances of classes other than str, bytes, int, float, complex, bool, NoneType and Ellipsis as field values are not in the model; nor are tuples and frozensets as constants."
  },
  {
   "property": "C63",
   "status": "partial",
   "theorems": [
    "Mcpyrate.C63_module_partial",
    "Mcpyrate.C63_notFound",
    "Mcpyrate.C63_parent_raises",
    "Mcpyrate.C63_relative",
    "Mcpyrate.C63_package_partial",
    "Mcpyrate.C63_modulePath",
    "Mcpyrate.C63_file_partial",
    "Mcpyrate.C63_noFile",
    "Mcpyrate.C63_choices",
    "Mcpyrate.C63_package_violated",
    "Mcpyrate.C63_subpackage_violated",
    "Mcpyrate.C63_namespace_violated",
    "Mcpyrate.C63_error_violated",
    "Mcpyrate.C63_installed_violated",
    "Mcpyrate.C63_dottedFile_violated",
    "Mcpyrate.C63_sourceless_violated",
    "Mcpyrate.C63_emptyPath_violated"
   ],
   "note": "False as stated: for packages (the submodule __main__ is imported rather than run as __main__; for a package in a package, __init__.py is run; a namespace package is an AttributeError; ImportErrors are replaced by others; a package without source code gets a wrong __package__), for the installed command (None in sys.modules after an exception), for files with another dot in the name, and if sys.path is empty: the theorems ending in violated. Proved: modules that are not packages, when macropython is started with python -m (C63_module_partial); what is imported for a top-level package (C63_package_partial); files name.py for which relativize is not confused (C63_file_partial, see C28); sys.path; the error cases and the choice between the options. The import system is a parameter."
  },
  {
   "property": "C64",
   "status": "partial",
   "theorems": [
    "Mcpyrate.C64_deterministic",
    "Mcpyrate.C64_transform",
    "Mcpyrate.C64_rejects",
    "Mcpyrate.C64_cell",
    "Mcpyrate.C64_inputs",
    "Mcpyrate.C64_history_partial",
    "Mcpyrate.C64_load",
    "Mcpyrate.C64_macros",
    "Mcpyrate.C64_dump",
    "Mcpyrate.C64_unloaded",
    "Mcpyrate.C64_unload_violated",
    "Mcpyrate.C64_reload_violated",
    "Mcpyrate.C64_eval_violated"
   ],
   "note": "Proved: what the transformer does with a cell, and that nothing but InputRejected (or a non-Exception) leaves it, for any tree; a cell is run once or not at all; the bindings after any sequence of cells, for one registered extension (C64_history_partial); loading twice. Refuted: unloading has no effect (in any session), after reloading %macros does not show the macros in effect, and %%dump_ast cannot expand in the mode eval."
  },
  {
   "property": "C65",
   "status": "partial",
   "theorems": [
    "Mcpyrate.C65_report",
    "Mcpyrate.C65_unique",
    "Mcpyrate.C65_determines",
    "Mcpyrate.C65_color",
    "Mcpyrate.C65_show_partial",
    "Mcpyrate.C65_refused",
    "Mcpyrate.C65_all_violated"
   ],
   "note": "The report lists exactly the bindings, sorted, each once (C65_report, C65_unique), can be read back (C65_determines: names without colon and line break, functions shown without line break), and with colors looks the same (C65_color). show_bindings prints it at the time it is reached, with no debug hook, and leaves an expression that evaluates to None (C65_show_partial); another syntax is refused (C65_refused). Missing: it shows only the local bindings (C65_all_violated)."
  },
  {
   "property": "C66",
   "status": "partial",
   "theorems": [
    "Mcpyrate.C66_line_partial",
    "Mcpyrate.C66_line_occurs",
    "Mcpyrate.C66_location",
    "Mcpyrate.C66_line_text",
    "Mcpyrate.C66_context",
    "Mcpyrate.C66_lines",
    "Mcpyrate.C66_collects",
    "Mcpyrate.C66_complete",
    "Mcpyrate.C66_refused",
    "Mcpyrate.C66_zero_violated",
    "Mcpyrate.C66_none_violated",
    "Mcpyrate.C66_marker_violated",
    "Mcpyrate.C66_ctx_violated"
   ],
   "note": "A line number that is given occurs in the tree (C66_line_occurs) and is the first one if none is 0 or None and markers keep their line numbers in the body (C66_line_partial). Locations and contexts have the stated form, also with colors (C66_location, C66_line_text, C66_context, C66_lines; n > 0). The validator collects exactly the nodes that lack one of the attributes and are not ignored (C66_collects, C66_complete, C66_refused). Missing: the first line number in the other cases (C66_zero_violated, C66_none_violated, C66_marker_violated), and the validator also collects nodes that can not have locations (C66_ctx_violated)."
  },
  {
   "property": "C67",
   "status": "proved",
   "theorems": [
    "Mcpyrate.C67_source",
    "Mcpyrate.C67_ast",
    "Mcpyrate.C67_post",
    "Mcpyrate.C67_sourceReport",
    "Mcpyrate.C67_astReport",
    "Mcpyrate.C67_postReport",
    "Mcpyrate.C67_silent"
   ],
   "note": "transform_source, transform_ast and postprocess_ast with all messages of the debug mode. Results, errors, interpreter state and seen imports are those of a run with a do-nothing dialect in the place of StepExpansion, also when the run fails or does not end; the text shown is given by the calls of the dialects. Assumed: non-empty texts and AST nodes are truthy, other dialects do not set expander.debugmode, repr of an instance does not raise, and the color scheme is not changed meanwhile."
  },
  {
   "property": "C68",
   "status": "proved",
   "theorems": [
    "Mcpyrate.C68_same",
    "Mcpyrate.C68_quiet",
    "Mcpyrate.C68_report",
    "Mcpyrate.C68_all_phases",
    "Mcpyrate.C68_not_applied",
    "Mcpyrate.C68_misplaced"
   ],
   "note": "Same results and states as without debug mode; the lines printed by the multi-phase compiler itself, in their order relative to the phases that succeed or fail. What the phases print is part of the state and not interleaved with the report. C68_misplaced is for macros that leave the bindings as they are. Colors left out."
  },
  {
   "property": "C69",
   "status": "proved",
   "theorems": [
    "Mcpyrate.C69_plain",
    "Mcpyrate.C69_color",
    "Mcpyrate.C69_space",
    "Mcpyrate.C69_nameless",
    "Mcpyrate.C69_debug",
    "Mcpyrate.C69_lines",
    "Mcpyrate.C69_macro",
    "Mcpyrate.C69_compare",
    "Mcpyrate.C69_boolOp",
    "Mcpyrate.C69_not",
    "Mcpyrate.C69_else",
    "Mcpyrate.C69_capture"
   ],
   "note": "Model/UnparseColor.lean adds the colored branches, the debug mode and the captures to all methods of the unparser (unparser.py:103-1198, colorizer.py:36-95). C69_plain links it to the model of C47. Which names are builtins or macros, and the tests for hygienic captures, are parameters; C69_debug assumes that the tests raise no errors. C69_lines, C69_else: the line numbers in debug mode; C69_macro, C69_capture: the color of macros, and how captures are shown; C69_compare, C69_boolOp, C69_not: the color of operators. Two stronger forms do not hold: C69_space (colored white space in front is kept) and C69_nameless (a class name that is not a string is an error only without colors)."
  },
  {
   "property": "C70",
   "status": "proved",
   "theorems": [
    "Mcpyrate.C70_declared",
    "Mcpyrate.C70_stays",
    "Mcpyrate.C70_decorator",
    "Mcpyrate.C70_others",
    "Mcpyrate.C70_outermost",
    "Mcpyrate.C70_invoked"
   ],
   "note": "The heap knows functions, classes with bases, instances, bound methods and builtins; metaclasses, __slots__, user-defined __getattr__/__setattr__, reassignment of __class__ or __bases__, and removing the attributes by hand are left out."
  },
  {
   "property": "C71",
   "status": "partial",
   "theorems": [
    "Mcpyrate.C71_fresh_partial",
    "Mcpyrate.C71_errors",
    "Mcpyrate.C71_reused",
    "Mcpyrate.C71_second_violated",
    "Mcpyrate.C71_deleted_violated",
    "Mcpyrate.C71_helper_violated"
   ],
   "note": "`C71_fresh_partial`: after any history of edits, damage to the caches and imports, the code that an import gives is what the module is compiled to from the files as they are now, if every edit gets a time at least a second later than all files have, files are not deleted, and compilation depends on nothing but the module and the files it imports macros or dialects from, transitively. `C71_errors`: an import fails only if looking up the times, or opening or compiling the source does. `C71_reused`: code that is up to date is not compiled again. Violated: edits within the same second (`C71_second_violated`), deleted files (`C71_deleted_violated`), modules that macros use through ordinary imports (`C71_helper_violated`)."
  },
  {
   "property": "C72",
   "status": "partial",
   "theorems": [
    "Mcpyrate.C72_colorize",
    "Mcpyrate.C72_setcolor",
    "Mcpyrate.C72_sequence",
    "Mcpyrate.C72_nested",
    "Mcpyrate.C72_names",
    "Mcpyrate.C72_scheme",
    "Mcpyrate.C72_errors",
    "Mcpyrate.C72_no_terminal_partial",
    "Mcpyrate.C72_no_terminal_violated"
   ],
   "note": "`C72_colorize`, `C72_sequence`: `colorize` shows the text in the given colors and leaves the default style, for all texts without codes, nested colors and terminal states; `C72_nested`: what it does if the text has codes from `colorize`; `C72_setcolor` (with and without reset), `C72_names` (the effect of each name), `C72_scheme`, `C72_errors`. Without a terminal nothing is added (`C72_no_terminal_partial`), except that the styles missing in Colorama are written and not reset (`C72_no_terminal_violated`). For the codes of ansi.py; Colorama is not modelled."
  }
 ]
}