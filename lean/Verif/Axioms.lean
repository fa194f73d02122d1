import Verif.Props.Activate
import Verif.Props.Bindings
import Verif.Props.Bunch
import Verif.Props.CaptureHistory
import Verif.Props.CaptureLookup
import Verif.Props.Captures
import Verif.Props.Collector
import Verif.Props.Compiler
import Verif.Props.Console
import Verif.Props.Coverage
import Verif.Props.Declare
import Verif.Props.DialectSource
import Verif.Props.DialectSteps
import Verif.Props.Dialects
import Verif.Props.Dump
import Verif.Props.ExpandFirst
import Verif.Props.ExpandRuntime
import Verif.Props.ExpandStatic
import Verif.Props.Expander
import Verif.Props.ExpanderErrors
import Verif.Props.ExpanderOrder
import Verif.Props.ExpanderSyntax
import Verif.Props.FillLocation
import Verif.Props.FindMacros
import Verif.Props.FixCtx
import Verif.Props.FixCtxShared
import Verif.Props.FixLocations
import Verif.Props.Fixpoint
import Verif.Props.FutureImports
import Verif.Props.GetMacros
import Verif.Props.IConsole
import Verif.Props.ImportCode
import Verif.Props.Importer
import Verif.Props.Layers
import Verif.Props.LookupValue
import Verif.Props.Macropython
import Verif.Props.Markers
import Verif.Props.Modules
import Verif.Props.Multiphase
import Verif.Props.MultiphaseDebug
import Verif.Props.Outermost
import Verif.Props.Output
import Verif.Props.Paths
import Verif.Props.Postprocess
import Verif.Props.Pycache
import Verif.Props.Quasiquote
import Verif.Props.QuoteOps
import Verif.Props.Quotes
import Verif.Props.Rename
import Verif.Props.RunCode
import Verif.Props.SourceInfo
import Verif.Props.SpliceDialect
import Verif.Props.Splicing
import Verif.Props.StepExpansion
import Verif.Props.Stepr
import Verif.Props.Terminal
import Verif.Props.Unastify
import Verif.Props.Unparse
import Verif.Props.UnparseColor
import Verif.Props.UnparseMatch
import Verif.Props.UnparseSource
import Verif.Props.UnparseStmts
import Verif.Props.Utils
import Verif.Props.Walkers
/-! Axioms of every property theorem (expected: at most propext, Classical.choice, Quot.sound). -/
#print axioms Mcpyrate.C01_gensym_fresh
#print axioms Mcpyrate.C01_gensym_remembers
#print axioms Mcpyrate.C01_gensym_shape
#print axioms Mcpyrate.C01_gensym_typeError
#print axioms Mcpyrate.C01_gensym_terminates
#print axioms Mcpyrate.C02_scrub_gensym
#print axioms Mcpyrate.C02_scrub_iff
#print axioms Mcpyrate.C02_scrub_unchanged
#print axioms Mcpyrate.C02_scrub_not_idempotent
#print axioms Mcpyrate.C02_scrub_accepts_nonuuid
#print axioms Mcpyrate.C03_flatten_leaves
#print axioms Mcpyrate.C03_flatten_idempotent
#print axioms Mcpyrate.C03_flatten_hom
#print axioms Mcpyrate.C03_flatten_once
#print axioms Mcpyrate.C03_flatten_once_shallow
#print axioms Mcpyrate.C04_rename_exact_partial
#print axioms Mcpyrate.C04_rename_idents_partial
#print axioms Mcpyrate.C04_rename_shape_partial
#print axioms Mcpyrate.C04_rename_absent_partial
#print axioms Mcpyrate.C04_rename_compose_partial
#print axioms Mcpyrate.C04_rename_inverse_partial
#print axioms Mcpyrate.C04_rename_succeeds
#print axioms Mcpyrate.C04_rename_violated
#print axioms Mcpyrate.C05_tracker_scoped
#print axioms Mcpyrate.C05_tracker_nonneg
#print axioms Mcpyrate.C05_tracker_rejects
#print axioms Mcpyrate.C06_split_concat
#print axioms Mcpyrate.C06_split_future
#print axioms Mcpyrate.C06_split_partial
#print axioms Mcpyrate.C06_inject_partial
#print axioms Mcpyrate.C06_inject_keeps
#print axioms Mcpyrate.C06_inject_typeError
#print axioms Mcpyrate.C06_only_future_violated
#print axioms Mcpyrate.C06_empty_docstring_violated
#print axioms Mcpyrate.C06_number_violated
#print axioms Mcpyrate.C07_bunch_refines_dict
#print axioms Mcpyrate.C07_bunch_effect
#print axioms Mcpyrate.C07_bunch_attr_item
#print axioms Mcpyrate.C07_bunchify_shares
#print axioms Mcpyrate.C07_bunch_eq
#print axioms Mcpyrate.C07_bunch_api
#print axioms Mcpyrate.C07_bunch_copy_violated
#print axioms Mcpyrate.C07_bunch_copy_partial
#print axioms Mcpyrate.C08_extract_bindings_mem
#print axioms Mcpyrate.C08_extract_bindings_order
#print axioms Mcpyrate.C08_extract_bindings_set
#print axioms Mcpyrate.C09_stack_restored_partial
#print axioms Mcpyrate.C09_outer_state_unchanged_partial
#print axioms Mcpyrate.C09_inner_state_partial
#print axioms Mcpyrate.C09_collected_grows_partial
#print axioms Mcpyrate.C09_init_ok
#print axioms Mcpyrate.C09_empty_state_violated
#print axioms Mcpyrate.C09_emptied_state_violated
#print axioms Mcpyrate.C10_get_markers_preorder
#print axioms Mcpyrate.C10_get_markers_complete
#print axioms Mcpyrate.C10_check_no_markers
#print axioms Mcpyrate.C11_no_markers_left
#print axioms Mcpyrate.C11_nothing_else
#print axioms Mcpyrate.C11_marker_is_body
#print axioms Mcpyrate.C11_succeeds
#print axioms Mcpyrate.C11_identity
#print axioms Mcpyrate.C11_idempotent
#print axioms Mcpyrate.C11_none_body
#print axioms Mcpyrate.C12_ctx_correct
#print axioms Mcpyrate.C12_only_ctx
#print axioms Mcpyrate.C12_idempotent
#print axioms Mcpyrate.C12_identity
#print axioms Mcpyrate.C12_succeeds
#print axioms Mcpyrate.C13_partial
#print axioms Mcpyrate.C13_as_tree_partial
#print axioms Mcpyrate.C13_with_violated
#print axioms Mcpyrate.C13_assign_violated
#print axioms Mcpyrate.C13_tuple_violated
#print axioms Mcpyrate.C13_subscript_violated
#print axioms Mcpyrate.C14_all_located
#print axioms Mcpyrate.C14_only_locations
#print axioms Mcpyrate.C14_no_reference
#print axioms Mcpyrate.C14_overwrite
#print axioms Mcpyrate.C14_reference
#print axioms Mcpyrate.C14_reference_only_missing_partial
#print axioms Mcpyrate.C14_reference_violated
#print axioms Mcpyrate.C14_update_partial
#print axioms Mcpyrate.C14_update_violated
#print axioms Mcpyrate.C15_no_bindings
#print axioms Mcpyrate.C15_done
#print axioms Mcpyrate.C15_no_invocation_partial
#print axioms Mcpyrate.C15_empty_suite_violated
#print axioms Mcpyrate.C15_elsewhere
#print axioms Mcpyrate.C15_done_not_expanded
#print axioms Mcpyrate.C15_done_kept
#print axioms Mcpyrate.C16_restored
#print axioms Mcpyrate.C16_during
#print axioms Mcpyrate.C17_done
#print axioms Mcpyrate.C17_one_pass
#print axioms Mcpyrate.C17_outermost
#print axioms Mcpyrate.C18_recursive_partial
#print axioms Mcpyrate.C18_nothing_left
#print axioms Mcpyrate.C18_again_partial
#print axioms Mcpyrate.C18_violated
#print axioms Mcpyrate.C18_bindings_violated
#print axioms Mcpyrate.C19_isbound
#print axioms Mcpyrate.C19_global
#print axioms Mcpyrate.C19_applied
#print axioms Mcpyrate.C20_surface
#print axioms Mcpyrate.C20_telescope
#print axioms Mcpyrate.C20_step
#print axioms Mcpyrate.C20_interrupt
#print axioms Mcpyrate.C20_return
#print axioms Mcpyrate.C21_applied_partial
#print axioms Mcpyrate.C21_rejected
#print axioms Mcpyrate.C21_not_invoked
#print axioms Mcpyrate.C21_invokes_iff
#print axioms Mcpyrate.C21_args
#print axioms Mcpyrate.C21_name_args_violated
#print axioms Mcpyrate.C21_async_violated
#print axioms Mcpyrate.C22_block_order
#print axioms Mcpyrate.C22_decorator_order
#print axioms Mcpyrate.C22_block_pop
#print axioms Mcpyrate.C22_decorator_pop
#print axioms Mcpyrate.C23_expr_deleted
#print axioms Mcpyrate.C23_name_deleted
#print axioms Mcpyrate.C23_stmt_deleted
#print axioms Mcpyrate.C23_stmt_kept
#print axioms Mcpyrate.C23_coverage_partial
#print axioms Mcpyrate.C23_coverage_violated
#print axioms Mcpyrate.C24_reports
#print axioms Mcpyrate.C24_complete
#print axioms Mcpyrate.C24_nothing
#print axioms Mcpyrate.C24_agrees
#print axioms Mcpyrate.C24_finishes
#print axioms Mcpyrate.C24_no_error_partial
#print axioms Mcpyrate.C24_call_violated
#print axioms Mcpyrate.C24_comment_violated
#print axioms Mcpyrate.C25_transform
#print axioms Mcpyrate.C25_no_transform
#print axioms Mcpyrate.C25_complete
#print axioms Mcpyrate.C25_fails
#print axioms Mcpyrate.C25_none_left
#print axioms Mcpyrate.C25_others_kept
#print axioms Mcpyrate.C26_sound
#print axioms Mcpyrate.C26_complete
#print axioms Mcpyrate.C26_bad_name
#print axioms Mcpyrate.C26_no_module
#print axioms Mcpyrate.C26_self_errors
#print axioms Mcpyrate.C26_import_fails
#print axioms Mcpyrate.C26_relative_fails
#print axioms Mcpyrate.C27_once
#print axioms Mcpyrate.C27_members
#print axioms Mcpyrate.C27_order
#print axioms Mcpyrate.C27_applied
#print axioms Mcpyrate.C27_finishes
#print axioms Mcpyrate.C28_match_partial
#print axioms Mcpyrate.C28_match_succeeds
#print axioms Mcpyrate.C28_match_fails_partial
#print axioms Mcpyrate.C28_deepest_partial
#print axioms Mcpyrate.C28_relative_partial
#print axioms Mcpyrate.C28_package_partial
#print axioms Mcpyrate.C28_sibling_violated
#print axioms Mcpyrate.C28_relative_violated
#print axioms Mcpyrate.C28_depth_violated
#print axioms Mcpyrate.C28_root_violated
#print axioms Mcpyrate.C29_replaces
#print axioms Mcpyrate.C29_count
#print axioms Mcpyrate.C29_no_tag_left
#print axioms Mcpyrate.C29_no_tag
#print axioms Mcpyrate.C29_empty_template
#print axioms Mcpyrate.C29_rejects
#print axioms Mcpyrate.C30_replaces_partial
#print axioms Mcpyrate.C30_no_tag_left_partial
#print axioms Mcpyrate.C30_one_tag_partial
#print axioms Mcpyrate.C30_edge
#print axioms Mcpyrate.C30_single_template_violated
#print axioms Mcpyrate.C30_single_compound_violated
#print axioms Mcpyrate.C31_layout_partial
#print axioms Mcpyrate.C31_single
#print axioms Mcpyrate.C31_edge
#print axioms Mcpyrate.C31_docstring_violated
#print axioms Mcpyrate.C31_only_imports_violated
#print axioms Mcpyrate.C31_empty_suite_violated
#print axioms Mcpyrate.C32_quoted_partial
#print axioms Mcpyrate.C32_complex
#print axioms Mcpyrate.C32_complex_violated
#print axioms Mcpyrate.C32_quote_partial
#print axioms Mcpyrate.C32_double_star_violated
#print axioms Mcpyrate.C32_template
#print axioms Mcpyrate.C32_quote_template
#print axioms Mcpyrate.C33_inverse_partial
#print axioms Mcpyrate.C33_parsed_partial
#print axioms Mcpyrate.C33_locations
#print axioms Mcpyrate.C33_quote_partial
#print axioms Mcpyrate.C33_rejects
#print axioms Mcpyrate.C33_rejects_calls
#print axioms Mcpyrate.C33_positional_violated
#print axioms Mcpyrate.C34_filled
#print axioms Mcpyrate.C34_misplaced
#print axioms Mcpyrate.C34_no_marker
#print axioms Mcpyrate.C34_succeeds_partial
#print axioms Mcpyrate.C34_below_field_violated
#print axioms Mcpyrate.C34_double_star_violated
#print axioms Mcpyrate.C34_literal
#print axioms Mcpyrate.C34_block_literal
#print axioms Mcpyrate.C34_wrong_items
#print axioms Mcpyrate.C34_wrong_value
#print axioms Mcpyrate.C35_level_restored
#print axioms Mcpyrate.C35_outside
#print axioms Mcpyrate.C35_nested_partial
#print axioms Mcpyrate.C35_quote_partial
#print axioms Mcpyrate.C35_items_violated
#print axioms Mcpyrate.C35_coverage_violated
#print axioms Mcpyrate.C36_alive_partial
#print axioms Mcpyrate.C36_noReuse_partial
#print axioms Mcpyrate.C36_lookup_violated
#print axioms Mcpyrate.C36_value
#print axioms Mcpyrate.C36_pending
#print axioms Mcpyrate.C36_macro
#print axioms Mcpyrate.C36_recognised_values
#print axioms Mcpyrate.C36_recognised_macros
#print axioms Mcpyrate.C36_not_both
#print axioms Mcpyrate.C36_locations
#print axioms Mcpyrate.C36_expanded
#print axioms Mcpyrate.C36_lookup_partial
#print axioms Mcpyrate.C36_import_raises
#print axioms Mcpyrate.C37_bound_partial
#print axioms Mcpyrate.C37_bound_in_process
#print axioms Mcpyrate.C37_captured
#print axioms Mcpyrate.C37_never_rebound
#print axioms Mcpyrate.C37_never_rebound_by_code
#print axioms Mcpyrate.C37_unique
#print axioms Mcpyrate.C37_clash_violated
#print axioms Mcpyrate.C37_uncompile
#print axioms Mcpyrate.C37_recapture
#print axioms Mcpyrate.C37_recapture_name
#print axioms Mcpyrate.C38_alive_partial
#print axioms Mcpyrate.C38_no_reuse_partial
#print axioms Mcpyrate.C38_again
#print axioms Mcpyrate.C38_reuse_violated
#print axioms Mcpyrate.C39_code_unique
#print axioms Mcpyrate.C39_nothing_lost
#print axioms Mcpyrate.C39_staged_partial
#print axioms Mcpyrate.C39_staged_zero
#print axioms Mcpyrate.C39_tuple_violated
#print axioms Mcpyrate.C40_restored_partial
#print axioms Mcpyrate.C40_exception_violated
#print axioms Mcpyrate.C40_empty_violated
#print axioms Mcpyrate.C40_none_violated
#print axioms Mcpyrate.C41_runs
#print axioms Mcpyrate.C41_import_fails
#print axioms Mcpyrate.C41_dialect_fails
#print axioms Mcpyrate.C41_no_dialects
#print axioms Mcpyrate.C41_order
#print axioms Mcpyrate.C41_terminates
#print axioms Mcpyrate.C41_input
#print axioms Mcpyrate.C41_left_to_right
#print axioms Mcpyrate.C41_postprocess
#print axioms Mcpyrate.C41_posted_dialects
#print axioms Mcpyrate.C41_inherited
#print axioms Mcpyrate.C41_post_inherited
#print axioms Mcpyrate.C42_found_partial
#print axioms Mcpyrate.C42_once
#print axioms Mcpyrate.C42_order_partial
#print axioms Mcpyrate.C42_fails_partial
#print axioms Mcpyrate.C42_none_partial
#print axioms Mcpyrate.C42_inherited
#print axioms Mcpyrate.C42_consecutive_violated
#print axioms Mcpyrate.C42_following_violated
#print axioms Mcpyrate.C42_following_raises_violated
#print axioms Mcpyrate.C42_unicode_violated
#print axioms Mcpyrate.C43_created
#print axioms Mcpyrate.C43_unchanged
#print axioms Mcpyrate.C43_no_parent
#print axioms Mcpyrate.C43_bad_args
#print axioms Mcpyrate.C44_removed_partial
#print axioms Mcpyrate.C44_not_created_partial
#print axioms Mcpyrate.C44_anyBody_partial
#print axioms Mcpyrate.C44_restored_partial
#print axioms Mcpyrate.C44_bodyRemoves_violated
#print axioms Mcpyrate.C44_unnamed_violated
#print axioms Mcpyrate.C44_existing_violated
#print axioms Mcpyrate.C44_existing_error_violated
#print axioms Mcpyrate.C45_newest_partial
#print axioms Mcpyrate.C45_edit_partial
#print axioms Mcpyrate.C45_succeeds_partial
#print axioms Mcpyrate.C45_hook
#print axioms Mcpyrate.C45_cycle_violated
#print axioms Mcpyrate.C45_older_violated
#print axioms Mcpyrate.C46_transparent
#print axioms Mcpyrate.C46_sound
#print axioms Mcpyrate.C47_expr_partial
#print axioms Mcpyrate.C47_exprInjective_partial
#print axioms Mcpyrate.C47_dictUnpacking_violated
#print axioms Mcpyrate.C47_emptySubscript_violated
#print axioms Mcpyrate.C47_fstring_violated
#print axioms Mcpyrate.C47_expression_violated
#print axioms Mcpyrate.C47_typeParams_violated
#print axioms Mcpyrate.C47_nestedOr_violated
#print axioms Mcpyrate.C47_nestedAs_violated
#print axioms Mcpyrate.C47_mappingKey_violated
#print axioms Mcpyrate.C47_complexPattern_violated
#print axioms Mcpyrate.C47_sourceExpr_partial
#print axioms Mcpyrate.C47_source_partial
#print axioms Mcpyrate.C47_sourceStatements_partial
#print axioms Mcpyrate.C47_sourceInjective_partial
#print axioms Mcpyrate.C47_module_partial
#print axioms Mcpyrate.C47_statements_partial
#print axioms Mcpyrate.C47_statement_partial
#print axioms Mcpyrate.C47_moduleInjective_partial
#print axioms Mcpyrate.C47_withTuple_violated
#print axioms Mcpyrate.C48_last_call
#print axioms Mcpyrate.C48_standard
#print axioms Mcpyrate.C48_reload_inactive
#print axioms Mcpyrate.C48_reload_violated
#print axioms Mcpyrate.C49_depth
#print axioms Mcpyrate.C49_list_partial
#print axioms Mcpyrate.C49_delete_partial
#print axioms Mcpyrate.C49_left
#print axioms Mcpyrate.C49_not_a_directory
#print axioms Mcpyrate.C49_too_deep
#print axioms Mcpyrate.C49_link_violated
#print axioms Mcpyrate.C49_inner_link_violated
#print axioms Mcpyrate.C50_arguments
#print axioms Mcpyrate.C50_steps
#print axioms Mcpyrate.C50_finishes
#print axioms Mcpyrate.C50_nothing_left
#print axioms Mcpyrate.C50_shown
#print axioms Mcpyrate.C50_call_violated
#print axioms Mcpyrate.C50_dump_violated
#print axioms Mcpyrate.C51_once
#print axioms Mcpyrate.C51_recursively
#print axioms Mcpyrate.C52_expanded
#print axioms Mcpyrate.C52_listed_partial
#print axioms Mcpyrate.C52_complete_partial
#print axioms Mcpyrate.C52_untouched
#print axioms Mcpyrate.C52_syntax_error
#print axioms Mcpyrate.C52_args_error
#print axioms Mcpyrate.C52_args_expanded
#print axioms Mcpyrate.C52_args_listed_partial
#print axioms Mcpyrate.C52_args_first
#print axioms Mcpyrate.C52_unbound_error
#print axioms Mcpyrate.C52_global_violated
#print axioms Mcpyrate.C52_identifier_violated
#print axioms Mcpyrate.C52_quoted_violated
#print axioms Mcpyrate.C53_expandsq_partial
#print axioms Mcpyrate.C53_expands_partial
#print axioms Mcpyrate.C53_code_partial
#print axioms Mcpyrate.C53_value_partial
#print axioms Mcpyrate.C53_unquotes_partial
#print axioms Mcpyrate.C53_invocations_partial
#print axioms Mcpyrate.C53_expands_unquotes_partial
#print axioms Mcpyrate.C53_argument_partial
#print axioms Mcpyrate.C53_macro_partial
#print axioms Mcpyrate.C53_commands_partial
#print axioms Mcpyrate.C53_kinds
#print axioms Mcpyrate.C53_rejects
#print axioms Mcpyrate.C53_rejects_violated
#print axioms Mcpyrate.C53_block_violated
#print axioms Mcpyrate.C53_block_expands_violated
#print axioms Mcpyrate.C54_bindings
#print axioms Mcpyrate.C54_expandr
#print axioms Mcpyrate.C54_expandrq
#print axioms Mcpyrate.C54_expandrq_block
#print axioms Mcpyrate.C54_expandrq_raises
#print axioms Mcpyrate.C54_value_partial
#print axioms Mcpyrate.C54_unquotes_partial
#print axioms Mcpyrate.C54_unquotes_block_partial
#print axioms Mcpyrate.C54_unpicklable
#print axioms Mcpyrate.C54_kinds
#print axioms Mcpyrate.C54_block_violated
#print axioms Mcpyrate.C54_runtime
#print axioms Mcpyrate.C54_bound
#print axioms Mcpyrate.C54_complete_partial
#print axioms Mcpyrate.C55_fill
#print axioms Mcpyrate.C55_located
#print axioms Mcpyrate.C55_quoted
#print axioms Mcpyrate.C55_errors
#print axioms Mcpyrate.C56_stepr
#print axioms Mcpyrate.C56_arguments
#print axioms Mcpyrate.C56_unpicklable
#print axioms Mcpyrate.C56_complex
#print axioms Mcpyrate.C56_kinds
#print axioms Mcpyrate.C56_nothing_left_partial
#print axioms Mcpyrate.C56_same_partial
#print axioms Mcpyrate.C56_same_violated
#print axioms Mcpyrate.C57_layer_partial
#print axioms Mcpyrate.C57_layers_partial
#print axioms Mcpyrate.C57_stepping_partial
#print axioms Mcpyrate.C57_stepping_finishes_partial
#print axioms Mcpyrate.C57_violated
#print axioms Mcpyrate.C57_empty_violated
#print axioms Mcpyrate.C58_quote_partial
#print axioms Mcpyrate.C58_inner_partial
#print axioms Mcpyrate.C58_refused
#print axioms Mcpyrate.C58_block_partial
#print axioms Mcpyrate.C58_succeeds_partial
#print axioms Mcpyrate.C58_block_succeeds_partial
#print axioms Mcpyrate.C58_macros_partial
#print axioms Mcpyrate.C58_inner_macros_partial
#print axioms Mcpyrate.C58_block_macros_partial
#print axioms Mcpyrate.C58_noCommands
#print axioms Mcpyrate.C58_wrong_use
#print axioms Mcpyrate.C58_astBlock_partial
#print axioms Mcpyrate.C58_astBlock_refused
#print axioms Mcpyrate.C58_coverage_violated
#print axioms Mcpyrate.C58_captureName
#print axioms Mcpyrate.C59_deterministic
#print axioms Mcpyrate.C59_stages
#print axioms Mcpyrate.C59_raises
#print axioms Mcpyrate.C59_no_markers
#print axioms Mcpyrate.C59_multiphase
#print axioms Mcpyrate.C59_plain
#print axioms Mcpyrate.C59_forms
#print axioms Mcpyrate.C59_type_errors
#print axioms Mcpyrate.C59_parse_error
#print axioms Mcpyrate.C60_deterministic
#print axioms Mcpyrate.C60_new_module
#print axioms Mcpyrate.C60_by_name
#print axioms Mcpyrate.C60_bad_module
#print axioms Mcpyrate.C60_source_partial
#print axioms Mcpyrate.C60_code
#print axioms Mcpyrate.C60_not_compiled
#print axioms Mcpyrate.C60_plain_partial
#print axioms Mcpyrate.C60_docstring_violated
#print axioms Mcpyrate.C61_deterministic
#print axioms Mcpyrate.C61_answer
#print axioms Mcpyrate.C61_finishes
#print axioms Mcpyrate.C61_finishes_early
#print axioms Mcpyrate.C61_incomplete
#print axioms Mcpyrate.C61_macros
#print axioms Mcpyrate.C61_object
#print axioms Mcpyrate.C61_inputs
#print axioms Mcpyrate.C61_history
#print axioms Mcpyrate.C61_self
#print axioms Mcpyrate.C61_goes_on_partial
#print axioms Mcpyrate.C61_macro_error
#print axioms Mcpyrate.C61_comment_violated
#print axioms Mcpyrate.C61_qualname_violated
#print axioms Mcpyrate.C61_import_violated
#print axioms Mcpyrate.C62_determines
#print axioms Mcpyrate.C62_depends
#print axioms Mcpyrate.C62_color
#print axioms Mcpyrate.C62_colorDetermines
#print axioms Mcpyrate.C62_layout
#print axioms Mcpyrate.C62_typeError
#print axioms Mcpyrate.C63_module_partial
#print axioms Mcpyrate.C63_notFound
#print axioms Mcpyrate.C63_parent_raises
#print axioms Mcpyrate.C63_relative
#print axioms Mcpyrate.C63_package_partial
#print axioms Mcpyrate.C63_modulePath
#print axioms Mcpyrate.C63_file_partial
#print axioms Mcpyrate.C63_noFile
#print axioms Mcpyrate.C63_choices
#print axioms Mcpyrate.C63_package_violated
#print axioms Mcpyrate.C63_subpackage_violated
#print axioms Mcpyrate.C63_namespace_violated
#print axioms Mcpyrate.C63_error_violated
#print axioms Mcpyrate.C63_installed_violated
#print axioms Mcpyrate.C63_dottedFile_violated
#print axioms Mcpyrate.C63_sourceless_violated
#print axioms Mcpyrate.C63_emptyPath_violated
#print axioms Mcpyrate.C64_deterministic
#print axioms Mcpyrate.C64_transform
#print axioms Mcpyrate.C64_rejects
#print axioms Mcpyrate.C64_cell
#print axioms Mcpyrate.C64_inputs
#print axioms Mcpyrate.C64_history_partial
#print axioms Mcpyrate.C64_load
#print axioms Mcpyrate.C64_macros
#print axioms Mcpyrate.C64_dump
#print axioms Mcpyrate.C64_unloaded
#print axioms Mcpyrate.C64_unload_violated
#print axioms Mcpyrate.C64_reload_violated
#print axioms Mcpyrate.C64_eval_violated
#print axioms Mcpyrate.C65_report
#print axioms Mcpyrate.C65_unique
#print axioms Mcpyrate.C65_determines
#print axioms Mcpyrate.C65_color
#print axioms Mcpyrate.C65_show_partial
#print axioms Mcpyrate.C65_refused
#print axioms Mcpyrate.C65_all_violated
#print axioms Mcpyrate.C66_line_partial
#print axioms Mcpyrate.C66_line_occurs
#print axioms Mcpyrate.C66_location
#print axioms Mcpyrate.C66_line_text
#print axioms Mcpyrate.C66_context
#print axioms Mcpyrate.C66_lines
#print axioms Mcpyrate.C66_collects
#print axioms Mcpyrate.C66_complete
#print axioms Mcpyrate.C66_refused
#print axioms Mcpyrate.C66_zero_violated
#print axioms Mcpyrate.C66_none_violated
#print axioms Mcpyrate.C66_marker_violated
#print axioms Mcpyrate.C66_ctx_violated
#print axioms Mcpyrate.C67_source
#print axioms Mcpyrate.C67_ast
#print axioms Mcpyrate.C67_post
#print axioms Mcpyrate.C67_sourceReport
#print axioms Mcpyrate.C67_astReport
#print axioms Mcpyrate.C67_postReport
#print axioms Mcpyrate.C67_silent
#print axioms Mcpyrate.C68_same
#print axioms Mcpyrate.C68_quiet
#print axioms Mcpyrate.C68_report
#print axioms Mcpyrate.C68_all_phases
#print axioms Mcpyrate.C68_not_applied
#print axioms Mcpyrate.C68_misplaced
#print axioms Mcpyrate.C69_plain
#print axioms Mcpyrate.C69_color
#print axioms Mcpyrate.C69_space
#print axioms Mcpyrate.C69_nameless
#print axioms Mcpyrate.C69_debug
#print axioms Mcpyrate.C69_lines
#print axioms Mcpyrate.C69_macro
#print axioms Mcpyrate.C69_compare
#print axioms Mcpyrate.C69_boolOp
#print axioms Mcpyrate.C69_not
#print axioms Mcpyrate.C69_else
#print axioms Mcpyrate.C69_capture
#print axioms Mcpyrate.C70_declared
#print axioms Mcpyrate.C70_stays
#print axioms Mcpyrate.C70_decorator
#print axioms Mcpyrate.C70_others
#print axioms Mcpyrate.C70_outermost
#print axioms Mcpyrate.C70_invoked
#print axioms Mcpyrate.C71_fresh_partial
#print axioms Mcpyrate.C71_errors
#print axioms Mcpyrate.C71_reused
#print axioms Mcpyrate.C71_second_violated
#print axioms Mcpyrate.C71_deleted_violated
#print axioms Mcpyrate.C71_helper_violated
#print axioms Mcpyrate.C72_colorize
#print axioms Mcpyrate.C72_setcolor
#print axioms Mcpyrate.C72_sequence
#print axioms Mcpyrate.C72_nested
#print axioms Mcpyrate.C72_names
#print axioms Mcpyrate.C72_scheme
#print axioms Mcpyrate.C72_errors
#print axioms Mcpyrate.C72_no_terminal_partial
#print axioms Mcpyrate.C72_no_terminal_violated
