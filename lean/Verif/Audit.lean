import Verif.Bits.Props
import Verif.Ident.Props
import Verif.Expr.Model
import Verif.Expr.Semantics
import Verif.Expr.Fuel
import Verif.Expr.Sound2
import Verif.Expr.Props
import Verif.Expr.SubstProps
import Verif.Expr.VarsProps
import Verif.Checksum.Props
import Verif.Errors.Props
import Verif.Common.Props
import Verif.Types.Props
import Verif.Types.ConstraintProps
import Verif.PyRFLX.ScalarProps
import Verif.PyRFLX.EnumProps
import Verif.PyRFLX.ArrayProps
import Verif.PyRFLX.ChecksumFn
import Verif.PyRFLX.MessageProps
import Verif.PyRFLX.MessageParseExample
import Verif.Graph.Props
import Verif.Graph.Termination
import Verif.Graph.PathProps
import Verif.Session.Props
import Verif.Session.DeclExample
import Verif.ModelPkg.Props
import Verif.SpecParser.ImportProps
import Verif.Cache.Props
import Verif.Cache.Key
import Verif.Verify.Counterexamples
import Verif.Spark.RuntimeProps
import Verif.Spark.ScalarSeqProps
import Verif.Spark.MessageSeqProps
import Verif.Typing.Props
import Verif.SpecParser.StructureProps
import Verif.Generator.ScalarProps
import Verif.Merge.Example
import Verif.Gen.Example
import Verif.Ctx.Example
import Verif.Ctx.Rebuild
import Verif.Ctx.HistoryExample
import Verif.Typing.CheckProps
import Verif.Verify.ExprTypesExample
import Verif.Ada.Props
import Verif.Ada.FromExample
import Verif.SpecParser.TreeProps
import Verif.SpecParser.PackageProps
import Verif.SpecParser.PackageAccept
import Verif.Dot.Props
import Verif.PyRFLX.MessageChecksum
import Verif.PyRFLX.MessageChecksumLemmas
import Verif.PyRFLX.MessageChecksumProps
import Verif.PyRFLX.MessageChecksumExample
import Verif.PyRFLX.MessageChecksumSettable
import Verif.SpecParser.Sessions
import Verif.SpecParser.SessionsSpec
import Verif.SpecParser.SessionsLemmas
import Verif.SpecParser.SessionsProps
import Verif.SpecParser.SessionsExample
import Verif.Units.Model
import Verif.Units.Spec
import Verif.Units.Lemmas
import Verif.Units.Parameters
import Verif.Units.Props
import Verif.Units.Fit
import Verif.Units.Example
import Verif.Refine.Names
import Verif.Refine.Example
import Verif.PyRFLX.Nested
import Verif.PyRFLX.NestedLemmas
import Verif.PyRFLX.NestedSound
import Verif.PyRFLX.NestedRound
import Verif.PyRFLX.NestedChoice
import Verif.PyRFLX.NestedProps
import Verif.PyRFLX.NestedExample
import Verif.Agree.Props
import Verif.Agree.Example
import Verif.Export.Props
import Verif.Cli.Files
import Verif.Derived.Props
import Verif.Ada.StmtProps
import Verif.Ctx.SeqExample
import Verif.Ada.Decl
import Verif.Ada.DeclGrammar
import Verif.Ada.DeclParse
import Verif.Ada.DeclValue
import Verif.Ada.DeclText
import Verif.Ada.DeclMain
import Verif.Ada.DeclProps
import Verif.Ada.DeclExamples
import Verif.Ada.DeclEqual
import Verif.Ada.DeclUnit
import Verif.Post.Model
import Verif.Post.Read
import Verif.Post.Definite
import Verif.Post.Lemmas
import Verif.Post.Props
import Verif.Post.Meaning
import Verif.Post.Examples
import Verif.Access.Model
import Verif.Access.Spec
import Verif.Access.Lemmas
import Verif.Access.Props
import Verif.Access.Short
import Verif.Access.Examples
import Verif.PyRFLX.MsgArray
import Verif.PyRFLX.MsgArrayLemmas
import Verif.PyRFLX.MsgArrayProps
import Verif.PyRFLX.MsgArrayExample
import Verif.Bridge.Env
import Verif.Bridge.Assign
import Verif.Bridge.Layout
import Verif.Bridge.Props
import Verif.Bridge.Example
import Verif.Bridge.Counterexample
import Verif.Bridge.Kinds
import Verif.Bridge.WellFormed
import Verif.Bridge.WellFormedExample
import Verif.Verify.ScopeCounterexample
import Verif.Verify.InstanceProps
import Verif.Verify.DeadLink
import Verif.Expr.Stable
import Verif.Verify.ChecksumProps
import Verif.Verify.ChecksumExample
import Verif.Verify.OverlayProps
import Verif.Verify.AspectProps
import Verif.SpecParser.Checksums
import Verif.SpecParser.ChecksumsProps
import Verif.SpecParser.NamesProps
import Verif.PyRFLX.AccessProps
import Verif.Generator.DeclNamesProps
import Verif.Generator.FieldNamesProps
import Verif.Ident.TextProps
import Verif.PyRFLX.ScalarText
import Verif.Types.TextProps
import Verif.Session.NamesProps
import Verif.PyRFLX.ArrayBytes
import Verif.Typing.BytesProps

/-! # Axioms of the property theorems

Printed during the build. Expected: `propext`, `Classical.choice`, `Quot.sound`, or none. -/

#print axioms Verif.Bits.C01_roundtrip
#print axioms Verif.Bits.C01_append
#print axioms Verif.Bits.C01_roundtrip_bits
#print axioms Verif.Bits.C01_empty_counterexample
#print axioms Verif.Bits.C02_slice
#print axioms Verif.Bits.C02_cut_join
#print axioms Verif.Bits.C02_join
#print axioms Verif.Bits.C02_init
#print axioms Verif.PyRFLX.C03_assign_partial
#print axioms Verif.PyRFLX.C03_bits_partial
#print axioms Verif.PyRFLX.C03_roundtrip_partial
#print axioms Verif.PyRFLX.C03_parse_partial
#print axioms Verif.PyRFLX.C03_based_size_counterexample
#print axioms Verif.PyRFLX.C03_size_zero_counterexample
#print axioms Verif.PyRFLX.C03_parse_bytes_partial
#print axioms Verif.PyRFLX.C04_assign_partial
#print axioms Verif.PyRFLX.C04_parse_partial
#print axioms Verif.PyRFLX.C04_bits_partial
#print axioms Verif.PyRFLX.C04_roundtrip_partial
#print axioms Verif.PyRFLX.C04_injective_partial
#print axioms Verif.PyRFLX.C04_reencode_partial
#print axioms Verif.PyRFLX.C04_prefix_counterexample
#print axioms Verif.PyRFLX.C04_text_partial
#print axioms Verif.Types.C05_modular_iff
#print axioms Verif.Types.C05_range_iff
#print axioms Verif.Types.C05_accepted
#print axioms Verif.Types.C05_size_zero_accepted
#print axioms Verif.Types.C06_accepted
#print axioms Verif.Types.C06_iff
#print axioms Verif.Types.C06_string_names_counterexample
#print axioms Verif.Types.C06_empty_negative_size
#print axioms Verif.Types.C06_text_names
#print axioms Verif.Types.C07_integer_partial
#print axioms Verif.Types.C07_runtime_range_partial
#print axioms Verif.Types.C07_enumeration_partial
#print axioms Verif.Types.C07_always_valid_counterexample
#print axioms Verif.C08_terminates
#print axioms Verif.C08_fuel_irrelevant
#print axioms Verif.C08_C09_simplified_value_partial
#print axioms Verif.C08_C09_simplified_returns_partial
#print axioms Verif.C08_arithmetic_partial
#print axioms Verif.C08_constant_folds
#print axioms Verif.C08_mod_counterexample
#print axioms Verif.C08_pow_counterexample
#print axioms Verif.C08_floor_division_counterexample
#print axioms Verif.C09_boolean_partial
#print axioms Verif.C09_guard_order_counterexample
#print axioms Verif.C09_quantifier_counterexample
#print axioms Verif.C10_value_partial
#print axioms Verif.C10_result_unique
#print axioms Verif.C10_not_counterexample
#print axioms Verif.C10_capture_counterexample
#print axioms Verif.C10_component_sign_counterexample
#print axioms Verif.C10_negative_counterexample
#print axioms Verif.C10_attribute_sign_counterexample
#print axioms Verif.C10_termination_counterexample
#print axioms Verif.C11_eq_same_value
#print axioms Verif.C11_text_unambiguous
#print axioms Verif.C11_eq_refl
#print axioms Verif.C11_empty_or_counterexample
#print axioms Verif.C11_sum_counterexample
#print axioms Verif.C12_reported_occurs
#print axioms Verif.C12_value_partial
#print axioms Verif.C12_nodup_partial
#print axioms Verif.C12_findall_sound
#print axioms Verif.C12_findall_complete_partial
#print axioms Verif.C12_aggregate_counterexample
#print axioms Verif.C12_parameter_counterexample
#print axioms Verif.C12_nodup_counterexample
#print axioms Verif.C12_findall_counterexample
#print axioms Verif.C13_terminates
#print axioms Verif.C13_fuel_irrelevant
#print axioms Verif.C13_arithmetic_partial
#print axioms Verif.C13_boolean
#print axioms Verif.C13_sub_counterexample
#print axioms Verif.C13_pow_counterexample
#print axioms Verif.Graph.C14_order_partial
#print axioms Verif.Graph.C14_acyclic
#print axioms Verif.Graph.C14_reachable
#print axioms Verif.Graph.C14_initial_link_counterexample
#print axioms Verif.Graph.C14_no_initial_counterexample
#print axioms Verif.Graph.C14_order_counterexample
#print axioms Verif.Graph.C14_final_link_counterexample
#print axioms Verif.Graph.C14_terminates_partial
#print axioms Verif.Graph.C14_unique
#print axioms Verif.Graph.C15_paths_partial
#print axioms Verif.Graph.C16_condition_partial
#print axioms Verif.Graph.C16_field_condition_partial
#print axioms Verif.Graph.C17_definite_predecessors_partial
#print axioms Verif.Graph.C17_predecessors_partial
#print axioms Verif.Graph.C17_ends
#print axioms Verif.Graph.C17_direct
#print axioms Verif.Graph.C17_definite_initial_counterexample
#print axioms Verif.Graph.C17_predecessors_counterexample
#print axioms Verif.Verify.C18_deterministic_partial
#print axioms Verif.Verify.C18_aggregate_counterexample
#print axioms Verif.Verify.C18_unknown_counterexample
#print axioms Verif.Verify.C19_positions_partial
#print axioms Verif.Verify.C19_coverage_partial
#print axioms Verif.Verify.C19_sizes_partial
#print axioms Verif.Verify.C19_no_holes_partial
#print axioms Verif.Verify.C19_no_fields_counterexample
#print axioms Verif.Verify.C20_sizes_partial
#print axioms Verif.Verify.C20_message_size_partial
#print axioms Verif.Verify.C20_array_counterexample
#print axioms Verif.Merge.C21_field_partial
#print axioms Verif.Merge.C21_prefixed
#print axioms Verif.Merge.C21_conditions_partial
#print axioms Verif.Merge.C21_names_partial
#print axioms Verif.Merge.C21_types
#print axioms Verif.Merge.C21_merged_partial
#print axioms Verif.Merge.C21_terminates
#print axioms Verif.Merge.C21_first_condition_counterexample
#print axioms Verif.Merge.C21_negative_counterexample
#print axioms Verif.Merge.C21_message_counterexample
#print axioms Verif.Merge.C21_null_counterexample
#print axioms Verif.PyRFLX.C22_roundtrip_partial
#print axioms Verif.PyRFLX.C22_trailer_counterexample
#print axioms Verif.PyRFLX.C22_empty_input_counterexample
#print axioms Verif.PyRFLX.C23_read_back_partial
#print axioms Verif.PyRFLX.C23_get_valid
#print axioms Verif.PyRFLX.C23_not_accessible
#print axioms Verif.PyRFLX.C23_preceding_unchanged
#print axioms Verif.PyRFLX.C23_unset_field_counterexample
#print axioms Verif.PyRFLX.C23_parsed_complete_partial
#print axioms Verif.Checksum.C24_rfc1071
#print axioms Verif.Checksum.C24_verifies
#print axioms Verif.Checksum.C24_fits
#print axioms Verif.Checksum.C24_word_order
#print axioms Verif.Checksum.C24_detects_word_change
#print axioms Verif.Checksum.C24_raises_iff
#print axioms Verif.Checksum.C24_odd_length_counterexample
#print axioms Verif.Spark.C25_extract
#print axioms Verif.Spark.C25_extract_value
#print axioms Verif.Spark.C25_extract_outside
#print axioms Verif.Spark.C25_extract_local
#print axioms Verif.Spark.C26_insert
#print axioms Verif.Spark.C26_extract_insert
#print axioms Verif.Spark.C26_insert_elsewhere
#print axioms Verif.Spark.C26_insert_outside
#print axioms Verif.Spark.ScalarSeq.C27_step
#print axioms Verif.Spark.ScalarSeq.C27_histories
#print axioms Verif.Spark.ScalarSeq.C27_round_trip
#print axioms Verif.Spark.ScalarSeq.C27_append_frame
#print axioms Verif.Spark.ScalarSeq.C27_append_full
#print axioms Verif.Spark.ScalarSeq.C27_get_before_next_counterexample
#print axioms Verif.Spark.MessageSeq.C28_switch
#print axioms Verif.Spark.MessageSeq.C28_update
#print axioms Verif.Spark.MessageSeq.C28_histories
#print axioms Verif.Spark.MessageSeq.C28_disjoint
#print axioms Verif.Spark.MessageSeq.C28_forward
#print axioms Verif.Spark.MessageSeq.C28_update_counterexample
#print axioms Verif.Ctx.C29_accepts
#print axioms Verif.Ctx.C29_fields
#print axioms Verif.Ctx.C29_prefix
#print axioms Verif.Ctx.C29_valid_message_partial
#print axioms Verif.Ctx.C29_field_first
#print axioms Verif.Ctx.C29_valid_message_counterexample
#print axioms Verif.Ctx.C30_predicate_partial
#print axioms Verif.Ctx.C30_fields_partial
#print axioms Verif.Ctx.C30_field_partial
#print axioms Verif.Ctx.C30_invalid_partial
#print axioms Verif.Ctx.C30_empty_counterexample
#print axioms Verif.Ctx.C30_first_counterexample
#print axioms Verif.Ctx.C30_null_counterexample
#print axioms Verif.Ctx.C31_scalar
#print axioms Verif.Ctx.C31_opaque
#print axioms Verif.Ctx.C31_roundtrip
#print axioms Verif.Ctx.C31_complete_partial
#print axioms Verif.Ctx.C31_content_counterexample
#print axioms Verif.Ctx.C31_size_counterexample
#print axioms Verif.Generator.C32_enumeration_partial
#print axioms Verif.Generator.C32_legal
#print axioms Verif.Generator.C32_raw_literal_counterexample
#print axioms Verif.Generator.C32_integer
#print axioms Verif.Session.C33_accepted
#print axioms Verif.Session.C33_unique_target_partial
#print axioms Verif.Session.C33_exception_counterexample
#print axioms Verif.Session.C34_exact_condition
#print axioms Verif.Session.C34_reachable_partial
#print axioms Verif.Session.C34_self_loop_counterexample
#print axioms Verif.Session.C34_order_counterexample
#print axioms Verif.ModelPkg.C35_accepted_iff
#print axioms Verif.Cache.C36_sound
#print axioms Verif.Cache.C36_types
#print axioms Verif.Cache.C36_skipped_not_recorded
#print axioms Verif.Cache.C36_hit
#print axioms Verif.Cache.C37_checksums
#print axioms Verif.Cache.C37_elements
#print axioms Verif.Cache.C37_counterexample
#print axioms Verif.Cache.C37_skips_counterexample
#print axioms Verif.Cache.C37_elements_counterexample
#print axioms Verif.ID.C38_eq_iff
#print axioms Verif.ID.C38_equivalence
#print axioms Verif.ID.C38_hash
#print axioms Verif.ID.C38_accepts
#print axioms Verif.ID.C38_str_roundtrip
#print axioms Verif.ID.C38_mul
#print axioms Verif.ID.C38_parent_name
#print axioms Verif.ID.C38_mul_assoc
#print axioms Verif.ID.C38_mul_empty
#print axioms Verif.ID.C38_closed
#print axioms Verif.ID.C38_lt_counterexample
#print axioms Verif.ID.C38_add
#print axioms Verif.ID.C38_radd
#print axioms Verif.ID.C38_mul_text
#print axioms Verif.Typing.C39_reflexive
#print axioms Verif.Typing.C39_any
#print axioms Verif.Typing.C39_undefined
#print axioms Verif.Typing.C39_symmetric
#print axioms Verif.Typing.C39_channel_counterexample
#print axioms Verif.Typing.C39_common_commutative
#print axioms Verif.Typing.C39_common_upper
#print axioms Verif.Typing.C39_common_defined
#print axioms Verif.Typing.C39_empty_aggregate_counterexample
#print axioms Verif.Typing.C39_mixed_aggregate_counterexample
#print axioms Verif.Typing.C39_aggregate_elements_counterexample
#print axioms Verif.Typing.C39_common_type_order
#print axioms Verif.Typing.C39_common_type_upper
#print axioms Verif.Typing.C39_common_type_defined
#print axioms Verif.Typing.C39_common_type_values
#print axioms Verif.Typing.C39_strong_values
#print axioms Verif.Typing.C39_bounds_values
#print axioms Verif.Typing.C39_unknown_bounds_counterexample
#print axioms Verif.Typing.C39_aggregates_counterexample
#print axioms Verif.Typing.C39_check_type
#print axioms Verif.Typing.C39_check_types
#print axioms Verif.Typing.C39_check_raises
#print axioms Verif.Errors.C40_exactly_recorded
#print axioms Verif.Errors.C40_propagate_raises_iff
#print axioms Verif.Errors.C40_propagate_returns
#print axioms Verif.Errors.C40_nothing_lost
#print axioms Verif.Errors.C40_add
#print axioms Verif.Errors.C40_iadd
#print axioms Verif.Errors.C40_append_order
#print axioms Verif.Errors.C40_add_assoc
#print axioms Verif.Errors.C40_add_new
#print axioms Verif.Errors.C40_fail
#print axioms Verif.SpecParser.C41_order
#print axioms Verif.SpecParser.C41_cycle_reported
#print axioms Verif.SpecParser.C41_terminates_partial
#print axioms Verif.SpecParser.C41_hang_counterexample
#print axioms Verif.SpecParser.C41_empty_file_counterexample
#print axioms Verif.SpecParser.Structure.C42_structure_partial
#print axioms Verif.SpecParser.Structure.C42_forward_partial
#print axioms Verif.SpecParser.Structure.C42_backward_counterexample
#print axioms Verif.SpecParser.Structure.C42_double_aspect_counterexample
#print axioms Verif.Gen.C43_condition_partial
#print axioms Verif.Gen.C43_negative_counterexample
#print axioms Verif.Gen.C43_embedded_inequality_counterexample
#print axioms Verif.Gen.C43_letter_case_counterexample
#print axioms Verif.Gen.C43_checksum_counterexample
#print axioms Verif.Common.C44_unique_firsts
#print axioms Verif.Common.C44_unique_nodup
#print axioms Verif.Common.C44_unique_sublist
#print axioms Verif.Common.C44_unique_covers
#print axioms Verif.Common.C44_indent_lines
#print axioms Verif.Common.C44_flat_name_no_separator
#print axioms Verif.Common.C44_file_name_no_separator
#print axioms Verif.Common.C44_file_name_injective
#print axioms Verif.Common.C44_flat_name_counterexample
#print axioms Verif.PyRFLX.C45_parse_partial
#print axioms Verif.PyRFLX.C45_size_check
#print axioms Verif.PyRFLX.C45_assign_partial
#print axioms Verif.PyRFLX.C45_partial_element_counterexample
#print axioms Verif.PyRFLX.C45_empty_bytes_counterexample
#print axioms Verif.PyRFLX.C45_element_type_counterexample
#print axioms Verif.PyRFLX.C45_parse_bytes_partial
#print axioms Verif.PyRFLX.C45_bytes_size_check
#print axioms Verif.PyRFLX.C45_assign_size_check
#print axioms Verif.PyRFLX.C45_assign_kind_check
#print axioms Verif.PyRFLX.C46_accepted_iff
#print axioms Verif.PyRFLX.C46_one_field_partial
#print axioms Verif.PyRFLX.C46_only_named
#print axioms Verif.PyRFLX.C46_two_fields_counterexample
#print axioms Verif.PyRFLX.C46_no_field_counterexample
#print axioms Verif.Verify.C47_path_facts
#print axioms Verif.Verify.C47_type_facts_partial
#print axioms Verif.Typing.C48_value_partial
#print axioms Verif.Typing.C48_kind_partial
#print axioms Verif.Typing.C48_integer_partial
#print axioms Verif.Typing.C48_scope
#print axioms Verif.Typing.C48_member_counterexample
#print axioms Verif.Typing.C48_sign_counterexample
#print axioms Verif.Typing.C48_not_counterexample
#print axioms Verif.Verify.C48_message_scope_partial
#print axioms Verif.Verify.C48_message_value_partial
#print axioms Verif.Verify.C48_type_name_counterexample
#print axioms Verif.Verify.C48_message_scope_counterexample
#print axioms Verif.Typing.C48_bytes
#print axioms Verif.Session.C49_target
#print axioms Verif.Session.C49_read
#print axioms Verif.Session.C49_write
#print axioms Verif.Session.C49_action_names_partial
#print axioms Verif.Session.C49_condition_names
#print axioms Verif.Session.C49_condition_value_partial
#print axioms Verif.Session.C49_assign_value_partial
#print axioms Verif.Session.C49_exception
#print axioms Verif.Session.C49_used
#print axioms Verif.Session.C49_used_local
#print axioms Verif.Session.C49_no_shadowing
#print axioms Verif.Session.C49_builtin
#print axioms Verif.Session.C49_declaration_partial
#print axioms Verif.Session.C49_local_declaration_partial
#print axioms Verif.Session.C49_duplicate_counterexample
#print axioms Verif.Session.C49_unused_counterexample
#print axioms Verif.Session.C49_call_counterexample
#print axioms Verif.Session.C49_type_counterexample
#print axioms Verif.Session.C49_aggregate_counterexample
#print axioms Verif.Session.C49_unqualified_counterexample
#print axioms Verif.Session.C49_function_target_counterexample
#print axioms Verif.Session.C49_channel_target_counterexample
#print axioms Verif.Session.C49_renaming_partial
#print axioms Verif.Session.C49_aggregate
#print axioms Verif.Session.C49_type_names
#print axioms Verif.Session.C49_data_available
#print axioms Verif.Ada.C50_text_partial
#print axioms Verif.Ada.C50_same_text
#print axioms Verif.Ada.C50_unambiguous
#print axioms Verif.Ada.C50_indentation
#print axioms Verif.Ada.C50_if
#print axioms Verif.Ada.C50_case
#print axioms Verif.Ada.C50_negative_counterexample
#print axioms Verif.Ada.C50_aggregate_counterexample
#print axioms Verif.Ada.C50_empty_or_counterexample
#print axioms Verif.Ada.C50_named_operand_counterexample
#print axioms Verif.Ada.C50_empty_sum_counterexample
#print axioms Verif.Ada.C50_sum_counterexample
#print axioms Verif.Ada.C50_membership_counterexample
#print axioms Verif.Ada.C51_text_partial
#print axioms Verif.Ada.C51_generated_partial
#print axioms Verif.Ada.C51_difference_counterexample
#print axioms Verif.Ada.C51_attribute_counterexample
#print axioms Verif.Ada.C51_aggregate_counterexample
#print axioms Verif.Ada.C51_membership_counterexample
#print axioms Verif.SpecParser.C52_value
#print axioms Verif.SpecParser.C52_values
#print axioms Verif.SpecParser.C52_created_partial
#print axioms Verif.SpecParser.C52_attribute_counterexample
#print axioms Verif.SpecParser.C52_negation_counterexample
#print axioms Verif.SpecParser.C52_concatenation_counterexample
#print axioms Verif.SpecParser.C52_structure
#print axioms Verif.SpecParser.C53_no_conflict
#print axioms Verif.SpecParser.C53_types_partial
#print axioms Verif.SpecParser.C53_modular_accepted
#print axioms Verif.SpecParser.C53_range_accepted
#print axioms Verif.SpecParser.C53_variable_counterexample
#print axioms Verif.SpecParser.C53_refinement_conditions_counterexample
#print axioms Verif.SpecParser.C53_refinement_names_counterexample
#print axioms Verif.SpecParser.C53_positional_accepted
#print axioms Verif.SpecParser.C53_named_accepted
#print axioms Verif.SpecParser.C53_array_accepted
#print axioms Verif.SpecParser.C53_derived_accepted
#print axioms Verif.Dot.C54_message
#print axioms Verif.Dot.C54_arrows
#print axioms Verif.Dot.C54_session_partial
#print axioms Verif.Dot.C54_transitions
#print axioms Verif.Dot.C54_clash_counterexample
#print axioms Verif.Dot.C54_message_spelling_counterexample
#print axioms Verif.Dot.C54_exception_counterexample
#print axioms Verif.Dot.C54_read_counterexample
#print axioms Verif.Dot.C54_spelling_counterexample
#print axioms Verif.PyRFLX.C55_valid
#print axioms Verif.PyRFLX.C55_bytestring
#print axioms Verif.PyRFLX.C55_manual
#print axioms Verif.PyRFLX.C55_automatic_partial
#print axioms Verif.PyRFLX.C55_update_partial
#print axioms Verif.PyRFLX.C55_parse_partial
#print axioms Verif.PyRFLX.C55_roundtrip_partial
#print axioms Verif.PyRFLX.C55_parse_counterexample
#print axioms Verif.PyRFLX.C55_overwritten_counterexample
#print axioms Verif.PyRFLX.C55_order_counterexample
#print axioms Verif.PyRFLX.C55_stale_counterexample
#print axioms Verif.PyRFLX.C55_known_partial
#print axioms Verif.PyRFLX.C55_known_value
#print axioms Verif.PyRFLX.C55_first_counterexample
#print axioms Verif.SpecParser.C56_session_partial
#print axioms Verif.SpecParser.C56_checked
#print axioms Verif.SpecParser.C56_targets
#print axioms Verif.SpecParser.C56_created_partial
#print axioms Verif.SpecParser.C56_declaration_counterexample
#print axioms Verif.SpecParser.C56_field_counterexample
#print axioms Verif.SpecParser.C56_end_counterexample
#print axioms Verif.Units.C57_units_partial
#print axioms Verif.Units.C57_files_partial
#print axioms Verif.Units.C57_closed_partial
#print axioms Verif.Units.C57_library
#print axioms Verif.Units.C57_parents
#print axioms Verif.Units.C57_instances_partial
#print axioms Verif.Units.C57_arrays
#print axioms Verif.Units.C57_messages
#print axioms Verif.Units.C57_refinements
#print axioms Verif.Units.C57_generic_counterexample
#print axioms Verif.Units.C57_contains_counterexample
#print axioms Verif.Units.C57_assertion_counterexample
#print axioms Verif.Units.C57_library_counterexample
#print axioms Verif.Units.C57_null_counterexample
#print axioms Verif.Units.C57_array_counterexample
#print axioms Verif.Units.C57_flat_counterexample
#print axioms Verif.Refine.C58_contains_partial
#print axioms Verif.Refine.C58_switch_partial
#print axioms Verif.Refine.C58_parse_partial
#print axioms Verif.Refine.C58_names_partial
#print axioms Verif.Refine.C58_contains_counterexample
#print axioms Verif.Refine.C58_types_counterexample
#print axioms Verif.Refine.C58_operators_counterexample
#print axioms Verif.Refine.C58_unknown_counterexample
#print axioms Verif.Refine.C58_name_counterexample
#print axioms Verif.PyRFLX.C59_nested
#print axioms Verif.PyRFLX.C59_get
#print axioms Verif.PyRFLX.C59_choice_partial
#print axioms Verif.PyRFLX.C59_parse_choice_partial
#print axioms Verif.PyRFLX.C59_roundtrip_partial
#print axioms Verif.PyRFLX.C59_lossy_counterexample
#print axioms Verif.PyRFLX.C59_stale_counterexample
#print axioms Verif.PyRFLX.C59_recursion_counterexample
#print axioms Verif.Agree.C60_agree_partial
#print axioms Verif.Agree.C60_unknown_values_counterexample
#print axioms Verif.Agree.C60_unknown_literal_counterexample
#print axioms Verif.Agree.C60_positions_counterexample
#print axioms Verif.Agree.C60_aggregate_counterexample
#print axioms Verif.Export.C61_export_partial
#print axioms Verif.Export.C61_faithful_partial
#print axioms Verif.Export.C61_injective_partial
#print axioms Verif.Export.C61_session_counterexample
#print axioms Verif.Export.C61_checksum_counterexample
#print axioms Verif.Export.C61_derived_counterexample
#print axioms Verif.Cli.C62_parse
#print axioms Verif.Cli.C62_check
#print axioms Verif.Cli.C62_error_writes_nothing
#print axioms Verif.Cli.C62_arguments
#print axioms Verif.Cli.C62_report
#print axioms Verif.Cli.C62_generate
#print axioms Verif.Cli.C62_generated_files
#print axioms Verif.Cli.C62_graph_partial
#print axioms Verif.Cli.C62_export_partial
#print axioms Verif.Cli.C62_export_counterexample
#print axioms Verif.Cli.C62_graph_counterexample
#print axioms Verif.Derived.C63_derived_partial
#print axioms Verif.Derived.C63_fields
#print axioms Verif.Derived.C63_checksum_counterexample
#print axioms Verif.Ada.C64_text_partial
#print axioms Verif.Ada.C64_sequence_partial
#print axioms Verif.Ada.C64_same_text
#print axioms Verif.Ada.C64_assignment
#print axioms Verif.Ada.C64_unambiguous
#print axioms Verif.Ada.C64_call_counterexample
#print axioms Verif.Ada.C64_branch_counterexample
#print axioms Verif.Ada.C64_empty_counterexample
#print axioms Verif.Ctx.C65_elements_partial
#print axioms Verif.Ctx.C65_valid_message_partial
#print axioms Verif.Ctx.C65_switch_partial
#print axioms Verif.Ctx.C65_write_partial
#print axioms Verif.Ctx.C65_read_partial
#print axioms Verif.Ctx.C65_set_partial
#print axioms Verif.Ctx.C65_foreign_counterexample
#print axioms Verif.Ctx.C65_overwrite_counterexample
#print axioms Verif.Ctx.C65_invalid_counterexample
#print axioms Verif.Ada.C66_text_partial
#print axioms Verif.Ada.C66_unit_partial
#print axioms Verif.Ada.C66_same_text
#print axioms Verif.Ada.C66_unambiguous
#print axioms Verif.Ada.C66_package_items
#print axioms Verif.Ada.C66_context_items
#print axioms Verif.Ada.C66_enumeration
#print axioms Verif.Ada.C66_equal_partial
#print axioms Verif.Ada.C66_equal_context
#print axioms Verif.Ada.C66_specification_partial
#print axioms Verif.Ada.C66_body_partial
#print axioms Verif.Ada.C66_object_in_package_counterexample
#print axioms Verif.Ada.C66_mode_counterexample
#print axioms Verif.Ada.C66_array_counterexample
#print axioms Verif.Ada.C66_empty_counterexample
#print axioms Verif.Ctx.C67_contract_partial
#print axioms Verif.Ctx.C67_postcondition_partial
#print axioms Verif.Ctx.C67_initialize
#print axioms Verif.Ctx.C67_initialize_all
#print axioms Verif.Ctx.C67_valid
#print axioms Verif.Ctx.C67_set_field_value_partial
#print axioms Verif.Ctx.C67_meaning
#print axioms Verif.Ctx.C67_public_condition
#print axioms Verif.Ctx.C67_effect_partial
#print axioms Verif.Ctx.C67_initialize_meaning
#print axioms Verif.Ctx.C67_initialize_all_meaning
#print axioms Verif.Ctx.C67_content_counterexample
#print axioms Verif.Ctx.C67_initial_counterexample
#print axioms Verif.Ctx.C68_status
#print axioms Verif.Ctx.C68_get_scalar
#print axioms Verif.Ctx.C68_get_composite
#print axioms Verif.Ctx.C68_equal
#print axioms Verif.Ctx.C68_later
#print axioms Verif.Ctx.C68_set_get_scalar
#print axioms Verif.Ctx.C68_set_get_opaque
#print axioms Verif.Ctx.C68_generic_set
#print axioms Verif.Ctx.C69_incomplete
#print axioms Verif.PyRFLX.C70_parse_partial
#print axioms Verif.PyRFLX.C70_runs
#print axioms Verif.PyRFLX.C70_encoding_partial
#print axioms Verif.PyRFLX.C70_size
#print axioms Verif.PyRFLX.C70_assign
#print axioms Verif.PyRFLX.C70_delimited_partial
#print axioms Verif.PyRFLX.C70_roundtrip
#print axioms Verif.PyRFLX.C70_reread_counterexample
#print axioms Verif.PyRFLX.C70_error_counterexample
#print axioms Verif.PyRFLX.C70_endless_counterexample
#print axioms Verif.Bridge.C71_deterministic_partial
#print axioms Verif.Bridge.C71_nonnegative_partial
#print axioms Verif.Bridge.C71_aligned_partial
#print axioms Verif.Bridge.C71_verified_partial
#print axioms Verif.Bridge.C71_parser_partial
#print axioms Verif.Bridge.C71_wellformed_partial
#print axioms Verif.Bridge.C71_leave_counterexample
#print axioms Verif.Verify.C72_leads_to_end
#print axioms Verif.Verify.C72_field_occurs_partial
#print axioms Verif.Verify.C72_instance_partial
#print axioms Verif.Verify.C72_dead_link_counterexample
#print axioms Verif.Verify.C73_defined
#print axioms Verif.Verify.C73_range_partial
#print axioms Verif.Verify.C73_checked_partial
#print axioms Verif.Verify.C73_unchecked_counterexample
#print axioms Verif.Verify.C73_range_counterexample
#print axioms Verif.Verify.C74_possible_partial
#print axioms Verif.Verify.C74_congruent_partial
#print axioms Verif.Verify.C74_overlay_counterexample
#print axioms Verif.Verify.C75_size
#print axioms Verif.Verify.C75_first
#print axioms Verif.Verify.C75_size_attribute_partial
#print axioms Verif.SpecParser.C76_distinct_partial
#print axioms Verif.SpecParser.C76_last
#print axioms Verif.SpecParser.C76_names
#print axioms Verif.SpecParser.C76_usual_partial
#print axioms Verif.SpecParser.C76_duplicate_counterexample
#print axioms Verif.SpecParser.C77_accepted_iff
#print axioms Verif.SpecParser.C77_all_files
#print axioms Verif.SpecParser.C77_declared_partial
#print axioms Verif.SpecParser.C77_files_partial
#print axioms Verif.SpecParser.C77_opaque_counterexample
#print axioms Verif.SpecParser.C77_prefix_counterexample
#print axioms Verif.SpecParser.C77_overwritten_counterexample
#print axioms Verif.PyRFLX.Access.C78_exists
#print axioms Verif.PyRFLX.Access.C78_found
#print axioms Verif.PyRFLX.Access.C78_iterate
#print axioms Verif.PyRFLX.Access.C78_checksum_functions
#print axioms Verif.PyRFLX.Access.C78_checksum_named
#print axioms Verif.PyRFLX.Access.C78_letter_case
#print axioms Verif.Generator.DeclNames.C79_distinct_partial
#print axioms Verif.Generator.DeclNames.C79_declared
#print axioms Verif.Generator.DeclNames.C79_clash_counterexample
#print axioms Verif.Generator.FieldNames.C80_distinct_partial
#print axioms Verif.Generator.FieldNames.C80_declared
#print axioms Verif.Generator.FieldNames.C80_clash_counterexample
