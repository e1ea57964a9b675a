{
 "claims": [
  {
   "property": "C01",
   "status": "proved",
   "theorems": [
    "Verif.Bits.C01_roundtrip",
    "Verif.Bits.C01_append",
    "Verif.Bits.C01_roundtrip_bits",
    "Verif.Bits.C01_empty_counterexample"
   ],
   "note": "Proved for non-empty byte strings as stated; the empty byte string is an exception of the code, recorded as a counterexample."
  },
  {
   "property": "C02",
   "status": "proved",
   "theorems": [
    "Verif.Bits.C02_slice",
    "Verif.Bits.C02_cut_join",
    "Verif.Bits.C02_join",
    "Verif.Bits.C02_init"
   ],
   "note": ""
  },
  {
   "property": "C03",
   "status": "partial",
   "theorems": [
    "Verif.PyRFLX.C03_assign_partial",
    "Verif.PyRFLX.C03_bits_partial",
    "Verif.PyRFLX.C03_roundtrip_partial",
    "Verif.PyRFLX.C03_parse_partial",
    "Verif.PyRFLX.C03_based_size_counterexample",
    "Verif.PyRFLX.C03_size_zero_counterexample",
    "Verif.PyRFLX.C03_parse_bytes_partial"
   ],
   "note": "holds for types with positive size written in plain decimal notation and a constant modulus; counterexamples: based size literals make bitstring raise ValueError, values of size-0 types are encoded in one bit"
  },
  {
   "property": "C04",
   "status": "partial",
   "theorems": [
    "Verif.PyRFLX.C04_assign_partial",
    "Verif.PyRFLX.C04_parse_partial",
    "Verif.PyRFLX.C04_bits_partial",
    "Verif.PyRFLX.C04_roundtrip_partial",
    "Verif.PyRFLX.C04_injective_partial",
    "Verif.PyRFLX.C04_reencode_partial",
    "Verif.PyRFLX.C04_prefix_counterexample",
    "Verif.PyRFLX.C04_text_partial"
   ],
   "note": "holds for enumerations with plain literal names and positive size; counterexample: literal starting with the package name is rejected when imported"
  },
  {
   "property": "C05",
   "status": "proved",
   "theorems": [
    "Verif.Types.C05_modular_iff",
    "Verif.Types.C05_range_iff",
    "Verif.Types.C05_accepted",
    "Verif.Types.C05_size_zero_accepted"
   ],
   "note": "acceptance is characterised exactly; zero-size types are accepted, shown separately"
  },
  {
   "property": "C06",
   "status": "proved",
   "theorems": [
    "Verif.Types.C06_accepted",
    "Verif.Types.C06_iff",
    "Verif.Types.C06_string_names_counterexample",
    "Verif.Types.C06_empty_negative_size",
    "Verif.Types.C06_text_names"
   ],
   "note": "the converse is for names given as identifiers (as the specification parser does); with strings names differing in case are merged silently, shown as counterexample"
  },
  {
   "property": "C07",
   "status": "partial",
   "theorems": [
    "Verif.Types.C07_integer_partial",
    "Verif.Types.C07_runtime_range_partial",
    "Verif.Types.C07_enumeration_partial",
    "Verif.Types.C07_always_valid_counterexample"
   ],
   "note": "false for always valid enumerations (counterexample); otherwise an equivalence. Missing: a modulus that is not constant arithmetic, literal names with several parts"
  },
  {
   "property": "C08",
   "status": "partial",
   "theorems": [
    "Verif.C08_terminates",
    "Verif.C08_fuel_irrelevant",
    "Verif.C08_C09_simplified_value_partial",
    "Verif.C08_C09_simplified_returns_partial",
    "Verif.C08_arithmetic_partial",
    "Verif.C08_constant_folds",
    "Verif.C08_mod_counterexample",
    "Verif.C08_pow_counterexample",
    "Verif.C08_floor_division_counterexample"
   ],
   "note": "False for `**`, `mod` and rounding division as summands (negation is pushed into the left operand); proved for all other expressions, counterexamples recorded. Termination proved for all expressions."
  },
  {
   "property": "C09",
   "status": "partial",
   "theorems": [
    "Verif.C08_C09_simplified_value_partial",
    "Verif.C08_C09_simplified_returns_partial",
    "Verif.C09_boolean_partial",
    "Verif.C09_guard_order_counterexample",
    "Verif.C09_quantifier_counterexample"
   ],
   "note": "Proved for all conditions whose arithmetic is in the class of C08. Not covered: short-circuit evaluation; flattening can move a guard behind the guarded operand (recorded)."
  },
  {
   "property": "C10",
   "status": "partial",
   "theorems": [
    "Verif.C10_value_partial",
    "Verif.C10_result_unique",
    "Verif.C10_not_counterexample",
    "Verif.C10_capture_counterexample",
    "Verif.C10_component_sign_counterexample",
    "Verif.C10_negative_counterexample",
    "Verif.C10_attribute_sign_counterexample",
    "Verif.C10_termination_counterexample"
   ],
   "note": "Substitution equals evaluation under the updated assignment for expressions in SubstOK; counterexamples for Not, captured quantifier parameters, signs of components and attribute replacements, negative names with mod replacements, non-termination."
  },
  {
   "property": "C11",
   "status": "partial",
   "theorems": [
    "Verif.C11_eq_same_value",
    "Verif.C11_text_unambiguous",
    "Verif.C11_eq_refl",
    "Verif.C11_empty_or_counterexample",
    "Verif.C11_sum_counterexample"
   ],
   "note": "Proved for well-formed expressions (attributes and selections of variables only); ill-formed counterexamples recorded."
  },
  {
   "property": "C12",
   "status": "partial",
   "theorems": [
    "Verif.C12_reported_occurs",
    "Verif.C12_value_partial",
    "Verif.C12_nodup_partial",
    "Verif.C12_findall_sound",
    "Verif.C12_findall_complete_partial",
    "Verif.C12_aggregate_counterexample",
    "Verif.C12_parameter_counterexample",
    "Verif.C12_nodup_counterexample",
    "Verif.C12_findall_counterexample"
   ],
   "note": "Reported variables occur and determine the value (VarsOK); findall sound, complete below boolean/arithmetic operators; counterexamples for aggregates, quantifier parameters, duplicates in calls, findall below Not."
  },
  {
   "property": "C13",
   "status": "partial",
   "theorems": [
    "Verif.C13_terminates",
    "Verif.C13_fuel_irrelevant",
    "Verif.C13_arithmetic_partial",
    "Verif.C13_boolean",
    "Verif.C13_sub_counterexample",
    "Verif.C13_pow_counterexample"
   ],
   "note": "False for `-`, `**`, `mod`, rounding division; counterexamples recorded."
  },
  {
   "property": "C14",
   "status": "partial",
   "theorems": [
    "Verif.Graph.C14_order_partial",
    "Verif.Graph.C14_acyclic",
    "Verif.Graph.C14_reachable",
    "Verif.Graph.C14_initial_link_counterexample",
    "Verif.Graph.C14_no_initial_counterexample",
    "Verif.Graph.C14_order_counterexample",
    "Verif.Graph.C14_final_link_counterexample",
    "Verif.Graph.C14_terminates_partial",
    "Verif.Graph.C14_unique"
   ],
   "note": "Order of fields, reachability, absence of cycles for every accepted message; termination of the constructor when no link leads to the initial node. False in general: a link to INITIAL makes the constructor loop, no initial link raises IndexError, And(x)/AndThen(x) duplicates list a field twice (counterexamples)."
  },
  {
   "property": "C15",
   "status": "partial",
   "theorems": [
    "Verif.Graph.C15_paths_partial"
   ],
   "note": "Exact for every accepted message, no repetition, termination. Partial only because conditions that compare equal must be of the same class (Regular)."
  },
  {
   "property": "C16",
   "status": "partial",
   "theorems": [
    "Verif.Graph.C16_condition_partial",
    "Verif.Graph.C16_field_condition_partial"
   ],
   "note": "Exact before simplification for all conditions with boolean values; after simplification for conditions on which simplified is right (C08, C09)."
  },
  {
   "property": "C17",
   "status": "partial",
   "theorems": [
    "Verif.Graph.C17_definite_predecessors_partial",
    "Verif.Graph.C17_predecessors_partial",
    "Verif.Graph.C17_ends",
    "Verif.Graph.C17_direct",
    "Verif.Graph.C17_definite_initial_counterexample",
    "Verif.Graph.C17_predecessors_counterexample"
   ],
   "note": "definite_predecessors exact except for INITIAL (counterexample); predecessors/successors contain all fields related by reachability, the converse is false (counterexample); direct predecessors/successors exact."
  },
  {
   "property": "C18",
   "status": "partial",
   "theorems": [
    "Verif.Verify.C18_deterministic_partial",
    "Verif.Verify.C18_aggregate_counterexample",
    "Verif.Verify.C18_unknown_counterexample"
   ],
   "note": "Relative to a solver whose answers are right and that does not give up. Conditions without aggregates, quantifiers, selections and calls; checksums valid; enumerations without unknown values. The counterexamples show that aggregates and answers UNKNOWN make the claim false."
  },
  {
   "property": "C19",
   "status": "partial",
   "theorems": [
    "Verif.Verify.C19_positions_partial",
    "Verif.Verify.C19_coverage_partial",
    "Verif.Verify.C19_sizes_partial",
    "Verif.Verify.C19_no_holes_partial",
    "Verif.Verify.C19_no_fields_counterexample"
   ],
   "note": "Relative to a solver that decides. Every bit is covered (by the solver, and by construction for overlays that start with an earlier field of the path), sizes are not negative, opaque fields are aligned and whole bytes. Missing: expressions outside Plain; a message without fields raises IndexError."
  },
  {
   "property": "C20",
   "status": "partial",
   "theorems": [
    "Verif.Verify.C20_sizes_partial",
    "Verif.Verify.C20_message_size_partial",
    "Verif.Verify.C20_array_counterexample"
   ],
   "note": "Relative to a solver that decides, and to sizes of arrays that are multiples of 8; the counterexample shows that this is not checked. With overlays only the sum of the sizes of the other fields is covered."
  },
  {
   "property": "C21",
   "status": "partial",
   "theorems": [
    "Verif.Merge.C21_field_partial",
    "Verif.Merge.C21_prefixed",
    "Verif.Merge.C21_conditions_partial",
    "Verif.Merge.C21_names_partial",
    "Verif.Merge.C21_types",
    "Verif.Merge.C21_merged_partial",
    "Verif.Merge.C21_terminates",
    "Verif.Merge.C21_first_condition_counterexample",
    "Verif.Merge.C21_negative_counterexample",
    "Verif.Merge.C21_message_counterexample",
    "Verif.Merge.C21_null_counterexample"
   ],
   "note": "Paths, conditions, names and types of merged messages, for all messages, solvers and hash functions; the loop ends. The condition of the first link of an embedded message is lost, variables with a minus sign are not renamed, Message'Size etc. change their meaning and a message without fields raises IndexError (counterexamples). Not modelled: checksum aspects of the embedded message; sizes and positions of the merged fields beyond the links."
  },
  {
   "property": "C22",
   "status": "partial",
   "theorems": [
    "Verif.PyRFLX.C22_roundtrip_partial",
    "Verif.PyRFLX.C22_trailer_counterexample",
    "Verif.PyRFLX.C22_empty_input_counterexample"
   ],
   "note": "Messages of scalars, opaque fields and arrays of scalars without First aspects, refinements and checksums, whose structure is unambiguous (Well). The claim is false for fields behind a field whose size depends on the end of the message and for the empty input (counterexamples)."
  },
  {
   "property": "C23",
   "status": "partial",
   "theorems": [
    "Verif.PyRFLX.C23_read_back_partial",
    "Verif.PyRFLX.C23_get_valid",
    "Verif.PyRFLX.C23_not_accessible",
    "Verif.PyRFLX.C23_preceding_unchanged",
    "Verif.PyRFLX.C23_unset_field_counterexample",
    "Verif.PyRFLX.C23_parsed_complete_partial"
   ],
   "note": "Values read back, inaccessible fields and preceding fields for scalars, opaque fields and arrays of scalars without refinements and checksums. The third clause is false for messages set field by field (counterexample) and proved for parsed messages."
  },
  {
   "property": "C24",
   "status": "proved",
   "theorems": [
    "Verif.Checksum.C24_rfc1071",
    "Verif.Checksum.C24_verifies",
    "Verif.Checksum.C24_fits",
    "Verif.Checksum.C24_word_order",
    "Verif.Checksum.C24_detects_word_change",
    "Verif.Checksum.C24_raises_iff",
    "Verif.Checksum.C24_odd_length_counterexample"
   ],
   "note": "Even-length messages; for an odd number of bytes the function differs from RFC 1071 (counterexample)."
  },
  {
   "property": "C25",
   "status": "proved",
   "theorems": [
    "Verif.Spark.C25_extract",
    "Verif.Spark.C25_extract_value",
    "Verif.Spark.C25_extract_outside",
    "Verif.Spark.C25_extract_local"
   ],
   "note": "Extract returns the value of the bits for every buffer, offset 0..7 and size 1..64; no precondition, overflow, index or range check inside fails. Postconditions/loop invariants of the template are proof annotations and not modelled."
  },
  {
   "property": "C26",
   "status": "proved",
   "theorems": [
    "Verif.Spark.C26_insert",
    "Verif.Spark.C26_extract_insert",
    "Verif.Spark.C26_insert_elsewhere",
    "Verif.Spark.C26_insert_outside"
   ],
   "note": "Insert changes exactly the bits of the scalar, no check fails, Extract reads the value back."
  },
  {
   "property": "C27",
   "status": "proved",
   "theorems": [
    "Verif.Spark.ScalarSeq.C27_step",
    "Verif.Spark.ScalarSeq.C27_histories",
    "Verif.Spark.ScalarSeq.C27_round_trip",
    "Verif.Spark.ScalarSeq.C27_append_frame",
    "Verif.Spark.ScalarSeq.C27_append_full",
    "Verif.Spark.ScalarSeq.C27_get_before_next_counterexample"
   ],
   "note": "All histories of the public operations; round trip of any list of elements that fits; predicate, range, index and access checks never fail. Assumes element sizes 1..64, To_Base into the base type, more than one index. C27_get_before_next_counterexample records that Get_Element may be called before Next."
  },
  {
   "property": "C28",
   "status": "proved",
   "theorems": [
    "Verif.Spark.MessageSeq.C28_switch",
    "Verif.Spark.MessageSeq.C28_update",
    "Verif.Spark.MessageSeq.C28_histories",
    "Verif.Spark.MessageSeq.C28_disjoint",
    "Verif.Spark.MessageSeq.C28_forward",
    "Verif.Spark.MessageSeq.C28_update_counterexample"
   ],
   "note": "For every element type satisfying Lawful (the contracts of generated message contexts) and pairs Switch/Update in which the bounds of the element stay. C28_update_counterexample: the precondition of Update alone allows the position to move back."
  },
  {
   "property": "C29",
   "status": "partial",
   "theorems": [
    "Verif.Ctx.C29_accepts",
    "Verif.Ctx.C29_fields",
    "Verif.Ctx.C29_prefix",
    "Verif.Ctx.C29_valid_message_partial",
    "Verif.Ctx.C29_field_first",
    "Verif.Ctx.C29_valid_message_counterexample"
   ],
   "note": "Messages of the class WellFormed (no First aspects, no attribute First of the own field in conditions, names that do not clash with those of the generated code); Deterministic and Sizes are what the model verification proves (C18, C19), plus sizes within Bit_Length and no empty field at bit 1. Embedded messages and arrays are treated as opaque fields. Valid_Message is false for messages with composite fields (counterexample)."
  },
  {
   "property": "C30",
   "status": "partial",
   "theorems": [
    "Verif.Ctx.C30_predicate_partial",
    "Verif.Ctx.C30_fields_partial",
    "Verif.Ctx.C30_field_partial",
    "Verif.Ctx.C30_invalid_partial",
    "Verif.Ctx.C30_empty_counterexample",
    "Verif.Ctx.C30_first_counterexample",
    "Verif.Ctx.C30_null_counterexample"
   ],
   "note": "For every message in the modelled class, every buffer and every history of Initialize, Verify, Verify_Message, Set_X (scalar and opaque), Set_X_Empty, Initialize_X, Reset_Dependent_Fields and Take_Buffer with satisfied preconditions: the context predicate and the cursor predicates hold, and the valid fields are consecutive in the buffer with true link conditions. Not covered: First aspects, an empty first field and comparisons of composite fields after Take_Buffer, for which the claim is false (counterexamples), checksums, sequence and nested-message setters."
  },
  {
   "property": "C31",
   "status": "partial",
   "theorems": [
    "Verif.Ctx.C31_scalar",
    "Verif.Ctx.C31_opaque",
    "Verif.Ctx.C31_roundtrip",
    "Verif.Ctx.C31_complete_partial",
    "Verif.Ctx.C31_content_counterexample",
    "Verif.Ctx.C31_size_counterexample"
   ],
   "note": "After every history a field that is set is valid, has the value set in its cursor and in the buffer, and leaves all other bits and the cursors of preceding fields as they are; a message that is structurally valid in the context is accepted by Verify_Message in a new context for the buffer, with the same fields, bounds and values. Setting all fields of a path does not always give such a message (C31_content_counterexample), and some messages cannot be set (C31_size_counterexample). Every other message can be written by the setters of its fields in order, into any buffer of the same bounds, with the bits of the message and without changes after it (C31_complete_partial)."
  },
  {
   "property": "C32",
   "status": "partial",
   "theorems": [
    "Verif.Generator.C32_enumeration_partial",
    "Verif.Generator.C32_legal",
    "Verif.Generator.C32_raw_literal_counterexample",
    "Verif.Generator.C32_integer"
   ],
   "note": "For all accepted enumerations and integer types: Valid accepts exactly the encodings of values (all for always valid enumerations), To_Base(To_Actual(v)) = v for all accepted v, To_Actual(To_Base(a)) = a for all values a except records (Known => False, Raw => encoding of a literal), for which it is false (counterexample). The generated case expressions obey the rules of Ada. The semantics of the used part of Ada is part of the model; texts, pragmas and names are not modelled."
  },
  {
   "property": "C33",
   "status": "partial",
   "theorems": [
    "Verif.Session.C33_accepted",
    "Verif.Session.C33_unique_target_partial",
    "Verif.Session.C33_exception_counterexample"
   ],
   "note": "Transition targets, initial and final states of accepted sessions exist and are unique. Missing: targets of exception transitions are not checked by the code (counterexample)."
  },
  {
   "property": "C34",
   "status": "partial",
   "theorems": [
    "Verif.Session.C34_exact_condition",
    "Verif.Session.C34_reachable_partial",
    "Verif.Session.C34_self_loop_counterexample",
    "Verif.Session.C34_order_counterexample"
   ],
   "note": "The exact condition the code checks and what follows about reachability. The full claim is false of the code (counterexamples: self-loop, order)."
  },
  {
   "property": "C35",
   "status": "proved",
   "theorems": [
    "Verif.ModelPkg.C35_accepted_iff"
   ],
   "note": "Acceptance iff names and literals are free of conflicts."
  },
  {
   "property": "C36",
   "status": "proved",
   "theorems": [
    "Verif.Cache.C36_sound",
    "Verif.Cache.C36_types",
    "Verif.Cache.C36_skipped_not_recorded",
    "Verif.Cache.C36_hit"
   ],
   "note": "For all histories of processes, versions, interrupted and overlapping writes; MD5 is a parameter without collision among the messages that occur; each flush of the file is one operation."
  },
  {
   "property": "C37",
   "status": "partial",
   "theorems": [
    "Verif.Cache.C37_checksums",
    "Verif.Cache.C37_elements",
    "Verif.Cache.C37_counterexample",
    "Verif.Cache.C37_skips_counterexample",
    "Verif.Cache.C37_elements_counterexample"
   ],
   "note": "The property is false of the code: C37_counterexample, C37_skips_counterexample and C37_elements_counterexample give messages with the same key and different results; C37_checksums and C37_elements state what the key ignores for all messages. Not proved: that the key determines everything else."
  },
  {
   "property": "C38",
   "status": "proved",
   "theorems": [
    "Verif.ID.C38_eq_iff",
    "Verif.ID.C38_equivalence",
    "Verif.ID.C38_hash",
    "Verif.ID.C38_accepts",
    "Verif.ID.C38_str_roundtrip",
    "Verif.ID.C38_mul",
    "Verif.ID.C38_parent_name",
    "Verif.ID.C38_mul_assoc",
    "Verif.ID.C38_mul_empty",
    "Verif.ID.C38_closed",
    "Verif.ID.C38_lt_counterexample",
    "Verif.ID.C38_add",
    "Verif.ID.C38_radd",
    "Verif.ID.C38_mul_text"
   ],
   "note": "`<` is case-sensitive while `==` is not; recorded as a counterexample."
  },
  {
   "property": "C39",
   "status": "partial",
   "theorems": [
    "Verif.Typing.C39_reflexive",
    "Verif.Typing.C39_any",
    "Verif.Typing.C39_undefined",
    "Verif.Typing.C39_symmetric",
    "Verif.Typing.C39_channel_counterexample",
    "Verif.Typing.C39_common_commutative",
    "Verif.Typing.C39_common_upper",
    "Verif.Typing.C39_common_defined",
    "Verif.Typing.C39_empty_aggregate_counterexample",
    "Verif.Typing.C39_mixed_aggregate_counterexample",
    "Verif.Typing.C39_aggregate_elements_counterexample",
    "Verif.Typing.C39_common_type_order",
    "Verif.Typing.C39_common_type_upper",
    "Verif.Typing.C39_common_type_defined",
    "Verif.Typing.C39_common_type_values",
    "Verif.Typing.C39_strong_values",
    "Verif.Typing.C39_bounds_values",
    "Verif.Typing.C39_unknown_bounds_counterexample",
    "Verif.Typing.C39_aggregates_counterexample",
    "Verif.Typing.C39_check_type",
    "Verif.Typing.C39_check_types",
    "Verif.Typing.C39_check_raises"
   ],
   "note": "Reflexivity, Any/Undefined, symmetry (except channels), order-independence and upper bound of binary common types on the stated class, and n-ary common types for types without aggregates. Counterexamples show that the remaining cases are false of the code: channels, empty or mixed aggregates, lists with aggregates."
  },
  {
   "property": "C40",
   "status": "proved",
   "theorems": [
    "Verif.Errors.C40_exactly_recorded",
    "Verif.Errors.C40_propagate_raises_iff",
    "Verif.Errors.C40_propagate_returns",
    "Verif.Errors.C40_nothing_lost",
    "Verif.Errors.C40_add",
    "Verif.Errors.C40_iadd",
    "Verif.Errors.C40_append_order",
    "Verif.Errors.C40_add_assoc",
    "Verif.Errors.C40_add_new",
    "Verif.Errors.C40_fail"
   ],
   "note": "Error objects live in a heap, so aliasing (a += a, shared objects) is covered. Printing is not modelled."
  },
  {
   "property": "C41",
   "status": "partial",
   "theorems": [
    "Verif.SpecParser.C41_order",
    "Verif.SpecParser.C41_cycle_reported",
    "Verif.SpecParser.C41_terminates_partial",
    "Verif.SpecParser.C41_hang_counterexample",
    "Verif.SpecParser.C41_empty_file_counterexample"
   ],
   "note": "Order and completeness of successful runs, cycles never parse, termination if no errors were found. Missing: termination in case of errors is false (counterexample)."
  },
  {
   "property": "C42",
   "status": "partial",
   "theorems": [
    "Verif.SpecParser.Structure.C42_structure_partial",
    "Verif.SpecParser.Structure.C42_forward_partial",
    "Verif.SpecParser.Structure.C42_backward_counterexample",
    "Verif.SpecParser.Structure.C42_double_aspect_counterexample"
   ],
   "note": "The links created for a message are exactly the specified transitions with the conditions and aspects combined, and no error is reported exactly if the specification has no unknown target, no unknown aspect and no aspect given both at the transition and at the component. For links to a component declared earlier the condition and the aspects of the component are lost (counterexample), and an aspect repeated in one list is accepted silently (counterexample). Source locations and texts of errors are not modelled."
  },
  {
   "property": "C43",
   "status": "partial",
   "theorems": [
    "Verif.Gen.C43_condition_partial",
    "Verif.Gen.C43_negative_counterexample",
    "Verif.Gen.C43_embedded_inequality_counterexample",
    "Verif.Gen.C43_letter_case_counterexample",
    "Verif.Gen.C43_checksum_counterexample"
   ],
   "note": "substitution and substitution_facts of the generator: on conditions over known fields (numbers, literals, scalar values, attributes, arithmetic, relations, comparison of composite fields with aggregates) the generated expression exists and has the same value in the generated code, for all conversions, public and private, context predicate or not. Missing: negated field values compared with numbers, inequality of composite fields in the context predicate, attributes in other letter case, checksums (false, see counterexamples), quantifiers, calls; overflow of the generated arithmetic is not modelled."
  },
  {
   "property": "C44",
   "status": "proved",
   "theorems": [
    "Verif.Common.C44_unique_firsts",
    "Verif.Common.C44_unique_nodup",
    "Verif.Common.C44_unique_sublist",
    "Verif.Common.C44_unique_covers",
    "Verif.Common.C44_indent_lines",
    "Verif.Common.C44_flat_name_no_separator",
    "Verif.Common.C44_file_name_no_separator",
    "Verif.Common.C44_file_name_injective",
    "Verif.Common.C44_flat_name_counterexample"
   ],
   "note": "flat_name is not injective (counterexample). str.lower is ASCII."
  },
  {
   "property": "C45",
   "status": "partial",
   "theorems": [
    "Verif.PyRFLX.C45_parse_partial",
    "Verif.PyRFLX.C45_size_check",
    "Verif.PyRFLX.C45_assign_partial",
    "Verif.PyRFLX.C45_partial_element_counterexample",
    "Verif.PyRFLX.C45_empty_bytes_counterexample",
    "Verif.PyRFLX.C45_element_type_counterexample",
    "Verif.PyRFLX.C45_parse_bytes_partial",
    "Verif.PyRFLX.C45_bytes_size_check",
    "Verif.PyRFLX.C45_assign_size_check",
    "Verif.PyRFLX.C45_assign_kind_check"
   ],
   "note": "holds for element types of C03/C04; counterexamples for a trailing partial element, empty bytes, elements of another type of the same kind. Arrays of messages: C70"
  },
  {
   "property": "C46",
   "status": "partial",
   "theorems": [
    "Verif.PyRFLX.C46_accepted_iff",
    "Verif.PyRFLX.C46_one_field_partial",
    "Verif.PyRFLX.C46_only_named",
    "Verif.PyRFLX.C46_two_fields_counterexample",
    "Verif.PyRFLX.C46_no_field_counterexample"
   ],
   "note": "set_checksum_function: exact condition under which a call is accepted (C46_accepted_iff), which functions change (C46_only_named), the property for messages with exactly one checksum field (C46_one_field_partial). It is false for messages with two or more checksum fields (every call is rejected) and for messages without (every field name is accepted)."
  },
  {
   "property": "C47",
   "status": "partial",
   "theorems": [
    "Verif.Verify.C47_path_facts",
    "Verif.Verify.C47_type_facts_partial"
   ],
   "note": "The facts about a path are true for all messages that follow it (all expressions). The facts about types are true for the solver, for checks of expressions without aggregates."
  },
  {
   "property": "C48",
   "status": "partial",
   "theorems": [
    "Verif.Typing.C48_value_partial",
    "Verif.Typing.C48_kind_partial",
    "Verif.Typing.C48_integer_partial",
    "Verif.Typing.C48_scope",
    "Verif.Typing.C48_member_counterexample",
    "Verif.Typing.C48_sign_counterexample",
    "Verif.Typing.C48_not_counterexample",
    "Verif.Verify.C48_message_scope_partial",
    "Verif.Verify.C48_message_value_partial",
    "Verif.Verify.C48_type_name_counterexample",
    "Verif.Verify.C48_message_scope_counterexample",
    "Verif.Typing.C48_bytes"
   ],
   "note": "C48_value_partial, C48_kind_partial and C48_integer_partial: values of checked expressions; Regular excludes negated Booleans (C48_sign_counterexample), memberships of other elements (C48_member_counterexample), expressions of type Any. C48_scope holds for all expressions. Message level: consistent paths of accepted messages; the restriction is needed, since paths with contradictory conditions are not checked though their conditions have to be evaluated (C48_message_scope_counterexample). Also: not B is rejected for a Boolean B (C48_not_counterexample), names of types are accepted as values (C48_type_name_counterexample). C48_bytes: lists of number literals as opaque data, exact."
  },
  {
   "property": "C49",
   "status": "partial",
   "theorems": [
    "Verif.Session.C49_target",
    "Verif.Session.C49_read",
    "Verif.Session.C49_write",
    "Verif.Session.C49_action_names_partial",
    "Verif.Session.C49_condition_names",
    "Verif.Session.C49_condition_value_partial",
    "Verif.Session.C49_assign_value_partial",
    "Verif.Session.C49_exception",
    "Verif.Session.C49_used",
    "Verif.Session.C49_used_local",
    "Verif.Session.C49_no_shadowing",
    "Verif.Session.C49_builtin",
    "Verif.Session.C49_declaration_partial",
    "Verif.Session.C49_local_declaration_partial",
    "Verif.Session.C49_duplicate_counterexample",
    "Verif.Session.C49_unused_counterexample",
    "Verif.Session.C49_call_counterexample",
    "Verif.Session.C49_type_counterexample",
    "Verif.Session.C49_aggregate_counterexample",
    "Verif.Session.C49_unqualified_counterexample",
    "Verif.Session.C49_function_target_counterexample",
    "Verif.Session.C49_channel_target_counterexample",
    "Verif.Session.C49_renaming_partial",
    "Verif.Session.C49_aggregate",
    "Verif.Session.C49_type_names",
    "Verif.Session.C49_data_available"
   ],
   "note": "Full for targets, channels, conditions, exception transitions, usage, hiding and message aggregates. Renamings of variables with different names. Names in actions and declarations: missing are calls and arithmetic as values in message aggregates (C49_aggregate_counterexample: not checked by the code) and declarations with the same name (C49_duplicate_counterexample). Values: expressions in Regular only (see C48). Further counterexamples: variables used in aggregates only are reported as unused; calls of variables and names of types raise AssertionError or NotImplementedError; types without prefix lose their refinements; functions and channels can be targets of assignments."
  },
  {
   "property": "C50",
   "status": "partial",
   "theorems": [
    "Verif.Ada.C50_text_partial",
    "Verif.Ada.C50_same_text",
    "Verif.Ada.C50_unambiguous",
    "Verif.Ada.C50_indentation",
    "Verif.Ada.C50_if",
    "Verif.Ada.C50_case",
    "Verif.Ada.C50_negative_counterexample",
    "Verif.Ada.C50_aggregate_counterexample",
    "Verif.Ada.C50_empty_or_counterexample",
    "Verif.Ada.C50_named_operand_counterexample",
    "Verif.Ada.C50_empty_sum_counterexample",
    "Verif.Ada.C50_sum_counterexample",
    "Verif.Ada.C50_membership_counterexample"
   ],
   "note": "Proved for expressions built from Ada names (no reserved words), for all values of names, including aggregates with named components, case expressions with merged alternatives, dereferences and ranges. Excluded, with counterexamples: negative Val and Pos, aggregates with one element, empty disjunctions, sums and products, sums starting with a relation, membership in an aggregate, aggregates with named components as operands. Not modelled: String."
  },
  {
   "property": "C51",
   "status": "partial",
   "theorems": [
    "Verif.Ada.C51_text_partial",
    "Verif.Ada.C51_generated_partial",
    "Verif.Ada.C51_difference_counterexample",
    "Verif.Ada.C51_attribute_counterexample",
    "Verif.Ada.C51_aggregate_counterexample",
    "Verif.Ada.C51_membership_counterexample"
   ],
   "note": "Proved for expressions over Ada names without empty sums, products and disjunctions, with aggregates of two or more elements, and names as right operands of membership tests and as iterables; for generated expressions that are of this form. Counterexamples: Len - Len + 0 simplifies to an empty sum without text, attributes without Ada class, aggregates with less than two elements, membership in an aggregate."
  },
  {
   "property": "C52",
   "status": "partial",
   "theorems": [
    "Verif.SpecParser.C52_value",
    "Verif.SpecParser.C52_values",
    "Verif.SpecParser.C52_created_partial",
    "Verif.SpecParser.C52_attribute_counterexample",
    "Verif.SpecParser.C52_negation_counterexample",
    "Verif.SpecParser.C52_concatenation_counterexample",
    "Verif.SpecParser.C52_structure"
   ],
   "note": "The structure of every created expression is that of the text (C52_structure), and the value of every created expression is exactly the meaning of the text (C52_value, C52_values). Creation is proved for the supported trees only: attributes other than Size, First, Last in arithmetic, negated names and concatenations with names are legal for the grammar, but abort the parser (counterexamples). Binding, Comprehension, Conversion and MessageAggregate nodes are not modelled."
  },
  {
   "property": "C53",
   "status": "partial",
   "theorems": [
    "Verif.SpecParser.C53_no_conflict",
    "Verif.SpecParser.C53_types_partial",
    "Verif.SpecParser.C53_modular_accepted",
    "Verif.SpecParser.C53_range_accepted",
    "Verif.SpecParser.C53_variable_counterexample",
    "Verif.SpecParser.C53_refinement_conditions_counterexample",
    "Verif.SpecParser.C53_refinement_names_counterexample",
    "Verif.SpecParser.C53_positional_accepted",
    "Verif.SpecParser.C53_named_accepted",
    "Verif.SpecParser.C53_array_accepted",
    "Verif.SpecParser.C53_derived_accepted"
   ],
   "note": "Construction of messages, derived messages and sessions is a parameter; numbers are constants; field names are different from each other. Acceptance is an equivalence for integer types, enumerations, arrays and derived messages; messages with fields and refinements are only covered in the other direction. Counterexamples: undeclared names in a modulus are accepted if they cancel, refinements that differ in their condition or whose message names are equal after flattening are rejected as duplicates."
  },
  {
   "property": "C54",
   "status": "partial",
   "theorems": [
    "Verif.Dot.C54_message",
    "Verif.Dot.C54_arrows",
    "Verif.Dot.C54_session_partial",
    "Verif.Dot.C54_transitions",
    "Verif.Dot.C54_clash_counterexample",
    "Verif.Dot.C54_message_spelling_counterexample",
    "Verif.Dot.C54_exception_counterexample",
    "Verif.Dot.C54_read_counterexample",
    "Verif.Dot.C54_spelling_counterexample"
   ],
   "note": "Messages: full for names that are always spelled in the same way and do not clash with the nodes of labels (counterexamples for both). Sessions: exception transitions and names read by actions other than assignments are not drawn (counterexamples). Sizes of nodes, fonts and the output of the file are not modelled."
  },
  {
   "property": "C55",
   "status": "partial",
   "theorems": [
    "Verif.PyRFLX.C55_valid",
    "Verif.PyRFLX.C55_bytestring",
    "Verif.PyRFLX.C55_manual",
    "Verif.PyRFLX.C55_automatic_partial",
    "Verif.PyRFLX.C55_update_partial",
    "Verif.PyRFLX.C55_parse_partial",
    "Verif.PyRFLX.C55_roundtrip_partial",
    "Verif.PyRFLX.C55_parse_counterexample",
    "Verif.PyRFLX.C55_overwritten_counterexample",
    "Verif.PyRFLX.C55_order_counterexample",
    "Verif.PyRFLX.C55_stale_counterexample",
    "Verif.PyRFLX.C55_known_partial",
    "Verif.PyRFLX.C55_known_value",
    "Verif.PyRFLX.C55_first_counterexample"
   ],
   "note": "Clause 1 (only right checksums are valid) and the part of clause 2 about checksums set by hand hold in full; calculation and update are proved for one checksum. Clause 4 is false if a checksum comes after the data it covers: a wrong checksum in the input is silently replaced (C55_parse_counterexample); it is proved when no checksum is calculated while parsing. Further counterexamples: several checksums that depend on each other, stale parameters after update_checksums, a calculated checksum cannot be set by hand. A checksum is calculated only if the bounds of its ranges are numbers and all fields of the ranges but the first are set (C55_known_partial); the first field need not be set, so that a checksum of an unset field is calculated (C55_first_counterexample)."
  },
  {
   "property": "C56",
   "status": "partial",
   "theorems": [
    "Verif.SpecParser.C56_session_partial",
    "Verif.SpecParser.C56_checked",
    "Verif.SpecParser.C56_targets",
    "Verif.SpecParser.C56_created_partial",
    "Verif.SpecParser.C56_declaration_counterexample",
    "Verif.SpecParser.C56_field_counterexample",
    "Verif.SpecParser.C56_end_counterexample"
   ],
   "note": "C56_session_partial: the session is exactly what is written, if names of declarations differ; otherwise the last declaration of each name counts. Not true of the code: two declarations (or two values of a field in a message aggregate) with the same name are accepted and one is silently dropped, and end names have to be spelled as the names (counterexamples). The exception transition is not checked for its target (C33_exception_counterexample). Comprehensions, conversions and message aggregates are modelled at the top of an expression only; Binding is not modelled."
  },
  {
   "property": "C57",
   "status": "partial",
   "theorems": [
    "Verif.Units.C57_units_partial",
    "Verif.Units.C57_files_partial",
    "Verif.Units.C57_closed_partial",
    "Verif.Units.C57_library",
    "Verif.Units.C57_parents",
    "Verif.Units.C57_instances_partial",
    "Verif.Units.C57_arrays",
    "Verif.Units.C57_messages",
    "Verif.Units.C57_refinements",
    "Verif.Units.C57_generic_counterexample",
    "Verif.Units.C57_contains_counterexample",
    "Verif.Units.C57_assertion_counterexample",
    "Verif.Units.C57_library_counterexample",
    "Verif.Units.C57_null_counterexample",
    "Verif.Units.C57_array_counterexample",
    "Verif.Units.C57_flat_counterexample"
   ],
   "note": "Proved for all models in which names of arrays and messages are distinct, none is named Generic_... or (beside refinements) Contains, packages are not named like library packages, everything used is declared, messages are not derived from null messages, and the names of formal packages are unambiguous. Not true of the code without these conditions: see the counterexamples (a message Generic_M replaces the generic package of M; a message or array named Contains or Generic_Contains mixes with refinements or fails an assertion; a package Rflx_Types overwrites a library file; a message derived from a null message needs a unit that is not generated; arrays of the same name from two packages in one message give more actual than formal parameters; P::Q_M and P_Q::M in refinements give two formal parameters of the same name). The contents of the units are not part of the claim: for sequence packages of the library only the number of parameters and where they come from is stated."
  },
  {
   "property": "C58",
   "status": "partial",
   "theorems": [
    "Verif.Refine.C58_contains_partial",
    "Verif.Refine.C58_switch_partial",
    "Verif.Refine.C58_parse_partial",
    "Verif.Refine.C58_names_partial",
    "Verif.Refine.C58_contains_counterexample",
    "Verif.Refine.C58_types_counterexample",
    "Verif.Refine.C58_operators_counterexample",
    "Verif.Refine.C58_unknown_counterexample",
    "Verif.Refine.C58_name_counterexample"
   ],
   "note": "Proved for conditions made of and, or, and comparisons of scalar fields with constant arithmetic, literals or fields of the same type whose operators are visible (Supported), for messages as in C29/C30 (WellFormed, no sequences or checksums), and with values of always valid enumerations counted as satisfying the condition only if they are known. False of the code in general, with counterexamples: fields inside of arithmetic in conditions are not found (the generated code is not legal), conditions are not type checked, operators of types of a third package are not visible, conditions on unknown values are never true, and two refinements can get functions of the same name (excluded for names without underscores). The compilation and execution of the generated Ada expression are modelled (Ref.ty, Ref.exec)."
  },
  {
   "property": "C59",
   "status": "partial",
   "theorems": [
    "Verif.PyRFLX.C59_nested",
    "Verif.PyRFLX.C59_get",
    "Verif.PyRFLX.C59_choice_partial",
    "Verif.PyRFLX.C59_parse_choice_partial",
    "Verif.PyRFLX.C59_roundtrip_partial",
    "Verif.PyRFLX.C59_lossy_counterexample",
    "Verif.PyRFLX.C59_stale_counterexample",
    "Verif.PyRFLX.C59_recursion_counterexample"
   ],
   "note": "C59_nested and C59_get hold for all models and histories. The choice of the refinement is proved for fields without earlier refinement and for messages after parsing; it is false after a condition has become false (C59_stale_counterexample: the old refinement is kept). The round trip holds unless a nested message is shorter than its field (C59_lossy_counterexample). Messages that contain themselves without end exhaust Python's recursion (C59_recursion_counterexample)."
  },
  {
   "property": "C60",
   "status": "partial",
   "theorems": [
    "Verif.Agree.C60_agree_partial",
    "Verif.Agree.C60_unknown_values_counterexample",
    "Verif.Agree.C60_unknown_literal_counterexample",
    "Verif.Agree.C60_positions_counterexample",
    "Verif.Agree.C60_aggregate_counterexample"
   ],
   "note": "One direction: whatever PyRFLX parses is accepted by generated code, with the same fields, positions, sizes, bits and numbers, and no other valid field. It is proved for messages of integers, enumerations that are not always valid, opaque fields and arrays, with conditions and sizes over values and sizes of preceding fields, one link from the initial node, and at most a last field that extends to the end. It is false for always valid enumerations and for conditions about positions. The converse is false for comparisons with aggregates and for literals of always valid enumerations (counterexamples), and since PyRFLX checks the elements of arrays; for other messages the converse is not proved."
  },
  {
   "property": "C61",
   "status": "partial",
   "theorems": [
    "Verif.Export.C61_export_partial",
    "Verif.Export.C61_faithful_partial",
    "Verif.Export.C61_injective_partial",
    "Verif.Export.C61_session_counterexample",
    "Verif.Export.C61_checksum_counterexample",
    "Verif.Export.C61_derived_counterexample"
   ],
   "note": "Models without sessions: the document exists, describes every type, and determines the types. False in general: a model with a session raises an AttributeError; checksums and the base of a derived message are not in the document."
  },
  {
   "property": "C62",
   "status": "partial",
   "theorems": [
    "Verif.Cli.C62_parse",
    "Verif.Cli.C62_check",
    "Verif.Cli.C62_error_writes_nothing",
    "Verif.Cli.C62_arguments",
    "Verif.Cli.C62_report",
    "Verif.Cli.C62_generate",
    "Verif.Cli.C62_generated_files",
    "Verif.Cli.C62_graph_partial",
    "Verif.Cli.C62_export_partial",
    "Verif.Cli.C62_export_counterexample",
    "Verif.Cli.C62_graph_counterexample"
   ],
   "note": "Everything but two cases where the claim is false: export opens its output before the document is computed, so a model with a session leaves an empty file; graphs of messages whose flat names collide overwrite each other."
  },
  {
   "property": "C63",
   "status": "partial",
   "theorems": [
    "Verif.Derived.C63_derived_partial",
    "Verif.Derived.C63_fields",
    "Verif.Derived.C63_checksum_counterexample"
   ],
   "note": "Structure, fields and values of conditions are proved for accepted derivations from bases whose conditions consist of numbers, truth values, unsigned names and attributes of names, arithmetic, relations and and/or (`Simple`); derived bases are rejected. That every accepted message can be derived is false: `C63_checksum_counterexample` (the checksum aspects are not handed over to the derived message). Missing: conditions outside of `Simple` (negated names are indeed not qualified)."
  },
  {
   "property": "C64",
   "status": "partial",
   "theorems": [
    "Verif.Ada.C64_text_partial",
    "Verif.Ada.C64_sequence_partial",
    "Verif.Ada.C64_same_text",
    "Verif.Ada.C64_assignment",
    "Verif.Ada.C64_unambiguous",
    "Verif.Ada.C64_call_counterexample",
    "Verif.Ada.C64_branch_counterexample",
    "Verif.Ada.C64_empty_counterexample"
   ],
   "note": "Partial: the claim is restricted to well-formed statements (calls have arguments, branches and alternatives are not empty, targets are names); the counterexamples show that the text of the others is no statement of Ada. The effect is compared wherever the effect of the object is defined. Loops, blocks and the cache of expression texts are not modelled."
  },
  {
   "property": "C65",
   "status": "partial",
   "theorems": [
    "Verif.Ctx.C65_elements_partial",
    "Verif.Ctx.C65_valid_message_partial",
    "Verif.Ctx.C65_switch_partial",
    "Verif.Ctx.C65_write_partial",
    "Verif.Ctx.C65_read_partial",
    "Verif.Ctx.C65_set_partial",
    "Verif.Ctx.C65_foreign_counterexample",
    "Verif.Ctx.C65_overwrite_counterexample",
    "Verif.Ctx.C65_invalid_counterexample"
   ],
   "note": "Missing: messages with conditions or sizes that use the content of a sequence (Unread); for conditions the claim is false of the code, C65_overwrite_counterexample. Update_X accepts the sequence of another context with equal bounds, C65_foreign_counterexample; a sequence with an invalid element cannot give the buffer back by Update_X, C65_invalid_counterexample. Verified and WellFormed are as for C30. Sequences of messages are not included."
  },
  {
   "property": "C66",
   "status": "partial",
   "theorems": [
    "Verif.Ada.C66_text_partial",
    "Verif.Ada.C66_unit_partial",
    "Verif.Ada.C66_same_text",
    "Verif.Ada.C66_unambiguous",
    "Verif.Ada.C66_package_items",
    "Verif.Ada.C66_context_items",
    "Verif.Ada.C66_enumeration",
    "Verif.Ada.C66_equal_partial",
    "Verif.Ada.C66_equal_context",
    "Verif.Ada.C66_specification_partial",
    "Verif.Ada.C66_body_partial",
    "Verif.Ada.C66_object_in_package_counterexample",
    "Verif.Ada.C66_mode_counterexample",
    "Verif.Ada.C66_array_counterexample",
    "Verif.Ada.C66_empty_counterexample"
   ],
   "note": "Partial: the claim is restricted to well-formed declarations (names are words of Ada; lists that Ada requires to be non-empty are; bounds are simple expressions; declarations of packages can be hashed); the counterexamples show what happens otherwise. What is left out as a repetition is decided by `==`, which ignores the difference of parameter modes in and out (C66_mode_counterexample). Expressions in the text have the values, statements the effects of those in the object (C50, C64). What is left out declares the same as what is kept apart from these modes and the kind of array types (C66_equal_partial, for declarations other than packages without generic parts, with at most one dependency and numbers for all literals)."
  },
  {
   "property": "C67",
   "status": "partial",
   "theorems": [
    "Verif.Ctx.C67_contract_partial",
    "Verif.Ctx.C67_postcondition_partial",
    "Verif.Ctx.C67_initialize",
    "Verif.Ctx.C67_initialize_all",
    "Verif.Ctx.C67_valid",
    "Verif.Ctx.C67_set_field_value_partial",
    "Verif.Ctx.C67_meaning",
    "Verif.Ctx.C67_public_condition",
    "Verif.Ctx.C67_effect_partial",
    "Verif.Ctx.C67_initialize_meaning",
    "Verif.Ctx.C67_initialize_all_meaning",
    "Verif.Ctx.C67_content_counterexample",
    "Verif.Ctx.C67_initial_counterexample"
   ],
   "note": "Partial: the claim is false for conditions about the content of an opaque field on links to other fields (C67_content_counterexample) and for a condition on the link to the first field (C67_initial_counterexample); C67_initialize states exactly when Initialize keeps its contract. C67_meaning says what the postconditions promise, in terms of the state. Not covered: sequences, refinements, the parts Buffer = null, and what WellFormed and Verified exclude."
  },
  {
   "property": "C68",
   "status": "partial",
   "theorems": [
    "Verif.Ctx.C68_status",
    "Verif.Ctx.C68_get_scalar",
    "Verif.Ctx.C68_get_composite",
    "Verif.Ctx.C68_equal",
    "Verif.Ctx.C68_later",
    "Verif.Ctx.C68_set_get_scalar",
    "Verif.Ctx.C68_set_get_opaque",
    "Verif.Ctx.C68_generic_set"
   ],
   "note": "Messages of the class WellFormed (no First aspects, no attribute First of the own field in conditions, names that do not clash with those of the generated code); Verified, Deterministic and Sizes are what the model verification proves (C18, C19), plus sizes within Bit_Length and no empty field at bit 1. Embedded messages and arrays are treated as opaque fields. Messages with First aspects and Equal for fields that are not valid are missing."
  },
  {
   "property": "C69",
   "status": "partial",
   "theorems": [
    "Verif.Ctx.C69_incomplete"
   ],
   "note": "Messages of the class WellFormed (no First aspects, no attribute First of the own field in conditions, names that do not clash with those of the generated code); Verified, Deterministic and Sizes are what the model verification proves (C18, C19), plus sizes within Bit_Length and no empty field at bit 1. Embedded messages and arrays are treated as opaque fields. Missing: messages with First aspects; histories other than Verify_Message after Initialize."
  },
  {
   "property": "C70",
   "status": "partial",
   "theorems": [
    "Verif.PyRFLX.C70_parse_partial",
    "Verif.PyRFLX.C70_runs",
    "Verif.PyRFLX.C70_encoding_partial",
    "Verif.PyRFLX.C70_size",
    "Verif.PyRFLX.C70_assign",
    "Verif.PyRFLX.C70_delimited_partial",
    "Verif.PyRFLX.C70_roundtrip",
    "Verif.PyRFLX.C70_reread_counterexample",
    "Verif.PyRFLX.C70_error_counterexample",
    "Verif.PyRFLX.C70_endless_counterexample"
   ],
   "note": "Elements are messages of the class Well (see C22) without checksums; if an element has a field that extends to the end, the input and the elements have to be whole bytes. False of the code without 'new': an array appends to the elements it has read before (C70_reread_counterexample), an array keeps the elements read before an error (C70_error_counterexample), and reading elements with an empty encoding does not end (C70_endless_counterexample)."
  },
  {
   "property": "C71",
   "status": "partial",
   "theorems": [
    "Verif.Bridge.C71_deterministic_partial",
    "Verif.Bridge.C71_nonnegative_partial",
    "Verif.Bridge.C71_aligned_partial",
    "Verif.Bridge.C71_verified_partial",
    "Verif.Bridge.C71_parser_partial",
    "Verif.Bridge.C71_wellformed_partial",
    "Verif.Bridge.C71_leave_counterexample"
   ],
   "note": "Composes C18 and C19 with C29, C30, C31, C67, C68 and C69 (Ctx.Verified). Required besides acceptance: the solver always answers (C18_unknown_counterexample), conditions and sizes without aggregates and division (C18_aggregate_counterexample), composite fields of type Opaque (the alignment of arrays is not checked, C20_array_counterexample) that can always be left (sizes are checked together with the condition that a field can be left, C71_leave_counterexample: an accepted message for which the generated parser raises an exception), a scalar as first field (C30_empty_counterexample), sizes within the range of bit indices (not checked by the verification), no enumerations with Always_Valid. C71_wellformed_partial derives from acceptance most of what the theorems assume about the structure of messages (order, first field, types, reachability, conditions with truth values, sizes with numbers); what remains is Usable."
  },
  {
   "property": "C72",
   "status": "partial",
   "theorems": [
    "Verif.Verify.C72_leads_to_end",
    "Verif.Verify.C72_field_occurs_partial",
    "Verif.Verify.C72_instance_partial",
    "Verif.Verify.C72_dead_link_counterexample"
   ],
   "note": "C72_leads_to_end holds for all accepted messages. C72_field_occurs_partial and C72_instance_partial give the values and the sequence of links (from the answer of the solver to the formulas of __prove_contradictions) for messages whose conditions compare numbers (no aggregates; the operands are variables, literals, attributes and arithmetic) and whose divisions are by positive literals; integer division rounds down. That every field has a known size is derived from acceptance (theorem sized). C72_dead_link_counterexample: an accepted message with a link whose condition is false for all values of the types; __prove_contradictions reports contradictions only if all links of a field are contradictory."
  },
  {
   "property": "C73",
   "status": "partial",
   "theorems": [
    "Verif.Verify.C73_defined",
    "Verif.Verify.C73_range_partial",
    "Verif.Verify.C73_checked_partial",
    "Verif.Verify.C73_unchecked_counterexample",
    "Verif.Verify.C73_range_counterexample"
   ],
   "note": "Proved: every checksum belongs to a field and covers fields, sizes of fields and ranges of the allowed form only; whenever a path leads to the end of a range, it passes the start of the range before; for every checksum there is a link whose condition contains the check. False of the code and shown by counterexamples: the check may be missing on other paths that contain the checksum field, and the fields of a range need not exist (findall of a range does not look into its bounds). C73_range_partial is stated for ranges between different fields and paths with at least one link."
  },
  {
   "property": "C74",
   "status": "partial",
   "theorems": [
    "Verif.Verify.C74_possible_partial",
    "Verif.Verify.C74_congruent_partial",
    "Verif.Verify.C74_overlay_counterexample"
   ],
   "note": "Proved: both fields occupy the same bits in all messages if the sizes of both are given by their types, and for each sequence of links there are values (not necessarily of the types) for which both occupy the same bits. False of the code in general: __prove_overlays asks whether congruence is satisfiable, not whether it always holds, so an overlay of 16 bits over a field of variable size is accepted (C74_overlay_counterexample)."
  },
  {
   "property": "C75",
   "status": "partial",
   "theorems": [
    "Verif.Verify.C75_size",
    "Verif.Verify.C75_first",
    "Verif.Verify.C75_size_attribute_partial"
   ],
   "note": "Proved for all accepted messages whose fields are not listed twice (Regular): Size aspects on exactly the links to fields of variable size, First aspects of the required form, and Size attributes in the parts of conditions that findall searches. Missing: attributes within negations, quantified expressions and arguments of calls, which the code does not look at; links that start at the artificial last field."
  },
  {
   "property": "C76",
   "status": "partial",
   "theorems": [
    "Verif.SpecParser.C76_distinct_partial",
    "Verif.SpecParser.C76_last",
    "Verif.SpecParser.C76_names",
    "Verif.SpecParser.C76_usual_partial",
    "Verif.SpecParser.C76_duplicate_counterexample"
   ],
   "note": "Proved for definitions of different checksums; in general the checksums are those that are named, each one once, and the last definition counts. That no definition is lost is false of the code: a second definition of the same field (in any letter case) silently replaces the first one (C76_duplicate_counterexample). The trees are those of the Langkit parser (trusted); values of texts as in C52. Duplicates of associations are not excluded by the grammar."
  },
  {
   "property": "C77",
   "status": "partial",
   "theorems": [
    "Verif.SpecParser.C77_accepted_iff",
    "Verif.SpecParser.C77_all_files",
    "Verif.SpecParser.C77_declared_partial",
    "Verif.SpecParser.C77_files_partial",
    "Verif.SpecParser.C77_opaque_counterexample",
    "Verif.SpecParser.C77_prefix_counterexample",
    "Verif.SpecParser.C77_overwritten_counterexample"
   ],
   "note": "Proved: the check of names accepts exactly specifications named as required (C77_accepted_iff); this holds for all files of a successful run (C77_all_files); declared types get the identifier Package::Type unless called Opaque (C77_declared_partial); packages that do not start with RFLX in any letter case have no units with file names of the library (C77_files_partial, under the conditions of C57). False: a type called Opaque is accepted but gets the identifier of the predefined type (C77_opaque_counterexample), and the prefix RFLX in other letter cases is accepted although the generated unit has the file name of a library unit (C77_prefix_counterexample, C77_overwritten_counterexample). Texts of identifiers are assumed to be non-empty and free of blanks, dots and colons, which the lexer ensures."
  },
  {
   "property": "C78",
   "status": "proved",
   "theorems": [
    "Verif.PyRFLX.Access.C78_exists",
    "Verif.PyRFLX.Access.C78_found",
    "Verif.PyRFLX.Access.C78_iterate",
    "Verif.PyRFLX.Access.C78_checksum_functions",
    "Verif.PyRFLX.Access.C78_checksum_named",
    "Verif.PyRFLX.Access.C78_letter_case"
   ],
   "note": "Messages are abstract; that pyrflx[p][n] is a fresh copy is part of C59. The conditions on identifiers are what models ensure (C44). C78_letter_case is the case of names that differ in letter case only."
  },
  {
   "property": "C79",
   "status": "partial",
   "theorems": [
    "Verif.Generator.DeclNames.C79_distinct_partial",
    "Verif.Generator.DeclNames.C79_declared",
    "Verif.Generator.DeclNames.C79_clash_counterexample"
   ],
   "note": "C79_declared: all declarations exist, for all types. C79_distinct_partial: no clash for types and literals whose names are not used for generated declarations (suffixes _Base and _Enum, prefix Unreachable, Valid, To_Actual, To); the model does not check this and the claim is false otherwise (C79_clash_counterexample). Checked is what the model verification ensures (C44). The visibility rules of Ada are the definition Clash. Child packages of messages and arrays are not part of the claim."
  },
  {
   "property": "C80",
   "status": "partial",
   "theorems": [
    "Verif.Generator.FieldNames.C80_distinct_partial",
    "Verif.Generator.FieldNames.C80_declared",
    "Verif.Generator.FieldNames.C80_clash_counterexample"
   ],
   "note": "proved if no composite field is called Field_Value; such a field is accepted by the model, shown by the counterexample"
  }
 ]
}
