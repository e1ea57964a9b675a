# Formal model of RecordFlux: design

The subject is the Python package `rflx` in `/repo` and the Ada templates in `rflx/templates`. The model is written in Lean 4
(`lean/Verif`), the properties are in `properties.jsonl`, the mapping from properties to theorems is in `MANIFEST.json`.

## Trusted base

* **Kernel.** Lean 4.33.0. No axioms are added. Every property theorem depends at most on `propext`, `Classical.choice` and
  `Quot.sound`; `lean/Verif/Audit.lean` prints the axioms of each during the build. There is no `sorry`, `native_decide` or
  `bv_decide`.
* **Translation.** The model is a translation by hand. Every definition of the model names the file and the lines it models;
  simplifications are stated there. That the translation is right is trusted. `seeded/LOG.jsonl` records how the theorems react
  if the translated code is changed.
* **Specifications.** `Expr/Semantics.lean` (values of expressions), `Graph/Spec.lean` (paths), `Verify/Spec.lean` (assignments and
  layouts), `Gen/Spec.lean`, `Ctx/Spec.lean` (messages in a buffer) and the definitions at the beginning of the other `Props`
  files are not taken from the code. They say what the theorems mean and have to be read.
* **External components** are parameters of the model, never axioms:
  * the SMT solver (`z3`) is a function from lists of formulas to `sat`, `unsat` or `unknown`. Theorems state what they need:
    answers are right (`Solver`), and where necessary that it does not give up (`Solver.Decides`);
  * MD5 is a function, free of collisions among the messages that occur where a theorem says so;
  * checksum functions of PyRFLX are values of any type;
  * files and processes (C36) are a transition system in which any operation may be the last of a process;
  * the parser of specifications (librflxlang): the model starts with syntax trees.

## What stands for what

* Python integers are `Int`, strings are lists of characters, `str.lower` is that of ASCII. Dictionaries are functions or
  association lists in the order of insertion. Sets are lists; statements hold for every order.
* Exceptions are values (`Py`, `Verif/Py/Basic.lean`). A constructor that collects errors is modelled with the
  `error.propagate()` that follows: it returns the object or an error. The text and the location of errors are left out
  everywhere; C40 is about the container of errors.
* Objects shared by several references are modelled as such where the code relies on it (`Errors`); everywhere else values are
  immutable.
* Loops that end for a structural reason are structural recursion. Other loops have fuel, running out of fuel is a separate
  outcome, and termination is a theorem (C08, C14, C21, C41) or false (`C14_initial_link_counterexample`,
  `C10_termination_counterexample`, `C41_hang_counterexample`).
* Ada (`Spark`): preconditions, type predicates, range, index, overflow and access checks are executed and are errors
  (`AdaErr`) if they fail. Postconditions are not executed but evaluated separately in C67 (`Post/*`); loop invariants, `pragma Assert`, ghost code and `Depends` are not modelled. `U64` is `Nat`
  with the wrap-around of a modular type. Pointers are owned by one context, so a buffer is modelled by its content.
* Generated Ada code (`Generator`, `Gen`, `Ctx`): not the text is modelled but what its execution does. Conditions and sizes
  are generated by the model of `substitution` and evaluated by `eval` with what the context holds. Arithmetic in conditions is
  that of integers; `U64` overflow there is not modelled. All operands of `and then` and `or` are evaluated, and where generated
  code would read a component that a cursor does not have, the model reads the number 0 or the empty list.
* The meaning of an expression (`eval`) is strict: a value exists only if all parts have one and the kinds of operands fit. `mod`
  has the sign of the divisor; division is a parameter that agrees on exact quotients, or that of Ada.

## Layout

One directory of `lean/Verif` per area. `Model.lean` (or the file named after the code) is the translation, `Spec.lean` the
specification, files named `Props` contain the property theorems `Cnn_...` with an `example` for each showing that its
hypotheses are met by a case that is not trivial, other files contain lemmas. Theorems named `..._partial` need a
restriction that the property does not have; what is missing is said at the theorem and in `MANIFEST.json`. Where a property is
false of the code, `..._counterexample` proves its negation for a concrete input.

| id | property | modules | status |
|----|----------|---------|--------|
| C01 | Bit string / byte string round trip | `Bits` | proved |
| C02 | Bit string slicing and joining lose nothing | `Bits` | proved |
| C03 | PyRFLX integer fields: encode/decode is exact | `PyRFLX/Scalar*` | partial |
| C04 | PyRFLX enumeration fields: encode/decode is exact | `PyRFLX/Enum*` | partial |
| C05 | Accepted integer types fit their size | `Types` | proved |
| C06 | Accepted enumerations are injective and fit their size | `Types` | proved |
| C07 | Proof facts of a scalar type describe exactly its values | `Types/Constraint*` | partial |
| C08 | Simplifying an arithmetic expression never changes its value | `Expr` | partial |
| C09 | Simplifying a condition never changes its truth value | `Expr` | partial |
| C10 | Substitution means replacing values | `Expr/Subst*` | partial |
| C11 | Expressions that compare equal mean the same | `Expr (Print, Lex, Parse)` | partial |
| C12 | variables() and findall() are complete | `Expr/Vars*` | partial |
| C13 | Negating an expression negates its value | `Expr` | partial |
| C14 | Accepted messages have a correct field order | `Graph` | partial |
| C15 | paths() enumerates exactly the paths | `Graph/PathProps` | partial |
| C16 | field_condition describes reachability | `Graph/PathProps` | partial |
| C17 | Definite predecessors, predecessors and successors are exact | `Graph/PathProps` | partial |
| C18 | Verified messages are deterministic | `Verify` | partial |
| C19 | Verified messages cover all bits and stay non-negative | `Verify` | partial |
| C20 | Verified messages are a whole number of bytes | `Verify` | partial |
| C21 | Merging embedded messages keeps the set of encodings | `Merge` | partial |
| C22 | PyRFLX parse then serialise reproduces the input | `PyRFLX/Message*` | partial |
| C23 | PyRFLX set/get is consistent | `PyRFLX/Message*` | partial |
| C24 | Internet checksum verifies | `Checksum` | proved |
| C25 | Ada runtime Extract returns the addressed bits | `Spark/Runtime*` | proved |
| C26 | Ada runtime Insert writes exactly the addressed bits | `Spark/Runtime*` | proved |
| C27 | Ada runtime scalar sequences keep their invariant and round-trip | `Spark/ScalarSeq*` | proved |
| C28 | Ada runtime message sequences keep their invariant | `Spark/MessageSeq*` | proved |
| C29 | Generated parser accepts exactly the specified messages | `Ctx` | partial |
| C30 | Generated message contexts keep their invariant | `Ctx/History*` | partial |
| C31 | Generated serializer and parser agree | `Ctx/History*, Ctx/Rebuild` | partial |
| C32 | Generated enumeration conversions round-trip | `Generator` | partial |
| C33 | Session validation: states exist and are unique | `Session` | partial |
| C34 | Session validation: reachability | `Session` | partial |
| C35 | Model validation: names are unique | `ModelPkg` | proved |
| C36 | Verification cache is sound under every history | `Cache` | proved |
| C37 | Verification cache key determines the message | `Cache/Key` | partial |
| C38 | Identifiers behave as case-insensitive names | `Ident` | proved |
| C39 | Type compatibility is reflexive and symmetric, common types are upper bounds | `Typing` | partial |
| C40 | No error is lost | `Errors` | proved |
| C41 | Importing specifications terminates and orders them | `SpecParser/Import*` | partial |
| C42 | Field aspects and conditions reach every incoming link | `SpecParser/Structure*` | partial |
| C43 | Generated conditions mean the specified conditions | `Gen` | partial |
| C44 | unique, indent and flat_name helpers | `Common` | proved |
| C45 | PyRFLX arrays: encode/decode is exact | `PyRFLX/Array*` | partial |
| C46 | PyRFLX checksums can be registered for every checksum field | `PyRFLX/ChecksumFn` | partial |
| C47 | Path conditions used for the proofs are satisfied by every real message | `Verify` | partial |
| C48 | Accepted expressions are well typed | `Typing/Check*, Verify/ExprTypes*` | partial |
| C49 | Accepted sessions use only declared names, and use all declarations | `Session/Decl*` | partial |
| C50 | The text of a generated Ada expression means what the expression means | `Ada/*` | partial |
| C51 | Expressions of a specification keep their value in the generated text | `Ada/From*` | partial |
| C52 | Expressions of a specification mean what is written | `SpecParser/Tree*` | partial |
| C53 | The types of a model are those declared in the specifications | `SpecParser/Package*` | partial |
| C54 | Drawings show the structure of messages and sessions | `Dot/*` | partial |
| C55 | PyRFLX messages with wrong checksums are not valid, and calculated checksums are right | `PyRFLX/MessageChecksum*` | partial |
| C56 | A session is what its text says | `SpecParser/Sessions*` | partial |
| C57 | Generated units fit together | `Units/*` | partial |
| C58 | Generated refinements apply to the specified fields and switch to the message in the field | `Refine/*` | partial |
| C59 | PyRFLX refinements: fields contain the messages their refinements name | `PyRFLX/Nested*` | partial |
| C60 | PyRFLX and generated code agree | `Agree/*` | partial |
| C61 | An exported model can be read back | `Export/*` | partial |
| C62 | A command does all of its work or reports all errors | `Cli/*` | partial |
| C63 | A derived message has the structure of its base | `Derived/*` | partial |
| C64 | The text of an Ada statement does what the statement stands for | `Ada/Stmt*` | partial |
| C65 | Fields that are sequences of scalars are written and read element by element | `Ctx/Seq*` | partial |
| C66 | The text of an Ada declaration or unit declares what the object stands for | `Ada/Decl*` | partial |
| C67 | Generated subprograms of message contexts keep their contracts | `Post/*` | partial |
| C68 | Accessors of a message context report what is in the buffer | `Access/*` | partial |
| C69 | A field is incomplete exactly if the buffer ends before it does | `Access/*` | partial |
| C70 | PyRFLX arrays of messages: reading and writing is exact | `PyRFLX/MsgArray*` | partial |
| C71 | Messages accepted by the model verification are handled correctly by the generated code | `Bridge/*` | partial |
| C72 | Every field of an accepted message can occur | `Verify/Instance*, Verify/DeadLink` | partial |
| C73 | Checksums of accepted messages are checked and cover fields of the message | `Verify/Checksum*, Expr/Stable` | partial |
| C74 | Overlaid fields occupy the same bits | `Verify/OverlayProps` | partial |
| C75 | Aspects of accepted messages are complete and of the allowed form | `Verify/AspectProps` | partial |
| C76 | Checksums of a message are those of the specification | `SpecParser/Checksums*` | partial |
| C77 | Names in accepted specifications | `SpecParser/Names*` | partial |
| C78 | Messages by names in PyRFLX | `PyRFLX/Access*` | proved |
| C79 | Declarations of scalar types do not clash | `Generator/DeclNames*` | partial |
| C80 | Declarations for the fields of a message do not clash | `Generator/FieldNames*` | partial |

## Modelled and not modelled

| code | modelled | not modelled |
|------|----------|--------------|
| `identifier.py` | all | locations |
| `error.py` | `RecordFluxError`: append, extend, `+`, `propagate`, sharing | printing, `fail`, `warn` |
| `common.py` | `unique`, `indent`, `indent_next`, `flat_name`, `file_name`, `Base.serialize` (`Export/*`) | `Base.__repr__`, `verbose_repr` |
| `expression.py` | literals, numbers, variables, attributes, arithmetic, boolean operators, relations, aggregates, calls, selections, quantifiers, `Not`: `simplified`, `__neg__`, `substituted`, `variables`, `findall`, `==`, `str`, `z3expr`, `ada_expr`, type checks | `String`, `ValueRange`, `Binding`, `Val`; `Conversion`, `Comprehension`, `MessageAggregate` except for type checks in sessions; `precedence` except for printing |
| `typing_.py` | `is_compatible`, `common_type`, the type classes, `check_type`, `check_type_instance` | descriptions, texts of errors |
| `model/type_.py` | integers, enumerations, opaque, arrays: constructors, constraints, sizes, `str`, `qualified_type_identifier` | locations |
| `model/message.py` | constructor checks, sorting, `paths`, `field_condition`, predecessors, `verify` with all its proofs, `prefixed`, `merged`, `prune_dangling_fields`, `Refinement.__init__`, derived messages (`Derived/*`) | `max_field_sizes`, aspects in merged messages |
| `model/model.py` | all checks | writing of files |
| `model/session.py`, `declaration.py`, `statement.py` | states, transitions, reachability; validation of declarations, actions, conditions, usage and types (`Session/Decl`) | comprehensions, message aggregates and conversions below the top of an expression, bindings, strings; messages of errors; `__str__`, Ada generation |
| `specification/parser.py` | import and ordering of files, message structure, conversion of expressions and names, creation of types and refinements, creation of sessions, `create_model`, checksum aspects, `check_naming` | locations, descriptions; construction of messages is a parameter of C53; nodes `Binding`; `Comprehension`, `Conversion` and `MessageAggregate` below the top of an expression |
| `specification/cache.py` | all, with files and crashes | the syntax of JSON |
| `pyrflx/bitstring.py`, `pyrflx/utils.py` | all | |
| `pyrflx/typevalue.py` | scalars, opaque fields, arrays of scalars, messages of these; `set_checksum_function`, calculation and verification of checksums; refinements and nested messages (messages without checksums, nested messages as values: no aliasing); arrays of messages (`PyRFLX/MsgArray*`) | arrays of messages as fields of messages, `skip_verification=True` |
| `pyrflx/pyrflx.py`, `pyrflx/package.py` | which messages and refinements a new message has, access by names, `Package.set_checksum_functions` | `from_specs`, file access |
| `generator/generator.py`, `parser.py`, `serializer.py`, `common.py` | conversion functions of scalar types, `substitution`, the state and the subprograms of message contexts, predicates of contexts and cursors; units with their `with` clauses and parameters, files (`Units/*`); functions and switches of refinements (`Refine/*`); fields that are sequences of scalars (`Ctx/Seq*`); postconditions of subprograms of message contexts (`Post/*`); getters, `Equal`, `Incomplete_Message` and the generic setter (`Access/*`) | text of declarations, parts of postconditions about `Buffer = null`, `Depends`, invariants of loops, sequences of messages in messages, checksums, sessions; postconditions of switches |
| `templates/*` | arithmetic, generic types, scalar and message sequences | `Builtin_Types.Conversions` |
| `ada.py` | expressions (`ada.py:15-719`): precedence, parentheses, text, equality of expressions (grouping of alternatives); statements (`ada.py:1287-1395`): text, equality; declarations, aspects, parameters, types, subprograms, packages and units (`ada.py:722-1284, 1398-1743`): text, equality | `String`, hashes, `SubprogramUnit`, names of unit files, the cache `_str` |
| `graph.py` | nodes and edges, labels, tooltips, colours of states | sizes and fonts, writing of files |
| `cli.py` | the four commands with parser, generator and graphs as parameters, errors and files written (`Cli/*`); the document of `export` (`Export/*`) | `argparse`, logging, exceptions of the file system, the text of JSON documents |
| `contract.py` | | all |

## Where the code does not do what one expects

Proved, each with a concrete input:

* C01: `C01_empty_counterexample`
* C03: `C03_based_size_counterexample`, `C03_size_zero_counterexample`
* C04: `C04_prefix_counterexample`
* C06: `C06_string_names_counterexample`
* C07: `C07_always_valid_counterexample`
* C08: `C08_mod_counterexample`, `C08_pow_counterexample`, `C08_floor_division_counterexample`
* C09: `C09_guard_order_counterexample`, `C09_quantifier_counterexample`
* C10: `C10_not_counterexample`, `C10_capture_counterexample`, `C10_component_sign_counterexample`, `C10_negative_counterexample`, `C10_attribute_sign_counterexample`, `C10_termination_counterexample`
* C11: `C11_empty_or_counterexample`, `C11_sum_counterexample`
* C12: `C12_aggregate_counterexample`, `C12_parameter_counterexample`, `C12_nodup_counterexample`, `C12_findall_counterexample`
* C13: `C13_sub_counterexample`, `C13_pow_counterexample`
* C14: `C14_initial_link_counterexample`, `C14_no_initial_counterexample`, `C14_order_counterexample`, `C14_final_link_counterexample`
* C17: `C17_definite_initial_counterexample`, `C17_predecessors_counterexample`
* C18: `C18_aggregate_counterexample`, `C18_unknown_counterexample`
* C19: `C19_no_fields_counterexample`
* C20: `C20_array_counterexample`
* C21: `C21_first_condition_counterexample`, `C21_negative_counterexample`, `C21_message_counterexample`, `C21_null_counterexample`
* C22: `C22_trailer_counterexample`, `C22_empty_input_counterexample`
* C23: `C23_unset_field_counterexample`
* C24: `C24_odd_length_counterexample`
* C27: `C27_get_before_next_counterexample`
* C28: `C28_update_counterexample`
* C29: `C29_valid_message_counterexample`
* C30: `C30_empty_counterexample`, `C30_first_counterexample`, `C30_null_counterexample`
* C31: `C31_content_counterexample`, `C31_size_counterexample`
* C32: `C32_raw_literal_counterexample`
* C33: `C33_exception_counterexample`
* C34: `C34_self_loop_counterexample`, `C34_order_counterexample`
* C37: `C37_counterexample`, `C37_skips_counterexample`, `C37_elements_counterexample`
* C38: `C38_lt_counterexample`
* C39: `C39_channel_counterexample`, `C39_empty_aggregate_counterexample`, `C39_mixed_aggregate_counterexample`, `C39_aggregate_elements_counterexample`, `C39_unknown_bounds_counterexample`, `C39_aggregates_counterexample`
* C41: `C41_hang_counterexample`, `C41_empty_file_counterexample`
* C42: `C42_backward_counterexample`, `C42_double_aspect_counterexample`
* C43: `C43_negative_counterexample`, `C43_embedded_inequality_counterexample`, `C43_letter_case_counterexample`, `C43_checksum_counterexample`
* C44: `C44_flat_name_counterexample`
* C45: `C45_partial_element_counterexample`, `C45_empty_bytes_counterexample`, `C45_element_type_counterexample`
* C46: `C46_two_fields_counterexample`, `C46_no_field_counterexample`
* C48: `C48_member_counterexample`, `C48_sign_counterexample`, `C48_not_counterexample`, `C48_type_name_counterexample`, `C48_message_scope_counterexample`
* C49: `C49_duplicate_counterexample`, `C49_unused_counterexample`, `C49_call_counterexample`, `C49_type_counterexample`, `C49_aggregate_counterexample`, `C49_unqualified_counterexample`, `C49_function_target_counterexample`, `C49_channel_target_counterexample`
* C50: `C50_negative_counterexample`, `C50_aggregate_counterexample`, `C50_empty_or_counterexample`, `C50_named_operand_counterexample`, `C50_empty_sum_counterexample`, `C50_sum_counterexample`, `C50_membership_counterexample`
* C51: `C51_difference_counterexample`, `C51_attribute_counterexample`, `C51_aggregate_counterexample`, `C51_membership_counterexample`
* C52: `C52_attribute_counterexample`, `C52_negation_counterexample`, `C52_concatenation_counterexample`
* C53: `C53_variable_counterexample`, `C53_refinement_conditions_counterexample`, `C53_refinement_names_counterexample`
* C54: `C54_clash_counterexample`, `C54_message_spelling_counterexample`, `C54_exception_counterexample`, `C54_read_counterexample`, `C54_spelling_counterexample`
* C55: `C55_parse_counterexample`, `C55_overwritten_counterexample`, `C55_order_counterexample`, `C55_stale_counterexample`, `C55_first_counterexample`
* C56: `C56_declaration_counterexample`, `C56_field_counterexample`, `C56_end_counterexample`
* C57: `C57_generic_counterexample`, `C57_contains_counterexample`, `C57_assertion_counterexample`, `C57_library_counterexample`, `C57_null_counterexample`, `C57_array_counterexample`, `C57_flat_counterexample`
* C58: `C58_contains_counterexample`, `C58_types_counterexample`, `C58_operators_counterexample`, `C58_unknown_counterexample`, `C58_name_counterexample`
* C59: `C59_lossy_counterexample`, `C59_stale_counterexample`, `C59_recursion_counterexample`
* C60: `C60_unknown_values_counterexample`, `C60_unknown_literal_counterexample`, `C60_positions_counterexample`, `C60_aggregate_counterexample`
* C61: `C61_session_counterexample`, `C61_checksum_counterexample`, `C61_derived_counterexample`
* C62: `C62_export_counterexample`, `C62_graph_counterexample`
* C63: `C63_checksum_counterexample`
* C64: `C64_call_counterexample`, `C64_branch_counterexample`, `C64_empty_counterexample`
* C65: `C65_foreign_counterexample`, `C65_overwrite_counterexample`, `C65_invalid_counterexample`
* C66: `C66_object_in_package_counterexample`, `C66_mode_counterexample`, `C66_array_counterexample`, `C66_empty_counterexample`
* C67: `C67_content_counterexample`, `C67_initial_counterexample`
* C70: `C70_reread_counterexample`, `C70_error_counterexample`, `C70_endless_counterexample`
* C71: `C71_leave_counterexample`
* C72: `C72_dead_link_counterexample`
* C73: `C73_unchecked_counterexample`, `C73_range_counterexample`
* C74: `C74_overlay_counterexample`
* C76: `C76_duplicate_counterexample`
* C77: `C77_opaque_counterexample`, `C77_prefix_counterexample`, `C77_overwritten_counterexample`
* C79: `C79_clash_counterexample`
* C80: `C80_clash_counterexample`

Noticed while reading, not the subject of a theorem:

* Generated conditions: intermediate results that are negative overflow `U64`. `Field_Condition` replaces `Size` and `Last` of the
  own field but not `First`. After a failed `Verify` the predecessor of the field is `F_Final`, so it cannot be verified again.
  A scalar field named `Size` or a field named `Ctx` clashes with generated names. A composite field that does not start at a
  byte boundary shares its first byte with the field in front (C19 excludes this).
* A field without outgoing links gives `Or` without operands, printed `True`; the constructor of messages excludes this.
* PyRFLX: a `First` aspect that names a field other than the direct predecessor makes `parse` read at the wrong position. Parsing
  an array of messages appends to what the value had before. `Parser.skip_verification` has no effect on cached results.
* PyRFLX: whether a checksum can be calculated is decided without looking at the first field of a range. The flag `calculated` of
  a checksum is never reset and shared by clones.
* A component named `Final` or `Initial` clashes with the virtual fields. The target of the initial `then` is not checked.
* `z3expr` is cached by expressions that compare equal ignoring case, while names for the solver are case-sensitive.
* Merging drops the size given at an outer link and the checksum aspects of the inner message; an inner message whose only link
  leads from the initial to the final node gives wrong links.
* The check for overlays asks only whether some assignment satisfies the equation.
* `ada.Base.__eq__` compares cached strings.
* Derived messages are verified even if `skip_proof` is set. A literal below a unary minus sign or `not` is not qualified by the
  derivation of messages.
* `Update_X` tests `Valid (Seq_Ctx)` though its precondition `Complete_X` implies it; a sequence with an invalid element gives the
  buffer back by its own `Take_Buffer` only. `Equal` needs the buffer, so `Complete_X` and `Update_X` fail for a field behind a
  condition that compares a composite field. `Update_X` identifies the sequence by bounds only (`C65_foreign_counterexample`).
* `Base.__eq__` compares attributes after an `isinstance` test, so a `Parameter` may equal an `OutParameter` or `InOutParameter`, an
  `ArrayType` an `UnconstrainedArrayType`, and a package then leaves one of two such declarations out. `ObjectDeclaration` and nested
  packages have no `__hash__`, so `unique` fails for a package that declares one.
* Types of expressions are checked along paths that the solver does not refute (`C48_message_scope_counterexample`). A condition such as `B = 3 and A = 1` of a link of `C` may
  thus name a field `B` that is not read on the way taken (`A > 1`); the generated code then reads a component of a cursor whose
  discriminant is another field. The model of generated code does not have that discriminant check (`WellFormed.scope` excludes such messages).
* `__prove_reachability` does not use the ranges of types; `__prove_contradictions` does, for every field, and therefore implies it
  (C72). A link that can never be taken is not reported if another link of the same field can be taken.
* `__verify_checksums` looks for variables in a range with `findall`, which does not descend into the bounds of `ValueRange`, so the
  fields of a range need not exist (`C73_range_counterexample`). It requires that some condition contains `X'Valid_Checksum`, not that
  each path through `X` has one (`C73_unchecked_counterexample`).
* `__prove_overlays` accepts an overlay if congruence is possible for some values (`C74_overlay_counterexample`).
* `create_message_aspects` silently replaces the first of two definitions of the same checksum (`C76_duplicate_counterexample`).
* `check_naming` rejects the prefix `RFLX` only in upper case: a package `Rflx_Types` is accepted, but its generated unit has the file name of the library package `RFLX_Types` (`C77_prefix_counterexample`).
* Names of types and literals are not compared with names of generated declarations: a range type `To`, a type `Valid`, or a range type `T` beside a type or literal `T_Base` is accepted, but the generated package declares a name twice (`C79_clash_counterexample`).
* Names of fields are not compared with names of generated subprograms: an opaque or array field called `Field_Value` is accepted, but its generic getter `Get_Field_Value` clashes with the internal function of the same name (`C80_clash_counterexample`).
* `check_naming` rejects types called `Boolean`, but not types called `Opaque`, whose identifier is that of the predefined type (`C77_opaque_counterexample`).
