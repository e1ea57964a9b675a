{"id": "C01", "title": "Bit string / byte string round trip", "statement": "For every non-empty byte string b, Bitstring.from_bytes(b) has length 8*len(b), its bytes() are b again, its int() is the big-endian number b denotes, and from_bytes(a+b) is the concatenation of from_bytes(a) and from_bytes(b). For the empty byte string the law fails (from_bytes(b'') has one bit); that exception is part of the statement.", "quantifier": "all byte strings of any length; all splits of a byte string in two", "why_tests_cant": "Byte strings are unbounded; tests exercise a handful of literals of a few bytes.", "anchors": ["rflx/pyrflx/bitstring.py: Bitstring.from_bytes, Bitstring.__bytes__, Bitstring.__int__, Bitstring.__add__, Bitstring.__len__"]}
{"id": "C02", "title": "Bit string slicing and joining lose nothing", "statement": "Slicing bits [i:j] out of a bit string returns exactly those bits whenever j does not exceed the length and raises IndexError otherwise; cutting a bit string at any position and joining the pieces gives the original back; Bitstring.join is concatenation in order; the constructor accepts exactly the strings over 0 and 1.", "quantifier": "all bit strings, all slice bounds, all lists of bit strings", "why_tests_cant": "Unbounded lengths and positions.", "anchors": ["rflx/pyrflx/bitstring.py: Bitstring.__getitem__, Bitstring.join, Bitstring.valid_bitstring"]}
{"id": "C03", "title": "PyRFLX integer fields: encode/decode is exact", "statement": "For every accepted modular or range integer type and every Python int v: assign(v) succeeds exactly when v lies in the type's range; after success the field's bit string has exactly the type's size in bits, is the big-endian encoding of v, and parsing that bit string into a fresh value gives v. Parsing a bit string of the declared size succeeds exactly when the encoded number is in range and re-encoding yields the same bits.", "quantifier": "all accepted integer types (any bounds, any size up to 64), all integers v, all bit strings", "why_tests_cant": "2^64 values times all types.", "anchors": ["rflx/pyrflx/typevalue.py: IntegerValue.assign, IntegerValue.parse, IntegerValue.bitstring", "rflx/model/type_.py: ModularInteger, RangeInteger"]}
{"id": "C04", "title": "PyRFLX enumeration fields: encode/decode is exact", "statement": "For every accepted enumeration type, assigning a literal and parsing the resulting bits yields the same literal and number, the bits have exactly the declared size, and distinct literals give distinct bits. Parsing a number that no literal has fails unless the type is always_valid, in which case re-encoding returns the same bits.", "quantifier": "all accepted enumerations with any number of literals, all literals, all encoded numbers", "why_tests_cant": "Unbounded number of literals and values.", "anchors": ["rflx/pyrflx/typevalue.py: EnumValue.assign, EnumValue.parse, EnumValue.bitstring", "rflx/model/type_.py: Enumeration"]}
{"id": "C05", "title": "Accepted integer types fit their size", "statement": "If constructing a ModularInteger or RangeInteger raises no error then its size is at most 64, first <= last, every value between first and last is non-negative and is representable in size bits, and (modular) the number of values is exactly 2**size. Types violating any of this are rejected with an error.", "quantifier": "all integers given as modulus, first, last and size", "why_tests_cant": "Quantifies over all integers; boundary tests only sample.", "anchors": ["rflx/model/type_.py: ModularInteger.__init__, RangeInteger.__init__"]}
{"id": "C06", "title": "Accepted enumerations are injective and fit their size", "statement": "If constructing an Enumeration raises no error then its literals are pairwise distinct (case-insensitively), their values are pairwise distinct, non-negative, representable in size bits, and size is at most 64; an always_valid enumeration leaves at least one encoding unnamed. Conversely an enumeration with all these features is accepted.", "quantifier": "all literal lists of any length, all values, all sizes", "why_tests_cant": "Unbounded literal lists.", "anchors": ["rflx/model/type_.py: Enumeration.__init__"]}
{"id": "C07", "title": "Proof facts of a scalar type describe exactly its values", "statement": "The constraints a scalar type contributes to the SMT proofs about a message are satisfied by an assignment exactly when the field's value belongs to the type and the field's size is the type's size.", "quantifier": "all accepted scalar types, all assignments of integers to names", "why_tests_cant": "Over- or under-constraining shows only for values tests do not pick, and silently makes the message proofs unsound.", "anchors": ["rflx/model/type_.py: ModularInteger.constraints, RangeInteger.constraints, Enumeration.constraints"]}
{"id": "C08", "title": "Simplifying an arithmetic expression never changes its value", "statement": "For every arithmetic expression e and every assignment of the names in it, if e has a value then e.simplified() has the same value.", "quantifier": "all arithmetic expressions of any depth and width, all assignments", "why_tests_cant": "Expression trees are unbounded; rewriting bugs show only for particular shapes and signs.", "anchors": ["rflx/expression.py: AssExpr.simplified, Add.simplified, Sub.simplified, Mul, Div.simplified, Pow.simplified, Mod.simplified, __neg__"]}
{"id": "C09", "title": "Simplifying a condition never changes its truth value", "statement": "For every boolean expression built from relations, not, and, or, and then, or else and literals, and every assignment, e.simplified() is true exactly when e is true.", "quantifier": "all boolean expressions, all assignments", "why_tests_cant": "Unbounded trees; conditions decide which field comes next.", "anchors": ["rflx/expression.py: Not.simplified, And.simplified, Or.simplified, Relation._simplified, AssExpr.simplified"]}
{"id": "C10", "title": "Substitution means replacing values", "statement": "Evaluating e.substituted(mapping=m) gives the value e has when every name in m is given the value of its replacement.", "quantifier": "all expressions, all mappings from names to expressions, all assignments", "why_tests_cant": "Unbounded trees; interaction with negated names, attributes and nesting.", "anchors": ["rflx/expression.py: Expr.substituted, BinExpr.substituted, AssExpr.substituted, Name.substituted, Attribute.substituted, Not, substitution"]}
{"id": "C11", "title": "Expressions that compare equal mean the same", "statement": "If two expressions compare equal (==, which compares printed text) then they have the same value under every assignment.", "quantifier": "all pairs of well-typed expressions, all assignments", "why_tests_cant": "Printing ambiguities are rare corner cases over unbounded trees; simplification, deduplication and the lru_cache of z3expr rely on it.", "anchors": ["rflx/expression.py: Expr.__eq__, _update_str, parenthesized, Add._update_str, BoolAssExpr._update_str, Not._update_str, Number._update_str, Name._update_str"]}
{"id": "C12", "title": "variables() and findall() are complete", "statement": "The value of an expression depends only on the names reported by variables(); variables() has no duplicates; every variable reported occurs in the expression.", "quantifier": "all expressions, all pairs of assignments agreeing on variables()", "why_tests_cant": "Unbounded trees.", "anchors": ["rflx/expression.py: variables, findall, unique"]}
{"id": "C13", "title": "Negating an expression negates its value", "statement": "-e has the value minus the value of e (arithmetic) and the opposite truth value (relations and boolean literals).", "quantifier": "all expressions for which negation is supported, all assignments", "why_tests_cant": "Unbounded trees.", "anchors": ["rflx/expression.py: BinExpr.__neg__, Add.__neg__, Mul.__neg__, Number.__neg__, Variable.__neg__, Not.__neg__, Relation __neg__"]}
{"id": "C14", "title": "Accepted messages have a correct field order", "statement": "For every message structure, if the constructor reports no error then message.fields lists every field exactly once, and every link goes from an earlier to a later field; a structure whose links contain a cycle reachable from the initial node is rejected. Construction terminates.", "quantifier": "all finite link structures", "why_tests_cant": "All graphs of any size; termination and cycle detection are claims about every graph.", "anchors": ["rflx/model/message.py: AbstractMessage.__compute_topological_sorting, AbstractMessage.__validate"]}
{"id": "C15", "title": "paths() enumerates exactly the paths", "statement": "For an accepted message, message.paths(f) is exactly the set of link sequences leading from the initial node to f.", "quantifier": "all accepted messages, all fields", "why_tests_cant": "Unbounded graphs with exponentially many paths.", "anchors": ["rflx/model/message.py: AbstractMessage.paths"]}
{"id": "C16", "title": "field_condition describes reachability", "statement": "For an accepted message and every assignment, field_condition(f) is true exactly when some path from the initial node to f has all its link conditions true.", "quantifier": "all accepted messages, fields and assignments", "why_tests_cant": "Unbounded graphs and assignments.", "anchors": ["rflx/model/message.py: AbstractMessage.field_condition, __compute_field_condition"]}
{"id": "C17", "title": "Definite predecessors, predecessors and successors are exact", "statement": "definite_predecessors(f) is exactly the set of fields on every path to f; predecessors(f)/successors(f) are exactly the fields from which f is reachable/which are reachable from f.", "quantifier": "all accepted messages, all fields", "why_tests_cant": "Unbounded graphs.", "anchors": ["rflx/model/message.py: AbstractMessage.definite_predecessors, predecessors, successors"]}
{"id": "C18", "title": "Verified messages are deterministic", "statement": "If verification of a message reports no error then for every assignment of field values allowed by the field types, at most one outgoing link of every field has a true condition.", "quantifier": "all messages accepted by verification, all assignments; relative to a solver whose answers SAT and UNSAT are right and that never answers UNKNOWN", "why_tests_cant": "Quantifies over all field values (2^64 each).", "anchors": ["rflx/model/message.py: Message.__prove_conflicting_conditions, type_constraints"]}
{"id": "C19", "title": "Verified messages cover all bits and stay non-negative", "statement": "If verification reports no error then on every consistent path every bit between the first and last bit of the message belongs to some field, every field has non-negative size, and opaque fields start on a byte boundary.", "quantifier": "all messages accepted by verification, all paths, all assignments satisfying the path", "why_tests_cant": "All assignments.", "anchors": ["rflx/model/message.py: Message.__prove_coverage, Message.__prove_field_positions"]}
{"id": "C20", "title": "Verified messages are a whole number of bytes", "statement": "If verification reports no error then on every consistent complete path the total size in bits is a multiple of 8.", "quantifier": "all messages accepted by verification, all paths to the end, all assignments", "why_tests_cant": "All assignments.", "anchors": ["rflx/model/message.py: Message.__prove_message_size"]}
{"id": "C21", "title": "Merging embedded messages keeps the set of encodings", "statement": "Replacing a field of message type by the fields of the embedded message (UnprovenMessage.merged) yields a message whose complete paths are exactly the outer paths with every occurrence of the field expanded by a complete path of the inner message, carrying the conjunction of the conditions; merging terminates and leaves no field of message type.", "quantifier": "all message structures and embedded messages of any nesting depth", "why_tests_cant": "Unbounded graphs and nesting.", "anchors": ["rflx/model/message.py: UnprovenMessage.merged, prune_dangling_fields, AbstractMessage.prefixed"]}
{"id": "C22", "title": "PyRFLX parse then serialise reproduces the input", "statement": "If MessageValue.parse accepts a byte string and the message is valid afterwards then bytestring equals the part of the input the fields cover.", "quantifier": "all message structures in the modelled class, all byte strings", "why_tests_cant": "All inputs for all messages.", "anchors": ["rflx/pyrflx/typevalue.py: MessageValue.parse, MessageValue.bitstring, MessageValue.bytestring"]}
{"id": "C23", "title": "PyRFLX set/get is consistent", "statement": "Setting an accessible field and reading it back gives the value; setting a field does not change any field that precedes it; a message is valid only if all required fields are set.", "quantifier": "all messages in the modelled class, all histories of set calls", "why_tests_cant": "Unbounded histories.", "anchors": ["rflx/pyrflx/typevalue.py: MessageValue.set, MessageValue.get, MessageValue._preset_fields, MessageValue.valid_message, MessageValue.valid_fields"]}
{"id": "C24", "title": "Internet checksum verifies", "statement": "For every even-length message, inserting internet_checksum of the message (with a zero checksum word) into the checksum word makes internet_checksum of the whole equal to 0; the result does not depend on the order of the 16-bit words; every single changed word (other than 0x0000<->0xFFFF) is detected; it equals the RFC 1071 one's-complement sum.", "quantifier": "all byte strings of even length, all word positions", "why_tests_cant": "Unbounded data.", "anchors": ["rflx/pyrflx/utils.py: internet_checksum"]}
{"id": "C25", "title": "Ada runtime Extract returns the addressed bits", "statement": "Extract(Data, Offset) in the generated library returns exactly the big-endian integer formed by the value-size bits of Data that start Offset bits above the least significant end, for every buffer content, offset and value size up to 64, without overflow in any intermediate 64-bit operation.", "quantifier": "all byte buffers, all offsets 0..7, all sizes 1..64 for which the precondition holds", "why_tests_cant": "2^(8n) buffers; the byte-splitting arithmetic has many alignment cases.", "anchors": ["rflx/templates/rflx_generic_types.adb: U64_Extract, U64_Extract_Intermediate, U64_Extract_Remaining, Extract"]}
{"id": "C26", "title": "Ada runtime Insert writes exactly the addressed bits", "statement": "Insert(Val, Data, Offset) makes Extract(Data, Offset) return Val and leaves every other bit of the buffer unchanged.", "quantifier": "all values, buffers, offsets and sizes satisfying the precondition", "why_tests_cant": "As C25; the frame condition ranges over all other bits.", "anchors": ["rflx/templates/rflx_generic_types.adb: U64_Insert, Insert"]}
{"id": "C27", "title": "Ada runtime scalar sequences keep their invariant and round-trip", "statement": "Under every sequence of operations whose preconditions hold, the context of a scalar sequence keeps its predicate; appending elements to an empty sequence and then reading the buffer back returns the same elements in order; Size is the number of elements times the element size.", "quantifier": "all histories of Initialize/Append_Element/Next/Get_Element/Copy/Take_Buffer, all elements", "why_tests_cant": "Unbounded histories.", "anchors": ["rflx/templates/rflx_scalar_sequence.adb: Initialize, Append_Element, Next, Get_Element, Size, Take_Buffer"]}
{"id": "C28", "title": "Ada runtime message sequences keep their invariant", "statement": "Under every sequence of Switch/Update pairs (each Update with the element handed out by the Switch, its bounds unchanged) whose preconditions hold, and for every element type that keeps the contracts of a generated message context, the context keeps its predicate, the sequence position only moves forward, and elements occupy consecutive non-overlapping parts of the buffer.", "quantifier": "all histories, all element sizes", "why_tests_cant": "Unbounded histories.", "anchors": ["rflx/templates/rflx_message_sequence.adb: Initialize, Switch, Update, Take_Buffer"]}
{"id": "C29", "title": "Generated parser accepts exactly the specified messages", "statement": "After Verify_Message on a buffer, Valid_Message / Structural_Valid_Message holds exactly when the bits in the buffer follow some path of the specification: every field on the path has a value of its type, the link conditions hold and there is room for it.", "quantifier": "all verified message structures in the modelled class, all buffer contents and bounds", "why_tests_cant": "All inputs for all specifications.", "anchors": ["rflx/generator/parser.py: create_verify_procedure, create_verify_message_procedure, valid_message_condition", "rflx/generator/generator.py: __create_successor_function, __create_field_first_function, __create_path_condition_function, __create_field_condition_function, __create_valid_predecessor_function"]}
{"id": "C30", "title": "Generated message contexts keep their invariant", "statement": "Every history of Initialize, Verify, Set_<field>, Reset_Dependent_Fields and Take_Buffer calls with satisfied preconditions keeps the context predicate: a structurally valid field has a valid predecessor, lies in the buffer, follows its predecessor immediately and its link condition holds; fields after an invalid field are invalid.", "quantifier": "all message structures in the modelled class, all histories of operations", "why_tests_cant": "Unbounded histories.", "anchors": ["rflx/generator/common.py: context_predicate, message_structure_invariant, initialize_field_statements", "rflx/generator/serializer.py: create_scalar_setter_procedures", "rflx/generator/generator.py: __create_reset_dependent_fields_procedure"]}
{"id": "C31", "title": "Generated serializer and parser agree", "statement": "A field set through Set_<field> is valid, reads back as the value set, does not disturb the bits of preceding fields, and a buffer produced by setting all fields of a path is accepted by Verify_Message with the same field values.", "quantifier": "all message structures in the modelled class, all values", "why_tests_cant": "All values and paths.", "anchors": ["rflx/generator/serializer.py: Set_Field_Value, create_scalar_setter_procedures", "rflx/generator/parser.py: create_verify_procedure"]}
{"id": "C32", "title": "Generated enumeration conversions round-trip", "statement": "To_Base/To_Actual generated for an enumeration are inverse on valid values; Valid accepts exactly the encodings of literals (all encodings for always_valid types).", "quantifier": "all accepted enumerations, all base values", "why_tests_cant": "All enumerations and 2^64 base values.", "anchors": ["rflx/generator/generator.py: __enumeration_functions, __integer_functions, __integer_conversion_functions"]}
{"id": "C33", "title": "Session validation: states exist and are unique", "statement": "An accepted session has existing initial and final states, all transition targets name declared states, and state names are unique.", "quantifier": "all sessions with any number of states and transitions", "why_tests_cant": "All finite graphs.", "anchors": ["rflx/model/session.py: AbstractSession.__validate_state_existence, __validate_duplicate_states"]}
{"id": "C34", "title": "Session validation: reachability", "statement": "A session is rejected for unreachability exactly when some state cannot be reached from the initial state. (Analysed: the implementation is order dependent; the exact condition it decides is proved instead, with counterexamples in both directions.)", "quantifier": "all sessions, all orders of state declarations", "why_tests_cant": "All finite graphs and permutations.", "anchors": ["rflx/model/session.py: AbstractSession.__validate_state_reachability"]}
{"id": "C35", "title": "Model validation: names are unique", "statement": "An accepted model contains no two types, no two sessions and no type and session with the same (case-insensitive) identifier, no two enumerations visible to each other share a literal, and no literal has the name of a type in its package.", "quantifier": "all lists of types and sessions", "why_tests_cant": "Unbounded lists.", "anchors": ["rflx/model/model.py: Model.__check_duplicates, Model.__check_conflicts"]}
{"id": "C36", "title": "Verification cache is sound under every history", "statement": "If the cache reports a message as verified then a message with the same full name, version, printed form and printed types was verified successfully at some earlier time, in this or an earlier process, whatever the interleaving of loads, stores and interrupted writes (assuming MD5 has no collision among the messages that occur).", "quantifier": "all histories of Cache operations and crashes by any number of processes", "why_tests_cant": "Histories and crash points are unbounded.", "anchors": ["rflx/specification/cache.py: Cache.is_verified, add_verified, _load_cache, _write_cache, _message_hash", "rflx/specification/parser.py: create_proven_message"]}
{"id": "C37", "title": "Verification cache key determines the message", "statement": "Two messages with the same cache key are verified with the same result. (Analysed: false; the printed form omits checksum aspects and the definition of array elements; counterexample proved.)", "quantifier": "all pairs of messages", "why_tests_cant": "A statement about all pairs.", "anchors": ["rflx/specification/cache.py: Cache._message_hash", "rflx/model/message.py: AbstractMessage.__str__"]}
{"id": "C38", "title": "Identifiers behave as case-insensitive names", "statement": "Identifier equality is an equivalence that ignores letter case and is consistent with hashing; ID(str(x)) == x; package * name has parent package and name name; * is associative; identifier + text extends the last part, text + identifier the first part, and * with a text is * with the identifier it denotes; invalid identifiers are rejected.", "quantifier": "all identifiers and strings", "why_tests_cant": "All strings.", "anchors": ["rflx/identifier.py: ID"]}
{"id": "C39", "title": "Type compatibility is reflexive and symmetric, common types are upper bounds", "statement": "For the type checker: every type is compatible with itself and with Any; compatibility is symmetric on the stated class; the common type of compatible types is independent of order and compatible with each of them.", "quantifier": "all types of any nesting depth", "why_tests_cant": "Types nest without bound.", "anchors": ["rflx/typing_.py: Type.is_compatible, Type.common_type, common_type, check_type"]}
{"id": "C40", "title": "No error is lost", "statement": "Errors appended or extended are all reported in order, propagate raises exactly when something was recorded, and combining error lists is associative with the empty list neutral.", "quantifier": "all sequences of operations on RecordFluxError", "why_tests_cant": "Unbounded histories.", "anchors": ["rflx/error.py: RecordFluxError"]}
{"id": "C41", "title": "Importing specifications terminates and orders them", "statement": "Parsing any finite set of specification files terminates; a dependency cycle among the withed packages is reported; otherwise the packages are processed so that each package comes after all packages it depends on.", "quantifier": "all finite import graphs, all lists of root files", "why_tests_cant": "All graphs.", "anchors": ["rflx/specification/parser.py: Parser.__convert_unit, Parser.__sort_specs_topologically, Parser.parse"]}
{"id": "C42", "title": "Field aspects and conditions reach every incoming link", "statement": "For a message type declaration, the condition, First and Size given at a component hold for every link into that component in the message structure, and conflicting double specifications are rejected.", "quantifier": "all message declarations with any number of components and then clauses", "why_tests_cant": "All declarations, in any textual order.", "anchors": ["rflx/specification/parser.py: create_message_structure"]}
{"id": "C43", "title": "Generated conditions mean the specified conditions", "statement": "The substitution used by the code generator maps every link condition to Ada code with the same truth value on the context that represents the field values.", "quantifier": "all conditions, all contexts", "why_tests_cant": "Unbounded trees.", "anchors": ["rflx/generator/common.py: substitution, substitution_facts"]}
{"id": "C44", "title": "unique, indent and flat_name helpers", "statement": "unique keeps exactly the first occurrence of each element in order, for element types with consistent equality and hash; indent keeps the lines of a text and puts the wanted number of spaces before each non-empty line; flat_name and file_name never leave a separator ('.' or '::') in a name; identifiers that differ (ignoring case) get different file names.", "quantifier": "all sequences, all strings, all identifiers", "why_tests_cant": "Unbounded lists and strings.", "anchors": ["rflx/common.py: unique, indent, flat_name, file_name"]}
{"id": "C45", "title": "PyRFLX arrays: encode/decode is exact", "statement": "For arrays of scalars whose element size divides the data, parsing and re-encoding is the identity, the number of elements is data size divided by element size, and each element has a value of the element type.", "quantifier": "all element types, all bit strings", "why_tests_cant": "Unbounded data.", "anchors": ["rflx/pyrflx/typevalue.py: ArrayValue.parse, ArrayValue.assign, ArrayValue.bitstring"]}
{"id": "C46", "title": "PyRFLX checksums can be registered for every checksum field", "statement": "set_checksum_function accepts a mapping exactly if every named field is a checksum field and registers each function for its field only.", "quantifier": "all messages with any number of checksum fields, all mappings", "why_tests_cant": "All numbers of checksum fields.", "anchors": ["rflx/pyrflx/typevalue.py: MessageValue.set_checksum_function"]}
{"id": "C47", "title": "Path conditions used for the proofs are satisfied by every real message", "statement": "For every bit-level message following a path, the assignment of field values, positions and sizes read from it satisfies all facts (type constraints and link expressions) the verifier assumes on that path.", "quantifier": "all accepted messages, paths and messages following them", "why_tests_cant": "The facts are the premises of every proof about a message; a wrong fact makes all proofs unsound, which no test of accepted specifications shows.", "anchors": ["rflx/model/message.py: Message.__link_expression, __target_first, __target_size, __target_last, type_constraints"]}
{"id": "C48", "title": "Accepted expressions are well typed", "statement": "An expression that passes the type check has a value of the kind (integer, Boolean, sequence) of its type for all values of its names, unless it divides by zero or has a negative exponent, and uses only names that are declared; the conditions and aspects of accepted messages pass the check and use only fields that have been parsed before; a list of number literals is accepted as opaque data exactly if all numbers are in 0 .. 255.", "quantifier": "all expressions, all contexts, all accepted messages, all paths", "why_tests_cant": "Expressions of all shapes and all values of the names; tests check single expressions against an expected error message.", "anchors": ["rflx/expression.py: check_type, check_type_instance, _check_type_subexpr", "rflx/typing_.py: check_type, check_type_instance", "rflx/model/message.py: Message.__verify_expression_types"]}
{"id": "C49", "title": "Accepted sessions use only declared names, and use all declarations", "statement": "In an accepted session, the target of every action is declared in its state or in the session; messages are read from readable and written to writable channels only; names in actions, conditions and initial values are literals or visible declarations, and called functions are declared or built-in; types of declarations are known; conditions have truth values and assigned values have the kind of the type of their variable; renamings are views of a message contained in a message by a refinement; message aggregates name a message type and give values to exactly the fields of one of its paths; every declaration is used; declarations of a state hide no other declaration and not the built-in function; a state has an exception transition exactly if one of its actions may raise an exception.", "quantifier": "all sessions: any number of states, declarations, parameters, actions and types, and all expressions", "why_tests_cant": "Declarations, types and references are threaded through a sequence of loops with side effects; a test shows one error of one session, not that no undeclared or unused name slips through in any accepted session.", "anchors": ["rflx/model/session.py: Session.__init__, __validate_declarations, __validate_actions, __validate_transitions, __validate_usage, __typify_variable", "rflx/declaration.py: check_type, variables", "rflx/statement.py: check_type, variables", "rflx/expression.py: Comprehension, MessageAggregate, Conversion"]}
{"id": "C50", "title": "The text of a generated Ada expression means what the expression means", "statement": "The text of every Ada expression object is a syntactically correct Ada expression, is read by the rules of Ada (lexical elements, precedence, associativity, short-circuit forms) in exactly one way, and the value read is the value the object stands for; indentation does not change it, and expressions with the same text have the same value.", "quantifier": "all expressions of any depth and number of operands, all values of all names", "why_tests_cant": "Parentheses, signs and line breaks depend on the combination of operators at every depth; a test compares the text of one expression with an expected text, it does not show that Ada reads it with the intended precedence.", "anchors": ["rflx/ada.py: Expr.parenthesized, Expr.precedence, _update_str of all expressions, If, Case", "rflx/common.py: indent, indent_next"]}
{"id": "C51", "title": "Expressions of a specification keep their value in the generated text", "statement": "The translation of an expression of a specification to Ada and then to text succeeds, and the text, read by the rules of Ada, has the value of the expression whenever the expression has a value and the names in the text have the values they have in the specification; the same holds for the text generated for an expression of a message.", "quantifier": "all expressions, all values of names, all messages", "why_tests_cant": "The translation composes substitution, simplification, conversion and printing; an expected text in a test does not show that its value is right for all values of the fields.", "anchors": ["rflx/expression.py: ada_expr of all classes", "rflx/ada.py: _update_str", "rflx/generator/common.py: substitution"]}
{"id": "C52", "title": "Expressions of a specification mean what is written", "statement": "The expression created from the syntax tree of an expression has, for all values of names, exactly the values given by the usual meaning of the text: numerals in the written base with underscores ignored, parentheses as grouping, operators applied to their operands in the written order, names without regard to case, reserved words rejected. Every tree of the supported language is converted.", "quantifier": "all syntax trees of any depth, all values of all names", "why_tests_cant": "Three conversion functions call each other depending on the operator; each combination of context, operator and operand is a separate case, and nested trees are unbounded. Tests compare single expressions with expected objects.", "anchors": ["rflx/specification/parser.py: create_id, create_numeric_literal, create_expression, create_math_expression, create_bool_expression, create_binop, create_negation, create_concatenation, create_quantified_expression, create_attribute, create_call"]}
{"id": "C53", "title": "The types of a model are those declared in the specifications", "statement": "The model created from specifications contains the predefined types and, in order, exactly one type for each declaration of a type or refinement, with the name of its package and its own name, the bounds, modulus, size and literals written (positional literals are numbered from zero), and, for arrays, messages, derived messages and refinements, the types, fields, conditions and aspects that the declaration names, where a simple name stands for a predefined type or a type of the same package. The condition of a refinement uses fields of the refined message and literals of the types of its fields only. No two types have the same name, no two enumerations of one package share a literal. Integer types are accepted exactly if their constants satisfy the rules of the language.", "quantifier": "all specifications with any number of packages, declarations, components, literals and aspects", "why_tests_cant": "Names are resolved against all earlier declarations, aspects are collected in loops with overwriting, and the checks of a type happen in another module than the reading of its declaration; tests parse some specifications and compare the model with an expected one.", "anchors": ["rflx/specification/parser.py: create_array, create_modular, create_range, create_enumeration, create_message, create_message_types, create_derived_message, create_refinement, Parser.create_model, __evaluate_specification", "rflx/model/type_.py: Array.__init__, qualified_type_identifier", "rflx/model/message.py: Refinement.__init__"]}
{"id": "C54", "title": "Drawings show the structure of messages and sessions", "statement": "The graph created for a message has one node for its beginning, its end and each of its fields, and for each link one labelled node of its own connecting source and target, labelled with the condition, the size and the first bit of the link; two fields are connected exactly if there is a link between them. The graph created for a session has one node for each state and for each variable used, an edge for each transition, and edges between states and variables exactly for the variables that a state reads or changes and does not declare itself.", "quantifier": "all messages and sessions: any number of fields, links, states, transitions, actions and declarations", "why_tests_cant": "A graph is a drawing that nobody checks edge by edge; nodes are identified by texts while fields and states are compared without regard to case; tests compare a few generated graphs with expected texts.", "anchors": ["rflx/graph.py: Graph.get, __edge_label, __add_state, __get_session, __get_message", "rflx/model/message.py: Message.field_size"]}
{"id": "C55", "title": "PyRFLX messages with wrong checksums are not valid, and calculated checksums are right", "statement": "In PyRFLX with verification: (1) valid_message is true and bytestring succeeds only if, for every checksum, a function is registered and its result for the bytes of the message and the current values of the parameters is the value of the checksum field; (2) setting a field never changes a checksum field that has been set by hand, and calculates a checksum field that has not (from the bytes with zero in the checksum field) as soon as everything it depends on is known, without changing any other field; (3) after update_checksums every checksum field has the value the function gives for the new bytes, provided the function does not look at the checksum field; (4) parsing keeps the checksums of the input, so wrong checksums in received messages are detected.", "quantifier": "for all messages, states, registered checksum functions and inputs", "why_tests_cant": "Checksum functions are supplied by users; whether a checksum is recalculated depends on the order in which fields are set and on flags kept from earlier calculations. Tests use one message with one checksum and a few values.", "anchors": ["rflx/pyrflx/typevalue.py: MessageValue.set, _is_checksum_settable, update_checksums, _set_checksum, _calculate_checksum, _unchecked_bytestring, bytestring, valid_message, parse, Checksum"]}
{"id": "C56", "title": "A session is what its text says", "statement": "If create_session succeeds for the syntax tree of a session, the session has the name of the text in the package, exactly the written states in their order, each with the written transitions (targets and conditions, with the default transition last), exception transition, actions, variables and renamings with their types (Boolean and Opaque being predefined) and initial expressions, and the written channels with their modes, functions and private types; two declarations with the same name are rejected; the end names are equal to the names up to case; every name of a state in the text belongs to exactly one written state; and the session has passed the checks of C33 and C49. Every session of the text whose expressions are supported and whose names are not reserved words gets as far as these checks.", "quantifier": "for all syntax trees of sessions, packages and types", "why_tests_cant": "The number of states, statements and declarations and the nesting of expressions are unbounded; mistakes like swapped channel modes, dropped declarations, or a wrong order of transitions show up in specifications with several of each only. Tests contain a few sessions.", "anchors": ["rflx/specification/parser.py: create_transition, create_statement, create_state, create_unproven_session, create_session, create_variable_decl, create_renaming_decl, create_channel_decl, create_formal_function_decl, create_comprehension, create_conversion, create_message_aggregate, create_private_type_decl", "rflx/model/session.py: State.__init__, AbstractSession.__init__, UnprovenSession.proven"]}
{"id": "C57", "title": "Generated units fit together", "statement": "For every model, code generation succeeds and produces for each package a unit, for each array an instance of a sequence package, for each message with fields a generic package and an instance, for each derived message an instance of the generic package of its base, and for the refinements of a package a generic package and an instance. No two units, and no unit and library package, have the same name or file. Every unit that is named in a with clause is generated or part of the library, the parent package of every unit is generated, and the actual parameters of every instance correspond one to one, in order, to the distinctly named formal parameters of its generic package: each is an instance of the generic package the formal parameter requires, built on the same Types package.", "quantifier": "for all models (lists of scalar, array, message, derived message and refinement declarations in any order) and prefixes", "why_tests_cant": "The numbers of packages, types, fields and refinements are unbounded; collisions of names, missing with clauses and parameters in different order depend on combinations of declarations (an array used in two fields, two refinements of one package with common messages, derived messages in refinements). Tests compile the code for a few specifications.", "anchors": ["rflx/generator/generator.py: Generator.__generate, __create_unit, __create_instantiation_unit, __create_generic_message_unit, __create_message_unit, __create_generic_refinement_unit, __create_refinement_unit, __create_array_unit, generic_name, write_units, write_library_files, write_top_level_package", "rflx/ada.py: FormalPackageDeclaration, GenericPackageInstantiation, PackageUnit, InstantiationUnit, generic_formal_part", "rflx/generator/const.py", "rflx/cli.py: generate"]}
{"id": "C58", "title": "Generated refinements apply to the specified fields and switch to the message in the field", "statement": "For a refinement of field F of message Y by message X with a condition, the generated function X_In_Y_F returns, in every state of a context of Y that its operations can produce, a result without error, and it is true if and only if the context has a buffer, F is valid and not empty (empty if X has no fields), the fields that occur in the condition are valid, and the condition holds for their values. Switch_To_F succeeds if and only if moreover X has fields: then the context of Y has lost its buffer and is unchanged otherwise, and the context of X has the buffer, with exactly the bits of F, and no valid field; so parsing in it accepts if and only if these bits contain a message X, and yields its fields. The functions of different refinements have different names.", "quantifier": "for all messages, refinements with their conditions, buffers with their bounds, and sequences of operations on contexts", "why_tests_cant": "Conditions are expressions of any depth over any number of fields, which the generator rewrites into calls of getters and validity checks in a fixed order; whether a getter is called on a field that is not valid, whether a condition is evaluated on a stale value, or whether the bounds of the inner context are those of the field depends on the combination of condition, path and history. Tests generate code for a few refinements and compare the text.", "anchors": ["rflx/generator/generator.py: __create_generic_refinement_unit, __create_contains_function, __create_switch_procedure, contains_function_name, refinement_conditions", "rflx/expression.py: substituted, simplified, ada_expr, BinExpr.__contains__, AssExpr.__contains__", "rflx/model/message.py: Refinement", "rflx/generator/parser.py: Present, Valid, Get_X"]}
{"id": "C59", "title": "PyRFLX refinements: fields contain the messages their refinements name", "statement": "When the bytes of an opaque field are set or parsed, PyRFLX parses them as the message that a refinement of the field names if the condition of the refinement holds for the values of the other fields, and as plain bytes otherwise; if the bytes are no such message, an error is raised. Whenever get returns a nested message, at any depth, it is valid and its encoding is the bytes of the field. If a message with nested messages parses a byte string, then its encoding is the part of the byte string that its fields cover.", "quantifier": "for all sets of messages and refinements (including messages that contain themselves), all inputs, all histories of set and parse (with or without errors), all depths of nesting", "why_tests_cant": "Nesting is recursive and unbounded, conditions are re-evaluated on every set, and the value of a field and the nested message are stored separately in mutable attributes that survive failures and later assignments; tests parse a few captured packets once.", "anchors": ["rflx/pyrflx/typevalue.py: OpaqueValue.parse, OpaqueValue.nested_message, MessageValue.set, set_refinement, parse, get, bytestring, add_refinement, RefinementValue", "rflx/pyrflx/pyrflx.py: PyRFLX.__init__", "rflx/pyrflx/package.py: Package.__getitem__"]}
{"id": "C60", "title": "PyRFLX and generated code agree", "statement": "PyRFLX and the code generated for the same message specification accept the same byte strings: if PyRFLX parses a byte string as a message, then Verify_Message on a buffer with these bytes leads to Structural_Valid_Message, and conversely; both find the same fields, every field has the same position (counted from the beginning of the message), the same size, the same bits and, if it is a scalar, the same number, and no other field is valid.", "quantifier": "for all message specifications, byte strings, and positions of the message in the buffer", "why_tests_cant": "The two are separate implementations: PyRFLX simplifies symbolic expressions after substituting values, generated code evaluates Ada expressions over a buffer. Whether they agree depends on conditions and sizes of any shape, on paths, and on values; tests validate a few captured packets with one of the two.", "anchors": ["rflx/pyrflx/typevalue.py: MessageValue.parse, set, _next_field, __simplified, EnumValue.parse, OpaqueValue", "rflx/generator/parser.py: Verify, Verify_Message, Structural_Valid_Message", "rflx/generator/common.py: substitution", "rflx/expression.py: simplified, substituted, ada_expr"]}
{"id": "C61", "title": "An exported model can be read back", "statement": "rflx export writes a JSON document that describes the model completely: every type of the model is in the document, in order, under a kind that tells its class, with its name, its modulus, bounds and size, its literals with their values, its element type, its links with conditions, sizes and positions, and its fields with their types; a refinement with its messages, field and condition; and sessions. Two models with the same document are the same.", "quantifier": "for all models that can be created, of any size, with expressions of any shape", "why_tests_cant": "The document is produced by reflection over the attributes of every object, so it depends on every class of expressions and types; that no two models share a document is a statement about pairs of models. Tests compare one document with a stored one.", "anchors": ["rflx/common.py: Base.serialize", "rflx/identifier.py: ID.serialize", "rflx/model/type_.py: serialize of ModularInteger, RangeInteger, Enumeration, Array, Opaque", "rflx/model/message.py: AbstractMessage.serialize, Refinement.serialize", "rflx/model/model.py: Model", "rflx/model/session.py: AbstractSession.__init__"]}
{"id": "C62", "title": "A command does all of its work or reports all errors", "statement": "A command of rflx either ends with 0 and has written exactly its files, or it reports every error that was found (the missing files first, in order, then the errors of the parser, then the errors of the model) and has written nothing. Invalid prefixes (those with empty parts) and missing directories are rejected before any file is read. generate writes a specification for every unit, a body for every unit that has one, the library files unless they are not wanted, and the top-level package for the default prefix; graph writes a drawing of every message and session and a document with the place of each; export writes the document of the model; check writes nothing.", "quantifier": "for all commands and arguments, all file systems, all outcomes of parser, model and generator", "why_tests_cant": "The behaviour depends on which of the files exist, where errors occur and which files collide; the state of the file system after a failure is not looked at by tests, which run a handful of commands on valid specifications and a few missing files.", "anchors": ["rflx/cli.py: main, check, generate, parse, graph, export", "rflx/generator/generator.py: write_units, write_library_files, write_top_level_package", "rflx/graph.py: Graph.write"]}
{"id": "C63", "title": "A derived message has the structure of its base", "statement": "A message derived from a message B (type T is new B) has its own name and exactly the structure of B: the same fields with the same types, and links with the same ends, sizes and positions in the same order. A condition of a link has the same value in B and in T for all values of fields and literals, where literals of enumerations of the package of B, which B names without a package, are named with the package of B in T. Every accepted message that is not derived itself can be derived, including messages with checksums; a message derived from a derived message is rejected.", "quantifier": "for all base messages, all shapes of links and conditions, all answers of the solver, all values", "why_tests_cant": "Messages have any number of fields and links, conditions are expressions of any depth, and whether a name in a condition is a literal that has to be qualified depends on the types of all fields and their packages; tests derive messages with one or two conditions in one package.", "anchors": ["rflx/model/message.py:1280-1325 Message.proven, DerivedMessage", "rflx/model/message.py:1479-1549 UnprovenMessage.proven, UnprovenDerivedMessage", "rflx/specification/parser.py:980-1025 create_derived_message", "rflx/expression.py: substituted"]}
{"id": "C64", "title": "The text of an Ada statement does what the statement stands for", "statement": "Every statement object of rflx/ada.py (null, assignment, procedure call, pragma, return, if with any number of elsif branches, case) that is built from names of Ada, with names as targets of assignments, at least one argument per call, no empty branches and no empty lists of alternatives, has a text; the text is a statement of Ada, it can be read in one way only, and its effect is that of the object in every machine and every state: the same assignments and calls with the same variables and values in the same order, the same branch of an if statement, the same alternative of a case statement also where adjacent alternatives with equal statements have been joined, the same returned value. Statements in successive lines, at any indentation, are read as their sequence. Two statements with the same text never have different effects.", "quantifier": "for all statements of any depth, all machines (meanings of names, procedures, modes of parameters), all states", "why_tests_cant": "Statements nest to any depth and contain expressions of any depth, joined alternatives depend on the equality of lists of statements, and the effect of a statement depends on the state; tests compare the text of a few statements with expected text.", "anchors": ["rflx/ada.py:1287-1395 Statement and its subclasses", "rflx/common.py:59-64 indent, indent_next", "rflx/common.py:7-18 Base.__eq__"]}
{"id": "C65", "title": "Fields that are sequences of scalars are written and read element by element", "statement": "After any calls whose preconditions hold, for a message context and for a sequence it was switched to (Switch_To_X, Append_Element, Next, Get_Element, Take_Buffer, Update_X, Set_X with a sequence): a sequence field in the state S_Valid consists of valid elements of its type; if Valid_Message holds, the buffer contains a message all of whose sequences consist of one or more valid elements; the message and the sequence never both hold the buffer. Switch_To_X does not fail if its precondition holds and gives a valid empty sequence with the bounds of the field. Appending elements that fill the field and calling Update_X does not fail, and the field then has exactly these elements in this order while all other bits of the buffer stay the same. Reading a field that contains elements of its type gives exactly these elements and no more. Set_X copies the elements of a sequence in a buffer of its own.", "quantifier": "for all messages, buffers, positions, element types, numbers of elements, and sequences of calls", "why_tests_cant": "The state is spread over two contexts that pass a buffer back and forth, elements need not start at a byte, and what a later call finds depends on all calls before; tests switch to one sequence of one message and append a few elements.", "anchors": ["rflx/generator/generator.py:1767-1979 Switch_To_X", "rflx/generator/generator.py:1982-2029 Complete_X", "rflx/generator/generator.py:2032-2183 Update_X", "rflx/generator/generator.py:3044-3058 switch_update_conditions", "rflx/generator/serializer.py:460-550 Set_X for sequences", "rflx/templates/rflx_scalar_sequence.adb"]}
{"id": "C66", "title": "The text of an Ada declaration or unit declares what the object stands for", "statement": "Every declaration object of rflx/ada.py (use clauses, pragmas, objects, all kinds of types with discriminants, variant parts and numbered literals, subprograms with aspects, bodies, expression functions, instances, renamings, packages, package bodies, generic units) that is built from names of Ada and has at least one name, component or statement where Ada requires one, has a text; the text consists of declarations of Ada, it can be read in one way only, and it declares the same entities with the same names, types, modes, aspects, values and statements in the same order. The text of a unit is a compilation unit made of its context items and its package. Of equal declarations, formal parameters and context items only the first appears; if no two are equal all of them appear. Literals that all have numbers are declared in the order of their numbers.", "quantifier": "for all declarations of any number, nesting and depth, all expressions and statements in them, all context items", "why_tests_cant": "Declarations contain lists of any length of declarations, aspects, parameters, components, statements and expressions, and whether the text of one part runs into the next depends on both; tests compare the text of a few declarations with expected text.", "anchors": ["rflx/ada.py:722-1284 ContextItem, Aspect, Declaration and their subclasses", "rflx/ada.py:1398-1620 Parameter, SubprogramSpecification, Subprogram, Pragma", "rflx/ada.py:1655-1743 PackageUnit, InstantiationUnit, generic_formal_part, declarative_items, aspect_specification, context_clause", "rflx/common.py:78-83 unique"]}
{"id": "C67", "title": "Generated subprograms of message contexts keep their contracts", "statement": "After any calls whose preconditions hold, a call of a generated subprogram of a message context (Verify, Verify_Message, Reset, Set_X for scalar fields, Set_X_Empty, Initialize_X, Set_X for opaque fields, Take_Buffer) whose precondition holds does not fail and makes its postcondition true: the bounds of the buffer and of the message stay the same; after Set_X the field is valid (a scalar field has the value that was given), the message ends with it, later fields are invalid, fields in front have the values they had, and each field that a link with a true condition leads to can be set or verified next; after Reset the field and all later ones are invalid; Take_Buffer gives the buffer and keeps all cursors. Initialize makes its postcondition true exactly if the condition of the link to the first field holds.", "quantifier": "for all messages, buffers, bounds, arguments, and sequences of calls", "why_tests_cant": "Postconditions are claims of SPARK about every state reachable by any calls; they compare the states before and after a call and evaluate conditions of the message over public getters, while the body uses cursors; tests of generated code run with a few messages and tests of the generator compare text.", "anchors": ["rflx/generator/serializer.py:774-812 setter_postconditions, composite_setter_postconditions", "rflx/generator/serializer.py:177-225 Set_Field_Value", "rflx/generator/serializer.py:261-313 Set_X", "rflx/generator/generator.py:651-766 Initialize", "rflx/generator/generator.py:879-891 Take_Buffer", "rflx/generator/generator.py:1449-1522 Reset_Dependent_Fields", "rflx/generator/parser.py:279-288,392-399,484-499 Verify, Verify_Message, Valid", "rflx/generator/common.py:512-538 valid_path_to_next_field_condition", "rflx/model/message.py:274-280 definite_predecessors"]}
{"id": "C68", "title": "Accessors of a message context report what is in the buffer", "statement": "After any calls whose preconditions hold: every field is either Structural_Valid or Invalid, an Incomplete field is Invalid, and a Valid field is Structural_Valid and Present; for a scalar field of the message Valid, Present and Structural_Valid are the same, and a composite field is Present exactly if it is Structural_Valid and not empty. Get_X of a valid scalar field gives the value whose encoding is in the buffer at the position of the field; Get_X of a present opaque field gives the bytes of the buffer at the position of the field; Equal of a structurally valid opaque field holds exactly for these bytes. What was written with Set_X is what Get_X reads, immediately and after any further calls that only write later fields or verify fields. The generic setter gives the caller a slice of the length of the field, and the field then has the bytes the caller left in it.", "quantifier": "for all messages without First aspects that the model verification accepts, all buffers, positions, values, sequences of calls, procedures given to the generic setter", "why_tests_cant": "What a getter returns depends on the cursors and the buffer after an arbitrary history of calls, and positions and sizes depend on the values of other fields; tests read back a few fields of a few messages right after parsing or writing them.", "anchors": ["rflx/generator/parser.py:443-565 Structural_Valid, Present, Valid, Incomplete, Invalid", "rflx/generator/parser.py:633-760 Get_X", "rflx/generator/generator.py:1685-1765 Equal", "rflx/generator/serializer.py:636-724 Generic_Set_X", "rflx/generator/serializer.py:261-313,315-460 Set_X"]}
{"id": "C69", "title": "A field is incomplete exactly if the buffer ends before it does", "statement": "After Initialize with a buffer and Verify_Message, a field is Incomplete if and only if the fields in front of it in the message are in the buffer with valid values, a link to it has a true condition, and its size is larger than the number of bits that are left. Incomplete_Message holds if and only if there is such a field; then the buffer contains no message, and Structural_Valid_Message and Valid_Message are false.", "quantifier": "for all messages without First aspects that the model verification accepts, all buffers, all bounds", "why_tests_cant": "Whether a buffer is too short depends on the values of fields that determine sizes and presence of others, and the cut can be at any bit; tests cut a few messages at one position.", "anchors": ["rflx/generator/parser.py:77-290 Verify, Verify_Message", "rflx/generator/parser.py:523-540 Incomplete", "rflx/generator/parser.py:609-631 Incomplete_Message", "rflx/generator/generator.py: Sufficient_Buffer_Length"]}
{"id": "C70", "title": "PyRFLX arrays of messages: reading and writing is exact", "statement": "A new array of messages reads a bit string if and only if it is the concatenation of encodings of valid messages of the element type, of which only the last may contain a field that extends to the end of the input; its elements are then these messages in this order, and its encoding is the input. An input that does not have the expected size is rejected and the array keeps its value. A list is accepted as value if and only if its encoding has the expected size and all elements are valid messages of the element type. Messages that are assigned to an array are read back from the encoding of the array by another array, as the same messages in the same order.", "quantifier": "for all element messages, all inputs of any length, all lists of messages", "why_tests_cant": "Where an element ends depends on the values of its fields, inputs contain any number of elements, and the loop has no bound; tests read arrays of one or two messages into new objects.", "anchors": ["rflx/pyrflx/typevalue.py:397-498 ArrayValue", "rflx/pyrflx/typevalue.py:303-322 CompositeValue._check_size_of_assigned_value", "rflx/pyrflx/typevalue.py:684-747 MessageValue.parse"]}
{"id": "C71", "title": "Messages accepted by the model verification are handled correctly by the generated code", "statement": "If the constructor of messages accepts a message, then for every content of every buffer of whole bytes: of the conditions of the links of a field at most one holds when the fields in front have been read, no field has a negative size, and fields of type Opaque begin and end at byte boundaries. So the generated parser neither raises an exception nor has a choice for any input, and it accepts a buffer if and only if a message is in the buffer.", "quantifier": "for all messages that are accepted, all buffers of any length with any content", "why_tests_cant": "The verification works with a solver on formulas for all paths of a message, while generated code works on buffers; that the formulas say what the generated code needs concerns all messages and all buffers. Tests of the verification and tests of generated code use separate, fixed messages.", "anchors": ["rflx/model/message.py:602-654 Message.verify", "rflx/model/message.py:865-895 Message.__prove_conflicting_conditions", "rflx/model/message.py:1084-1183 Message.__prove_field_positions", "rflx/generator/parser.py ParserGenerator"]}
{"id": "C72", "title": "Every field of an accepted message can occur", "statement": "If the constructor of messages accepts a message with fields, then the links lead from every field to the end, and for every field there are values of the types of all fields, a sequence of links from the start to the field and a link that leaves it, such that all conditions are true and all fields of the sequence lie one after another within a message of whole bytes. In particular the message has an instance: there are values for which a sequence of links leads from the start to the end. (A single link need not be of use: links that can never be taken are accepted if another link of the field can be taken.)", "quantifier": "for all messages that are accepted, all fields", "why_tests_cant": "Whether a field can be reached depends on the conditions on all paths together with the sizes, positions and ranges of all fields; an inconsistency can involve any number of links. Tests of the verification use fixed messages and fixed error messages.", "anchors": ["rflx/model/message.py:896-951 Message.__prove_reachability", "rflx/model/message.py:953-993 Message.__prove_contradictions", "rflx/model/message.py:356-410 Message.type_constraints", "rflx/model/message.py:1253-1277 Message.__link_expression", "rflx/model/message.py:412-447 Message.__validate"]}
{"id": "C73", "title": "Checksums of accepted messages are checked and cover fields of the message", "statement": "If the constructor of messages accepts a message with checksums, then every checksum belongs to a field of the message; what it covers are fields, sizes of fields and ranges from the start of (or the end of) a field to the end of (or the start of) a field, where all fields exist and every message that contains the field at the end of the range contains the field at its start; and every message that contains the checksum field is accepted only under a condition that contains the check of the checksum.", "quantifier": "for all messages that are accepted, all checksums, all paths", "why_tests_cant": "That a range is meaningful on every path and that the check is not lost among the conditions concerns all combinations of links and nested conditions. Tests use a few messages with one checksum each.", "anchors": ["rflx/model/message.py:767-862 Message.__verify_checksums"]}
{"id": "C74", "title": "Overlaid fields occupy the same bits", "statement": "If the constructor of messages accepts a message in which a field starts where another field starts (First => X'First), then both fields occupy the same bits in all messages that contain them.", "quantifier": "for all messages that are accepted, all overlays, all values of fields", "why_tests_cant": "The position and size of both fields depend on the values of the fields in front; the claim concerns all values on all paths. Tests of the verification use overlays of fixed size.", "anchors": ["rflx/model/message.py:1060-1082 Message.__prove_overlays", "rflx/model/message.py:1235-1277 Message.__target_first, __target_last, __link_expression"]}
{"id": "C75", "title": "Aspects of accepted messages are complete and of the allowed form", "statement": "If the constructor of messages accepts a message, then the aspect Size is given on every link to a field of type Opaque or of an array type, and on no other link; the aspect First, where it is given, is the attribute First of something; and the attribute Size is used in conditions only for the message, for fields of the message and for types of fields.", "quantifier": "for all messages that are accepted, all links, all nested conditions", "why_tests_cant": "The generator and the verification rely on sizes being known for every field; that no combination of links, types and nested conditions escapes the checks concerns all messages. Tests use one message per error message.", "anchors": ["rflx/model/message.py:708-765 Message.__verify_expressions, __check_attributes, __check_first_expression, __check_size_expression", "rflx/model/type_.py:641-647 qualified_type_literals"]}
{"id": "C76", "title": "Checksums of a message are those of the specification", "statement": "If a specification defines checksums of a message (Checksum => (C => (A, B'Size, A'First .. B'Last), ...)), then the message has exactly these checksums, in order: each belongs to the field that is named, and the expressions it covers have, for all values of the fields, the values that the texts have. Definitions by fields, sizes of fields and ranges between fields never fail. No definition is lost.", "quantifier": "for all checksum aspects with any number of definitions and any expressions", "why_tests_cant": "The definitions pass through a dictionary with keys that ignore case and through the conversion of syntax trees; that none is lost or changed concerns all combinations of names and expressions. Tests use single definitions.", "anchors": ["rflx/specification/parser.py:957-977 create_message_aspects", "rflx/specification/parser.py:681-708 create_math_expression", "rflx/identifier.py:36-47 ID.__eq__, ID.__hash__"]}
{"id": "C77", "title": "Names in accepted specifications", "statement": "A specification passes the check of names exactly if its package does not start with RFLX, has the same name at its end, lies in the file called like the package in lower case with suffix .rflx, and declares no type that is a reserved word or called Boolean in any letter case. If parsing succeeds, this holds for all files that were read, also those read because of a with clause. Each declared type then has the identifier Package::Type, and generated units never have the names of the library.", "quantifier": "for all packages, file names and type declarations, and all sets of files", "why_tests_cant": "That the check covers all files and all letter cases, and that it suffices to keep declared types apart from predefined ones, concerns all names. Tests use single names.", "anchors": ["rflx/specification/parser.py:1145-1185 check_naming", "rflx/model/type_.py:602-624 is_internal_type, is_builtin_type, qualified_type_identifier", "rflx/generator/const.py:14-25 LIBRARY_FILES"]}
{"id": "C78", "title": "Messages by names in PyRFLX", "statement": "PyRFLX(model)[p][n] is the message of the model with the identifier p::n, spelled like this, and a KeyError is raised if there is none (also if only the letter case differs). Iteration yields each package once and all its messages, both in the order of the model. The object can be created exactly if the messages of all refinements are in the model. Setting checksum functions for a package changes exactly the named messages.", "quantifier": "for all models whose messages have distinct identifiers of two parts, all refinements, names and checksum functions", "why_tests_cant": "Packages are created when their first message is met and messages are stored in nested dictionaries with strings as keys, while identifiers ignore letter case; that no message is lost, replaced or found under another name concerns all orders of messages. Tests use single models.", "anchors": ["rflx/pyrflx/pyrflx.py:15-57 PyRFLX", "rflx/pyrflx/package.py:7-27 Package"]}
{"id": "C79", "title": "Declarations of scalar types do not clash", "statement": "For every scalar type of a package the generated Ada package declares the type, its literals, a base type and the functions Valid, To_Base and To_Actual, and no two declarations of the package clash: two declarations of the same name (without regard to letter case) are functions or literals that differ in their parameter types or result type.", "quantifier": "for all accepted models and all packages with any number of modular, range and enumeration types", "why_tests_cant": "Names of generated declarations are derived from names of types by suffixes and prefixes and share a package with names chosen by the user; whether two of them coincide depends on all combinations of names. Tests compile a few specifications.", "anchors": ["rflx/generator/generator.py:2425-2445 __create_type", "rflx/generator/generator.py:2505-2672 __integer_functions, __enumeration_functions", "rflx/generator/generator.py:2964-3041 modular_types, range_types, enumeration_types, unreachable_function_name", "rflx/generator/common.py:652-674 base_type_name, enum_name", "rflx/model/model.py:51-160 __check_duplicates, __check_conflicts"]}
{"id": "C80", "title": "Declarations for the fields of a message do not clash", "statement": "The package generated for a message declares, for each field, a literal, a getter and a setter, for opaque fields also a generic setter and an initialization procedure, for array fields also subprograms to switch to the sequence, to check and to update it. No two of these declarations, and none of them with any other declaration of the package, have the same name (without regard to letter case) unless Ada allows to overload them. This needs that no composite field is called Field_Value, which is accepted by the model.", "quantifier": "all lists of fields with different names, all kinds of field types, any names of fields", "why_tests_cant": "tests compile the code for a few messages; a clash depends on the names that users choose for fields", "anchors": ["rflx/generator/generator.py:276-393 __create_generic_message_unit", "rflx/generator/generator.py:1767-2183 __create_switch_procedures, __create_complete_functions, __create_update_procedures", "rflx/generator/parser.py:633-762 create_scalar_accessor_functions, create_composite_accessor_procedures", "rflx/generator/serializer.py:236-764 create_scalar_setter_procedures, create_composite_setter_empty_procedures, create_array_setter_procedures, create_opaque_setter_procedures", "rflx/specification/const.py:75-76"]}
