import Verif.Common.Model

/-! # Names declared in the package of a message: `__create_generic_message_unit` (`rflx/generator/generator.py:276-393`)

Only names, parameter types and result types of the declarations are modelled, as in `DeclNames`. The prefix of packages is left out in names of types.
Declarations in the public part, the private part and the body belong to the same declarative region (Ada RM 8.1), so they are kept in one list. -/

namespace Verif.Generator.FieldNames
open Verif

/-- The types of fields: a scalar type with the names used by the getter and the setter (`rflx/generator/parser.py:634-642`,
`rflx/generator/serializer.py:239-250`), an opaque field, or an array type with its name. -/
inductive Kind
  | scalar (getType setType : PyStr)
  | opaqueBytes
  | array (type : PyStr)

/-- A field: its name, its type and the result of `is_possibly_empty` (`rflx/model/message.py:641-653`), which is false for a scalar field. -/
structure Field where
  name : PyStr
  kind : Kind
  possiblyEmpty : Bool

/-- A subprogram or enumeration literal; a generic subprogram has formal parameters of its own. -/
structure Sub where
  name : PyStr
  isGeneric : Bool
  parameters : List PyStr
  result : Option PyStr
  deriving DecidableEq

/-- The text of a name. -/
abbrev txt (s : String) : PyStr := s.toList

/-- `common.sequence_name(message, field).Context`, `rflx/generator/common.py:677-678`. -/
def sequenceContext (type : PyStr) : PyStr := type ++ txt "_Sequence.Context"

/-- `F_…`, `__create_field_type`, `rflx/generator/generator.py:419-433`, `rflx/model/message.py:41-42`. -/
def enumerator (f : Field) : Option Sub := some ⟨txt "F_" ++ f.name, false, [], some (txt "Virtual_Field")⟩

/-- `create_scalar_accessor_functions`, `rflx/generator/parser.py:633-676`. -/
def scalarGetter (f : Field) : Option Sub :=
  match f.kind with
  | .scalar t _ => some ⟨txt "Get_" ++ f.name, false, [txt "Context"], some t⟩
  | _ => none

/-- `create_composite_accessor_procedures`, `rflx/generator/parser.py:678-762`: a generic procedure with `Process_…` as formal parameter. -/
def compositeGetter (f : Field) : Option Sub :=
  match f.kind with
  | .scalar _ _ => none
  | _ => some ⟨txt "Get_" ++ f.name, true, [txt "Context"], none⟩

/-- `create_scalar_setter_procedures`, `rflx/generator/serializer.py:236-389`. -/
def scalarSetter (f : Field) : Option Sub :=
  match f.kind with
  | .scalar _ t => some ⟨txt "Set_" ++ f.name, false, [txt "Context", t], none⟩
  | _ => none

/-- `create_composite_setter_empty_procedures`, `rflx/generator/serializer.py:391-458`. -/
def emptySetter (f : Field) : Option Sub :=
  if f.possiblyEmpty then some ⟨txt "Set_" ++ (f.name ++ txt "_Empty"), false, [txt "Context"], none⟩ else none

/-- `create_array_setter_procedures`, `rflx/generator/serializer.py:460-550`. -/
def arraySetter (f : Field) : Option Sub :=
  match f.kind with
  | .array t => some ⟨txt "Set_" ++ f.name, false, [txt "Context", sequenceContext t], none⟩
  | _ => none

/-- `create_opaque_setter_procedures`, `rflx/generator/serializer.py:552-633`. -/
def opaqueSetter (f : Field) : Option Sub :=
  match f.kind with
  | .opaqueBytes => some ⟨txt "Set_" ++ f.name, false, [txt "Context", txt "Types.Bytes"], none⟩
  | _ => none

/-- `create_generic_opaque_setter_procedures`, `rflx/generator/serializer.py:635-725`: a generic procedure. -/
def genericSetter (f : Field) : Option Sub :=
  match f.kind with
  | .opaqueBytes => some ⟨txt "Generic_Set_" ++ f.name, true, [txt "Context"], none⟩
  | _ => none

/-- `create_composite_initialize_procedures`, `rflx/generator/serializer.py:727-764`: only for opaque fields. -/
def initializer (f : Field) : Option Sub :=
  match f.kind with
  | .opaqueBytes => some ⟨txt "Initialize_" ++ f.name, false, [txt "Context"], none⟩
  | _ => none

/-- `__create_switch_procedures`, `rflx/generator/generator.py:1767-1979`. -/
def switch (f : Field) : Option Sub :=
  match f.kind with
  | .array t => some ⟨txt "Switch_To_" ++ f.name, false, [txt "Context", sequenceContext t], none⟩
  | _ => none

/-- `__create_complete_functions`, `rflx/generator/generator.py:1981-2029`. -/
def complete (f : Field) : Option Sub :=
  match f.kind with
  | .array t => some ⟨txt "Complete_" ++ f.name, false, [txt "Context", sequenceContext t], some (txt "Boolean")⟩
  | _ => none

/-- `__create_update_procedures`, `rflx/generator/generator.py:2031-2183`. -/
def update (f : Field) : Option Sub :=
  match f.kind with
  | .array t => some ⟨txt "Update_" ++ f.name, false, [txt "Context", sequenceContext t], none⟩
  | _ => none

/-- The parts of the package that depend on fields. -/
inductive Part
  | enumerator | scalarGetter | compositeGetter | scalarSetter | emptySetter | arraySetter | opaqueSetter | genericSetter | initializer
  | switch | complete | update
  deriving DecidableEq

/-- The function that creates the declaration for a field, see `rflx/generator/generator.py:337-391`. -/
def Part.create : Part → Field → Option Sub
  | .enumerator => FieldNames.enumerator
  | .scalarGetter => FieldNames.scalarGetter
  | .compositeGetter => FieldNames.compositeGetter
  | .scalarSetter => FieldNames.scalarSetter
  | .emptySetter => FieldNames.emptySetter
  | .arraySetter => FieldNames.arraySetter
  | .opaqueSetter => FieldNames.opaqueSetter
  | .genericSetter => FieldNames.genericSetter
  | .initializer => FieldNames.initializer
  | .switch => FieldNames.switch
  | .complete => FieldNames.complete
  | .update => FieldNames.update

/-- The order in which parts are added, `rflx/generator/generator.py:337-391`. -/
def parts : List Part :=
  [.enumerator, .scalarGetter, .compositeGetter, .scalarSetter, .emptySetter, .arraySetter, .opaqueSetter, .genericSetter, .initializer, .switch,
    .complete, .update]

/-- The declarations for the fields of a message. -/
def fieldDeclarations (fs : List Field) : List Sub := parts.flatMap fun p => fs.filterMap p.create

/-- The declarations of every package whose names look like those for a field: the literals for the initial and the final field
(`rflx/generator/generator.py:422-424`), `Get_Field_Value` (`rflx/generator/parser.py:118-123`) and `Set_Field_Value`
(`rflx/generator/serializer.py:88-96`). -/
def internals : List Sub :=
  [⟨txt "F_Initial", false, [], some (txt "Virtual_Field")⟩, ⟨txt "F_Final", false, [], some (txt "Virtual_Field")⟩,
    ⟨txt "Get_Field_Value", false, [txt "Context", txt "Field"], some (txt "Field_Dependent_Value")⟩,
    ⟨txt "Set_Field_Value", false, [txt "Context", txt "Field_Dependent_Value", txt "Types.Bit_Index", txt "Types.Bit_Index"], none⟩]

/-- The names of all other declarations, which are the same for all messages (`Equal` is left out without composite fields): types
(`rflx/generator/generator.py:419-650`), subprograms (`rflx/generator/generator.py:459-2275`, `rflx/generator/parser.py:105-612`). -/
def fixedNames : List PyStr :=
  ["Virtual_Field", "Field", "Cursor_State", "S_Valid", "S_Structural_Valid", "S_Invalid", "S_Incomplete", "Field_Cursor", "Field_Cursors", "Context",
    "Field_Dependent_Value", "Valid_Value", "Structural_Valid", "Valid", "Invalid", "Valid_Context", "Initialize", "Initialized", "Take_Buffer", "Has_Buffer",
    "Message_Last", "Path_Condition", "Field_Condition", "Field_Size", "Field_First", "Field_Last", "Predecessor", "Successor", "Valid_Predecessor",
    "Invalid_Successor", "Valid_Next", "Available_Space", "Sufficient_Buffer_Length", "Equal", "Reset_Dependent_Fields", "Composite_Field", "Verify",
    "Verify_Message", "Present", "Incomplete", "Structural_Valid_Message", "Valid_Message", "Incomplete_Message", "Context_Cursor",
    "Context_Cursors"].map txt

/-- The declarations for a message whose names start like those for a field. -/
def messageDeclarations (fs : List Field) : List Sub := internals ++ fieldDeclarations fs

end Verif.Generator.FieldNames
