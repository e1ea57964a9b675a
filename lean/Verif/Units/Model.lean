import Verif.Common.Model
import Verif.Py.Basic

/-! # Generated units: `rflx/generator/generator.py:140-303, 2277-2503, 3022-3023`, `rflx/ada.py:938-976, 1000-1012, 1623-1725`

The compilation units that are generated for a model: their names, the units they name in `with` clauses, the formal parameters of generic packages
and the actual parameters of instances. Not modelled: the declarations in the packages, `use` clauses and pragmas, whether a package has a body.

Identifiers of types have two parts, so that `parent` and `name` never fail and `*` concatenates the parts (C38). Identifiers of specifications and of
Ada code differ in their separators only; both are compared without regard to case (`rflx/identifier.py:34-39`, `rflx/ada.py:15-18`). -/

namespace Verif.Units
open Verif

/-! ## Models -/

/-- Element types of arrays, `rflx/model/type_.py:482-484`. -/
inductive Element
  | scalar (id : ID)
  | message (id : ID)

/-- Types of fields. -/
inductive FieldType
  | scalar (id : ID)
  | opaque
  | array (id : ID) (element : Element)

/-- Messages: `types` are the types of the fields, `base` is the identifier of the base of a `DerivedMessage`. -/
structure Message where
  id : ID
  types : List FieldType
  base : Option ID

/-- Refinements, with the identifiers of the variables of the condition. -/
structure Refinement where
  package : ID
  pdu : Message
  sdu : Message
  names : List ID

/-- Types of a model. -/
inductive Decl
  | scalar (id : ID)
  | opaque
  | array (id : ID) (element : Element)
  | message (m : Message)
  | refinement (r : Refinement)

/-- `ID.parent`. -/
def parent (i : ID) : ID := ⟨i.parts.dropLast⟩

/-- `ID.name`. -/
def name (i : ID) : PyStr := i.parts.getLast?.getD []

/-- `INTERNAL_PACKAGE`, `rflx/const.py:4`. -/
def internal : ID := ⟨[['_', '_', 'I', 'N', 'T', 'E', 'R', 'N', 'A', 'L', '_', '_']]⟩

/-- `BUILTINS_PACKAGE`, `rflx/const.py:3`. -/
def builtins : ID := ⟨[['_', '_', 'B', 'U', 'I', 'L', 'T', 'I', 'N', 'S', '_', '_']]⟩

/-- `Type.package`, `rflx/model/type_.py:42-44`. -/
def FieldType.package : FieldType → ID
  | .scalar id => parent id
  | .opaque => internal
  | .array id _ => parent id

/-- `Type.package`, `rflx/model/type_.py:42-44`; the identifier of a refinement is in the package of the refinement
(`rflx/model/message.py:1496-1503`). -/
def Decl.package : Decl → ID
  | .scalar id => parent id
  | .opaque => internal
  | .array id _ => parent id
  | .message m => parent m.id
  | .refinement r => r.package

/-- `package in [BUILTINS_PACKAGE, INTERNAL_PACKAGE]`. -/
def predefined (package : ID) : Bool := package.eq builtins || package.eq internal

/-! ## Units -/

/-- `FormalPackageDeclaration`, `rflx/ada.py:938-951`; `restricted` for the associations `["Types", "others => <>"]` instead of none. -/
structure Formal where
  id : ID
  generic : ID
  restricted : Bool

/-- `FormalPackageDeclaration.__eq__`, `rflx/common.py:7-18`. -/
def Formal.eq (a b : Formal) : Bool := a.id.eq b.id && a.generic.eq b.generic && a.restricted == b.restricted

/-- `PackageUnit` (with formal parameters if it is generic) and `InstantiationUnit`, `rflx/ada.py:1645-1703`. -/
inductive Kind
  | package (formals : Option (List Formal))
  | instance (generic : ID) (actuals : List ID)

/-- A unit: identifier with prefix, `with` clauses and kind. -/
structure Unit where
  id : ID
  withs : List ID
  kind : Kind

/-- The formal parameters as they are printed: `unique(parameters)`, `rflx/ada.py:1720-1725`. The hash of a formal package is the one of its
identifier. -/
def Kind.printed (h : List PyStr → Int) : Kind → Option (List Formal)
  | .package (some fs) => some (unique (fun f : Formal => f.id.hash h) Formal.eq fs)
  | _ => none

/-- `self._units`. -/
abbrev Dict := List (ID × Unit)

/-- `self._units[k]`. -/
def Dict.get? (d : Dict) (k : ID) : Option Unit := (d.find? fun e => e.1.eq k).map (·.2)

/-- `self._units[k] = u`. -/
def Dict.set (d : Dict) (k : ID) (u : Unit) : Dict :=
  if d.any fun e => e.1.eq k then d.map fun e => if e.1.eq k then (e.1, u) else e else d ++ [(k, u)]

/-! ## Library -/

/-- `RFLX_Arithmetic`, `rflx/generator/const.py:6`. -/
def arithmetic : List PyStr := [['R', 'F', 'L', 'X', '_', 'A', 'r', 'i', 't', 'h', 'm', 'e', 't', 'i', 'c']]
/-- `RFLX_Builtin_Types`, `rflx/generator/const.py:8`. -/
def builtinTypes : List PyStr := [['R', 'F', 'L', 'X', '_', 'B', 'u', 'i', 'l', 't', 'i', 'n', '_', 'T', 'y', 'p', 'e', 's']]
/-- `RFLX_Builtin_Types.Conversions`, `rflx/generator/const.py:7`. -/
def conversions : List PyStr := builtinTypes ++ [['C', 'o', 'n', 'v', 'e', 'r', 's', 'i', 'o', 'n', 's']]
/-- `RFLX_Generic_Types`, `rflx/generator/const.py:9`. -/
def genericTypes : List PyStr := [['R', 'F', 'L', 'X', '_', 'G', 'e', 'n', 'e', 'r', 'i', 'c', '_', 'T', 'y', 'p', 'e', 's']]
/-- `RFLX_Message_Sequence`, `rflx/generator/const.py:10`. -/
def messageSequence : List PyStr := [['R', 'F', 'L', 'X', '_', 'M', 'e', 's', 's', 'a', 'g', 'e', '_', 'S', 'e', 'q', 'u', 'e', 'n', 'c', 'e']]
/-- `RFLX_Scalar_Sequence`, `rflx/generator/const.py:11`. -/
def scalarSequence : List PyStr := [['R', 'F', 'L', 'X', '_', 'S', 'c', 'a', 'l', 'a', 'r', '_', 'S', 'e', 'q', 'u', 'e', 'n', 'c', 'e']]
/-- `RFLX_Types`, `rflx/generator/const.py:12`. -/
def typesPackage : List PyStr := [['R', 'F', 'L', 'X', '_', 'T', 'y', 'p', 'e', 's']]

/-- `REFINEMENT_PACKAGE`, `rflx/generator/const.py:4`. -/
def contains : PyStr := ['C', 'o', 'n', 't', 'a', 'i', 'n', 's']

/-- `"Generic_"`. -/
def genericText : PyStr := ['G', 'e', 'n', 'e', 'r', 'i', 'c', '_']

/-- `generic_name`, `rflx/generator/generator.py:3022-3023`. -/
def genericName (i : ID) : ID := ⟨i.parts.dropLast ++ [genericText ++ name i]⟩

/-- `self.__prefix * identifier`. -/
def under (pre : List PyStr) (i : ID) : ID := ⟨pre ++ i.parts⟩

/-! ## Messages -/

/-- `name = const.MESSAGE_SEQUENCE_PACKAGE` or `const.SCALAR_SEQUENCE_PACKAGE`, `rflx/generator/generator.py:313-316`. -/
def Element.sequence : Element → List PyStr
  | .scalar _ => scalarSequence
  | .message _ => messageSequence

/-- The `with` clauses of a field type, `rflx/generator/generator.py:300-317`. -/
def fieldWiths (pre : List PyStr) (package : ID) (t : FieldType) : List ID :=
  if predefined t.package then []
  else match t with
    | .scalar id => if (parent id).eq package then [] else [under pre (parent id)]
    | .opaque => []
    | .array _ e => [⟨pre ++ e.sequence⟩]

/-- `"_Sequence"`. -/
def sequenceText : PyStr := ['_', 'S', 'e', 'q', 'u', 'e', 'n', 'c', 'e']

/-- The formal parameters for a field type, `rflx/generator/generator.py:300-324`. -/
def fieldFormals (pre : List PyStr) (t : FieldType) : List Formal :=
  if predefined t.package then []
  else match t with
    | .array id e => [⟨⟨[name id ++ sequenceText]⟩, ⟨pre ++ e.sequence⟩, true⟩]
    | _ => []

/-- `FormalPackageDeclaration("Types", self.__prefix * const.GENERIC_TYPES_PACKAGE)`. -/
def typesFormal (pre : List PyStr) : Formal := ⟨⟨[['T', 'y', 'p', 'e', 's']]⟩, ⟨pre ++ genericTypes⟩, false⟩

/-- The unit created by `__create_generic_message_unit`, `rflx/generator/generator.py:278-324`. -/
def genericMessage (pre : List PyStr) (m : Message) : Unit where
  id := under pre (genericName m.id)
  withs := (if m.types.any fun t => t.package.eq builtins then [⟨pre ++ builtinTypes⟩, ⟨pre ++ conversions⟩] else []) ++
    [⟨pre ++ genericTypes⟩] ++ m.types.flatMap (fieldWiths pre (parent m.id))
  kind := .package (some (typesFormal pre :: m.types.flatMap (fieldFormals pre)))

/-- The keys of a dictionary of identifiers. -/
def keys : List ID → List ID → List ID
  | r, [] => r
  | r, i :: l => keys (if r.any fun j => j.eq i then r else r ++ [i]) l

/-- The identifiers of the arrays of a message, `rflx/generator/generator.py:2289-2293`. -/
def arrays (pre : List PyStr) (m : Message) : List ID :=
  keys [] (m.types.filterMap fun
    | .array id _ => some (under pre id)
    | _ => none)

/-- The unit created by `__create_message_unit`, `rflx/generator/generator.py:2277-2301`. -/
def messageInstance (pre : List PyStr) (m : Message) : Unit where
  id := under pre m.id
  withs := [genericName (under pre (m.base.getD m.id)), ⟨pre ++ typesPackage⟩] ++ arrays pre m
  kind := .instance (genericName (under pre (m.base.getD m.id))) (⟨pre ++ typesPackage⟩ :: arrays pre m)

/-- `__create_message` and `__create_derived_message`, `rflx/generator/generator.py:226-234`. -/
def createMessage (pre : List PyStr) (d : Dict) (m : Message) : Dict :=
  match m.base with
  | some _ => d.set m.id (messageInstance pre m)
  | none =>
    if m.types.isEmpty then d else (d.set (genericName m.id) (genericMessage pre m)).set m.id (messageInstance pre m)

/-! ## Arrays -/

/-- `self.__prefix * element_type_identifier * s`. -/
def sub (i : ID) (s : PyStr) : ID := ⟨i.parts ++ [s]⟩

/-- The unit created by `__create_array_unit`, `rflx/generator/generator.py:2447-2503`. Whether the base type of a scalar element is the type itself
does not matter here. -/
def arrayInstance (pre : List PyStr) (id : ID) : Element → Unit
  | .message e =>
    { id := under pre id
      withs := [⟨pre ++ messageSequence⟩, under pre e, ⟨pre ++ typesPackage⟩]
      kind := .instance ⟨pre ++ messageSequence⟩ [⟨pre ++ typesPackage⟩, sub (under pre e) ['C', 'o', 'n', 't', 'e', 'x', 't'],
        sub (under pre e) ['I', 'n', 'i', 't', 'i', 'a', 'l', 'i', 'z', 'e'],
        sub (under pre e) ['T', 'a', 'k', 'e', '_', 'B', 'u', 'f', 'f', 'e', 'r'],
        sub (under pre e) ['H', 'a', 's', '_', 'B', 'u', 'f', 'f', 'e', 'r'],
        sub (under pre e) ['M', 'e', 's', 's', 'a', 'g', 'e', '_', 'L', 'a', 's', 't'],
        sub (under pre e) ['I', 'n', 'i', 't', 'i', 'a', 'l', 'i', 'z', 'e', 'd'],
        sub (under pre e) (['S', 't', 'r', 'u', 'c', 't', 'u', 'r', 'a', 'l', '_', 'V', 'a', 'l', 'i', 'd', '_'] ++ ['M', 'e', 's', 's', 'a', 'g', 'e'])] }
  | .scalar e =>
    { id := under pre id
      withs := [⟨pre ++ scalarSequence⟩, under pre ⟨[name (parent e)]⟩, ⟨pre ++ typesPackage⟩]
      kind := .instance ⟨pre ++ scalarSequence⟩ [⟨pre ++ typesPackage⟩, under pre e,
        sub (under pre ⟨[name (parent e)]⟩) (name e ++ ['_', 'B', 'a', 's', 'e']), sub (under pre ⟨[name (parent e)]⟩) ['V', 'a', 'l', 'i', 'd'],
        sub (under pre ⟨[name (parent e)]⟩) ['T', 'o', '_', 'A', 'c', 't', 'u', 'a', 'l'],
        sub (under pre ⟨[name (parent e)]⟩) ['T', 'o', '_', 'B', 'a', 's', 'e']] }

/-! ## Refinements -/

/-- The identifier of the generic unit of a message. -/
def Message.generic (pre : List PyStr) (m : Message) : ID := under pre (genericName (m.base.getD m.id))

/-- `FormalPackageDeclaration(flat_name(message.full_name), generic_identifier, ["Types", "others => <>"])`. -/
def messageFormal (pre : List PyStr) (m : Message) : Formal := ⟨⟨[flatName m.id.str]⟩, m.generic pre, true⟩

/-- The `with` clauses for a refinement, `rflx/generator/generator.py:2321-2373`. -/
def refinementWiths (pre : List PyStr) (r : Refinement) : List ID :=
  (r.names.flatMap fun v => if v.parts.length = 2 ∧ (parent v).eq r.package = false then [under pre (parent v)] else []) ++
    (if (parent r.pdu.id).eq r.package then [] else [under pre (parent (r.pdu.base.getD r.pdu.id))]) ++ [r.pdu.generic pre] ++
    if r.sdu.types.isEmpty then [] else [r.sdu.generic pre]

/-- The formal parameters for a refinement, `rflx/generator/generator.py:2358-2381`. -/
def refinementFormals (pre : List PyStr) (r : Refinement) : List Formal :=
  messageFormal pre r.pdu :: if r.sdu.types.isEmpty then [] else [messageFormal pre r.sdu]

/-- The key of the unit of the refinements of a package. -/
def containsUnit (package : ID) : ID := ⟨package.parts ++ [contains]⟩

/-- `__create_generic_refinement_unit`, `rflx/generator/generator.py:2303-2388`. -/
def createGenericRefinement (pre : List PyStr) (d : Dict) (r : Refinement) : Py Dict :=
  let k := genericName (containsUnit r.package)
  let u := (d.get? k).getD ⟨under pre k, [⟨pre ++ genericTypes⟩], .package (some [typesFormal pre])⟩
  match u.kind with
  | .package (some fs) =>
    .ok (d.set k ⟨u.id, u.withs ++ refinementWiths pre r, .package (some (fs ++ refinementFormals pre r))⟩)
  | _ => .error .assertion

/-- `if identifier not in unit.declaration.associations: unit.context.append(...); unit.declaration.associations.append(identifier)`,
`rflx/generator/generator.py:2413-2423`. -/
def associate (x : List ID × List ID) (i : ID) : List ID × List ID :=
  if x.2.any fun j => j.eq i then x else (x.1 ++ [i], x.2 ++ [i])

/-- `__create_refinement_unit`, `rflx/generator/generator.py:2390-2423`. -/
def createRefinementInstance (pre : List PyStr) (d : Dict) (r : Refinement) : Py Dict :=
  let k := containsUnit r.package
  let g := under pre (genericName k)
  let u := (d.get? k).getD ⟨under pre k, [⟨pre ++ typesPackage⟩, g], .instance g [⟨pre ++ typesPackage⟩]⟩
  match u.kind with
  | .instance g as =>
    let x := associate (u.withs, as) (under pre r.pdu.id)
    let x := if r.sdu.types.isEmpty then x else associate x (under pre r.sdu.id)
    .ok (d.set k ⟨u.id, x.1, .instance g x.2⟩)
  | _ => .error .assertion

/-- `__create_refinement`, `rflx/generator/generator.py:222-224`. -/
def createRefinement (pre : List PyStr) (d : Dict) (r : Refinement) : Py Dict :=
  (createGenericRefinement pre d r).bind fun d => createRefinementInstance pre d r

/-! ## All units -/

/-- The unit of a package, `rflx/generator/generator.py:197-198`. -/
def packageUnit (pre : List PyStr) (package : ID) : Unit := ⟨under pre package, [], .package none⟩

/-- One iteration of the loop in `__generate`, `rflx/generator/generator.py:193-220`. The unit of an array is stored under its full name (2503),
other units are stored without prefix. -/
def step (pre : List PyStr) (d : Dict) (t : Decl) : Py Dict :=
  if predefined t.package then .ok d
  else
    let d := if (d.get? t.package).isSome then d else d.set t.package (packageUnit pre t.package)
    match t with
    | .scalar _ => .ok d
    | .opaque => .ok d
    | .array id e => .ok (d.set (under pre id) (arrayInstance pre id e))
    | .message m => .ok (createMessage pre d m)
    | .refinement r => createRefinement pre d r

/-- `__generate`, `rflx/generator/generator.py:192-220`. -/
def generate (pre : List PyStr) : Dict → List Decl → Py Dict
  | d, [] => .ok d
  | d, t :: ts => (step pre d t).bind fun d => generate pre d ts

/-! ## Files -/

/-- `".".join(parts)`: the text of an identifier of Ada code, `rflx/identifier.py:52-53`, `rflx/ada.py:15-18`. -/
def dotted : List PyStr → PyStr
  | [] => []
  | [p] => p
  | p :: ps => p ++ '.' :: dotted ps

/-- `file_name(str(identifier))`, `rflx/ada.py:1678-1680,1701-1703`. -/
def unitFile (i : ID) : PyStr := fileName (dotted i.parts)

/-- A package of the library: name, `with` clauses of its template and number of formal parameters if it is generic. -/
structure Template where
  name : List PyStr
  withs : List (List PyStr)
  formals : Option Nat

/-- The packages of the library, `rflx/generator/const.py:14-25`, `rflx/templates/*.ads`. -/
def library : List Template :=
  [⟨arithmetic, [], none⟩, ⟨conversions, [], none⟩, ⟨builtinTypes, [], none⟩, ⟨genericTypes, [arithmetic], some 6⟩,
    ⟨messageSequence, [genericTypes], some 8⟩, ⟨scalarSequence, [genericTypes], some 6⟩, ⟨typesPackage, [genericTypes, builtinTypes], none⟩]

/-- The names of the specification files (without `.ads`) in the order they are written: `write_units`, `write_library_files` and
`write_top_level_package` (the latter for the default prefix, `rflx/cli.py:115-119`), `rflx/generator/generator.py:156-190`. -/
def files (pre : List PyStr) (d : Dict) (topLevel : Bool) : List PyStr :=
  d.map (fun e => unitFile e.2.id) ++
    library.map (fun p => fileName (if pre.isEmpty then [] else dotted pre ++ ['.']) ++ fileName (dotted p.name)) ++
    if topLevel && !pre.isEmpty then [fileName (dotted pre)] else []

end Verif.Units
