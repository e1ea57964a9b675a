import Verif.SpecParser.Tree
import Verif.SpecParser.Structure
import Verif.Types.Model
import Verif.ModelPkg.Model

/-! # Types from specifications: `rflx/specification/parser.py:264-286, 711-811, 980-1143, 1196-1204, 1320-1334, 1342-1391`,
`rflx/model/type_.py:477-506, 576-638`, `rflx/model/message.py:1551-1619`

The syntax trees have the data the functions read. Errors are collected by the code and raised at the end; here the first error is raised, so
that a model is created by one exactly if it is created by the other, but not necessarily with the same error. Not modelled: locations, log
messages. Checksum aspects are in `SpecParser/Checksums`. The construction of a message from its links and types, and of a session, are parameters (`Backend`). -/

namespace Verif.SpecParser
open Verif Verif.Types

/-! ## Syntax trees -/

/-- `Aspect`: a name and a value. The grammar admits aspects without value. -/
structure AspectNode where
  name : PyStr
  value : Option Tree

/-- `ThenNode`: the target (`none` for `null`), condition and aspects. -/
structure ThenTree where
  target : Option PyStr
  condition : Option Tree
  aspects : List AspectNode

/-- A component of a message type. -/
structure ComponentTree where
  name : PyStr
  type : IdNode
  condition : Option Tree
  aspects : List AspectNode
  thens : List ThenTree

/-- The definitions of types; the constructors are the kinds of `f_definition` (and of `f_elements` for enumerations). -/
inductive TypeDef
  | array (element : IdNode)
  | modular (mod : Tree)
  | range (first last : Tree) (aspect : AspectNode)
  | named (elements : List (PyStr × Tree)) (aspects : List AspectNode)
  | positional (elements : List PyStr) (aspects : List AspectNode)
  | message (initial : Option ThenTree) (components : List ComponentTree)
  | nullMessage
  | derived (base : IdNode)

/-- The declarations of a package. `S` stands for the syntax trees of sessions. -/
inductive DeclTree (S : Type)
  | type (name : PyStr) (d : TypeDef)
  | refinement (pdu : IdNode) (field : PyStr) (sdu : IdNode) (condition : Option Tree)
  | session (s : S)

/-- A package. -/
structure PackageTree (S : Type) where
  name : PyStr
  decls : List (DeclTree S)

/-! ## Types -/

/-- The types of a model. A message has the identifier given to its constructor. -/
inductive MTy (M : Type)
  | modular (t : ModInt)
  | range (t : RangeInt)
  | enum (t : Enum)
  | array (id : ID) (element : MTy M)
  | opaqueType
  | message (id : ID) (m : M)
  | refinement (id pdu field sdu : ID) (condition : Expr)

/-- `const.BUILTINS_PACKAGE`, `rflx/const.py:3`. -/
def builtinsName : PyStr := ['_', '_', 'B', 'U', 'I', 'L', 'T', 'I', 'N', 'S', '_', '_']
/-- `const.INTERNAL_PACKAGE`, `rflx/const.py:4`. -/
def internalName : PyStr := ['_', '_', 'I', 'N', 'T', 'E', 'R', 'N', 'A', 'L', '_', '_']
/-- The text `Boolean`. -/
def booleanText : PyStr := ['B', 'o', 'o', 'l', 'e', 'a', 'n']
/-- The text `Opaque`. -/
def opaqueText : PyStr := ['O', 'p', 'a', 'q', 'u', 'e']

/-- `BOOLEAN`, `rflx/model/type_.py:584-593`. -/
def BOOLEAN : Enum :=
  ⟨⟨[builtinsName, booleanText]⟩, [(⟨[['F', 'a', 'l', 's', 'e']]⟩, 0), (⟨[['T', 'r', 'u', 'e']]⟩, 1)], .n 1, false⟩

variable {M S : Type}

/-- `Type.identifier`, `rflx/model/type_.py:15-30`. -/
def MTy.identifier : MTy M → ID
  | .modular t => t.id
  | .range t => t.id
  | .enum t => t.id
  | .array id _ => id
  | .opaqueType => ⟨[internalName, opaqueText]⟩
  | .message id _ => id
  | .refinement id _ _ _ _ => id

/-- `is_internal_type`, `rflx/model/type_.py:602-605`. -/
def isInternal (i : ID) : Bool := i.eq ⟨[internalName, opaqueText]⟩ || i.eq ⟨[opaqueText]⟩

/-- `is_builtin_type`, `rflx/model/type_.py:608-611`. -/
def isBuiltin (i : ID) : Bool := i.eq ⟨[builtinsName, booleanText]⟩ || i.eq ⟨[booleanText]⟩

/-- `qualified_type_identifier`, `rflx/model/type_.py:614-624`. -/
def qualifiedType (identifier package : ID) : Py ID :=
  if isBuiltin identifier then do ID.mul ⟨[builtinsName]⟩ (← identifier.name)
  else if isInternal identifier then do ID.mul ⟨[internalName]⟩ (← identifier.name)
  else if identifier.parts.length == 1 then package.mul identifier
  else .ok identifier

/-- What the parser uses from messages and sessions. -/
structure Backend (M S : Type) where
  /-- `UnprovenMessage(identifier, structure, types, …).merged()` and `create_proven_message`, `rflx/specification/parser.py:778-786, 1095-1104`. -/
  message : ID → List Graph.Link → List (ID × MTy M) → Py M
  /-- `Message(identifier, [], {})`, `rflx/specification/parser.py:751-759`. -/
  null : ID → Py M
  /-- `UnprovenDerivedMessage(identifier, base).merged()` and `create_proven_message`, `rflx/specification/parser.py:1018-1025`. -/
  derived : ID → M → Py M
  /-- `bool(message.structure)`, `rflx/model/type_.py:483`. -/
  nonNull : M → Bool
  /-- `message.types`, `rflx/model/message.py:235-238`. -/
  types : M → List (ID × MTy M)
  /-- `create_session`, `rflx/specification/parser.py:230-236`: the identifier of the session. -/
  session : ID → S → List (MTy M) → Py ID

/-! ## Scalars -/

/-- `create_modular`, `rflx/specification/parser.py:711-723`. -/
def createModular (identifier : ID) (mod : Tree) : Py (MTy M) := do
  let e ← create .math mod
  return .modular (← ModInt.new identifier e)

/-- The value of an aspect, which the functions access without check: without value `kind_name` of `None` raises an `AttributeError`. -/
def AspectNode.tree (a : AspectNode) : Py Tree :=
  match a.value with
  | some t => .ok t
  | none => .error .attributeError

/-- `create_range`, `rflx/specification/parser.py:726-748`. -/
def createRange (identifier : ID) (first last : Tree) (aspect : AspectNode) : Py (MTy M) := do
  if aspect.name ≠ ['S', 'i', 'z', 'e'] then .error .recordFlux
  else
    let s ← create .math (← aspect.tree)
    let f ← create .math first
    let l ← create .math last
    return .range (← RangeInt.new identifier f l s)

/-- The loop of `create_aspects`, `rflx/specification/parser.py:1042-1060`: size and `always_valid`. -/
def enumAspects : List AspectNode → Option Expr × Bool → Py (Option Expr × Bool)
  | [], r => .ok r
  | a :: as, (size, av) =>
    if a.name = ['S', 'i', 'z', 'e'] then do
      let e ← create .math (← a.tree)
      enumAspects as (some e, av)
    else if a.name = ['A', 'l', 'w', 'a', 'y', 's', '_', 'V', 'a', 'l', 'i', 'd'] then
      match a.value with
      | none => enumAspects as (size, true)
      | some t => do
        let e ← create .bool t
        if e.eq (.var false false ⟨[['T', 'r', 'u', 'e']]⟩) then enumAspects as (size, true)
        else if e.eq (.var false false ⟨[['F', 'a', 'l', 's', 'e']]⟩) then enumAspects as (size, false)
        else .error .recordFlux
    else enumAspects as (size, av)

/-- `NamedEnumerationDef`, `rflx/specification/parser.py:1072-1077`. -/
def namedLiterals : List (PyStr × Tree) → Py (List (StrID × Int))
  | [] => .ok []
  | (n, t) :: es => do
    let i ← createId (.unqualified n)
    match ← create .math t with
    | .num v _ => return (.id i, v) :: (← namedLiterals es)
    | _ => .error .assertion

/-- `PositionalEnumerationDef`, `rflx/specification/parser.py:1078-1082`, with the number of the first element. -/
def positionalLiterals : Nat → List PyStr → Py (List (StrID × Int))
  | _, [] => .ok []
  | k, n :: es => do
    let i ← createId (.unqualified n)
    return (.id i, (k : Int)) :: (← positionalLiterals (k + 1) es)

/-- The end of `create_enumeration`, `rflx/specification/parser.py:1061-1070, 1088-1092`. An expression is always true, so that `not size`
means that there is none. -/
def createEnumeration (identifier : ID) (literals : List (StrID × Int)) (aspects : List AspectNode) : Py (MTy M) := do
  let (size, av) ← enumAspects aspects (none, false)
  match size with
  | none => .error .recordFlux
  | some size => return .enum (← Enum.new identifier literals size av)

/-! ## Arrays -/

/-- `Scalar` and its size, `rflx/model/type_.py:48-58`. -/
def MTy.scalarSize? : MTy M → Option (Py Num)
  | .modular t => some (scalarSize t.size)
  | .range t => some (scalarSize t.size)
  | .enum t => some (scalarSize t.size)
  | _ => none

/-- `Array.__init__`, `rflx/model/type_.py:478-513`. -/
def newArray (B : Backend M S) (identifier : ID) (element : MTy M) : Py (MTy M) :=
  match element.scalarSize?, element with
  | some s, _ => do
    if badId identifier || (← s).v % 8 != 0 then .error .recordFlux else return .array identifier element
  | none, .message _ m =>
    if badId identifier || !B.nonNull m then .error .recordFlux else .ok (.array identifier element)
  | none, _ => .error .recordFlux

/-- `next(t for t in types if identifier == t.identifier)`, `rflx/specification/parser.py:277`. -/
def lookup (types : List (MTy M)) (i : ID) : Option (MTy M) := types.find? fun t => i.eq t.identifier

/-- `create_array`, `rflx/specification/parser.py:264-286`. -/
def createArray (B : Backend M S) (types : List (MTy M)) (identifier : ID) (element : IdNode) : Py (MTy M) := do
  let e ← qualifiedType (← createId element) (← identifier.parent)
  match lookup types e with
  | none => .error .recordFlux
  | some t => newArray B identifier t

/-! ## Messages -/

/-- `field_types[field] = type`, `rflx/specification/parser.py:810`: a dictionary with identifiers as keys. -/
def setField (d : List (ID × MTy M)) (f : ID) (t : MTy M) : List (ID × MTy M) :=
  match d with
  | [] => [(f, t)]
  | (g, u) :: d => if g.eq f then (g, t) :: d else (g, u) :: setField d f t

/-- The loop of `create_message_types`, `rflx/specification/parser.py:803-812`. -/
def fieldTypes (types : List (MTy M)) (package : ID) : List ComponentTree → List (ID × MTy M) → Py (List (ID × MTy M))
  | [], d => .ok d
  | c :: cs, d => do
    let i ← qualifiedType (← createId c.type) package
    match types.find? fun t => t.identifier.eq i with
    | some t => do
      let f ← createId (.unqualified c.name)
      fieldTypes types package cs (setField d f t)
    | none => fieldTypes types package cs d

/-- `create_bool_expression(condition) if condition else TRUE` without the default, `rflx/specification/parser.py:844-846, 888-892`. -/
def createCondition : Option Tree → Py (Option Expr)
  | none => .ok none
  | some t => do return some (← create .bool t)

/-- The values of aspects, `rflx/specification/parser.py:822-834`. Aspects with other names are errors in any case. -/
def createAspects : List AspectNode → Py (List Structure.Aspect)
  | [] => .ok []
  | a :: as => do
    let e ← create .math (← a.tree)
    return ⟨a.name, e⟩ :: (← createAspects as)

/-- `extract_then`, `rflx/specification/parser.py:837-849`: the data of a `then` clause. -/
def createThen (t : ThenTree) : Py Structure.Then := do
  let target ← (match t.target with
    | none => .ok none
    | some n => do return some (← createId (.unqualified n)) : Py (Option ID))
  return ⟨target, ← createCondition t.condition, ← createAspects t.aspects⟩

/-- The `then` clauses of a component. -/
def createThens : List ThenTree → Py (List Structure.Then)
  | [] => .ok []
  | t :: ts => do
    let a ← createThen t
    return a :: (← createThens ts)

/-- The data of a component, `rflx/specification/parser.py:863-893`. -/
def createComponent (c : ComponentTree) : Py Structure.Component := do
  let name ← createId (.unqualified c.name)
  return ⟨name, ← createCondition c.condition, ← createAspects c.aspects, ← createThens c.thens⟩

/-- The components of a message. -/
def createComponents : List ComponentTree → Py (List Structure.Component)
  | [] => .ok []
  | c :: cs => do
    let a ← createComponent c
    return a :: (← createComponents cs)

/-- `create_message`, `rflx/specification/parser.py:762-792`. -/
def createMessage (B : Backend M S) (types : List (MTy M)) (identifier : ID) (initial : Option ThenTree) (components : List ComponentTree) :
    Py (MTy M) := do
  let ts ← fieldTypes types (← identifier.parent) components []
  let start ← (match initial with
    | none => .ok none
    | some t => do return some (← createThen t) : Py (Option Structure.Then))
  let cs ← createComponents components
  let (links, errors) ← Structure.createStructure start cs
  match errors with
  | [] => return .message identifier (← B.message identifier links ts)
  | _ => .error .recordFlux

/-- `isinstance(t, model.Message)`, `rflx/specification/parser.py:1001`. -/
def MTy.message? : MTy M → Option (ID × M)
  | .message i m => some (i, m)
  | _ => none

/-- `create_derived_message`, `rflx/specification/parser.py:980-1025`: the first message with this identifier. -/
def createDerived (B : Backend M S) (types : List (MTy M)) (identifier : ID) (base : IdNode) : Py (MTy M) := do
  let b ← qualifiedType (← createId base) (← identifier.parent)
  match (types.filter fun t => t.identifier.eq b).filterMap MTy.message? with
  | [] => .error .recordFlux
  | (_, m) :: _ => return .message identifier (← B.derived identifier m)

/-! ## Refinements -/

/-- `flat_name(t.full_name)`, `rflx/common.py:67-68`. Simplification: parts of identifiers have no dots. -/
def flatName (i : ID) : PyStr :=
  match i.parts with
  | [] => []
  | p :: ps => ps.foldl (fun a q => a ++ '_' :: q) p

/-- `__REFINEMENT__`. -/
def refinementText : PyStr := ['_', '_', 'R', 'E', 'F', 'I', 'N', 'E', 'M', 'E', 'N', 'T', '_', '_']

/-- `{t.identifier: t for t in types if isinstance(t, model.Message)}[i]`, `rflx/specification/parser.py:1110`: the last one counts. -/
def lookupMessage (types : List (MTy M)) (i : ID) : Option (ID × M) :=
  ((types.filterMap MTy.message?).filter fun t => t.1.eq i).getLast?

/-- `isinstance(t, mty.Opaque)`, `rflx/model/message.py:1588`. -/
def MTy.isOpaque : MTy M → Bool
  | .opaqueType => true
  | _ => false

/-- `qualified_enum_literals(types, package)`, `rflx/model/type_.py:627-638`: the keys. -/
def enumLiterals (types : List (MTy M)) (package : ID) : Py (List ID) :=
  match types with
  | [] => .ok []
  | .enum t :: ts => do
    let p ← t.id.parent
    let qualified ← t.literals.mapM fun l => p.mul l.1
    let rest ← enumLiterals ts package
    return (if p.eq ⟨[builtinsName]⟩ || p.eq package then t.literals.map (·.1) else []) ++
      (if p.eq ⟨[builtinsName]⟩ then [] else qualified) ++ rest
  | _ :: ts => enumLiterals ts package

/-- `Refinement.__init__`, `rflx/model/message.py:1553-1619`, with the names `h` of the hash function for the order of variables. All fields of a
message have types, so that `pdu.fields` are the keys of `pdu.types`. Simplification: the name of a field is compared as identifier. -/
def newRefinement (B : Backend M S) (h : List PyStr → Int) (package : ID) (pdu : ID × M) (field : ID) (sdu : ID × M) (condition : Expr) : Py (MTy M) := do
  let id ← package.mulStr (refinementText ++ flatName sdu.1 ++ ['_', '_'] ++ flatName pdu.1 ++ ['_', '_'] ++ field.str ++ ['_', '_'])
  let literals ← enumLiterals ((B.types pdu.2).map (·.2)) package
  let unknown := (Verif.variables h condition).any fun v =>
    !((B.types pdu.2).any fun f => f.1.eq v.id) && !(literals.any fun l => l.eq v.id)
  match (B.types pdu.2).find? fun f => f.1.eq field with
  | none => .error .recordFlux
  | some (_, t) =>
    if package.parts.length != 1 || !t.isOpaque || unknown then .error .recordFlux
    else return .refinement id pdu.1 field sdu.1 condition

/-- `create_refinement`, `rflx/specification/parser.py:1107-1142`. -/
def createRefinement (B : Backend M S) (h : List PyStr → Int) (types : List (MTy M)) (package : ID) (pdu : IdNode) (field : PyStr) (sdu : IdNode)
    (condition : Option Tree) : Py (MTy M) := do
  let p ← qualifiedType (← createId pdu) package
  let s ← qualifiedType (← createId sdu) package
  match lookupMessage types p, lookupMessage types s with
  | some p, some s => do
    let c ← createCondition condition
    let f ← createId (.unqualified field)
    newRefinement B h package p f s (c.getD .tru)
  | _, _ => .error .recordFlux

/-! ## Packages -/

/-- The handlers of type declarations, `rflx/specification/parser.py:1343-1351`. -/
def createType (B : Backend M S) (types : List (MTy M)) (identifier : ID) : TypeDef → Py (MTy M)
  | .array e => createArray B types identifier e
  | .modular m => createModular identifier m
  | .range f l a => createRange identifier f l a
  | .named es as => do createEnumeration identifier (← namedLiterals es) as
  | .positional es as => do createEnumeration identifier (← positionalLiterals 0 es) as
  | .message i cs => createMessage B types identifier i cs
  | .nullMessage => do return .message identifier (← B.null identifier)
  | .derived b => createDerived B types identifier b

/-- One declaration, `rflx/specification/parser.py:1356-1390`, with the types and sessions created so far. -/
def evalDecl (B : Backend M S) (h : List PyStr → Int) (package : ID) (d : DeclTree S) (types : List (MTy M)) (sessions : List ID) :
    Py (List (MTy M) × List ID) :=
  match d with
  | .type n d => do
    let identifier ← qualifiedType (← createId (.unqualified n)) package
    let t ← createType B types identifier d
    return (types ++ [t], sessions)
  | .refinement p f s c => do
    let t ← createRefinement B h types package p f s c
    return (types ++ [t], sessions)
  | .session s => do
    let i ← B.session package s types
    return (types, sessions ++ [i])

/-- The loop over the declarations, `rflx/specification/parser.py:1356-1390`. -/
def evalDecls (B : Backend M S) (h : List PyStr → Int) (package : ID) : List (DeclTree S) → List (MTy M) → List ID → Py (List (MTy M) × List ID)
  | [], types, sessions => .ok (types, sessions)
  | d :: ds, types, sessions => do
    let (types, sessions) ← evalDecl B h package d types sessions
    evalDecls B h package ds types sessions

/-- `__evaluate_specification`, `rflx/specification/parser.py:1342-1391`. -/
def evalPackage (B : Backend M S) (h : List PyStr → Int) (p : PackageTree S) (types : List (MTy M)) (sessions : List ID) : Py (List (MTy M) × List ID) := do
  let package ← createId (.unqualified p.name)
  evalDecls B h package p.decls types sessions

/-- The loop of `create_model`, `rflx/specification/parser.py:1322-1326`. -/
def evalPackages (B : Backend M S) (h : List PyStr → Int) : List (PackageTree S) → List (MTy M) → List ID → Py (List (MTy M) × List ID)
  | [], types, sessions => .ok (types, sessions)
  | p :: ps, types, sessions => do
    let (types, sessions) ← evalPackage B h p types sessions
    evalPackages B h ps types sessions

/-- The data of a type that `Model` looks at. -/
def MTy.checked : MTy M → ModelPkg.Ty
  | .enum t => ⟨t.id, some (t.literals.map (·.1))⟩
  | t => ⟨t.identifier, none⟩

/-- `Parser.__init__` and `create_model`, `rflx/specification/parser.py:1196-1204, 1320-1334`: the types and sessions of the model. -/
def createModel (B : Backend M S) (h : List PyStr → Int) (ps : List (PackageTree S)) : Py (List (MTy M) × List ID) := do
  let r ← evalPackages B h ps [.enum BOOLEAN, .opaqueType] []
  ModelPkg.new (r.1.map MTy.checked) r.2
  return r

end Verif.SpecParser
