import Batteries.Data.List.Basic
import Verif.Units.Model

/-! # Specification of generated units

Names are sequences of lower-case words. The conditions under which the generated code is complete (`Distinct`, `Separate`, `Complete`) are stated on the
declarations of the model. -/

namespace Verif.Units.Spec
open Verif

/-- A name without regard to case. -/
abbrev Name := List PyStr

/-- A word in lower case. -/
def low (s : PyStr) : PyStr := s.map Char.toLower

/-- A sequence of words in lower case. -/
def lows (l : List PyStr) : Name := l.map low

/-- The name of an identifier. -/
def nm (i : ID) : Name := lows i.parts

/-- The name of the package of a declaration. -/
def pkg : Decl → Name
  | .scalar id => (nm id).dropLast
  | .opaque => [low "__INTERNAL__".toList]
  | .array id _ => (nm id).dropLast
  | .message m => (nm m.id).dropLast
  | .refinement r => nm r.package

/-- Declarations for which code is generated: all but the ones in the two predefined packages. -/
def Live (ds : List Decl) (t : Decl) : Prop := t ∈ ds ∧ pkg t ≠ [low "__BUILTINS__".toList] ∧ pkg t ≠ [low "__INTERNAL__".toList]

/-- `P.Generic_N` for `P.N`. -/
def genericOf (n : Name) : Name := n.dropLast ++ [low "Generic_".toList ++ (n.getLast?.getD [])]

/-- The names (below the prefix) of the units that a model needs. -/
inductive Wanted (ds : List Decl) : Name → Prop
  /-- a package for each package of the specification -/
  | package {t} : Live ds t → Wanted ds (pkg t)
  /-- an instance for each array -/
  | array {id e} : Live ds (.array id e) → Wanted ds (nm id)
  /-- a generic package for each message with fields that is not derived -/
  | generic {m} : Live ds (.message m) → m.base = none → m.types ≠ [] → Wanted ds (genericOf (nm m.id))
  /-- an instance for each message with fields and each derived message -/
  | message {m} : Live ds (.message m) → (m.base ≠ none ∨ m.types ≠ []) → Wanted ds (nm m.id)
  /-- a generic package for the refinements of a package -/
  | genericContains {r} : Live ds (.refinement r) → Wanted ds (nm r.package ++ [low "Generic_Contains".toList])
  /-- an instance for the refinements of a package -/
  | contains {r} : Live ds (.refinement r) → Wanted ds (nm r.package ++ [low "Contains".toList])

/-- The identifier of an array or message. -/
def unitId : Decl → Option ID
  | .array id _ => some id
  | .message m => some m.id
  | _ => none

/-- Units of different declarations have different names. -/
structure Distinct (ds : List Decl) : Prop where
  /-- identifiers consist of the names of a package and a type -/
  shape : ∀ t ∈ ds, (∀ id, t = .scalar id → id.parts.length = 2) ∧ (∀ id, unitId t = some id → id.parts.length = 2) ∧
    ∀ r, t = .refinement r → r.package.parts.length = 1
  /-- the arrays and messages have different names -/
  names : (ds.filterMap unitId).Pairwise fun a b => nm a ≠ nm b
  /-- no array or message is named `Generic_...` -/
  generic : ∀ t ∈ ds, ∀ id, unitId t = some id → ¬ low "Generic_".toList <+: (nm id).getLast?.getD []
  /-- no array or message beside a refinement is named `Contains` -/
  contains : ∀ t ∈ ds, ∀ id, unitId t = some id → ∀ r, .refinement r ∈ ds → nm id ≠ nm r.package ++ [low "Contains".toList]

/-- The names of the library. -/
def libraryNames : List Name :=
  [[low "RFLX_Arithmetic".toList], [low "RFLX_Builtin_Types".toList, low "Conversions".toList], [low "RFLX_Builtin_Types".toList],
    [low "RFLX_Generic_Types".toList], [low "RFLX_Message_Sequence".toList], [low "RFLX_Scalar_Sequence".toList], [low "RFLX_Types".toList]]

/-- Packages are not named like packages of the library. -/
def Separate (ds : List Decl) : Prop := ∀ t ∈ ds, ∀ l ∈ libraryNames, (pkg t).head? ≠ l.head?

/-- Words of identifiers: letters, digits and underscores. -/
def Word (s : PyStr) : Prop := ∀ c ∈ s, c.isAlphanum = true ∨ c = '_'

/-- All identifiers of types consist of words. -/
def Words (ds : List Decl) : Prop :=
  ∀ t ∈ ds, (∀ id, t = .scalar id → ∀ p ∈ id.parts, Word p) ∧ (∀ id, unitId t = some id → ∀ p ∈ id.parts, Word p) ∧
    ∀ r, t = .refinement r → ∀ p ∈ r.package.parts, Word p

/-- The array types of the fields of a message. -/
def IsArray (m : Message) (id : ID) (e : Element) : Prop := .array id e ∈ m.types

/-- The messages of a refinement for which there is a package: the PDU, and the SDU unless it is a null message. -/
def Involved (r : Refinement) (m : Message) : Prop := m = r.pdu ∨ m = r.sdu ∧ r.sdu.types ≠ []

/-- What is used in the declarations is declared. -/
structure Complete (ds : List Decl) : Prop where
  /-- types of fields -/
  scalars : ∀ m, .message m ∈ ds → ∀ id, .scalar id ∈ m.types → id.parts.length = 2 ∧ Live ds (.scalar id) ∨
    (nm id).dropLast = [low "__BUILTINS__".toList]
  arrays : ∀ m, .message m ∈ ds → ∀ id e, IsArray m id e → Live ds (.array id e)
  /-- element types -/
  scalarElements : ∀ id e, .array id (.scalar e) ∈ ds → e.parts.length = 2 ∧ Live ds (.scalar e)
  messageElements : ∀ id e, .array id (.message e) ∈ ds → ∃ m, Live ds (.message m) ∧ m.id = e ∧ m.types ≠ []
  /-- bases of derived messages, which have fields -/
  bases : ∀ m, .message m ∈ ds → ∀ b, m.base = some b →
    m.types ≠ [] ∧ ∃ bm, Live ds (.message bm) ∧ bm.id = b ∧ bm.base = none ∧ bm.types = m.types
  /-- messages of refinements -/
  pdus : ∀ r, .refinement r ∈ ds → Live ds (.message r.pdu) ∧ r.pdu.types ≠ []
  sdus : ∀ r, .refinement r ∈ ds → Live ds (.message r.sdu)
  /-- literals in conditions of refinements -/
  literals : ∀ r, .refinement r ∈ ds → ∀ v ∈ r.names, v.parts.length = 2 → ∃ t, Live ds t ∧ pkg t = (nm v).dropLast

/-- The names of formal packages are unambiguous. -/
structure Unambiguous (ds : List Decl) : Prop where
  /-- different arrays in the fields of a message have different names in their packages -/
  sequences : ∀ m, .message m ∈ ds → ∀ a ea b eb, IsArray m a ea → IsArray m b eb → (nm a).getLast? = (nm b).getLast? → nm a = nm b
  /-- different messages in the refinements of a package have different names when written with `_` -/
  flat : ∀ r s, .refinement r ∈ ds → .refinement s ∈ ds → nm r.package = nm s.package → ∀ a b, Involved r a → Involved s b →
    ['_'].intercalate (nm a.id) = ['_'].intercalate (nm b.id) → nm a.id = nm b.id

/-- There is a unit of the given name, generated or in the library. -/
def Exists (pre : List PyStr) (d : Dict) (n : Name) : Prop := (∃ e ∈ d, nm e.2.id = n) ∨ ∃ l ∈ libraryNames, n = lows pre ++ l

/-- Actual parameters for formal packages: `RFLX_Types` for `Types`, which is an instance of `RFLX_Generic_Types`, and for other formal packages
`with package F is new G (Types, others => <>)` a generated instance of `G` that has `RFLX_Types` as the first parameter as well. -/
inductive Provides (pre : List PyStr) (d : Dict) (f : Formal) (a : ID) : Prop
  | types : nm f.id = [low "Types".toList] → f.restricted = false → nm f.generic = lows pre ++ [low "RFLX_Generic_Types".toList] →
      nm a = lows pre ++ [low "RFLX_Types".toList] → Provides pre d f a
  | instance {e g t as} : f.restricted = true → e ∈ d → nm e.2.id = nm a → e.2.kind = .instance g (t :: as) → nm g = nm f.generic →
      nm t = lows pre ++ [low "RFLX_Types".toList] → Provides pre d f a

/-- The actual parameters of an instance fit the generic package: for a sequence of the library their number is right, for a generated package each is
provided for the formal parameter at the same position, and the formal parameters (as printed, for a hash function `h` of tuples) have different
names. -/
inductive Fits (h : List PyStr → Int) (pre : List PyStr) (d : Dict) (g : ID) (as : List ID) : Prop
  | scalars : nm g = lows pre ++ [low "RFLX_Scalar_Sequence".toList] → as.length = 6 → as.head?.map nm = some (lows pre ++ [low "RFLX_Types".toList]) →
      Fits h pre d g as
  | messages : nm g = lows pre ++ [low "RFLX_Message_Sequence".toList] → as.length = 8 → as.head?.map nm = some (lows pre ++ [low "RFLX_Types".toList]) →
      Fits h pre d g as
  | generated {e fs} : e ∈ d → nm e.2.id = nm g → e.2.kind.printed h = some fs → List.Forall₂ (Provides pre d) fs as →
      (fs.map fun f => nm f.id).Nodup → Fits h pre d g as

end Verif.Units.Spec
