import Verif.Verify.Model
import Verif.Typing.Check

/-! # Type checking of the expressions of a message (`rflx/model/message.py:655-706`)

Types of messages have no contents here (`Unit`), as in `FTy`: fields of inner messages cannot be selected. (In the code,
a path with such a condition raises `NotImplementedError` before the types are checked, `rflx/expression.py:1318-1320`.) -/

namespace Verif.Verify
open Verif Verif.Graph Verif.Types Verif.Typing

/-- `type_`, `rflx/model/type_.py:72-74,426-428,521-523,550-552`, `rflx/model/message.py:190-201`. -/
def FTy.ty : FTy → Py (Ty Unit)
  | .int t => do
    let f ← t.first
    let l ← t.last
    let b ← Bounds.make (some f.v) (some l.v)
    return .integer (String.ofList (FTy.int t).id.str) b
  | .enum t => .ok (.enumeration (String.ofList t.id.str))
  | .array id e => do return .array (String.ofList id.str) (← e.ty)
  | .opaque => .ok OPAQUE
  | .message id => .ok (.message (String.ofList id.str) ())

/-- `qualified_enum_literals`, `rflx/model/type_.py:627-638`. -/
def enumLiteralTypes (package : ID) : List FTy → List (ID × FTy) → Py (List (ID × FTy))
  | [], d => .ok d
  | .enum t :: ts, d => do
    let ls ← enumLiterals package [.enum t]
    enumLiteralTypes package ts (ls.foldl (fun d l => setType d l (.enum t)) d)
  | _ :: ts, d => enumLiteralTypes package ts d

/-- The names of the dictionaries `types`, `self._enum_literals` and `self._type_literals` with their types, in the order
in which `typed_variable` looks for them, `rflx/model/message.py:663-668`. -/
def Msg.typedNames (m : Msg) (seen : List (Field × FTy)) : Py (List (ID × FTy)) := do
  let package ← m.package
  let ls ← enumLiteralTypes package (m.types.map (·.2)) []
  let ts ← typeLiterals (m.types.map (·.2)) []
  return seen ++ ls ++ ts

/-- `typed_variable`, `rflx/model/message.py:658-669`. Simplified: the types of all names are computed in advance, which
raises no exception for types that have been created. -/
def typedCtx (d : List (List PyStr × Ty Unit)) : Ctx Unit where
  var := fun x => if x = MESSAGE.key then OPAQUE else ((d.find? fun e => e.1 == x).map (·.2)).getD .undefined
  call := fun _ => (.undefined, [])
  field := fun _ _ => none

/-- The types of names for the fields seen so far. -/
def Msg.ctx (m : Msg) (seen : List (Field × FTy)) : Py (Ctx Unit) := do
  let names ← m.typedNames seen
  let d ← names.mapM fun e => do return (e.1.key, ← e.2.ty)
  return typedCtx d

/-- The check of one expression, `rflx/model/message.py:691-698`; `true` means error. -/
def typeErrorIn (Γ : Ctx Unit) (e : Expr) : Py Bool :=
  if e.eq .undefined then .ok false else do return !(← check Γ e (.ty .any))

/-- `types[l.source.identifier] = self.types[l.source]`, `rflx/model/message.py:683-684`. -/
def Msg.see (m : Msg) (seen : List (Field × FTy)) (l : Link) : List (Field × FTy) :=
  match m.type? l.source with
  | some t => (l.source, t) :: seen
  | none => seen

/-- The loop over the links of a path, `rflx/model/message.py:674-706`. -/
def Msg.pathTypes (m : Msg) : List (Field × FTy) → List Link → Py Bool
  | _, [] => .ok false
  | seen, l :: p => do
    let Γ ← m.ctx (m.see seen l)
    let a ← typeErrorIn Γ l.condition
    let b ← typeErrorIn Γ l.size
    let c ← typeErrorIn Γ l.first
    let r ← m.pathTypes (m.see seen l) p
    return a || b || c || r

/-- The facts of `__prove_path_property`, `rflx/model/message.py:1226-1231`. -/
def Msg.pathConditions (m : Msg) (prop : Expr) (p : List Link) : Py (List Expr) := do
  let ts ← m.typeConstraints prop
  return ts ++ (p.map Link.condition).filter (fun c => !c.eq .tru) ++
    (p.filter fun l => !l.size.eq .undefined).map fun l => .rel .eq (at' .size l.target) l.size

/-- Whether the loop is left because of contradictory conditions, `rflx/model/message.py:675-681`. `typeError` stands for
`Z3TypeError`. -/
def Msg.contradictory (s : Solver) (m : Msg) (p : List Link) : Py Bool := do
  let fs ← m.pathConditions .tru p
  match s.check (.tru :: fs) with
  | .ok r => .ok (r == .unsat)
  | .error .typeError => .ok false
  | .error e => .error e

/-- The checks of one path. -/
def Msg.pathTypeError (s : Solver) (m : Msg) (p : List Link) : Py Bool := do
  let c ← m.contradictory s p
  if c then .ok false else m.pathTypes [] p

/-- `__verify_expression_types`, `rflx/model/message.py:655-706`. -/
def Msg.verifyExpressionTypes (s : Solver) (m : Msg) (k : Nat) : Py Bool := do
  let ps ← paths m.links k FINAL
  anyM' (m.pathTypeError s) ps

/-- A message that is created without error, including the check of types, `rflx/model/message.py:602-618`. -/
def Msg.AcceptedTyped (s : Solver) (m : Msg) : Prop :=
  ∃ k, Msg.new s (fun m => m.verifyExpressionTypes s k) m.id m.links m.types m.checksums k = .ok m

end Verif.Verify
