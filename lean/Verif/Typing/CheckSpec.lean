import Verif.Typing.Check
import Verif.Expr.Semantics

/-! # Specification: kinds of values

Nothing here refers to the check of types (`subOk`, `check`); `Regular` uses the types of subexpressions. -/

namespace Verif.Typing
open Verif

variable {M : Type} [DecidableEq M]

/-- Kinds of values. -/
inductive Kind | int | bool | seq
deriving DecidableEq

/-- The kind of a value. -/
def kindOf : Val → Kind
  | .int _ => .int
  | .bool _ => .bool
  | .seq _ => .seq

/-- The kind of the values of a type: integers for integer types and enumeration types, truth values for `Boolean`,
sequences for arrays. Messages, private types and channels have no values in expressions. -/
def Ty.kind : Ty M → Option Kind
  | .enumeration n => some (if n = "__BUILTINS__::Boolean" then .bool else .int)
  | .anyInteger | .undefinedInteger | .universal _ | .integer _ _ => some .int
  | .aggregate _ | .array _ _ => some .seq
  | _ => none

/-- The kind of the values of an attribute of a name of a type. -/
def attrKind (t : Ty M) : AttrKind → Option Kind
  | .size | .length | .first | .last => some .int
  | .validChecksum | .valid | .present => some .bool
  | .head => (match t with
    | .aggregate e => e.kind
    | .array _ e => e.kind
    | _ => none)
  | .opaque => some .seq

/-- All names have values of the kinds of their types. Functions deliver values of the kinds of their results for
arguments of the kinds of their parameters. `B` are the parameters of quantified expressions around; there are none for
whole expressions. -/
structure Respects (Γ : Ctx M) (ρ : Env) (B : List (List PyStr) := []) : Prop where
  var : ∀ x k, (Γ.var x).kind = some k → kindOf (ρ.var x) = k
  attr : ∀ x a k, x ∉ B → Γ.var x ≠ .undefined → attrKind (Γ.var x) a = some k → kindOf (ρ.attr a x) = k
  sel : ∀ x (s : ID) n b t k, Γ.var x = .message n b → Γ.field b s.str = some t → t.kind = some k →
    kindOf (ρ.sel x s.key) = k
  call : ∀ f vs k, (Γ.call f).1.kind = some k → vs.map (fun v => some (kindOf v)) = (Γ.call f).2.map Ty.kind →
    kindOf (ρ.call f vs) = k
  name : ∀ f k, f ∉ B → (Γ.call f).1.kind = some k → (Γ.call f).2 = [] → kindOf (ρ.var f) = k

/-- Somewhere in an expression, a division or `mod` by zero or a power with a negative exponent has to be computed. -/
inductive Faults (D : Division) : Env → Expr → Prop
  | here {ρ op l r a b} : eval D ρ l = some (.int a) → eval D ρ r = some (.int b) → op.eval D a b = none →
    Faults D ρ (.bin op l r)
  | binLeft {ρ op l r} : Faults D ρ l → Faults D ρ (.bin op l r)
  | binRight {ρ op l r} : Faults D ρ r → Faults D ρ (.bin op l r)
  | relLeft {ρ op l r} : Faults D ρ l → Faults D ρ (.rel op l r)
  | relRight {ρ op l r} : Faults D ρ r → Faults D ρ (.rel op l r)
  | not {ρ e} : Faults D ρ e → Faults D ρ (.not e)
  | bool {ρ op ts t} : t ∈ ts → Faults D ρ t → Faults D ρ (.bool op ts)
  | add {ρ ts t} : t ∈ ts → Faults D ρ t → Faults D ρ (.add ts)
  | mul {ρ ts t} : t ∈ ts → Faults D ρ t → Faults D ρ (.mul ts)
  | agg {ρ ts t} : t ∈ ts → Faults D ρ t → Faults D ρ (.agg ts)
  | call {ρ ng id ts t} : t ∈ ts → Faults D ρ t → Faults D ρ (.call ng id ts)
  | iterable {ρ k p it pr} : Faults D ρ it → Faults D ρ (.quant k p it pr)
  | predicate {ρ k p it pr xs x} : eval D ρ it = some (.seq xs) → x ∈ xs → Faults D (ρ.set p.key (.int x)) pr →
    Faults D ρ (.quant k p it pr)

/-- A kind is an integer if the sign is changed. -/
def SignOk (ng : Bool) (k : Option Kind) : Prop := ng = true → k = some .int

/-- The expressions with a meaning in `eval`: sequences contain integers, attributes and selected names belong to plain
names, values of messages, private types and channels are not used, and signs are changed for integers only. For names
without types nothing is required. Attributes of parameters of quantified expressions (`B`) are not used, and functions
without arguments have other names. -/
inductive Regular : Ctx M → List (List PyStr) → Expr → Prop
  | tru {Γ B} : Regular Γ B .tru
  | fls {Γ B} : Regular Γ B .fls
  | num {Γ B v b} : Regular Γ B (.num v b)
  | var {Γ B ng imm id} : Γ.var id.key = .undefined ∨ (Γ.var id.key).kind.isSome →
    SignOk ng (Γ.var id.key).kind → Regular Γ B (.var ng imm id)
  | attr {Γ B ng k imm id} : id.key ∉ B → Γ.var id.key = .undefined ∨ (attrKind (Γ.var id.key) k).isSome →
    SignOk ng (attrKind (Γ.var id.key) k) → Regular Γ B (.attr ng k (.var false imm id))
  | sel {Γ B ng imm id s} : (∀ n b t, Γ.var id.key = .message n b → Γ.field b s.str = some t →
      t.kind.isSome ∧ SignOk ng t.kind) → Γ.var id.key ≠ .any → Regular Γ B (.sel ng (.var false imm id) s)
  | call {Γ B ng id args} : (∀ a ∈ args, Regular Γ B a) → (args = [] → id.key ∉ B) →
     (∀ t ∈ (Γ.call id.key).2, t.kind.isSome) →
    (Γ.call id.key).1 = .undefined ∨ (Γ.call id.key).1.kind.isSome →
    SignOk ng (Γ.call id.key).1.kind → Regular Γ B (.call ng id args)
  | not {Γ B e} : Regular Γ.blind B e → Regular Γ B (.not e)
  | bool {Γ B op ts} : (∀ t ∈ ts, Regular Γ B t) → Regular Γ B (.bool op ts)
  | add {Γ B ts} : ts ≠ [] → (∀ t ∈ ts, Regular Γ B t) → Regular Γ B (.add ts)
  | mul {Γ B ts} : ts ≠ [] → (∀ t ∈ ts, Regular Γ B t) → Regular Γ B (.mul ts)
  | bin {Γ B op l r} : Regular Γ B l → Regular Γ B r → Regular Γ B (.bin op l r)
  | rel {Γ B op l r} : Regular Γ B l → Regular Γ B r →
    (op = .isIn ∨ op = .notIn → (afterTy Γ l).kind = some .int) → Regular Γ B (.rel op l r)
  | agg {Γ B es} : (∀ e ∈ es, Regular Γ B e) → (∀ e ∈ es, (afterTy Γ e).kind = some .int) → Regular Γ B (.agg es)
  | quant {Γ B k p it pr} : Regular Γ B it → (afterTy Γ it).element.kind = some .int →
    Regular (Γ.bind p.key (afterTy Γ it).element) (p.key :: B) pr → Regular Γ B (.quant k p it pr)

/-- A name occurs in an expression and is not the parameter of a quantified expression. -/
inductive Free (x : List PyStr) : Expr → Prop
  | var {ng imm id} : x = id.key → Free x (.var ng imm id)
  | attr {ng k pre} : Free x pre → Free x (.attr ng k pre)
  | sel {ng pre s} : Free x pre → Free x (.sel ng pre s)
  | call {ng id args a} : a ∈ args → Free x a → Free x (.call ng id args)
  | not {e} : Free x e → Free x (.not e)
  | bool {op ts t} : t ∈ ts → Free x t → Free x (.bool op ts)
  | add {ts t} : t ∈ ts → Free x t → Free x (.add ts)
  | mul {ts t} : t ∈ ts → Free x t → Free x (.mul ts)
  | binLeft {op l r} : Free x l → Free x (.bin op l r)
  | binRight {op l r} : Free x r → Free x (.bin op l r)
  | relLeft {op l r} : Free x l → Free x (.rel op l r)
  | relRight {op l r} : Free x r → Free x (.rel op l r)
  | agg {es e} : e ∈ es → Free x e → Free x (.agg es)
  | iterable {k p it pr} : Free x it → Free x (.quant k p it pr)
  | predicate {k p it pr} : x ≠ p.key → Free x pr → Free x (.quant k p it pr)

end Verif.Typing
