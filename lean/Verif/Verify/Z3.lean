import Verif.Expr.Semantics
import Verif.Py.Basic

/-! # Translation of expressions for the SMT solver: the methods `z3expr` of `rflx/expression.py` -/

namespace Verif.Verify
open Verif

/-- Values of terms of the solver: the sorts `Int` and `Bool`. -/
inductive ZVal | int (i : Int) | bool (b : Bool)
deriving DecidableEq, Repr

/-- Names of the integer constants: variables and attributes, `rflx/expression.py:1055-1058,1100-1106`. Simplified: the
solver distinguishes names that differ in case only, here names are compared like identifiers. -/
inductive ZName | var (x : List PyStr) | attr (k : AttrKind) (neg : Bool) (x : List PyStr)
deriving DecidableEq

/-- An interpretation of the solver: values of all constants, and of the operations where they are not defined. -/
structure ZModel where
  name : ZName → Int
  div0 : Int → Int
  mod0 : Int → Int
  pow0 : Int → Int → Int

/-- `z3.If(b, 1, 0)` for a `Bool`, as inserted by `==` and `!=` between different sorts. -/
def ZVal.cast : ZVal → Int
  | .int i => i
  | .bool b => if b then 1 else 0

/-- `==` of the solver's Python interface. -/
def zEqual : ZVal → ZVal → Bool
  | .bool a, .bool b => a == b
  | a, b => a.cast == b.cast

/-- The arithmetic operators of the solver: `div` and `mod` are Euclidean. -/
def zArith (M : ZModel) : ArithOp → Int → Int → Int
  | .sub, a, b => a - b
  | .div, a, b => if b = 0 then M.div0 a else a / b
  | .mod, a, b => if b = 0 then M.mod0 a else a % b
  | .pow, a, b => if b < 0 ∨ (a = 0 ∧ b = 0) then M.pow0 a b else a ^ b.toNat

/-- The relations, `rflx/expression.py:1550-1700`. Relations between terms other than integers raise `Z3TypeError`;
equality is possible between all terms. -/
def zRel : RelOp → ZVal → ZVal → Py Bool
  | .lt, .int a, .int b => .ok (a < b)
  | .le, .int a, .int b => .ok (a ≤ b)
  | .ge, .int a, .int b => .ok (b ≤ a)
  | .gt, .int a, .int b => .ok (b < a)
  | .eq, a, b => .ok (zEqual a b)
  | .ne, a, b => .ok (!zEqual a b)
  | .isIn, _, _ => .error .notImplemented
  | .notIn, _, _ => .error .notImplemented
  | _, _, _ => .error .typeError

/-- A Boolean term. -/
def ZVal.bool? : ZVal → Py Bool
  | .bool b => .ok b
  | .int _ => .error .typeError

/-- An arithmetic term. -/
def ZVal.int? : ZVal → Py Int
  | .int i => .ok i
  | .bool _ => .error .typeError

mutual

/-- `z3expr`, `rflx/expression.py:229-231,250-252,295-300,562-568,607-613,736-738,805-810,834-839,875-881,903-909,
931-937,959-965,1054-1058,1100-1106,1138-1139,1318-1320,1380-1382,1421-1423,1471-1473,1550-1737,1802-1804`, and the value
of the term under an interpretation. Exceptions depend on the expression only. `z3.Sum()` and `z3.Product()` without
arguments are no terms. -/
def zeval (M : ZModel) : Expr → Py ZVal
  | .tru => .ok (.bool true)
  | .fls => .ok (.bool false)
  | .undefined => .error .notImplemented
  | .num v _ => .ok (.int v)
  | .var ng _ id => .ok (.int (if ng then -M.name (.var id.key) else M.name (.var id.key)))
  | .attr _ .validChecksum _ => .ok (.bool true)
  | .attr ng k pre =>
    match pre with
    | .var pn _ id => .ok (.int (if ng then -M.name (.attr k pn id.key) else M.name (.attr k pn id.key)))
    | _ => .error .typeError
  | .sel .. => .error .notImplemented
  | .call .. => .error .notImplemented
  | .not e => do return .bool (!(← (← zeval M e).bool?))
  | .bool op ts => do
    let vs ← zevalL M ts
    let bs ← vs.mapM ZVal.bool?
    return .bool (if op.isAnd then bs.all id else bs.any id)
  | .add ts => do
    let vs ← zevalL M ts
    let xs ← vs.mapM ZVal.int?
    if xs.isEmpty then .error .unmodelled
    return .int (intSum xs)
  | .mul ts => do
    let vs ← zevalL M ts
    let xs ← vs.mapM ZVal.int?
    if xs.isEmpty then .error .unmodelled
    return .int (intProd xs)
  | .bin op l r => do
    let a ← zeval M l
    let b ← zeval M r
    return .int (zArith M op (← a.int?) (← b.int?))
  | .rel op l r => do
    let a ← zeval M l
    let b ← zeval M r
    return .bool (← zRel op a b)
  | .agg _ => .ok (.bool false)
  | .quant .. => .error .notImplemented

/-- The values of a list of terms. -/
def zevalL (M : ZModel) : List Expr → Py (List ZVal)
  | [] => .ok []
  | e :: es => do return (← zeval M e) :: (← zevalL M es)

end

/-- `ProofResult`, `rflx/expression.py:36-39`. -/
inductive ProofResult | sat | unsat | unknown
deriving DecidableEq, Repr

/-- All formulas are true under an interpretation. -/
def Holds (M : ZModel) (es : List Expr) : Prop := ∀ e ∈ es, zeval M e = .ok (.bool true)

/-- `Proof`, `rflx/expression.py:42-57`: `e.check(facts).result` is `check (e :: facts)`. The solver is trusted: it
returns only if all formulas can be translated, and its answers are right; it may fail to give one. -/
structure Solver where
  check : List Expr → Py ProofResult
  translated : ∀ es r, check es = .ok r → ∀ e ∈ es, ∀ M, ∃ b, zeval M e = .ok (.bool b)
  unsat : ∀ es, check es = .ok .unsat → ¬ ∃ M, Holds M es
  sat : ∀ es, check es = .ok .sat → ∃ M, Holds M es

/-- The solver always decides. -/
def Solver.Decides (s : Solver) : Prop := ∀ es, s.check es ≠ .ok .unknown

end Verif.Verify
