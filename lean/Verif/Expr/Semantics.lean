import Verif.Expr.Syntax

/-! # Meaning of expressions

An independent specification: values of expressions under an assignment of values to names. Nothing
here refers to `simplified`, `substituted` or printing. All operators are strict: an expression has a
value only if all parts have one and the kinds of the operands fit. -/

namespace Verif

/-- Values: integers (also enumeration values), truth values, sequences of integers. -/
inductive Val | int (i : Int) | bool (b : Bool) | seq (l : List Int)
deriving DecidableEq, Repr

/-- An interpretation of the division operator. Specifications do not define rounding; Ada truncates,
the SMT solver rounds so that the remainder is non-negative, Python rounds down. All agree if the
division is exact. -/
structure Division where
  div : Int → Int → Int
  exact : ∀ a b, b ≠ 0 → div (a * b) b = a

/-- Ada's division. -/
def Division.ada : Division := ⟨Int.tdiv, fun a b h => Int.mul_tdiv_cancel a h⟩
/-- Python's division. -/
def Division.floor : Division := ⟨Int.fdiv, fun a b h => Int.mul_fdiv_cancel a h⟩
/-- The SMT solver's division. -/
def Division.euclid : Division := ⟨Int.ediv, fun a b h => Int.mul_ediv_cancel a h⟩

/-- A division that truncates towards zero satisfies `(-a)/b = -(a/b)`. -/
def Division.Odd (D : Division) : Prop := ∀ a b, D.div (-a) b = -D.div a b

/-- An assignment of values to names. Names are case-insensitive: they are given by their lower-case
parts (`ID.key`). A call without arguments is a name. -/
structure Env where
  var : List PyStr → Val
  attr : AttrKind → List PyStr → Val
  sel : List PyStr → List PyStr → Val
  call : List PyStr → List Val → Val

/-- Change the value of one name. -/
def Env.set (ρ : Env) (x : List PyStr) (w : Val) : Env :=
  { ρ with var := fun y => if y = x then w else ρ.var y }

def Val.int? : Val → Option Int
  | .int i => some i
  | _ => none

def Val.bool? : Val → Option Bool
  | .bool b => some b
  | _ => none

/-- `-x` for a flagged name. -/
def Val.negIf (neg : Bool) (x : Val) : Option Val :=
  if neg then x.int?.map (fun i => .int (-i)) else some x

/-- Arithmetic. Division and `mod` by zero and negative exponents have no value; `mod` has the sign of
the divisor. -/
def ArithOp.eval (D : Division) : ArithOp → Int → Int → Option Int
  | .sub, a, b => some (a - b)
  | .div, a, b => if b = 0 then none else some (D.div a b)
  | .pow, a, b => if b < 0 then none else some (a ^ b.toNat)
  | .mod, a, b => if b = 0 then none else some (Int.fmod a b)

def RelOp.eval : RelOp → Val → Val → Option Bool
  | .lt, .int a, .int b => some (a < b)
  | .le, .int a, .int b => some (a ≤ b)
  | .ge, .int a, .int b => some (b ≤ a)
  | .gt, .int a, .int b => some (b < a)
  | .eq, .int a, .int b => some (a = b)
  | .eq, .bool a, .bool b => some (a = b)
  | .eq, .seq a, .seq b => some (a = b)
  | .ne, .int a, .int b => some (a ≠ b)
  | .ne, .bool a, .bool b => some (a ≠ b)
  | .ne, .seq a, .seq b => some (a ≠ b)
  | .isIn, .int a, .seq b => some (a ∈ b)
  | .notIn, .int a, .seq b => some (a ∉ b)
  | _, _, _ => none

/-- All elements have the wanted kind. -/
def allSome {α β : Type} (f : α → Option β) : List α → Option (List β)
  | [] => some []
  | a :: as =>
    match f a, allSome f as with
    | some b, some bs => some (b :: bs)
    | _, _ => none

def intSum : List Int → Int
  | [] => 0
  | x :: xs => x + intSum xs

def intProd : List Int → Int
  | [] => 1
  | x :: xs => x * intProd xs

mutual

/-- The value of an expression. -/
def eval (D : Division) (ρ : Env) : Expr → Option Val
  | .tru => some (.bool true)
  | .fls => some (.bool false)
  | .undefined => none
  | .num v _ => some (.int v)
  | .var ng _ id => (ρ.var id.key).negIf ng
  | .attr ng k pre =>
    match pre with
    | .var false _ id => (ρ.attr k id.key).negIf ng
    | _ => none
  | .sel ng pre s =>
    match pre with
    | .var false _ id => (ρ.sel id.key s.key).negIf ng
    | _ => none
  | .call ng id args =>
    match args with
    | [] => (ρ.var id.key).negIf ng
    | a :: as =>
      match evalL D ρ (a :: as) with
      | some vs => (ρ.call id.key vs).negIf ng
      | none => none
  | .not e =>
    match eval D ρ e with
    | some (.bool b) => some (.bool (!b))
    | _ => none
  | .bool op ts =>
    match (evalL D ρ ts).bind (allSome Val.bool?) with
    | some bs => some (.bool (if op.isAnd then bs.all id else bs.any id))
    | none => none
  | .add ts =>
    match (evalL D ρ ts).bind (allSome Val.int?) with
    | some xs => some (.int (intSum xs))
    | none => none
  | .mul ts =>
    match (evalL D ρ ts).bind (allSome Val.int?) with
    | some xs => some (.int (intProd xs))
    | none => none
  | .bin op l r =>
    match eval D ρ l, eval D ρ r with
    | some (.int a), some (.int b) => (op.eval D a b).map .int
    | _, _ => none
  | .rel op l r =>
    match eval D ρ l, eval D ρ r with
    | some a, some b => (op.eval a b).map .bool
    | _, _ => none
  | .agg es =>
    match (evalL D ρ es).bind (allSome Val.int?) with
    | some xs => some (.seq xs)
    | none => none
  | .quant k p it pr =>
    match eval D ρ it with
    | some (.seq xs) =>
      match allSome (fun x => (eval D (ρ.set p.key (.int x)) pr).bind Val.bool?) xs with
      | some bs => some (.bool (if k = .someIn then bs.any id else bs.all id))
      | none => none
    | _ => none

/-- The values of a list of expressions. -/
def evalL (D : Division) (ρ : Env) : List Expr → Option (List Val)
  | [] => some []
  | e :: es =>
    match eval D ρ e, evalL D ρ es with
    | some w, some ws => some (w :: ws)
    | _, _ => none

end

end Verif
