import Verif.Expr.Print

/-! # `simplified`, `__neg__`, `substituted`, `variables`, `findall` (`rflx/expression.py`) -/

namespace Verif

/-- `__neg__` of the relations, `rflx/expression.py:1531,1560,1589,1615,1644,1673,1699,1720`, and the
table in `Not.simplified` (280-287). -/
def RelOp.inv : RelOp → RelOp
  | .lt => .ge
  | .le => .gt
  | .eq => .ne
  | .ge => .lt
  | .gt => .le
  | .ne => .eq
  | .isIn => .notIn
  | .notIn => .isIn

/-- The comparison of two numbers, `rflx/expression.py:691-724` as selected by `operator.lt` etc.
`in` and `not in` have no such operator. -/
def RelOp.intOp : RelOp → Int → Int → Bool
  | .lt, a, b => a < b
  | .le, a, b => a ≤ b
  | .eq, a, b => a == b
  | .ge, a, b => a ≥ b
  | .gt, a, b => a > b
  | .ne, a, b => a != b
  | .isIn, _, _ => false
  | .notIn, _, _ => false

/-- `relation_operator in [operator.eq, operator.le, operator.ge]`, `rflx/expression.py:1519`. -/
def RelOp.isReflexive : RelOp → Bool
  | .eq | .le | .ge => true
  | _ => false

/-- Whether the class overrides `simplified` with `_simplified` (all relations but `In`, `NotIn`). -/
def RelOp.isCmp : RelOp → Bool
  | .isIn | .notIn => false
  | _ => true

/-- The associative operators, classes deriving from `AssExpr` (`rflx/expression.py:366`). -/
inductive AssOp | bool (op : BoolOp) | add | mul
deriving DecidableEq, Repr

namespace AssOp

/-- `self.__class__(*terms)`. -/
def mk : AssOp → List Expr → Expr
  | bool op, ts => .bool op ts
  | add, ts => .add ts
  | mul, ts => .mul ts

/-- `operation`, `rflx/expression.py:549-550,594-595,774-775,821-822`. Python's `and`/`or` on
integers return one of the operands. -/
def op : AssOp → Int → Int → Int
  | bool b, x, y => if b.isAnd then (if x = 0 then x else y) else (if x = 0 then y else x)
  | add, x, y => x + y
  | mul, x, y => x * y

/-- `neutral_element`, `rflx/expression.py:552,597,795,824`. -/
def neutral : AssOp → Int
  | bool b => if b.isAnd then 1 else 0
  | add => 0
  | mul => 1

/-- `isinstance(t, type(self))` with the terms of `t`, `rflx/expression.py:461-462`: a term of the same
class or of a subclass is flattened. -/
def sameTerms : AssOp → Expr → Option (List Expr)
  | bool .and, .bool .and ts => some ts
  | bool .and, .bool .andThen ts => some ts
  | bool .andThen, .bool .andThen ts => some ts
  | bool .or, .bool .or ts => some ts
  | bool .or, .bool .orElse ts => some ts
  | bool .orElse, .bool .orElse ts => some ts
  | add, .add ts => some ts
  | mul, .mul ts => some ts
  | _, _ => none

/-- `TRUE if total else FALSE` or `Number(total)`, `rflx/expression.py:465-474`. -/
def const : AssOp → Int → Expr
  | bool _, x => if x ≠ 0 then .tru else .fls
  | _, x => .n x

/-- `AssExpr.simplified` after the loop, `rflx/expression.py:465-477`. -/
def finish (o : AssOp) (terms : List Expr) (total : Int) : Expr :=
  if terms.isEmpty then o.const total
  else
    let terms := if total ≠ o.neutral then terms ++ [o.const total] else terms
    match terms with
    | [t] => t
    | ts => o.mk ts

end AssOp

/-- `FALSE in terms` / `TRUE in terms`: a boolean literal compares equal only to itself. -/
def Expr.isTru : Expr → Bool
  | .tru => true
  | _ => false

/-- See `Expr.isTru`. -/
def Expr.isFls : Expr → Bool
  | .fls => true
  | _ => false

/-- `And.simplified` / `Or.simplified` after `super().simplified()`, `rflx/expression.py:543-547`,
`588-592`. -/
def absorb (op : BoolOp) (e : Expr) : Expr :=
  match e with
  | .bool op' ts =>
    if op.isAnd && op'.isAnd && ts.any Expr.isFls then .fls
    else if !op.isAnd && !op'.isAnd && ts.any Expr.isTru then .tru
    else e
  | e => e

/-- `list.remove(x)`: removes the first element that compares equal. -/
def removeFirst (x : Expr) : List Expr → List Expr
  | [] => []
  | y :: ys => if y.eq x then ys else y :: removeFirst x ys

/-- `Number.__floordiv__`, `rflx/expression.py:674-679`. -/
def numDiv (a b : Int) : Py Expr :=
  if b = 0 then .error .zeroDivision
  else if Int.fmod a b = 0 then .ok (.n (Int.fdiv a b))
  else .ok (.bin .div (.n a) (.n b))

/-- `Number.__pow__`, `rflx/expression.py:681-684`; a negative exponent leaves the integers. -/
def numPow (a b : Int) : Py Expr :=
  if b < 0 then (if a = 0 then .error .zeroDivision else .error .unmodelled)
  else .ok (.n (a ^ b.toNat))

/-- `Number.__mod__`, `rflx/expression.py:686-689`. -/
def numMod (a b : Int) : Py Expr :=
  if b = 0 then .error .zeroDivision else .ok (.n (Int.fmod a b))

/-- `isinstance(_, Number)` with the value, as tested in `rflx/expression.py:864,892,920,948,1521`. -/
def Expr.num? : Expr → Option Int
  | .num v _ => some v
  | _ => none

/-- The operators on two numbers: `Number.__sub__` (`rflx/expression.py:669-672`), `numDiv`, `numPow`,
`numMod`. -/
def numArith : ArithOp → Int → Int → Py Expr
  | .sub, a, b => .ok (.n (a - b))
  | .div, a, b => numDiv a b
  | .pow, a, b => numPow a b
  | .mod, a, b => numMod a b

mutual

/-- `-self`. The fuel bounds the recursion; `fuel_enough` shows that a bound depending only on
the size of the expression is always sufficient. `rflx/expression.py:223,244,269,323,536,581,656,
767,814,1032,1075,1270,1339,1412,1443` and the relations. -/
def neg : Nat → Expr → Py Expr
  | 0, _ => .error .fuel
  | k + 1, e =>
    match e with
    | .tru => .ok .fls
    | .fls => .ok .tru
    | .undefined => .error .notImplemented
    | .num v _ => .ok (.n (-v))
    | .var ng imm id => .ok (.var (!ng) imm id)
    | .attr ng a pre => .ok (.attr (!ng) a pre)
    | .sel ng pre s => .ok (.sel (!ng) pre s)
    | .call ng id args => .ok (.call (!ng) id args)
    | .not e => .ok e
    | .bool _ _ => .error .notImplemented
    | .add ts => do return .add (← ts.mapM (neg k))
    | .mul ts => simplify k (.mul (ts ++ [.n (-1)]))
    | .bin op l r => do return .bin op (← neg k l) r
    | .rel op l r => .ok (.rel op.inv l r)
    | .agg _ => .error .notImplemented
    | .quant .. => .error .notImplemented

/-- `self.simplified()`: `rflx/expression.py:212,279-290,357-358,449-477,543-547,588-592,730,777-793,
861-866,889-894,917-922,945-950,1001,1090-1092,1461-1462,1516-1523,1819-1822`. -/
def simplify : Nat → Expr → Py Expr
  | 0, _ => .error .fuel
  | k + 1, e =>
    match e with
    | .tru => .ok .tru
    | .fls => .ok .fls
    | .undefined => .ok .undefined
    | .num v b => .ok (.num v b)
    | .var ng imm id => .ok (.var ng imm id)
    | .attr ng a pre => do return .attr ng a (← simplify k pre)
    | .sel ng pre s => .ok (.sel ng pre s)
    | .call ng id args => .ok (.call ng id args)
    | .not e =>
      match e with
      | .rel op l r =>
        if op.isCmp then do
          let l ← simplify k l
          let r ← simplify k r
          return .rel op.inv l r
        else do return .not (← simplify k (.rel op l r))
      | e => do return .not (← simplify k e)
    | .bool op ts => do
      let (terms, total) ← assLoop k (.bool op) ts [] (AssOp.bool op).neutral
      return absorb op ((AssOp.bool op).finish terms total)
    | .add ts => do
      let (terms, total) ← assLoop k .add ts [] AssOp.add.neutral
      match AssOp.add.finish terms total with
      | .add ts =>
        let ts ← cancel k ts.reverse []
        match ts with
        | [t] => return t
        | ts => return .add ts
      | e => return e
    | .mul ts => do
      let (terms, total) ← assLoop k .mul ts [] AssOp.mul.neutral
      return AssOp.mul.finish terms total
    | .bin op l r => do
      let l ← simplify k l
      let r ← simplify k r
      match l.num?, r.num? with
      | some a, some b => numArith op a b
      | _, _ => if op = .sub then return .add [l, ← neg k r] else return .bin op l r
    | .rel op l r => do
      let l ← simplify k l
      let r ← simplify k r
      if op.isCmp then
        if op.isReflexive && l.eq r then return .tru
        else match l.num?, r.num? with
          | some a, some b => return (if op.intOp a b then .tru else .fls)
          | _, _ => return .rel op l r
      else return .rel op l r
    | .agg es => do return .agg (← es.mapM (simplify k))
    | .quant q p it pr => do
      let it ← simplify k it
      let pr ← simplify k pr
      return .quant q p it pr

/-- The loop of `AssExpr.simplified`, `rflx/expression.py:450-464`. The list of terms grows while
it is iterated over: flattened terms are appended and simplified again. -/
def assLoop : Nat → AssOp → List Expr → List Expr → Int → Py (List Expr × Int)
  | _, _, [], terms, total => .ok (terms, total)
  | 0, _, _ :: _, _, _ => .error .fuel
  | k + 1, o, w :: work, terms, total => do
    let t ← simplify k w
    match t with
    | .num v _ => assLoop k o work terms (o.op total v)
    | .tru => assLoop k o work terms (o.op total 1)
    | .fls => assLoop k o work terms (o.op total 0)
    | t =>
      match o.sameTerms t with
      | some ts => assLoop k o (work ++ ts) terms total
      | none => assLoop k o work (terms ++ [t]) total

/-- The loop of `Add.simplified` that removes complementary terms, `rflx/expression.py:781-790`; the
first list is `reversed(expr.terms)`, the second `terms`. `-term` is only computed if there is a term to
compare with. -/
def cancel : Nat → List Expr → List Expr → Py (List Expr)
  | _, [], terms => .ok terms
  | 0, _ :: _, _ => .error .fuel
  | k + 1, t :: rest, terms =>
    if terms.isEmpty then cancel k rest [t]
    else do
      let m ← neg k t
      match terms.find? (fun other => other.eq m) with
      | some other => cancel k rest (removeFirst other terms)
      | none => cancel k rest (t :: terms)

end

end Verif
