import Verif.Expr.Mono
import Verif.Common.Model

/-! # `substituted`, `variables`, `findall` (`rflx/expression.py`) -/

namespace Verif

/-- `substitution(mapping)`, `rflx/expression.py:2284-2293`: a mapping is a list of keys and values; the
dictionary lookup finds the key that compares equal (equal names have equal hashes, 102-103 and
1029-1030). -/
def substitution (m : List (Expr × Expr)) (e : Expr) : Expr :=
  if e.isName then
    match m.find? (fun kv => kv.1.eq e) with
    | some kv => kv.2
    | none => e
  else e

/-- `self.substituted(func)`, `rflx/expression.py:167-171` (literals, `Not`), 344-355 (`BinExpr`), 438-447
(`AssExpr`), 993-999 (`Variable`, `UNDEFINED`), 1081-1088 (`Attribute`), 1302-1313 (`Selected`), 1390-1404
(`Call`), 1450-1459 (`Aggregate`), 1806-1817 (quantified expressions). The result of `func` may again have to
be traversed, so the recursion is not structural and need not end; the first argument counts steps. -/
def subst : Nat → (Expr → Expr) → Expr → Py Expr
  | 0, _, _ => .error .fuel
  | k + 1, f, e =>
    match e with
    | .var ng imm id =>
      if imm then .ok e
      else if ng then (f (.var false imm id)).negated
      else .ok (f e)
    | .attr ng a pre =>
      (match f (.attr false a pre) with
        | .attr _ a' pre' => (subst k f pre').map (Expr.attr false a')
        | x => (.ok x : Py Expr)).bind fun x => if ng then x.negated else .ok x
    | .sel .. =>
      match f e with
      | .sel _ pre' s' => do return .sel false (← subst k f pre') s'
      | x => .ok x
    | .call .. =>
      match f e with
      | .call ng' id' args' => do return .call ng' id' (← args'.mapM (subst k f))
      | _ => .error .assertion
    | .bool .. | .add .. | .mul .. =>
      match f e with
      | .bool op ts => do return .bool op (← ts.mapM (subst k f))
      | .add ts => do return .add (← ts.mapM (subst k f))
      | .mul ts => do return .mul (← ts.mapM (subst k f))
      | x => .ok x
    | .bin .. | .rel .. =>
      match f e with
      | .bin op l r => do return .bin op (← subst k f l) (← subst k f r)
      | .rel op l r => do return .rel op (← subst k f l) (← subst k f r)
      | x => .ok x
    | .agg .. =>
      match f e with
      | .agg es => do return .agg (← es.mapM (subst k f))
      | x => .ok x
    | .quant .. =>
      match f e with
      | .quant q p it pr => do return .quant q p (← subst k f it) (← subst k f pr)
      | _ => .error .assertion
    | .tru | .fls | .num .. | .undefined | .not _ => .ok (f e)

/-- `self.substituted(mapping=m)` returns `r`: some number of steps suffices, and more steps do not change
the result. -/
def SubstitutedTo (m : List (Expr × Expr)) (e r : Expr) : Prop :=
  ∃ K, ∀ k, K ≤ k → subst k (substitution m) e = .ok r

mutual
/-- Proof device: the depth of an expression, used as an amount of steps for `subst`. -/
def depth : Expr → Nat
  | .attr _ _ pre => 1 + depth pre
  | .sel _ pre _ => 1 + depth pre
  | .call _ _ args => 1 + depthL args
  | .not e => 1 + depth e
  | .bool _ ts => 1 + depthL ts
  | .add ts => 1 + depthL ts
  | .mul ts => 1 + depthL ts
  | .bin _ l r => 1 + max (depth l) (depth r)
  | .rel _ l r => 1 + max (depth l) (depth r)
  | .agg es => 1 + depthL es
  | .quant _ _ it pr => 1 + max (depth it) (depth pr)
  | _ => 1
def depthL : List Expr → Nat
  | [] => 0
  | e :: es => max (depth e) (depthL es)
end

/-- `self.substituted(mapping=m)` as a function. The number of steps suffices if no replacement is an
attribute or a component; otherwise the result may be `PyErr.fuel`, which stands for no result. -/
def Expr.substituted (m : List (Expr × Expr)) (e : Expr) : Py Expr := subst (depth e + 1) (substitution m) e

/-- A reported variable: an object of class `Variable`, `rflx/expression.py:1012-1022`. -/
structure PyVar where
  neg : Bool
  id : ID
deriving DecidableEq, Repr

/-- `Variable.__eq__`, `rflx/expression.py:1024-1027`. -/
def PyVar.eq (a b : PyVar) : Bool := a.neg == b.neg && a.id.eq b.id

/-- `Variable.__hash__`, `rflx/expression.py:1029-1030`; the hash of tuples is a parameter. -/
def PyVar.hash (h : List PyStr → Int) (a : PyVar) : Int := a.id.hash h

mutual
/-- `self.variables()`, `rflx/expression.py:160-161` (literals, numbers, `UNDEFINED`, `Aggregate`: none), 272
(`Not`), 334 (`BinExpr`), 429 (`AssExpr`), 1048 (`Variable`), 1094 (`Attribute`), 1299 (`Selected`), 1384-1388
(`Call`), 1788-1795 (quantified expressions). -/
def variables (h : List PyStr → Int) : Expr → List PyVar
  | .tru | .fls | .num .. | .undefined | .agg _ => []
  | .var ng _ id => [⟨ng, id⟩]
  | .attr _ _ pre => variables h pre
  | .sel _ pre _ => variables h pre
  | .call _ id args => ⟨false, id⟩ :: variablesL h args
  | .not e => variables h e
  | .bool _ ts => unique (PyVar.hash h) PyVar.eq (variablesL h ts)
  | .add ts => unique (PyVar.hash h) PyVar.eq (variablesL h ts)
  | .mul ts => unique (PyVar.hash h) PyVar.eq (variablesL h ts)
  | .bin _ l r => unique (PyVar.hash h) PyVar.eq (variables h l ++ variables h r)
  | .rel _ l r => unique (PyVar.hash h) PyVar.eq (variables h l ++ variables h r)
  | .quant _ p it pr =>
    unique (PyVar.hash h) PyVar.eq ((variables h it ++ variables h pr).filter (fun v => !v.id.eq p))

/-- The concatenation of the variables of a list of expressions, as in `rflx/expression.py:430,1386-1387`. -/
def variablesL (h : List PyStr → Int) : List Expr → List PyVar
  | [] => []
  | e :: es => variables h e ++ variablesL h es
end

mutual
/-- `self.findall(match)`, `rflx/expression.py:163-164` (default: only the expression itself), 337-342
(`BinExpr`), 432-436 (`AssExpr`), 1078-1079 (`Attribute`). -/
def findall (p : Expr → Bool) : Expr → List Expr
  | .bin op l r => (if p (.bin op l r) then [.bin op l r] else []) ++ findall p l ++ findall p r
  | .rel op l r => (if p (.rel op l r) then [.rel op l r] else []) ++ findall p l ++ findall p r
  | .bool op ts => (if p (.bool op ts) then [.bool op ts] else []) ++ findallL p ts
  | .add ts => (if p (.add ts) then [.add ts] else []) ++ findallL p ts
  | .mul ts => (if p (.mul ts) then [.mul ts] else []) ++ findallL p ts
  | .attr ng k pre => if p (.attr ng k pre) then [.attr ng k pre] else findall p pre
  | e => if p e then [e] else []

/-- The concatenation over a list of terms, `rflx/expression.py:435`. -/
def findallL (p : Expr → Bool) : List Expr → List Expr
  | [] => []
  | e :: es => findall p e ++ findallL p es
end

end Verif
