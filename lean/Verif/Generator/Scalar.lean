import Verif.Types.ConstraintProps

/-! # Generated functions of scalar types (`rflx/generator/generator.py`)

Model of the functions `Valid`, `To_Base` and `To_Actual` that are generated for integer and enumeration types, with the
semantics of the small part of Ada these functions are made of. Names of packages and prefixes, pragmas and the type
of the result are not modelled. -/

namespace Verif.Generator

open Verif Verif.Types

/-! ## Ada -/

/-- Values of Ada: numbers of a base type or an integer type, Booleans, literals of enumerations (letter case is
irrelevant), values of the record type of an always valid enumeration (`rflx/generator/generator.py:3003-3016`). -/
inductive AVal
  | num (v : Int)
  | bool (b : Bool)
  | lit (k : List PyStr)
  | known (k : List PyStr)
  | raw (v : Int)
deriving DecidableEq

/-- Choices of a case expression: a number, a literal, `others`. -/
inductive Choice
  | num (v : Int)
  | lit (i : ID)
  | others

/-- Expressions without case distinction: `True`, `False`, a number, a literal, the parameter, `(True, l)`,
`(True, p)` and `(False, p)` where `p` is the parameter, and a call of a function with precondition `False`
(`rflx/generator/generator.py:2912-2931`). -/
inductive Leaf
  | bool (b : Bool)
  | num (v : Int)
  | lit (i : ID)
  | param
  | known (i : ID)
  | knownParam
  | raw
  | unreachable

/-- `Base.__eq__` (`rflx/common.py:7-18`) on these expressions: identifiers are compared by `ID.__eq__`. -/
def Leaf.eq : Leaf → Leaf → Bool
  | .bool a, .bool b => a == b
  | .num a, .num b => a == b
  | .lit a, .lit b => a.eq b
  | .param, .param => true
  | .known a, .known b => a.eq b
  | .knownParam, .knownParam => true
  | .raw, .raw => true
  | .unreachable, .unreachable => true
  | _, _ => false

/-- `CaseExpr`, `rflx/ada.py:610-616`, where the control expression is the parameter. -/
abbrev Cases := List (Choice × Leaf)

/-- The alternatives `when c1 | c2 | ... => e` of the text. -/
abbrev Alternatives := List (List Choice × Leaf)

/-- `itertools.groupby` as used in `CaseExpr._update_str`, `rflx/ada.py:618-622`: consecutive cases with equal expressions
become one alternative. -/
def group : Cases → Alternatives
  | [] => []
  | (c, e) :: rest =>
    match group rest with
    | [] => [([c], e)]
    | (cs, e') :: alts => if e.eq e' then (c :: cs, e) :: alts else ([c], e) :: (cs, e') :: alts

/-- Whether the value of the control expression is covered by a choice other than `others`. -/
def Choice.covers : Choice → AVal → Bool
  | .num v, .num w => v == w
  | .lit i, .lit k => i.key == k
  | _, _ => false

def Choice.isOthers : Choice → Bool
  | .others => true
  | _ => false

/-- The value of an expression in a call with the given argument. `none`: the function with precondition `False` is
called. -/
def Leaf.eval (arg : AVal) : Leaf → Option AVal
  | .bool b => some (.bool b)
  | .num v => some (.num v)
  | .lit i => some (.lit i.key)
  | .param => some arg
  | .known i => some (.known i.key)
  | .knownParam =>
    match arg with
    | .lit k => some (.known k)
    | _ => none
  | .raw =>
    match arg with
    | .num v => some (.raw v)
    | _ => none
  | .unreachable => none

/-- Evaluation of a case expression: the alternative that covers the value, otherwise the alternative `others`. `none`: no
alternative, or an exception. -/
def Alternatives.eval (alts : Alternatives) (arg : AVal) : Option AVal :=
  match alts.find? (fun a => a.1.any (·.covers arg)) with
  | some a => a.2.eval arg
  | none =>
    match alts.find? (fun a => a.1.any (·.isOthers)) with
    | some a => a.2.eval arg
    | none => none

/-- The body of an expression function of one parameter. -/
inductive Body
  | leaf (e : Leaf)
  | case (cs : Cases)
  /-- `(if Val.Known then To_Base (Val.Enum) else Val.Raw)` with the body of that `To_Base`. -/
  | ifKnown (toBase : Cases)
  /-- A conversion to `type T is mod m`. -/
  | toMod (m : Int)
  /-- A conversion to `type T is range first .. last`. -/
  | toRange (first last : Int)
  /-- A condition on the variable `Val`. -/
  | condition (c : Expr)

/-- The identifier `Val`. -/
def val : ID := ⟨[['V', 'a', 'l']]⟩

/-- The environment in which `Val` has the given value. -/
def valEnv (v : Int) : Env := ⟨fun k => if k = val.key then .int v else .int 0, fun _ _ => .int 0, fun _ _ => .int 0, fun _ _ => .int 0⟩

/-- The value of a call. `none`: no value or an exception, in particular a failing range check of a conversion. The operators
of the condition are those of expressions of RecordFlux, to which `ada_expr` maps one to one
(`rflx/expression.py:292,335,383,671,795,1205,1239-1297`). -/
def Body.eval (b : Body) (arg : AVal) : Option AVal :=
  match b with
  | .leaf e => e.eval arg
  | .case cs => (group cs).eval arg
  | .ifKnown cs =>
    match arg with
    | .known k => (group cs).eval (.lit k)
    | .raw v => some (.num v)
    | _ => none
  | .toMod m =>
    match arg with
    | .num v => if 0 ≤ v ∧ v < m then some (.num v) else none
    | _ => none
  | .toRange f l =>
    match arg with
    | .num v => if f ≤ v ∧ v ≤ l then some (.num v) else none
    | _ => none
  | .condition c =>
    match arg with
    | .num v =>
      match Verif.eval .ada (valEnv v) c with
      | some (.bool b) => some (.bool b)
      | _ => none
    | _ => none

/-! ## The generator -/

/-- The functions generated for a scalar type. `size` determines the base type, `toActual` has the precondition
`Valid (Val)`. `enumToActual` is the additional function for literals of always valid enumerations, `enumToBase` the one of
their literals. -/
structure Functions where
  valid : Body
  toBase : Body
  toActual : Body
  enumToBase : Option Body
  enumToActual : Option Body

/-- `__enumeration_functions`, `rflx/generator/generator.py:2538-2671`. `enum.constraints("Val")` is `[TRUE]`
(`rflx/model/type_.py:456`). -/
def enumerationFunctions (t : Enum) : Py Functions := do
  let size ← scalarSize t.size
  let incomplete : Bool := (t.literals.length : Int) < 2 ^ size.v.toNat
  let toBase : Cases := t.literals.map fun kv => (.lit kv.1, .num kv.2)
  if t.alwaysValid then
    let c ← (Expr.bool .and [.tru]).simplified
    return ⟨.condition c,
      .ifKnown toBase,
      .case (t.literals.map (fun kv => (.num kv.2, .known kv.1)) ++ [(.others, .raw)]),
      some (.case toBase),
      some (.leaf .knownParam)⟩
  else
    return ⟨.case (t.literals.map (fun kv => (.num kv.2, .bool true)) ++ if incomplete then [(.others, .bool false)] else []),
      .case toBase,
      .case (t.literals.map (fun kv => (.num kv.2, .lit kv.1)) ++ if incomplete then [(.others, .unreachable)] else []),
      none, none⟩

/-- `__integer_functions`, `rflx/generator/generator.py:2505-2536`, with `__integer_conversion_functions` (2933-2955) and the
types declared by `modular_types` and `range_types` (2965-2987). -/
def integerFunctions (t : IntType) : Py Functions := do
  let cs ← t.constraints val
  let c ← (Expr.bool .and cs).simplified
  match t with
  | .modular _ => return ⟨.condition c, .leaf .param, .leaf .param, none, none⟩
  | .range r =>
    let size ← scalarSize r.size
    return ⟨.condition c, .toMod (2 ^ size.v.toNat), .toRange r.first.v r.last.v, none, none⟩

end Verif.Generator
