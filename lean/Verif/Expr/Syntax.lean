import Verif.Ident.Model

/-! # Expression trees of `rflx/expression.py`

One constructor per class (related classes share a constructor with an operator tag).
Not modelled: `String`, `ValueRange`, `Conversion`, `Comprehension`, `MessageAggregate`, `Binding`,
`Val`, `Indexed` (`rflx/expression.py:1185-1254, 1476-1505, 1864-2281`), the attributes `type_` and
`location`. -/

namespace Verif

/-- `And` (`rflx/expression.py:535-568`), `AndThen` (571-577), `Or` (580-613), `OrElse` (616-622). -/
inductive BoolOp | and | andThen | or | orElse
deriving DecidableEq, Repr

/-- `isinstance(_, And)`: `AndThen` is a subclass of `And`, `OrElse` of `Or`
(`rflx/expression.py:571,616`). -/
def BoolOp.isAnd : BoolOp → Bool
  | .and | .andThen => true
  | .or | .orElse => false

/-- `Sub` (`rflx/expression.py:856-881`), `Div` (884-909), `Pow` (912-937), `Mod` (940-965). -/
inductive ArithOp | sub | div | pow | mod
deriving DecidableEq, Repr

/-- `Less`, `LessEqual`, `Equal`, `GreaterEqual`, `Greater`, `NotEqual`, `In`, `NotIn`
(`rflx/expression.py:1530-1737`). -/
inductive RelOp | lt | le | eq | ge | gt | ne | isIn | notIn
deriving DecidableEq, Repr

/-- The attributes of `rflx/expression.py:1109-1182`. -/
inductive AttrKind | size | length | first | last | validChecksum | valid | present | head | opaque
deriving DecidableEq, Repr

/-- `ForAllOf`, `ForAllIn`, `ForSomeIn` (`rflx/expression.py:1825-1861`). -/
inductive QKind | allOf | allIn | someIn
deriving DecidableEq, Repr

/-- The number bases `Number` can print, `rflx/expression.py:633-644`. -/
inductive NBase | b0 | b2 | b8 | b10 | b16
deriving DecidableEq, Repr

/-- Expressions, `rflx/expression.py`. `add` and `mul` are `Add` (754-810) and `Mul` (813-839), `bin`
the other arithmetic operators, `rel` the relations, `bool` the boolean operators, `undefined` is
`UNDEFINED` (1407-1426), `agg` is `Aggregate` (1429-1473), `quant` the quantified expressions
(1740-1861); `var` is `Variable` with its `negative` and `immutable` flags (1012-1058), `attr` is
`Attribute` with its `negative` flag (1061-1182), `sel` is `Selected` (1257-1320), `call` is `Call`
(1323-1404). -/
inductive Expr where
  | tru
  | fls
  | undefined
  | num (v : Int) (base : NBase)
  | var (neg imm : Bool) (id : ID)
  | attr (neg : Bool) (k : AttrKind) (pre : Expr)
  | sel (neg : Bool) (pre : Expr) (s : ID)
  | call (neg : Bool) (id : ID) (args : List Expr)
  | not (e : Expr)
  | bool (op : BoolOp) (ts : List Expr)
  | add (ts : List Expr)
  | mul (ts : List Expr)
  | bin (op : ArithOp) (l r : Expr)
  | rel (op : RelOp) (l r : Expr)
  | agg (es : List Expr)
  | quant (k : QKind) (p : ID) (it pr : Expr)
deriving Repr, Inhabited

namespace Expr

/-- `Number(v)`, `rflx/expression.py:625-629`, printed without base. -/
abbrev n (v : Int) : Expr := .num v .b0

/-- `Variable(id)`, `rflx/expression.py:1013-1022`, with the default flags. -/
abbrev v (id : ID) : Expr := .var false false id

/-- `isinstance(_, Name)`, `rflx/expression.py:968,1012,1061,1257,1323,1407`. -/
def isName : Expr → Bool
  | undefined | var .. | attr .. | sel .. | call .. => true
  | _ => false

/-- The classes of expressions, for `isinstance` tests. -/
inductive Cls
  | tru | fls | undefined | num | var | attr (k : AttrKind) | sel | call | not | bool (op : BoolOp)
  | add | mul | bin (op : ArithOp) | rel (op : RelOp) | agg | quant (k : QKind)
deriving DecidableEq, Repr

/-- `type(self)`. -/
def cls : Expr → Cls
  | tru => .tru
  | fls => .fls
  | undefined => .undefined
  | num .. => .num
  | var .. => .var
  | attr _ k _ => .attr k
  | sel .. => .sel
  | call .. => .call
  | not _ => .not
  | bool op _ => .bool op
  | add _ => .add
  | mul _ => .mul
  | bin op _ _ => .bin op
  | rel op _ _ => .rel op
  | agg _ => .agg
  | quant k _ _ _ => .quant k

/-- `issubclass(a, b)` for classes of expressions (`rflx/expression.py:571,616`). -/
def Cls.sub (a b : Cls) : Bool :=
  a == b || (a == .bool .andThen && b == .bool .and) || (a == .bool .orElse && b == .bool .or)

end Expr
end Verif
