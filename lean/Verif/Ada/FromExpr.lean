import Verif.Ada.Syntax

/-! # From expressions of the specification to Ada expressions (`ada_expr` in `rflx/expression.py`)

An Ada name computes its text when it is created; in the model `AExpr.str` does this. -/

namespace Verif.Ada
open Verif

/-- `getattr(ada, self.__class__.__name__)`, `rflx/expression.py:1098`: `ada.py` has no class `ValidChecksum`, `Present`, `Head`, `Opaque`. -/
def adaAttr : AttrKind → Option Attr
  | .size => some .size
  | .length => some .length
  | .first => some .first
  | .last => some .last
  | .valid => some .valid
  | .validChecksum => none
  | .present => none
  | .head => none
  | .opaque => none

/-- `getattr(ada, name)(prefix, negative)`, `rflx/expression.py:1097-1098`. -/
def mkAttr (neg : Bool) (k : AttrKind) (pre : AExpr) : Py AExpr :=
  match adaAttr k with
  | some a => .ok (.attr neg a pre)
  | none => .error .attributeError

/-- `ada.Aggregate(*elements)`: the invariant requires an element, `rflx/ada.py:475-479`. -/
def mkAggregate (es : List AExpr) : Py AExpr := if es.isEmpty then .error .assertion else .ok (.agg es)

mutual

/-- `ada_expr`, `rflx/expression.py:226-227, 247-248, 292-293, 559-560, 576-577, 604-605, 621-622, 733-734, 802-803, 831-832, 872-873,
900-901, 928-929, 956-957, 1051-1052, 1097-1098, 1315-1316, 1377-1378, 1418-1419, 1468-1469, 1547-1548 (and the other relations), 1797-1800`. -/
def adaExpr : Expr → Py AExpr
  | .tru => .ok (.var false ⟨[['T', 'r', 'u', 'e']]⟩)
  | .fls => .ok (.var false ⟨[['F', 'a', 'l', 's', 'e']]⟩)
  | .undefined => .error .notImplemented
  | .num v b => .ok (.num v b)
  | .var neg _ id => .ok (.var neg id)
  | .attr neg k pre => (adaExpr pre).bind (mkAttr neg k)
  | .sel neg pre s => (adaExpr pre).bind fun p => .ok (.sel neg p s)
  | .call neg id args => (adaExprL args).bind fun as => .ok (.call neg id as)
  | .not e => (adaExpr e).bind fun a => .ok (.not a)
  | .bool op ts => (adaExprL ts).bind fun as => .ok (.bool op as)
  | .add ts => (adaExprL ts).bind fun as => .ok (.add as)
  | .mul ts => (adaExprL ts).bind fun as => .ok (.mul as)
  | .bin op l r => (adaExpr l).bind fun a => (adaExpr r).bind fun b => .ok (.bin op a b)
  | .rel op l r => (adaExpr l).bind fun a => (adaExpr r).bind fun b => .ok (.rel op a b)
  | .agg es => (adaExprL es).bind mkAggregate
  | .quant k p it pr => (adaExpr it).bind fun a => (adaExpr pr).bind fun b => .ok (.quant k p a b)

/-- `[e.ada_expr() for e in es]`. -/
def adaExprL : List Expr → Py (List AExpr)
  | [] => .ok []
  | e :: es => (adaExpr e).bind fun a => (adaExprL es).bind fun as => .ok (a :: as)

end

end Verif.Ada
