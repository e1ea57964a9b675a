import Verif.Refine.Model
import Verif.Ctx.Spec

/-! # Refinements: what is to be proved of `X_In_Y_F` and `Switch_To_F` -/

namespace Verif.Refine
open Verif Verif.Graph Verif.Verify Verif.Types Verif.Gen Verif.Spark Verif.Ctx

mutual
/-- The names in an expression. -/
def namesOf : Expr → List ID
  | .var _ _ id => [id]
  | .attr _ _ e | .sel _ e _ | .not e => namesOf e
  | .call _ _ es | .bool _ es | .add es | .mul es | .agg es => namesOfL es
  | .bin _ a b | .rel _ a b => namesOf a ++ namesOf b
  | .quant _ _ a b => namesOf a ++ namesOf b
  | _ => []
def namesOfL : List Expr → List ID
  | [] => []
  | e :: es => namesOf e ++ namesOfL es
end

/-- A field occurs in an expression. -/
def Occurs (f : Field) (e : Expr) : Prop := ∃ id ∈ namesOf e, id.key = f.parts

/-- The number is that of a literal if the type is an enumeration. -/
def IsKnown : FTy → Int → Prop
  | .enum t, v => ∃ l ∈ t.literals, l.2 = v
  | _, _ => True

/-- The refinement applies to the valid fields `es` of a message in a buffer: the refined field is valid and not empty (empty, if the
message in the field has no fields), and so are the fields of the condition, with known values, and the condition holds. -/
structure Applies (r : Ref) (b : Bytes) (lo hi : Int) (es : List Item) : Prop where
  field : ∃ e ∈ es, e.f = r.field ∧ (r.sdu.m.msg.fields ≠ [] → e.first ≤ e.last) ∧ (r.sdu.m.msg.fields = [] → e.last < e.first)
  fields : ∀ f t, (f, t) ∈ r.pdu.m.msg.types → Occurs f r.condition → ∃ e ∈ es, e.f = f ∧ IsKnown t e.value
  condition : IsTrue r.pdu.m.msg b lo hi es r.condition

/-! ## Conditions for which legal code is generated -/

/-- Declarations of the package of a type are visible in the package of the refinement: it is the same package, the package of the
refined message if that is another one, `Standard`, or the condition has a name with this package. -/
def Visible (r : Ref) (i : ID) : Prop :=
  i.key.dropLast = [r.package.lower] ∨ i.key.dropLast = [['_', '_', 'b', 'u', 'i', 'l', 't', 'i', 'n', 's', '_', '_']] ∨
  ((packageOf r.pduId).lower ≠ r.package.lower ∧ i.key.dropLast = [(packageOf r.baseId).lower]) ∨
  ∃ id ∈ namesOf r.condition, id.parts.length = 2 ∧ id.key.dropLast = i.key.dropLast

/-- The name of a scalar field. -/
def IsField (r : Ref) (e : Expr) (f : Field) (t : FTy) : Prop :=
  ∃ id : ID, e = .v id ∧ id.key = f.parts ∧ (f, t) ∈ r.pdu.m.msg.types ∧ Scalar t

/-- Constant arithmetic. -/
def IsNumber (e : Expr) : Prop := e.Const ∧ e.WF ∧ ∃ x, ∀ ρ, eval .ada ρ e = some (.int x)

/-- The name of a literal; without package only if the package is visible. -/
def IsLiteral (r : Ref) (e : Expr) (t : Enum) : Prop :=
  ∃ id : ID, e = .v id ∧ ∃ l ∈ t.literals, l.1.parts.length = 1 ∧
    (id.key = l.1.key ∧ Visible r t.id ∨ id.key = t.id.key.dropLast ++ l.1.key)

/-- A field of an integer type and a number, a field of an enumeration type and a literal, or two fields of the same type. -/
inductive Comparable (r : Ref) : Expr → Expr → Prop
  | number {a b f t} : IsField r a f (.int t) → IsNumber b → Visible r (FTy.int t).id → Comparable r a b
  | literal {a b f t} : IsField r a f (.enum t) → IsLiteral r b t → Visible r t.id → Comparable r a b
  | fields {a b f g t} : IsField r a f t → IsField r b g t → Visible r t.id → Comparable r a b

mutual
/-- Conditions in which fields are operands of comparisons, see `C58_contains_counterexample`, with values of the same type, see
`C58_types_counterexample`, whose operators are visible, see `C58_operators_counterexample`. -/
def Cond (r : Ref) : Expr → Prop
  | .tru | .fls => True
  | .bool _ ts => CondL r ts
  | .rel op a b => op.isCmp = true ∧ (Comparable r a b ∨ Comparable r b a)
  | _ => False
def CondL (r : Ref) : List Expr → Prop
  | [] => True
  | e :: es => Cond r e ∧ CondL r es
end

/-- A refinement for which legal code is generated: the refined field is a composite field of the message, the condition is as
above, and no package of an enumeration type is called like the formal package of the refined message. -/
structure Supported (r : Ref) : Prop where
  field : ∃ t, (r.field, t) ∈ r.pdu.m.msg.types ∧ ¬ Scalar t
  condition : Cond r r.condition
  packages : ∀ f t, (f, FTy.enum t) ∈ r.pdu.m.msg.types → t.id.key.head? ≠ some (PyStr.lower (flatName r.pduId.str))

end Verif.Refine
