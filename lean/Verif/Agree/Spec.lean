import Verif.PyRFLX.MessageParseProps
import Verif.PyRFLX.MessageParseExample
import Verif.Ctx.Props
import Verif.Agree.Subst

/-! # Messages of PyRFLX and of generated code: what is to be proved (C60)

The same message specification is the input of `PyRFLX` (`rflx/pyrflx`) and of the generator (`rflx/generator`). The models of
the two are independent of each other. Here is said when they start from the same specification, and when they have found the
same fields. -/

namespace Verif.Agree
open Verif Verif.Graph Verif.Types Verif.Bits

/-- Fields are named in lower case in generated code's model (`Verif.Ctx`), and as written in the model of PyRFLX. -/
def low (f : Field) : Field := ⟨f.key⟩

/-- A link between fields named in lower case. -/
def lowLink (l : Link) : Link := { l with source := low l.source, target := low l.target }

/-- The same type, in both models. Enumerations which are always valid are excluded, see
`C60_unknown_values_counterexample`. -/
def SameType : PyRFLX.FType → Verify.FTy → Prop
  | .scalar (.int t) _, .int u => t = u
  | .scalar (.enum t) _, .enum u => t = u ∧ t.alwaysValid = false
  | .opaque, .opaque => True
  | .array .., .array .. => True
  | _, _ => False

/-- The fields on a way from the beginning of the message to a field, the last one in front. -/
inductive Way (links : List Link) : List Field → Field → Prop
  | start : Way links [] INITIAL
  | step {fs p l} : Way links fs p → l ∈ links → l.source = p → l.target ≠ FINAL → Way links (l.target :: fs) l.target

/-- The names and attributes in conditions and sizes, where `fs` are the fields in front: values and sizes of these fields,
literals, lists of numbers. Positions are excluded: `'First` and `'Last` are counted from 0 in PyRFLX and from the first bit of
the buffer in generated code. -/
def Known (fields fs : List Field) : Expr → Prop
  | .var ng imm id => ng = false ∧ imm = false ∧ (low id ∈ fields.map low → low id ∈ fs.map low)
  | .attr ng a pre => ng = false ∧ a = .size ∧ ∃ f ∈ fs, pre = .var false false f
  | .agg es => ∀ e ∈ es, ∃ v b, e = .num v b
  | _ => False

/-- The two models describe the same message. `rest` are the fields that extend to the end of the message. -/
structure SameMessage (m : PyRFLX.Msg) (P : Ctx.Pkg) (rest : Field → Bool) : Prop where
  /-- the same fields, spelled as in the specification -/
  fields : P.m.msg.fields = m.fields.map low
  spelled : ∀ f ∈ m.fields, f = ⟨[P.m.spell (low f)]⟩
  /-- the same links -/
  links : P.m.msg.links = m.links.map lowLink
  /-- the same types -/
  types : ∀ f ∈ m.fields, ∀ t, (low f, t) ∈ P.m.msg.types → SameType (m.types f) t
  /-- names of enumeration literals are unambiguous: they are names, but no names of fields, and have one number -/
  literal : ∀ f ∈ m.fields, ∀ t imp, m.types f = .scalar (.enum t) imp → ∀ l n, (l, n) ∈ t.literals →
    ∀ i, ID.ofStr (PyRFLX.spelled t imp l) = .ok i →
      i.Lex ∧ low i ∉ m.fields.map low ∧ Ctx.literalNumber P.m.msg i.key = n
  literals : ∀ kv ∈ m.lits,
    (∀ id, kv.1.eq (.var false false id) = true → low id ∉ m.fields.map low ∧ ∃ b, kv.2 = .num (Ctx.literalNumber P.m.msg id.key) b) ∧
    ∀ f ∈ m.fields, kv.1.eq (.attr false .size (.var false false f)) = false
  /-- conditions and sizes use the fields in front -/
  conditions : ∀ l ∈ m.links, ∀ fs, Way m.links fs l.source → Gen.Cov (Known m.fields fs) AnyRel l.condition
  sizes : ∀ l ∈ m.links, l.target ∈ m.fields → (m.types l.target).isComposite = true → rest l.target = false →
    ∀ fs, Way m.links fs l.source → Gen.Cov (Known m.fields fs) AnyRel l.size

/-- A field that extends to the end of the message has, in generated code, the size of the rest of the buffer, and starts with a
whole byte. -/
def RestOfBuffer (m : PyRFLX.Msg) (P : Ctx.Pkg) (rest : Field → Bool) (b : Spark.Bytes) (lo hi : Int) : Prop :=
  ∀ l ∈ m.links, rest l.target = true → ∀ es pos, Ctx.Follows P.m.msg b lo hi es (low l.source) pos →
    eval .ada (Ctx.itemEnv P.m.msg b lo hi es) l.size = some (.int (hi - pos + 1)) ∧ 8 ∣ hi - pos + 1

/-- The bits from `lo` to `hi` of the buffer are the given bytes. -/
def Holds (b : Spark.Bytes) (lo hi : Int) (input : List Byte) : Prop :=
  hi = lo + 8 * input.length - 1 ∧
    ∀ i (h : i < (input.flatMap Spec.byteBits).length), Ctx.bitAt b (lo + i) = (input.flatMap Spec.byteBits)[i]

/-- PyRFLX and generated code have the same field: its position (counted from the beginning of the message), its size, its bits,
and its number if it is a scalar. -/
def SameField (m : PyRFLX.Msg) (b : Spark.Bytes) (lo : Int) (fv : Field → PyRFLX.FV) (f : Field) (e : Ctx.Item) : Prop :=
  e.f = low f ∧ ∃ a n v bits, (fv f).first = some a ∧ (fv f).size (m.typeOf f) = .ok (some n) ∧ (fv f).value = some v ∧
    e.first = lo + a.v ∧ e.last = lo + a.v + n.v - 1 ∧ 0 ≤ n.v ∧
    PyRFLX.valBits (m.typeOf f) v = .ok ⟨bits⟩ ∧ bits.length = n.v.toNat ∧
    (∀ i (h : i < bits.length), bits[i] = Ctx.bitAt b (e.first + i)) ∧
    ∀ x, v = .scalar x → e.value = x.number

end Verif.Agree
