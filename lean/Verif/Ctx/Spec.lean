import Verif.Ctx.Model
import Verif.Gen.Generic
import Verif.Gen.Spec
import Verif.Types.Props
import Verif.Spark.RuntimeProps

/-! # Messages in a buffer: what is to be proved of generated parsers and serializers -/

namespace Verif.Ctx
open Verif Verif.Graph Verif.Verify Verif.Types Verif.Gen Verif.Spark

/-! ## Bits -/

/-- The bit with the given index, counted from 1 at the most significant bit of the byte with index 1. -/
def bitAt (b : Bytes) (i : Int) : Bool :=
  (b.data.getD (((i - 1) / 8 + 1 - b.first).toNat) 0).testBit (7 - ((i - 1) % 8).toNat)

/-- The number in the `n` bits from bit `i` on, most significant bit first. -/
def bitsAt (b : Bytes) (i : Int) : Nat → Nat
  | 0 => 0
  | n + 1 => 2 * bitsAt b i n + (bitAt b (i + n)).toNat

/-- The bytes that contain the bits from `i` to `j`. -/
def bytesAt (b : Bytes) (i j : Int) : List Int :=
  (List.range ((j - 1) / 8 - (i - 1) / 8 + 1).toNat).map fun k =>
    ((b.data.getD (((i - 1) / 8 + 1 - b.first).toNat + k) 0 : Nat) : Int)

/-! ## Fields of a message in a buffer -/

/-- A field of a message in a buffer: its first and last bit, and its number if it is a scalar. -/
structure Item where
  f : Field
  first : Int
  last : Int
  value : Int

/-- The numbers of a scalar type. -/
def InType : FTy → Int → Prop
  | .int t, v => ∃ f l, t.first = .ok f ∧ t.last = .ok l ∧ f.v ≤ v ∧ v ≤ l.v
  | .enum t, v => t.alwaysValid = true ∨ v ∈ t.literals.map (·.2)
  | _, _ => False

/-- The number of an enumeration literal, which may be written with its package. -/
def literalNumber (m : Msg) (k : List PyStr) : Int :=
  (((enums m.types).flatMap fun t => t.literals.flatMap fun l =>
    [(l.1.key, l.2), (t.id.key.dropLast ++ l.1.key, l.2)]).lookup k).getD 0

/-- What the names in conditions and sizes stand for, given the fields in front of them: values and positions of these
fields, bounds of the message, numbers of literals. Other names are 0 or empty. -/
def itemEnv (m : Msg) (b : Bytes) (lo hi : Int) (es : List Item) : Env where
  var k :=
    match m.type? ⟨k⟩, es.find? (fun e => e.f == ⟨k⟩) with
    | none, _ => .int (literalNumber m k)
    | some t, some e => if t.isScalar then .int e.value else .seq (bytesAt b e.first e.last)
    | some t, none => if t.isScalar then .int 0 else .seq []
  attr a k :=
    if k = MESSAGE.key then
      match a with
      | .first => .int lo
      | .last => .int hi
      | _ => .int (hi - lo + 1)
    else
      match es.find? (fun e => e.f == ⟨k⟩), a with
      | some e, .first => .int e.first
      | some e, .last => .int e.last
      | some e, _ => .int (e.last - e.first + 1)
      | none, _ => .int 0
  sel _ _ := .int 0
  call _ _ := .bool false

/-- A condition holds. -/
def IsTrue (m : Msg) (b : Bytes) (lo hi : Int) (es : List Item) (c : Expr) : Prop :=
  eval .ada (itemEnv m b lo hi es) c = some (.bool true)

/-- Fields one after the other, from bit `lo` on, along the links of a message: `es` lists the fields, the last one in front;
`p` is the last field and `pos` the bit after it. Values are those of the bits, and belong to the type of the field. -/
inductive Follows (m : Msg) (b : Bytes) (lo hi : Int) : List Item → Field → Int → Prop
  | start : Follows m b lo hi [] INITIAL lo
  | scalar {es p pos l t n} : Follows m b lo hi es p pos → l ∈ m.links → l.source = p → l.target ≠ FINAL →
      IsTrue m b lo hi es l.condition → (l.target, t) ∈ m.types → Scalar t → t.size = .ok n → pos + n.v - 1 ≤ hi →
      InType t (bitsAt b pos n.v.toNat) →
      Follows m b lo hi (⟨l.target, pos, pos + n.v - 1, bitsAt b pos n.v.toNat⟩ :: es) l.target (pos + n.v)
  | composite {es p pos l t n} : Follows m b lo hi es p pos → l ∈ m.links → l.source = p → l.target ≠ FINAL →
      IsTrue m b lo hi es l.condition → (l.target, t) ∈ m.types → ¬ Scalar t →
      eval .ada (itemEnv m b lo hi es) l.size = some (.int n) → 0 ≤ n → pos + n - 1 ≤ hi →
      Follows m b lo hi (⟨l.target, pos, pos + n - 1, 0⟩ :: es) l.target (pos + n)

/-- The fields of a message that ends after the last one. -/
def IsMessage (m : Msg) (b : Bytes) (lo hi : Int) (es : List Item) : Prop :=
  ∃ p pos l, Follows m b lo hi es p pos ∧ l ∈ m.links ∧ l.source = p ∧ l.target = FINAL ∧ IsTrue m b lo hi es l.condition

/-! ## Messages and buffers for which code is generated -/

/-- The fields on a path from the beginning of the message to a field. -/
inductive Path (m : Msg) : List Field → Field → Prop
  | start : Path m [] INITIAL
  | step {fs p l} : Path m fs p → l ∈ m.links → l.source = p → l.target ≠ FINAL → Path m (l.target :: fs) l.target

/-- Names have values of the right kind. -/
structure Typed (m : GMsg) (σ : Env) : Prop where
  scalar : ∀ f t, (f, t) ∈ m.msg.types → Scalar t → ∃ i, σ.var f.parts = .int i
  composite : ∀ f t, (f, t) ∈ m.msg.types → ¬ Scalar t → ∃ ds, σ.var f.parts = .seq ds
  literal : ∀ id, LitName m id → ∃ i, σ.var id.key = .int i
  attr : ∀ a k, ∃ i, σ.attr a k = .int i

/-- No `'First` of the field `n`. -/
def NotFirst (n : PyStr) : Expr → Prop
  | .attr _ a pre => ¬ (a = .first ∧ pre = .v ⟨[n]⟩)
  | .rel .. => False
  | _ => True

/-- The options of the substitution in most conditions. -/
def opts : Opts := ⟨false, false, some U64⟩

/-- Links to the same field are next to each other. -/
def Grouped (ls : List Link) : Prop := ∀ a b c : Link, [a, b, c].Sublist ls → a.target = c.target → b.target = a.target

/-- A message for which code is generated. Names and expressions are those of `C43_condition_partial`; in addition no field is
called `Size` or `F_...`, no condition of a link uses the attribute `First` of the field in front of it, no link has a `First`
aspect, and every scalar has at least one bit. The first field is unique, fields are in topological order and have links, conditions and sizes
use fields only that precede them on every path. Conditions have truth values and sizes have numbers as values. -/
structure WellFormed (P : Pkg) : Prop where
  names : Names P.m opts
  size : ⟨[['s', 'i', 'z', 'e']]⟩ ∉ P.m.msg.fields
  affix : ∀ f ∈ P.m.msg.fields, ∀ n, f.parts = [n] → unaffixed n = none
  nodup : P.m.msg.fields.Nodup
  initial : INITIAL ∉ P.m.msg.fields
  final : FINAL ∉ P.m.msg.fields
  typed : ∀ f ∈ P.m.msg.fields, ∃ t, (f, t) ∈ P.m.msg.types
  int : ∀ f t, (f, FTy.int t) ∈ P.m.msg.types → t.Accepted
  enum : ∀ f t, (f, FTy.enum t) ∈ P.m.msg.types → t.Accepted ∧ t.literals ≠ []
  sized : ∀ f t, (f, t) ∈ P.m.msg.types → Scalar t → ∃ n, t.size = .ok n ∧ 1 ≤ n.v
  start : ∃ l, outgoing P.m.msg.links INITIAL = [l] ∧ P.m.msg.fields.head? = some l.target
  links : ∀ l ∈ P.m.msg.links, (l.source = INITIAL ∨ l.source ∈ P.m.msg.fields) ∧ (l.target = FINAL ∨ l.target ∈ P.m.msg.fields)
  order : ∀ l ∈ P.m.msg.links, l.source ∈ P.m.msg.fields → l.target ∈ P.m.msg.fields →
    P.m.msg.fields.idxOf l.source < P.m.msg.fields.idxOf l.target
  reached : ∀ f ∈ P.m.msg.fields, ∃ l ∈ P.m.msg.links, l.target = f
  left : ∀ f ∈ P.m.msg.fields, outgoing P.m.msg.links f ≠ []
  grouped : ∀ f, Grouped (outgoing P.m.msg.links f)
  noFirst : ∀ l ∈ P.m.msg.links, l.first = .undefined
  scope : ∀ l ∈ P.m.msg.links, ∀ fs, Path P.m.msg fs l.source → Cond P.m opts (· ∈ fs) l.condition
  wf : ∀ l ∈ P.m.msg.links, l.condition.WF ∧ l.condition.Good Division.ada.Odd false
  bool : ∀ l ∈ P.m.msg.links, ∀ σ, Typed P.m σ → ∃ x, eval .ada σ l.condition = some (.bool x)
  own : ∀ l ∈ P.m.msg.links, l.source ∈ P.m.msg.fields → Cov (NotFirst (P.m.spell l.source)) (fun _ _ _ => True) l.condition
  sizeScope : ∀ l ∈ P.m.msg.links, ∀ t, (l.target, t) ∈ P.m.msg.types → ¬ Scalar t → ∀ fs, Path P.m.msg fs l.source →
    Cond P.m opts (· ∈ fs) l.size
  sizeWF : ∀ l ∈ P.m.msg.links, ∀ t, (l.target, t) ∈ P.m.msg.types → ¬ Scalar t → l.size.WF ∧ l.size.Good Division.ada.Odd false
  sizeInt : ∀ l ∈ P.m.msg.links, ∀ t, (l.target, t) ∈ P.m.msg.types → ¬ Scalar t → ∀ σ, Typed P.m σ →
    ∃ n, eval .ada σ l.size = some (.int n)

/-- The bits from `lo` to `hi` lie in the buffer. The last index of bits is that of a large type. -/
structure InBuffer (P : Pkg) (b : Bytes) (lo hi : Int) : Prop where
  bytes : AreBytes b.data
  lower : 1 ≤ lo ∧ (b.first : Int) ≤ (lo - 1) / 8 + 1
  order : lo ≤ hi
  upper : (hi - 1) / 8 + 1 ≤ b.last
  range : hi + 1 < P.bitLast ∧ 64 ≤ P.bitLast

/-- Of the conditions of links from a field, only one holds; this is what is proved about messages by `rflx` (C18). -/
def Deterministic (m : Msg) (b : Bytes) (lo hi : Int) : Prop :=
  ∀ es p pos, Follows m b lo hi es p pos → ∀ l ∈ m.links, ∀ l' ∈ m.links, l.source = p → l'.source = p →
    IsTrue m b lo hi es l.condition → IsTrue m b lo hi es l'.condition → l = l'

/-- Sizes of composite fields are neither negative (C19) nor too large for the type of bit indices, and no field of size zero
starts with bit 1. -/
def Sizes (P : Pkg) (b : Bytes) (lo hi : Int) : Prop :=
  ∀ es p pos, Follows P.m.msg b lo hi es p pos → ∀ l ∈ P.m.msg.links, l.source = p → l.target ≠ FINAL →
    IsTrue P.m.msg b lo hi es l.condition → ∀ t, (l.target, t) ∈ P.m.msg.types → ¬ Scalar t →
    ∀ n, eval .ada (itemEnv P.m.msg b lo hi es) l.size = some (.int n) → 0 ≤ n ∧ n ≤ P.bitLast ∧ (pos = 1 → 1 ≤ n)

end Verif.Ctx
