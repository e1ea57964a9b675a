import Verif.Ctx.Sequences
import Verif.Ctx.Invariant

/-! # Sequences in a buffer: what is to be proved of fields that are sequences of scalars -/

namespace Verif.Ctx
open Verif Verif.Graph Verif.Verify Verif.Types Verif.Gen Verif.Spark

/-- The bits from `first` to `last` are the given elements of a type, one after the other. -/
def Elements (b : Bytes) (t : FTy) (first last : Int) (vs : List Nat) : Prop :=
  ∃ n, t.size = .ok n ∧ last = first + vs.length * n.v - 1 ∧
    ∀ i (h : i < vs.length), bitsAt b (first + i * n.v) n.v.toNat = vs[i] ∧ InType t vs[i]

/-- A field that is a sequence of scalars. -/
def ArrayOf (m : Msg) (f : Field) (t : FTy) : Prop := Scalar t ∧ ∃ id, (f, FTy.array id t) ∈ m.types

/-- The value of an expression does not depend on the content of the given fields. -/
def Blind (S : Field → Prop) (e : Expr) : Prop :=
  ∀ σ σ' : Env, σ.attr = σ'.attr → (∀ k, ¬ S ⟨k⟩ → σ.var k = σ'.var k) → eval .ada σ e = eval .ada σ' e

/-- The content of a sequence is not used in any condition or size, and the place of a sequence does not depend on the content of
composite fields, see `C65_overwrite_counterexample`. -/
structure Unread (P : Pkg) : Prop where
  condition : ∀ l ∈ P.m.msg.links, Blind (fun f => ∃ t, ArrayOf P.m.msg f t) l.condition
  size : ∀ l ∈ P.m.msg.links, P.isComposite l.target = true → Blind (fun f => ∃ t, ArrayOf P.m.msg f t) l.size
  place : ∀ l ∈ P.m.msg.links, ∀ t, ArrayOf P.m.msg l.target t → Blind (fun f => P.isComposite f = true) l.condition ∧
    Blind (fun f => P.isComposite f = true) l.size

/-- The element types of sequences are accepted by `rflx` (C05, C06), and have at least one bit. -/
structure ElementTypes (P : Pkg) : Prop where
  int : ∀ f t, ArrayOf P.m.msg f (.int t) → t.Accepted
  enum : ∀ f t, ArrayOf P.m.msg f (.enum t) → t.Accepted ∧ t.literals ≠ []
  sized : ∀ f t, ArrayOf P.m.msg f t → ∃ n, t.size = .ok n ∧ 1 ≤ n.v

/-- The indices of a buffer are those of `Types.Bytes`, and the last index of bits is the last bit of the last byte
(`rflx/templates/rflx_generic_types.ads:27-33`). -/
structure Indexed (P : Pkg) (b : Bytes) : Prop where
  first : 1 ≤ b.first
  last : 8 * b.last ≤ P.bitLast
  bits : P.bitLast % 8 = 0

end Verif.Ctx
