import Verif.Access.Model
import Verif.Ctx.Spec

/-! # What is to be proved of the accessors of message contexts -/

namespace Verif.Ctx
open Verif Verif.Graph Verif.Verify Verif.Types Verif.Gen Verif.Spark

/-- The calls that do not touch a field: `Verify` and `Verify_Message`, and calls that write a field that comes later in the
order of the fields. -/
def Later (P : Pkg) (f : Field) : Op → Prop
  | .verify _ | .verifyMessage => True
  | .reset g | .setScalar g _ | .setEmpty g | .initializeField g | .setOpaque g _ => P.m.msg.fields.idxOf f < P.m.msg.fields.idxOf g
  | .takeBuffer => False

/-- The field `f` does not fit into the buffer: the fields in front of it are there from bit `lo` on, the condition of the link to it
holds, and the field has more bits than are left up to bit `hi`. -/
def TooShort (m : Msg) (b : Bytes) (lo hi : Int) (f : Field) : Prop :=
  ∃ es p pos l t n, Follows m b lo hi es p pos ∧ l ∈ m.links ∧ l.source = p ∧ l.target = f ∧ f ≠ FINAL ∧ IsTrue m b lo hi es l.condition ∧
    (f, t) ∈ m.types ∧ (Scalar t ∧ t.size.toOption.map (·.v) = some n ∨ ¬ Scalar t ∧ eval .ada (itemEnv m b lo hi es) l.size = some (.int n)) ∧
    hi - pos + 1 < n

end Verif.Ctx
