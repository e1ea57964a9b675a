import Verif.Ctx.History
import Verif.Spark.ScalarSeq

/-! # Fields that are sequences of scalars (`rflx/generator/generator.py:1767-2183`, `rflx/generator/serializer.py:460-550`)

A field of an array type is read and written by means of a context of an instance of `RFLX.RFLX_Scalar_Sequence`
(`Verif/Spark/ScalarSeq.lean`): `Switch_To_X` hands over the buffer to it, `Update_X` takes the buffer back. Sequences of
messages are not modelled here, see C28. An element is the number that `To_Base` gives for it, as in `Pkg.setScalar`. -/

namespace Verif.Ctx
open Verif Verif.Graph Verif.Verify Verif.Types Verif.Gen
open Verif.Spark hiding byteIndex

/-- `Valid`, the function for the base type of the element type (`rflx/generator/generator.py:2505-2671`). -/
def elementValid (t : FTy) (v : Int) : Run Bool :=
  match t with
  | .int t => do
    match (← ofPy (Generator.integerFunctions t)).valid.eval (.num v) with
    | some (.bool b) => return b
    | _ => .error .illegal
  | .enum t => do
    match (← ofPy (Generator.enumerationFunctions t)).valid.eval (.num v) with
    | some (.bool b) => return b
    | _ => .error .illegal
  | _ => .error .illegal

/-- The instance of `RFLX_Scalar_Sequence` for the type of a field, `rflx/generator/generator.py:2447-2503`. The last index is
given by `Bit_Length'Last = Length'Last * 8` and `Length'Last = Index'Last` (`rflx/templates/rflx_generic_types.ads:27-33`). An
element is below `2 ** Size` (see `SeqOp.run`), so that `To_Base` does not change it. A function `Valid` that cannot be
generated is false here. -/
def Pkg.element (P : Pkg) (f : Field) : Run (ScalarSeq.Params Nat) :=
  match P.m.msg.type? f with
  | some (.array _ t) =>
    if t.isScalar then do
      let size ← ofPy t.size
      return ⟨(P.bitLast / 8).toNat, size.v.toNat, fun x => match elementValid t x with | .ok b => b | .error _ => false, id,
        (· % 2 ^ size.v.toNat)⟩
    else .error .illegal
  | _ => .error .illegal

/-- `Switch_To_X`, `rflx/generator/generator.py:1767-1979`; a field that is not valid yet is initialized
(`rflx/generator/common.py:556-600`). `not Ctx'Constrained` and `not Seq_Ctx'Constrained` are about the declarations of the
objects. -/
def Pkg.switchTo (P : Pkg) (c : Context) (f : Field) : Run (Context × ScalarSeq.Ctx) := do
  let E ← P.element f
  need c.hasBuffer
  P.needNext c f
  need (decide ((← P.fieldSize c f) > 0))
  need (decide ((← P.fieldFirst c f) % 8 = 1))
  need (← P.fieldCondition c f 0 (← P.fieldSize c f))
  need (← P.sufficientSpace c f)
  let first ← P.fieldFirst c f
  let last ← P.fieldLast c f
  let c ← if (c.cursors f).inv then do P.finish (← P.reset c f) f .structuralValid first last 0 else .ok c
  let (c, b) ← P.takeBuffer c
  let s ← ofAda (ScalarSeq.init E b c.bufFirst.toNat c.bufLast.toNat first.toNat last.toNat)
  return (c, s)

/-- `Complete_X`, `rflx/generator/generator.py:1982-2029`. -/
def Pkg.complete (P : Pkg) (c : Context) (f : Field) (s : ScalarSeq.Ctx) : Run Bool := do
  P.needNext c f
  return s.valid && decide ((s.size : Int) = (← P.fieldSize c f))

/-- `Update_X`, `rflx/generator/generator.py:2032-2183`, with `switch_update_conditions` (3044-3058). -/
def Pkg.update (P : Pkg) (c : Context) (f : Field) (s : ScalarSeq.Ctx) : Run (Context × ScalarSeq.Ctx) := do
  let E ← P.element f
  need (c.present f)
  need (← P.complete c f s)
  need (!c.hasBuffer)
  need s.hasBuffer
  need (decide (c.bufFirst = s.bufferFirst) && decide (c.bufLast = s.bufferLast))
  need (decide ((s.first : Int) = (← P.fieldFirst c f)))
  need (decide ((s.last : Int) = (← P.fieldLast c f)))
  let valid := s.valid
  let (s, b) ← ofAda (ScalarSeq.takeBuffer E s)
  let c := { c with buffer := b }
  return (if valid then c.set f { c.cursors f with state := .valid } else c, s)

/-- `Set_X` for a sequence, `rflx/generator/serializer.py:460-550`. -/
def Pkg.setSequence (P : Pkg) (c : Context) (f : Field) (s : ScalarSeq.Ctx) : Run Context := do
  let E ← P.element f
  P.compositePre c f
  need (decide ((← P.fieldSize c f) = s.size))
  need s.hasBuffer
  need s.valid
  let first ← P.fieldFirst c f
  let last ← P.fieldLast c f
  let c ← P.finish (← P.reset c f) f .valid first last 0
  match c.buffer with
  | some b => do
    let ds ← ofAda (ScalarSeq.copy E s (byteIndex last - byteIndex first + 1).toNat)
    return { c with buffer := some (← ofAda (assign b (byteIndex first) (byteIndex last) ds)) }
  | none => .error (.ada .access)

/-! ## Histories -/

/-- A call of a subprogram that works on a sequence. -/
inductive SeqOp
  | next
  | getElement
  | append (v : Nat)

/-- The sequence after a call. The parameter of `Append_Element` is of the element type. -/
def SeqOp.run (E : ScalarSeq.Params Nat) (s : ScalarSeq.Ctx) : SeqOp → Run ScalarSeq.Ctx
  | .next => ofAda (ScalarSeq.next E s)
  | .getElement => do
    let _ ← ofAda (ScalarSeq.getElement E s)
    return s
  | .append v => do
    need (decide (v < 2 ^ E.size))
    ofAda (ScalarSeq.appendElement E s v)

/-- A context of a message and a context of a sequence, which has been initialized for a field. -/
structure World where
  ctx : Context
  seq : Option (Field × ScalarSeq.Ctx)

/-- A call of a subprogram that works on a message or on the sequence; `setSequence` has the sequence of a history of its own as
parameter. -/
inductive WOp
  | msg (op : Op)
  | switchTo (f : Field)
  | seq (op : SeqOp)
  | takeBuffer
  | update (f : Field)
  | setSequence (f : Field) (b : Bytes) (bufferFirst bufferLast first last : Nat) (ops : List SeqOp)

/-- The contexts after a call. Simplification: a sequence whose type is not that of the field may be passed to `Update_X`, too; the
generated code does not compile then. -/
def Pkg.wstep (P : Pkg) (w : World) : WOp → Run World
  | .msg op => do return { w with ctx := ← P.step w.ctx op }
  | .switchTo f => do
    P.needField f
    let (c, s) ← P.switchTo w.ctx f
    return ⟨c, some (f, s)⟩
  | .seq op =>
    match w.seq with
    | some (f, s) => do return { w with seq := some (f, ← op.run (← P.element f) s) }
    | none => .error .illegal
  | .takeBuffer =>
    match w.seq with
    | some (f, s) => do return { w with seq := some (f, (← ofAda (ScalarSeq.takeBuffer (← P.element f) s)).1) }
    | none => .error .illegal
  | .update f =>
    match w.seq with
    | some (g, s) => do
      P.needField f
      let (c, s) ← P.update w.ctx f s
      return ⟨c, some (g, s)⟩
    | none => .error .illegal
  | .setSequence f b bufferFirst bufferLast first last ops => do
    P.needField f
    let E ← P.element f
    need (b.data.all fun x => decide (x < 256))
    need (decide (1 ≤ b.first) && decide (b.last ≤ E.indexLast))
    let s ← ops.foldlM (SeqOp.run E) (← ofAda (ScalarSeq.init E b bufferFirst bufferLast first last))
    return { w with ctx := ← P.setSequence w.ctx f s }

/-- The contexts after `Initialize` and calls. -/
def Pkg.whistory (P : Pkg) (b : Bytes) (lo hi : Int) (ops : List WOp) : Run World := do
  ops.foldlM P.wstep ⟨← P.initialize b lo hi, none⟩

end Verif.Ctx
