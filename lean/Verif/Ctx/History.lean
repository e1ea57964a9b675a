import Verif.Ctx.Model

/-! # Histories of calls (`rflx/generator/generator.py`, `rflx/generator/parser.py`, `rflx/generator/serializer.py`) -/

namespace Verif.Ctx
open Verif Verif.Graph Verif.Verify Verif.Types Verif.Gen Verif.Spark

/-- A call of one of the subprograms that change a context. -/
inductive Op
  | verify (f : Field)
  | verifyMessage
  | reset (f : Field)
  | setScalar (f : Field) (v : Nat)
  | setEmpty (f : Field)
  | initializeField (f : Field)
  | setOpaque (f : Field) (ds : List Nat)
  | takeBuffer

/-- `Field'Valid`: `Fld` is one of the fields of the message (`rflx/generator/generator.py:425-432`). -/
def Pkg.needField (P : Pkg) (f : Field) : Run Unit := need (P.m.msg.fields.contains f)

/-- The context after a call. `Reset_Dependent_Fields` is called by the setters only (`rflx/generator/serializer.py:310-316`,
`rflx/generator/common.py:556-600`), whose precondition is `Has_Buffer`. The elements of `Types.Bytes` are bytes. -/
def Pkg.step (P : Pkg) (c : Context) : Op → Run Context
  | .verify f => do
    P.needField f
    P.verify c f
  | .verifyMessage => P.verifyMessage c
  | .reset f => do
    P.needField f
    need c.hasBuffer
    P.reset c f
  | .setScalar f v => do
    P.needField f
    P.setScalar c f v
  | .setEmpty f => do
    P.needField f
    P.setEmpty c f
  | .initializeField f => do
    P.needField f
    P.initializeField c f
  | .setOpaque f ds => do
    P.needField f
    need (ds.all fun x => decide (x < 256))
    P.setOpaque c f ds
  | .takeBuffer => do return (← P.takeBuffer c).1

/-- The context after `Initialize` and a sequence of calls. -/
def Pkg.history (P : Pkg) (b : Bytes) (lo hi : Int) (ops : List Op) : Run Context := do
  ops.foldlM P.step (← P.initialize b lo hi)

end Verif.Ctx
