import Verif.Post.Model
import Verif.Ctx.History

/-! # Accessors of message contexts (`rflx/generator/parser.py`, `rflx/generator/generator.py`, `rflx/generator/serializer.py`)

Functions that read a context: the state of a field, its number, its bytes, and the comparison of its bytes with other bytes.
Generic subprograms take what they are instantiated with as parameters. -/

namespace Verif.Ctx
open Verif Verif.Graph Verif.Verify Verif.Types Verif.Gen Verif.Spark

/-- `Structural_Valid`, `rflx/generator/parser.py:443-471`: the state is `S_Valid` or `S_Structural_Valid`. -/
def Context.structuralValid (c : Context) (f : Field) : Bool :=
  (c.cursors f).state = .valid || (c.cursors f).state = .structuralValid

/-- `Incomplete`, `rflx/generator/parser.py:523-540`. -/
def Context.incomplete (c : Context) (f : Field) : Bool := (c.cursors f).state = .incomplete

/-- `Invalid`, `rflx/generator/parser.py:542-565`. -/
def Context.invalid (c : Context) (f : Field) : Bool := (c.cursors f).state = .invalid || (c.cursors f).state = .incomplete

/-- `Incomplete_Message`, `rflx/generator/parser.py:609-631`. -/
def Pkg.incompleteMessage (P : Pkg) (c : Context) : Bool := P.m.msg.fields.any c.incomplete

/-- `Get_X` for a composite field, `rflx/generator/parser.py:678-760`: the array that `Process_X` is called with. -/
def Pkg.getComposite (P : Pkg) (c : Context) (f : Field) : Run Bytes := do
  need (P.isComposite f)
  need c.hasBuffer
  need (c.present f)
  match c.buffer with
  | some b => ofAda (slice b (byteIndex (c.cursors f).first) (byteIndex (c.cursors f).last))
  | none => .error (.ada .access)

/-- `Equal`, `rflx/generator/generator.py:1685-1765`. Arrays are equal if they have the same elements. -/
def Pkg.equal (P : Pkg) (c : Context) (f : Field) (data : List Nat) : Run Bool := do
  need c.hasBuffer
  P.needNext c f
  if ← P.sufficientBufferLength c f then
    if P.isComposite f then
      let first ← P.fieldFirst c f
      let last ← P.fieldLast c f
      match c.buffer with
      | some b => do
        let s ← ofAda (slice b (byteIndex first) (byteIndex last))
        return decide (s.data = data)
      | none => .error (.ada .access)
    else return false
  else return false

/-- `Generic_Set_X`, `rflx/generator/serializer.py:636-724`: `process` is the effect of the parameter `Process_X` on the array it is called
with, `validLength` is the parameter `Valid_Length`; bounds are computed before `Initialize_X` (`rflx/generator/common.py:603-617`,
`rflx/generator/serializer.py:903-914`). -/
def Pkg.genericSet (P : Pkg) (validLength : Int → Bool) (process : Bytes → List Nat) (c : Context) (f : Field) : Run Context := do
  P.compositePre c f
  need (validLength ((← P.fieldSize c f) / 8))
  let first ← P.fieldFirst c f
  let last ← P.fieldLast c f
  let c ← P.initializeField c f
  match c.buffer with
  | some b => do
    let s ← ofAda (slice b (byteIndex first) (byteIndex last))
    let b ← ofAda (assign b (byteIndex first) (byteIndex last) (process s))
    return { c with buffer := some b }
  | none => .error (.ada .access)

end Verif.Ctx
