import Verif.Ctx.History
import Verif.Expr.Subst

/-! # The predicate of a context (`rflx/generator/common.py:221-509`)

The predicate is the function `Valid_Context` (`rflx/generator/generator.py:2213-2237`). Of the generated conjunctions only the
conditions and sizes are simplified here; `rflx/generator/common.py:368-398` simplifies a condition together with the terms in
front of it. Generation and evaluation of a term are one step: if the generator fails for a term that is not evaluated, the
model does not fail. -/

namespace Verif.Ctx
open Verif Verif.Graph Verif.Verify Verif.Types Verif.Gen Verif.Spark

/-- A comparison with an aggregate becomes a comparison with `Buffer.all (...)` in the predicate
(`rflx/generator/common.py:36-91`). -/
def compares (e : Expr) : Bool :=
  !(findall (fun x => match x with | .agg _ => true | _ => false) e).isEmpty

/-- Evaluation of `e.substituted(substitution(message, embedded=True, target_type=target)).simplified()`. A comparison of a
composite field reads the buffer, which must not be null. -/
def Pkg.embedded (P : Pkg) (target : Option ID) (c : Context) (e : Expr) : Run Val := do
  let x ← ofPy (Opts.generate ⟨true, false, target⟩ P.m e)
  if c.buffer.isNone && compares e then .error (.ada .access)
  else
    match eval .ada ((P.view c none).env true) x with
    | some v => .ok v
    | none => .error (.ada .overflow)

/-- `and then`. -/
def every : List (Run Bool) → Run Bool
  | [] => .ok true
  | x :: xs => do if ← x then every xs else return false

/-- `or`: all operands are evaluated. Without operands it is `True` (`rflx/ada.py:99-110`). -/
def anyOf (xs : List (Run Bool)) : Run Bool := do
  let bs ← xs.mapM id
  return bs.isEmpty || bs.any id

/-- `size` in `message_structure_invariant`, `rflx/generator/common.py:238-244`. The size of the base type of a scalar type is the
size of the type. -/
def Pkg.structureSize (P : Pkg) (c : Context) (l : Link) : Run Int :=
  match P.m.msg.type? l.target with
  | none => .error (.generator .keyError)
  | some t => if t.isScalar then do return (← ofPy t.size).v else do asInt (← P.embedded (some BIT_LENGTH) c l.size)

/-- `first` in `message_structure_invariant`, `rflx/generator/common.py:245-263`. Simplification: `UNDEFINED` occurs as the whole
aspect only. -/
def Pkg.structureFirst (P : Pkg) (c : Context) (l : Link) : Run Int :=
  if l.source = INITIAL then .ok c.first
  else if l.first.eq .undefined then .ok ((c.cursors l.source).last + 1)
  else do asInt (← P.embedded (some BIT_INDEX) c l.first)

/-- `message_structure_invariant`, `rflx/generator/common.py:221-329`; the recursion ends on structures without cycles, the first
argument counts its depth. -/
def Pkg.structure (P : Pkg) (c : Context) : Nat → Link → Run Bool
  | 0, _ => .error (.ada .fuel)
  | k + 1, l =>
    if l.target = FINAL then .ok true
    else if (c.cursors l.target).sv then do
      if ← asBool (← P.embedded (some U64) c l.condition) then
        let size ← P.structureSize c l
        let first ← P.structureFirst c l
        every ([.ok (decide ((c.cursors l.target).last - (c.cursors l.target).first + 1 = size)),
          .ok (decide ((c.cursors l.target).pred = l.source)), .ok (decide ((c.cursors l.target).first = first))] ++
          (outgoing P.m.msg.links l.target).map (P.structure c k))
      else return true
    else .ok true

/-- `message_structure_invariant` without a link, `rflx/generator/common.py:227-228`. -/
def Pkg.structureInvariant (P : Pkg) (c : Context) : Run Bool :=
  match outgoing P.m.msg.links INITIAL with
  | [] => .error (.generator .indexError)
  | l :: _ => P.structure c (P.m.msg.fields.length + 1) l

/-- The fields `f not in message.direct_successors(INITIAL)`. -/
def Pkg.later (P : Pkg) : List Field :=
  P.m.msg.fields.filter fun f => !(directSuccessors P.m.msg.links INITIAL).contains f

/-- `valid_predecessors_invariant`, `rflx/generator/common.py:333-389`. -/
def Pkg.validPredecessors (P : Pkg) (c : Context) : Run Bool :=
  every (P.later.map fun f =>
    if (c.cursors f).sv then
      anyOf ((incoming P.m.msg.links f).map fun l =>
        every [.ok (if P.isComposite l.source then (c.cursors l.source).sv else (c.cursors l.source).ok),
          .ok (decide ((c.cursors f).pred = l.source)), do asBool (← P.embedded (some U64) c l.condition)])
    else .ok true)

/-- `invalid_successors_invariant`, `rflx/generator/common.py:391-424`. -/
def Pkg.invalidSuccessors (P : Pkg) (c : Context) : Bool :=
  P.later.all fun f =>
    !((directPredecessors P.m.msg.links f).all fun p => (c.cursors p).inv) || (c.cursors f).inv

/-- `context_predicate`, `rflx/generator/common.py:332-494`, and `public_context_predicate`, 497-509. That the discriminant of the
value of a cursor is the field (473-486) is part of the representation of cursors, see `Cursor`. -/
def Pkg.validContext (P : Pkg) (c : Context) : Run Bool :=
  every [
    .ok (match c.buffer with | some b => decide ((b.first : Int) = c.bufFirst) && decide ((b.last : Int) = c.bufLast) | none => true),
    .ok (decide (byteIndex c.first ≥ c.bufFirst) && decide (byteIndex c.last ≤ c.bufLast) && decide (c.first ≤ c.last) &&
      decide (c.last < P.bitLast)),
    .ok (decide (c.first ≤ c.messageLast)),
    .ok (decide (c.messageLast ≤ c.last)),
    .ok (P.m.msg.fields.all fun f => !(c.cursors f).sv || (decide ((c.cursors f).first ≥ c.first) &&
      decide ((c.cursors f).last ≤ c.messageLast) && decide ((c.cursors f).first ≤ (c.cursors f).last + 1))),
    P.validPredecessors c,
    .ok (P.invalidSuccessors c),
    P.structureInvariant c]

/-- The predicate of `Field_Cursor`, `rflx/generator/generator.py:508-527`, for all fields. -/
def Pkg.validCursors (P : Pkg) (c : Context) : Run Bool :=
  every (P.m.msg.fields.map fun f => if (c.cursors f).sv then P.validValue f (c.cursors f).value else .ok true)

end Verif.Ctx
