import Verif.Ctx.History

/-! # Postconditions of generated subprograms
(`rflx/generator/generator.py`, `rflx/generator/parser.py`, `rflx/generator/serializer.py`, `rflx/generator/common.py`)

The aspects `Post` of the subprograms in `Verif/Ctx/Model.lean`, evaluated in the context before (`old`, for the attribute `'Old`)
and the context after the call (`new`). All operands of `And` are evaluated. Calls in a postcondition have preconditions
themselves; where one does not hold, the evaluation fails.

* Not modelled: `Buffer = null` in the postconditions of `Initialize` and `Buffer /= null` in that of `Take_Buffer`, which are about
  parameters that are access values.
* `Get_X` is the number of the value (`To_Actual` is injective, C32). -/

namespace Verif.Ctx
open Verif Verif.Graph Verif.Verify Verif.Types Verif.Gen Verif.Spark

/-- `And (...)`, `rflx/ada.py:161-168`: all operands are evaluated. -/
def allOf : List (Run Bool) → Run Bool
  | [] => .ok true
  | x :: xs => do
    let a ← x
    let b ← allOf xs
    return a && b

/-- `Equal (E, Old (E))` (e.g. `rflx/generator/serializer.py:792-804`). -/
def unchanged {α : Type} [DecidableEq α] (new old : Run α) : Run Bool := do
  let a ← old
  let b ← new
  return decide (b = a)

/-- Equality of cursors (`rflx/generator/generator.py:448-536`): components that do not exist are not compared. -/
def Cursor.same (a b : Cursor) : Bool :=
  decide (a.state = b.state) && decide (a.pred = b.pred) &&
    (!a.sv || (decide (a.first = b.first) && decide (a.last = b.last) && decide (a.value = b.value)))

/-- Equality of arrays of cursors: `Field_Cursors` is indexed by `Virtual_Field` (`rflx/generator/generator.py:425-432,539-545`). -/
def Pkg.sameCursors (P : Pkg) (a b : Context) : Bool :=
  (INITIAL :: (P.m.msg.fields ++ [FINAL])).all fun f => (a.cursors f).same (b.cursors f)

/-- `CONTEXT_INVARIANT`, `rflx/generator/const.py:52-60`. -/
def contextInvariant (new old : Context) : Bool :=
  decide (new.bufFirst = old.bufFirst) && decide (new.bufLast = old.bufLast) && decide (new.first = old.first) && decide (new.last = old.last)

/-- `Predecessor`, `rflx/generator/generator.py:1229-1258`. -/
def Context.predecessor (c : Context) (f : Field) : Field := if f = INITIAL then INITIAL else (c.cursors f).pred

/-- `Valid`, `rflx/generator/parser.py:473-521`. -/
def Context.valid (c : Context) (f : Field) : Bool := (c.cursors f).ok && decide ((c.cursors f).first < (c.cursors f).last + 1)

/-- `Get_X`, `rflx/generator/parser.py:630-676`; the precondition of `To_Actual` is that the number belongs to the type
(`rflx/generator/generator.py:2583-2672`). -/
def Pkg.get (P : Pkg) (c : Context) (f : Field) : Run Int := do
  need (c.valid f)
  need (← P.validValue f (c.cursors f).value)
  return (c.cursors f).value

/-! ## Initialization -/

/-- `Initialized`, `rflx/generator/generator.py:822-864`. -/
def Pkg.initialized (P : Pkg) (c : Context) : Run Bool := do
  match P.m.msg.fields with
  | [] => .error (.generator .indexError)
  | f :: _ =>
    if ← P.validNext c f then
      let space ← P.availableSpace c f
      return decide (space = c.last - c.first + 1) && P.m.msg.fields.all fun g => (c.cursors g).inv
    else return false

/-- The postcondition of `Initialize` with bounds, `rflx/generator/generator.py:753-766`. -/
def Pkg.initializePost (P : Pkg) (b : Bytes) (first last : Int) (new : Context) : Run Bool :=
  allOf [.ok new.hasBuffer, .ok (decide (new.bufFirst = b.first)), .ok (decide (new.bufLast = b.last)), .ok (decide (new.first = first)),
    .ok (decide (new.last = last)), .ok (decide (new.messageLast = new.first)), P.initialized new]

/-- `First_Bit_Index`, `rflx/templates/rflx_generic_types.ads:42-43`. -/
def firstBitIndex (i : Int) : Int := (i - 1) * 8 + 1

/-- `Last_Bit_Index`, `rflx/templates/rflx_generic_types.ads:45-46`. -/
def lastBitIndex (i : Int) : Int := (i - 1) * 8 + 8

/-- `Initialize` without bounds, `rflx/generator/generator.py:651-718`. `Index'Last` is `Bit_Length'Last / 8`
(`rflx/templates/rflx_generic_types.ads:27-33`). -/
def Pkg.initializeAll (P : Pkg) (b : Bytes) : Run Context := do
  need (decide (0 < b.length) && decide ((b.last : Int) < P.bitLast / 8))
  P.initialize b (firstBitIndex b.first) (lastBitIndex b.last)

/-- The postcondition of `Initialize` without bounds, `rflx/generator/generator.py:670-696`. -/
def Pkg.initializeAllPost (P : Pkg) (b : Bytes) (new : Context) : Run Bool :=
  allOf [.ok new.hasBuffer, .ok (decide (new.bufFirst = b.first)), .ok (decide (new.bufLast = b.last)),
    .ok (decide (new.first = firstBitIndex new.bufFirst)), .ok (decide (new.last = lastBitIndex new.bufLast)),
    .ok (decide (new.messageLast = new.first)), P.initialized new]

/-- The postcondition of `Take_Buffer`, `rflx/generator/generator.py:879-891`; `b` is the buffer that the caller gets. -/
def Pkg.takeBufferPost (P : Pkg) (b : Bytes) (old new : Context) : Run Bool :=
  allOf [.ok (!new.hasBuffer), .ok (decide (new.bufFirst = b.first)), .ok (decide (new.bufLast = b.last)), .ok (contextInvariant new old),
    .ok (P.sameCursors new old)]

/-! ## Parsing -/

/-- The postcondition of `Verify` and `Verify_Message`, `rflx/generator/parser.py:279-288,392-399`. -/
def verifyPost (old new : Context) : Run Bool := allOf [.ok (new.hasBuffer == old.hasBuffer), .ok (contextInvariant new old)]

/-- The postcondition of `Valid`, `rflx/generator/parser.py:484-499`. -/
def validPost (c : Context) (f : Field) (result : Bool) : Run Bool := .ok (!result || ((c.cursors f).sv && c.present f))

/-! ## Reset_Dependent_Fields and Set_Field_Value -/

/-- `Invalid_Successor`, `rflx/generator/generator.py:1311-1352`. -/
def Pkg.invalidSuccessor (P : Pkg) (c : Context) (f : Field) : Bool :=
  ((directSuccessors P.m.msg.links f).filter (· != FINAL)).all fun s => (c.cursors s).inv

/-- The postcondition of `Reset_Dependent_Fields`, `rflx/generator/generator.py:1449-1522`. -/
def Pkg.resetPost (P : Pkg) (old new : Context) (f : Field) : Run Bool :=
  allOf [P.validNext new f, .ok (new.cursors f).inv, .ok (decide (P.m.msg.fields.length ≤ 1) || P.invalidSuccessor new f),
    .ok (contextInvariant new old), .ok (decide ((new.cursors f).pred = (old.cursors f).pred)), .ok (new.hasBuffer == old.hasBuffer),
    unchanged (P.fieldFirst new f) (P.fieldFirst old f), unchanged (P.fieldSize new f) (P.fieldSize old f),
    do return (← ofPy (predecessors P.m.msg.fields f)).all fun p => (new.cursors p).same (old.cursors p),
    do return (f :: (← ofPy (successors P.m.msg.fields f))).all fun s => (new.cursors s).inv]

/-- The postcondition of `Set_Field_Value`, `rflx/generator/serializer.py:177-225`; `first` and `last` are the parameters `Fst` and
`Lst`. -/
def Pkg.setFieldValuePost (P : Pkg) (old new : Context) (f : Field) (first last : Int) : Run Bool :=
  allOf [.ok new.hasBuffer, do return decide (first = (← P.fieldFirst new f)), do return decide (last = (← P.fieldLast new f)),
    .ok (decide (first ≥ new.first)), .ok (decide (first ≤ last + 1)), .ok (decide (last ≤ new.last)),
    .ok (P.m.msg.fields.all fun g => !(new.cursors g).sv || decide ((new.cursors g).last ≤ last)),
    .ok (contextInvariant new old), .ok (P.sameCursors new old)]

/-! ## Setters -/

mutual
/-- The names in a condition that the substitution of `rflx/generator/common.py:39-178` replaces by calls. -/
def leaves : Expr → List Expr
  | .tru | .fls | .num .. => []
  | .bool _ ts => leavesL ts
  | .add ts => leavesL ts
  | .mul ts => leavesL ts
  | .bin _ l r => leaves l ++ leaves r
  | .rel _ l r => leaves l ++ leaves r
  | e => [e]
/-- `leaves` for lists of operands (`rflx/generator/common.py:39-178`). -/
def leavesL : List Expr → List Expr
  | [] => []
  | e :: es => leaves e ++ leavesL es
end

/-- The precondition of the function that the substitution puts in the place of a name (`rflx/generator/common.py:39-178` with
`public=True`): `Get_X` (`rflx/generator/parser.py:655-664`), `Equal` (`rflx/generator/generator.py:1700-1709`), `Field_First`,
`Field_Last`, `Field_Size`. Simplification: the simplification of the condition may drop names, here every name counts. -/
def Pkg.readLeaf (P : Pkg) (c : Context) : Expr → Run Unit
  | .var _ _ id =>
    match P.m.msg.type? ⟨id.key⟩ with
    | some t => if t.isScalar then (do let _ ← P.get c ⟨id.key⟩; return ()) else do
        need c.hasBuffer
        P.needNext c ⟨id.key⟩
    | none => .ok ()
  | .attr _ a (.var _ _ id) =>
    if P.m.msg.fields.contains ⟨id.key⟩ then
      match a with
      | .first => do let _ ← P.fieldFirst c ⟨id.key⟩; return ()
      | .last => do let _ ← P.fieldLast c ⟨id.key⟩; return ()
      | _ => do let _ ← P.fieldSize c ⟨id.key⟩; return ()
    else .ok ()
  | _ => .ok ()

/-- What the functions of the package give (`rflx/generator/common.py:128-178` with `public=True`); their preconditions are those of
`Pkg.readLeaf`. -/
def Pkg.publicView (P : Pkg) (c : Context) : View :=
  { P.view c none with
    fFirst := fun n => (P.fieldFirst c ⟨[n]⟩).toOption.getD 0
    fLast := fun n => (P.fieldLast c ⟨[n]⟩).toOption.getD 0
    fSize := fun n => (P.fieldSize c ⟨[n]⟩).toOption.getD 0 }

/-- The value of `e.substituted(common.substitution(message, public=True)).simplified().ada_expr()` for a condition
(`rflx/generator/common.py:519-524`). -/
def Pkg.publicCond (P : Pkg) (c : Context) (e : Expr) : Run Bool := do
  (leaves e).forM (P.readLeaf c)
  let x ← ofPy (Opts.generate ⟨false, true, some U64⟩ P.m e)
  match eval .ada ((P.publicView c).env false) x with
  | some v => asBool v
  | none => .error (.ada .overflow)

/-- `valid_path_to_next_field_condition`, `rflx/generator/common.py:512-538`. -/
def Pkg.pathToNext (P : Pkg) (c : Context) (f : Field) : List (Run Bool) :=
  ((outgoing P.m.msg.links f).filter fun l => l.target != FINAL).map fun l => do
    if ← P.publicCond c l.condition then
      allOf [.ok (decide (c.predecessor l.target = f)), P.validNext c l.target]
    else return true

/-- `definite_predecessors`, `rflx/model/message.py:274-280`; the recursion in `paths` is not deeper than there are fields. -/
def Pkg.definite (P : Pkg) (f : Field) : Run (List Field) :=
  ofPy (definitePredecessors P.m.msg.links (P.m.msg.fields.length + 2) P.m.msg.fields f)

/-- `setter_postconditions`, `rflx/generator/serializer.py:774-812`. -/
def Pkg.setterPost (P : Pkg) (old new : Context) (f : Field) : Run Bool :=
  allOf ([do return decide (new.messageLast = (← P.fieldLast new f)),
    do return (← ofPy (successors P.m.msg.fields f)).all fun s => decide (s = FINAL) || (new.cursors s).inv] ++
    P.pathToNext new f ++
    [.ok (contextInvariant new old), unchanged (.ok (new.predecessor f)) (.ok (old.predecessor f)),
    unchanged (P.validNext new f) (P.validNext old f),
    do allOf (((← P.definite f).filter fun p => P.isScalar p).map fun p => unchanged (P.get new p) (P.get old p))])

/-- `Get_X (Ctx) = Val`, or `Get_X (Ctx) = (True, Val)` for enumerations that are always valid: the first component says that the
number is one of a literal (`rflx/generator/generator.py:2631-2672`). -/
def Pkg.getIs (P : Pkg) (c : Context) (f : Field) (v : Int) : Run Bool := do
  let x ← P.get c f
  return decide (x = v) && (match P.m.msg.type? f with
    | some (.enum t) => !t.alwaysValid || decide (x ∈ t.literals.map (·.2))
    | _ => true)

/-- The postcondition of `Set_X` for a scalar field, `rflx/generator/serializer.py:282-313`. -/
def Pkg.setScalarPost (P : Pkg) (old new : Context) (f : Field) (v : Int) : Run Bool :=
  allOf [.ok new.hasBuffer, .ok (new.valid f), P.getIs new f v, P.setterPost old new f,
    do return (← ofPy (predecessors P.m.msg.fields f)).all fun p => (new.cursors p).same (old.cursors p)]

/-- `composite_setter_postconditions`, `rflx/generator/serializer.py:807-812`: the postcondition of `Set_X_Empty` (419-423),
`Initialize_X` (744-748), `Set_X` (602-606) and `Generic_Set_X` (690-694). -/
def Pkg.compositePost (P : Pkg) (old new : Context) (f : Field) : Run Bool :=
  allOf [.ok new.hasBuffer, P.setterPost old new f, .ok (new.cursors f).sv]

/-- The precondition of a call, and the ranges of its parameters: `Set_X` for scalars (`rflx/generator/serializer.py:261-281`) and
opaque fields (564-601), `Set_X_Empty` (403-418), `Initialize_X` (738-743), `Reset_Dependent_Fields`
(`rflx/generator/generator.py:1444-1448`), `Take_Buffer` (878). `Verify` and `Verify_Message` have none
(`rflx/generator/parser.py:274-291,388-402`). -/
def Pkg.pre (P : Pkg) (c : Context) : Op → Run Unit
  | .verify f => P.needField f
  | .verifyMessage => .ok ()
  | .reset f => do
    P.needField f
    need c.hasBuffer
    P.needNext c f
  | .setScalar f v => do
    P.needField f
    need (match P.m.msg.type? f with
      | some t => (match t.size with | .ok n => decide (v < 2 ^ n.v.toNat) | .error _ => false)
      | none => false)
    P.setterPre c f
    need (P.isScalar f)
    need (← P.fieldCondition c f v 0)
    need (← P.validValue f v)
    need (← P.sufficientSpace c f)
  | .setEmpty f => do
    P.needField f
    P.compositePre c f
    need (decide ((← P.fieldSize c f) = 0))
  | .initializeField f => do
    P.needField f
    P.compositePre c f
  | .setOpaque f ds => do
    P.needField f
    need (ds.all fun x => decide (x < 256))
    P.compositePre c f
    need (decide ((ds.length : Int) = byteIndex (← P.fieldLast c f) - byteIndex (← P.fieldFirst c f) + 1))
  | .takeBuffer => need c.hasBuffer

/-- The postcondition of a call; the lines are cited at the postconditions above. -/
def Pkg.post (P : Pkg) (old new : Context) : Op → Run Bool
  | .verify _ | .verifyMessage => verifyPost old new
  | .reset f => P.resetPost old new f
  | .setScalar f v => P.setScalarPost old new f v
  | .setEmpty f | .initializeField f | .setOpaque f _ => P.compositePost old new f
  | .takeBuffer =>
    match old.buffer with
    | some b => P.takeBufferPost b old new
    | none => .error (.ada .access)

end Verif.Ctx
