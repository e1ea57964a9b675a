import Verif.Gen.View
import Verif.Generator.Scalar
import Verif.Spark.Runtime

/-! # Generated message parsers and serializers
(`rflx/generator/generator.py:906-2890`, `rflx/generator/parser.py`, `rflx/generator/serializer.py`)

The state of a context of a generated package and the subprograms that work on it. The text of the generated code is not
modelled, but what its execution does. Conditions and sizes are generated by `Opts.generate` and evaluated by `eval` with what
the context holds.

* Preconditions and range checks of the subtypes `Bit_Length` and `Bit_Index` are checked, pragmas `Assert`,
  ghost code and type predicates are not executed (the predicate of the context is the subject of C30);
  postconditions are evaluated apart from the bodies, see C67.
* Arithmetic in conditions is that of integers, see `Verif/Gen/View.lean`. All operands of `and then` and `or` are evaluated;
  where the generated code would read a component that a cursor does not have, the model reads the number 0 or an empty
  list.
* Fields that are messages or arrays are like opaque fields. Sequences of scalars (`Switch_To_X`, `Update_X`) are modelled in
  `Verif/Ctx/Sequences.lean`; for sequences of messages see C28.
* Instances of the generic package `Types` differ in `Bit_Length'Last` only. -/

namespace Verif.Ctx
open Verif Verif.Graph Verif.Verify Verif.Types Verif.Gen Verif.Spark

/-- A generated package: the message and `Types.Bit_Length'Last` (`rflx/templates/rflx_generic_types.ads:32-35`). -/
structure Pkg where
  m : GMsg
  bitLast : Int

/-- The generator fails, the generated code is not legal, or its execution is erroneous. -/
inductive Err | generator (e : PyErr) | illegal | ada (e : AdaErr)
deriving DecidableEq

abbrev Run := Except Err

/-- The result of the generator. -/
def ofPy {α : Type} : Py α → Run α
  | .ok a => .ok a
  | .error e => .error (.generator e)

/-- The result of an operation of the runtime library. -/
def ofAda {α : Type} : Ada α → Run α
  | .ok a => .ok a
  | .error e => .error (.ada e)

/-- A precondition. -/
def need (b : Bool) : Run Unit := if b then .ok () else .error (.ada .precondition)

/-- A range check. -/
def check (p : Prop) [Decidable p] (i : Int) : Run Int := if p then .ok i else .error (.ada .range)

/-- `Cursor_State`, `rflx/generator/generator.py:435-445`. -/
inductive State | valid | structuralValid | invalid | incomplete
deriving DecidableEq, Repr

/-- `Field_Cursor`, `rflx/generator/generator.py:448-536`. The components `first`, `last` and `value` exist in the states
`S_Valid` and `S_Structural_Valid` only; in other states they are 0 here. Of a value (`Field_Dependent_Value`) only the number
of a scalar field matters; the discriminant is the field of the cursor. -/
structure Cursor where
  state : State
  pred : Field
  first : Int
  last : Int
  value : Int

/-- `Context`, `rflx/generator/generator.py:539-620`: discriminants, `Message_Last`, `Buffer`, `Cursors`. -/
structure Context where
  bufFirst : Int
  bufLast : Int
  first : Int
  last : Int
  messageLast : Int
  buffer : Option Bytes
  cursors : Field → Cursor

/-- `Structural_Valid (Cursor)`, `rflx/generator/generator.py:2194-2200`. -/
def Cursor.sv (k : Cursor) : Bool := k.state = .valid || k.state = .structuralValid

/-- `Valid (Cursor)`, `rflx/generator/generator.py:2201-2204`. -/
def Cursor.ok (k : Cursor) : Bool := k.state = .valid

/-- `Invalid (Cursor)`, `rflx/generator/generator.py:2205-2211`. -/
def Cursor.inv (k : Cursor) : Bool := k.state = .invalid || k.state = .incomplete

/-- `Has_Buffer`, `rflx/generator/generator.py:1529-1539`. -/
def Context.hasBuffer (c : Context) : Bool := c.buffer.isSome

/-- The aggregate `(State => S_Invalid, Predecessor => p)`. -/
def invalidFrom (p : Field) : Cursor := ⟨.invalid, p, 0, 0, 0⟩

/-- `Ctx.Cursors (f) := k`. -/
def Context.set (c : Context) (f : Field) (k : Cursor) : Context :=
  { c with cursors := fun g => if g = f then k else c.cursors g }

/-- A slice of an array: the bounds must be those of elements unless the slice is empty. -/
def slice (b : Bytes) (lo hi : Int) : Ada Bytes :=
  if hi < lo then .ok ⟨lo.toNat, []⟩
  else if b.first ≤ lo ∧ hi ≤ b.last then .ok ⟨lo.toNat, (b.data.drop (lo - b.first).toNat).take (hi - lo + 1).toNat⟩
  else .error .index

/-- Assignment to a slice: lengths must be equal. -/
def assign (b : Bytes) (lo hi : Int) (ds : List Nat) : Ada Bytes :=
  if ds.length ≠ (hi - lo + 1).toNat then .error .range
  else if hi < lo then .ok b
  else if b.first ≤ lo ∧ hi ≤ b.last then
    .ok ⟨b.first, b.data.take (lo - b.first).toNat ++ ds ++ b.data.drop (hi - b.first + 1).toNat⟩
  else .error .index

/-- The bytes of a field between two bits: `Ctx.Buffer.all (Byte_Index (First) .. Byte_Index (Last))`. -/
def content (buf : Option Bytes) (first last : Int) : List Int :=
  match buf with
  | some b =>
    match slice b (byteIndex first) (byteIndex last) with
    | .ok s => s.data.map fun (x : Nat) => (x : Int)
    | .error _ => []
  | none => []

/-- The number of an enumeration literal, see `Verif/Gen/View.lean`. -/
def litVal (m : GMsg) (k : List PyStr) : Int :=
  (((enums m.msg.types).flatMap fun t => t.literals.flatMap fun l =>
    [(l.1.key, l.2), (t.id.key.dropLast ++ l.1.key, l.2)]).lookup k).getD 0

/-- What `Field_Condition` reads of its own field besides the context: `Field_First`, `Field_Last`, and the parameters `Val` and
`Size`. -/
structure Own where
  fld : Field
  first : Int
  last : Int
  value : Int
  size : Int

/-- The bytes that `Equal (Ctx, Fld, Data)` compares, `rflx/generator/generator.py:1685-1765`. Simplification: of a field that
has been set the bounds are those of its cursor and not results of `Field_First` and `Field_Last` (which are the same, see
`C29_field_first`). -/
def Context.bytes (c : Context) (own : Option Own) (f : Field) : List Int :=
  match own with
  | some o => if o.fld = f then content c.buffer o.first o.last else if (c.cursors f).sv then content c.buffer (c.cursors f).first (c.cursors f).last else []
  | none => if (c.cursors f).sv then content c.buffer (c.cursors f).first (c.cursors f).last else []

/-- What the expressions of the generated code read. -/
def Pkg.view (P : Pkg) (c : Context) (own : Option Own) : View where
  first := c.first
  last := c.last
  cFirst n := (c.cursors ⟨[n]⟩).first
  cLast n := (c.cursors ⟨[n]⟩).last
  cValue n := (c.cursors ⟨[n]⟩).value
  lit := litVal P.m
  equal n ds := decide (c.bytes own ⟨[n]⟩ = ds)
  slice lo hi :=
    match c.buffer with
    | some b =>
      match Ctx.slice b lo hi with
      | .ok s => s.data.map fun (x : Nat) => (x : Int)
      | .error _ => []
    | none => []
  fFirst _ := match own with | some o => o.first | none => 0
  fLast _ := match own with | some o => o.last | none => 0
  fSize _ := match own with | some o => o.size | none => 0
  get n := (c.cursors ⟨[n]⟩).value
  valid n := (c.cursors ⟨[n]⟩).ok && decide ((c.cursors ⟨[n]⟩).first < (c.cursors ⟨[n]⟩).last + 1)
  structuralValid n := (c.cursors ⟨[n]⟩).sv
  val := match own with | some o => o.value | none => 0
  size := match own with | some o => o.size | none => 0

/-- Evaluation of `e.substituted(common.substitution(message, target_type=target)).simplified().ada_expr()`. -/
def Pkg.value (P : Pkg) (target : Option ID) (c : Context) (own : Option Own) (e : Expr) : Run Val := do
  let x ← ofPy (Opts.generate ⟨false, false, target⟩ P.m e)
  match eval .ada ((P.view c own).env false) x with
  | some v => .ok v
  | none => .error (.ada .overflow)

/-- A value as condition. Other values do not compile. -/
def asBool : Val → Run Bool
  | .bool b => .ok b
  | _ => .error .illegal

/-- A value as number. -/
def asInt : Val → Run Int
  | .int i => .ok i
  | _ => .error .illegal

/-- The value of a condition. -/
def Pkg.cond (P : Pkg) (target : Option ID) (c : Context) (own : Option Own) (e : Expr) : Run Bool := do
  asBool (← P.value target c own e)

/-- The value of a number. -/
def Pkg.num (P : Pkg) (target : Option ID) (c : Context) (own : Option Own) (e : Expr) : Run Int := do
  asInt (← P.value target c own e)

/-- `isinstance(t, Scalar)` for the type of a field. -/
def Pkg.isScalar (P : Pkg) (f : Field) : Bool :=
  match P.m.msg.type? f with
  | some t => t.isScalar
  | none => false

/-- `f in composite_fields`, `rflx/generator/generator.py:324-333`. -/
def Pkg.isComposite (P : Pkg) (f : Field) : Bool :=
  match P.m.msg.type? f with
  | some t => !t.isScalar
  | none => false

/-- `itertools.groupby(links, lambda x: x.target)`: consecutive links with the same target. -/
def groupTargets : List Link → List (Field × List Link)
  | [] => []
  | l :: ls =>
    match groupTargets ls with
    | [] => [(l.target, [l])]
    | (t, g) :: rest => if l.target = t then (t, l :: g) :: rest else (l.target, [l]) :: (t, g) :: rest

/-- The alternative of a case expression over fields: `none` stands for `others`. Two alternatives with the same choice are
illegal. -/
def choose (f : Field) (gs : List (Field × List Link)) : Run (Option (List Link)) :=
  match gs.filter (fun g => g.1 == f) with
  | [] => .ok none
  | [g] => .ok (some g.2)
  | _ => .error .illegal

/-- `if C1 then V1 elsif C2 then V2 ...`: the first value whose condition holds. -/
def firstTrue {α : Type} : List (Run Bool × α) → Run (Option α)
  | [] => .ok none
  | (b, a) :: rest => do if ← b then return some a else firstTrue rest

/-- `Valid_Predecessor`, `rflx/generator/generator.py:1542-1600`. An `Or` without terms prints as `True`
(`rflx/ada.py:99-110`). -/
def Pkg.validPredecessor (P : Pkg) (c : Context) (f : Field) : Bool :=
  match directPredecessors P.m.msg.links f with
  | [] => true
  | ps => ps.any fun p =>
    (if p = INITIAL then true else if P.isComposite p then (c.cursors p).sv else (c.cursors p).ok) && (c.cursors f).pred == p

/-- `Path_Condition`, `rflx/generator/generator.py:906-957`. -/
def Pkg.pathCondition (P : Pkg) (c : Context) (f : Field) : Run Bool := do
  need (P.validPredecessor c f)
  match ← choose f (groupTargets ((outgoing P.m.msg.links (c.cursors f).pred).filter fun l => l.target != FINAL)) with
  | some ls => P.cond (some U64) c none (.bool .or (ls.map (·.condition)))
  | none => return false

/-- `Valid_Next`, `rflx/generator/generator.py:2861-2879`. -/
def Pkg.validNext (P : Pkg) (c : Context) (f : Field) : Run Bool :=
  if P.validPredecessor c f then P.pathCondition c f else .ok false

/-- A function with the precondition `Valid_Next (Ctx, Fld)`. -/
def Pkg.needNext (P : Pkg) (c : Context) (f : Field) : Run Unit := do need (← P.validNext c f)

/-- `Types.Unreachable_Bit_Length`, `rflx/templates/rflx_generic_types.ads:69-73`: a function with precondition `False`. -/
def unreachable {α : Type} : Run α := .error (.ada .precondition)

/-- `Field_Size`, `rflx/generator/generator.py:959-1034`. The size of the base type of a scalar type is the size of the type
(2933-3016). -/
def Pkg.fieldSize (P : Pkg) (c : Context) (f : Field) : Run Int := do
  P.needNext c f
  let gs := (groupTargets (outgoing P.m.msg.links (c.cursors f).pred)).filter fun g => g.1 != FINAL
  let size ← (if gs.isEmpty then (.ok 0 : Run Int) else do
    match ← choose f gs with
    | none => unreachable
    | some ls =>
      match P.m.msg.type? f with
      | none => .error (.generator .keyError)
      | some t =>
        if t.isScalar then return (← ofPy t.size).v
        else
          match ls with
          | [l] => P.num (some BIT_LENGTH) c none l.size
          | ls => do
            match ← firstTrue (ls.map fun l => (P.cond (some BIT_LENGTH) c none l.condition, l)) with
            | some l => P.num (some BIT_LENGTH) c none l.size
            | none => unreachable)
  check (0 ≤ size ∧ size ≤ P.bitLast) size

/-- `Field_First`, `rflx/generator/generator.py:1036-1119`. Simplification: `UNDEFINED` occurs as the whole aspect only. -/
def Pkg.fieldFirst (P : Pkg) (c : Context) (f : Field) : Run Int := do
  P.needNext c f
  let first ← (if P.m.msg.fields.head? = some f then (.ok c.first : Run Int) else do
    match ← firstTrue ((incoming P.m.msg.links f).map fun l =>
        ((if (c.cursors f).pred = l.source then
            (if l.condition.eq .tru then .ok true else P.cond (some U64) c none l.condition)
          else .ok false : Run Bool), l)) with
    | some l =>
      if l.first.eq .undefined then return (c.cursors (c.cursors f).pred).last + 1
      else P.num none c none l.first
    | none => unreachable)
  check (1 ≤ first ∧ first ≤ P.bitLast) first

/-- `Available_Space`, `rflx/generator/generator.py:1614-1639`. -/
def Pkg.availableSpace (P : Pkg) (c : Context) (f : Field) : Run Int := do
  P.needNext c f
  let first ← P.fieldFirst c f
  check (0 ≤ c.last - first + 1 ∧ c.last - first + 1 ≤ P.bitLast) (c.last - first + 1)

/-- `common.sufficient_space_for_field_condition`, `rflx/generator/common.py:541-545`. -/
def Pkg.sufficientSpace (P : Pkg) (c : Context) (f : Field) : Run Bool := do
  let space ← P.availableSpace c f
  let size ← P.fieldSize c f
  return decide (space ≥ size)

/-- `Field_Last`, `rflx/generator/generator.py:1121-1156`. -/
def Pkg.fieldLast (P : Pkg) (c : Context) (f : Field) : Run Int := do
  P.needNext c f
  need (← P.sufficientSpace c f)
  let first ← P.fieldFirst c f
  let size ← P.fieldSize c f
  check (1 ≤ first + size - 1 ∧ first + size - 1 ≤ P.bitLast) (first + size - 1)

/-- `Sufficient_Buffer_Length`, `rflx/generator/generator.py:1641-1683`; all operands of `and` are evaluated. -/
def Pkg.sufficientBufferLength (P : Pkg) (c : Context) (f : Field) : Run Bool := do
  need c.hasBuffer
  P.needNext c f
  let size ← P.fieldSize c f
  let first ← P.fieldFirst c f
  let space ← P.availableSpace c f
  return c.hasBuffer && decide (size ≥ 0) && decide (first + size < P.bitLast) && decide (c.first ≤ first) && decide (space ≥ size)

/-- `Valid_Value`, `rflx/generator/generator.py:457-477`, for the value of a field. -/
def Pkg.validValue (P : Pkg) (f : Field) (v : Int) : Run Bool :=
  match P.m.msg.type? f with
  | some (.int t) => do
    match (← ofPy (Generator.integerFunctions t)).valid.eval (.num v) with
    | some (.bool b) => return b
    | _ => .error .illegal
  | some (.enum t) => do
    match (← ofPy (Generator.enumerationFunctions t)).valid.eval (.num v) with
    | some (.bool b) => return b
    | _ => .error .illegal
  | _ => .ok true

/-- `Offset`, `rflx/generator/common.py:630-641`: `(8 - Last mod 8) mod 8`. -/
def offset (last : Int) : Nat := ((8 - last % 8) % 8).toNat

/-- `Get_Field_Value`, `rflx/generator/parser.py:73-164`. The positions are computed if the message has scalar fields. -/
def Pkg.getFieldValue (P : Pkg) (c : Context) (f : Field) : Run Int := do
  need c.hasBuffer
  P.needNext c f
  need (← P.sufficientBufferLength c f)
  if P.m.msg.types.any (fun e => e.2.isScalar) then
    let first ← P.fieldFirst c f
    let last ← P.fieldLast c f
    match P.m.msg.type? f, c.buffer with
    | some t, some b =>
      if t.isScalar then
        let size ← ofPy t.size
        let s ← ofAda (slice b (byteIndex first) (byteIndex last))
        return ((← ofAda (extract size.v.toNat s (offset last)) : Nat) : Int)
      else return 0
    | _, _ => return 0
  else return 0

/-- `Val.X_Value`. -/
def valName (n : PyStr) : ID := ⟨[['V', 'a', 'l'], n ++ ['_', 'V', 'a', 'l', 'u', 'e']]⟩

/-- The condition of `Field_Condition` before the last substitution, `rflx/generator/generator.py:1160-1194`. -/
def Pkg.ownCondition (P : Pkg) (f : Field) : Py Expr := do
  let n := P.m.spell f
  let c : Expr := .bool .or ((outgoing P.m.msg.links f).map (·.condition))
  let c ← c.substituted
    ([(at' .size ⟨[n]⟩, .call false U64 [.v ⟨[['S', 'i', 'z', 'e']]⟩]),
      (at' .last ⟨[n]⟩, .call false U64 [.call false FIELD_LAST [ctxVar, .var false true ⟨[affixed n]⟩]])] ++
      P.m.msg.checksums.map fun k => (at' .validChecksum k.1, .tru))
  if P.isScalar f then
    substitutedBy (fun x => if x.eq (.v ⟨[n]⟩) then .call false U64 [.v (valName n)] else x) c
  else return c

/-- `Field_Condition`, `rflx/generator/generator.py:1158-1226`. The parameter `Size` exists if some condition has an attribute
`Size`; it is passed always here. Simplification: if `Field_Last` fails, the model reads 0. -/
def Pkg.fieldCondition (P : Pkg) (c : Context) (f : Field) (value size : Int) : Run Bool := do
  need c.hasBuffer
  need (P.m.msg.fields.contains f)
  need (P.validPredecessor c f)
  let own : Own := ⟨f, (P.fieldFirst c f).toOption.getD 0, (P.fieldLast c f).toOption.getD 0, value, size⟩
  P.cond (some U64) c (some own) (← ofPy (P.ownCondition f))

/-- `Successor`, `rflx/generator/generator.py:1261-1308`. -/
def Pkg.successor (P : Pkg) (c : Context) (f : Field) : Run Field := do
  need c.hasBuffer
  need (c.cursors f).sv
  need (P.validPredecessor c f)
  match ← firstTrue ((outgoing P.m.msg.links f).map fun l => (P.cond (some U64) c none l.condition, l.target)) with
  | some t => return t
  | none => return INITIAL

/-- `Verify`, `rflx/generator/parser.py:167-379`. -/
def Pkg.verify (P : Pkg) (c : Context) (f : Field) : Run Context := do
  if c.hasBuffer && (c.cursors f).inv && P.validPredecessor c f then
    if ← P.pathCondition c f then
      if ← P.sufficientBufferLength c f then
        let value ← P.getFieldValue c f
        let ok ← P.validValue f value
        let fulfilled ← P.fieldCondition c f value (← P.fieldSize c f)
        if ok && fulfilled then
          let last ← P.fieldLast c f
          let first ← P.fieldFirst c f
          let c := { c with messageLast := last }
          let c := c.set f ⟨if P.isComposite f then .structuralValid else .valid, (c.cursors f).pred, first, last, value⟩
          let s ← P.successor c f
          return c.set s (invalidFrom f)
        else return c.set f (invalidFrom FINAL)
      else return c.set f ⟨.incomplete, FINAL, 0, 0, 0⟩
    else return c
  else return c

/-- `Verify_Message`, `rflx/generator/parser.py:382-413`. -/
def Pkg.verifyMessage (P : Pkg) (c : Context) : Run Context := P.m.msg.fields.foldlM P.verify c

/-- `Structural_Valid`. -/
def STRUCTURAL_VALID : ID :=
  ⟨[['S', 't', 'r', 'u', 'c', 't', 'u', 'r', 'a', 'l', '_', 'V', 'a', 'l', 'i', 'd']]⟩

/-- `Valid`. -/
def VALID : ID := ⟨[['V', 'a', 'l', 'i', 'd']]⟩

/-- The call in `valid_message_condition`, `rflx/generator/parser.py:772-783`. -/
def Pkg.validCall (P : Pkg) (structural : Bool) (f : Field) : Expr :=
  .call false (if structural && P.isComposite f then STRUCTURAL_VALID else VALID) [ctxVar, .var false true ⟨[affixed (P.m.spell f)]⟩]

/-- `condition` in `valid_message_condition`, `rflx/generator/parser.py:766-787`; the recursion ends on structures without
cycles, the first argument counts its depth. -/
def Pkg.messageCondition (P : Pkg) : Nat → Bool → Field → Run Expr
  | 0, _, _ => .error (.ada .fuel)
  | k + 1, structural, f => do
    let ts ← (outgoing P.m.msg.links f).mapM fun l =>
      if l.target = FINAL then .ok l.condition
      else do return .bool .andThen [P.validCall structural l.target, l.condition, ← P.messageCondition k structural l.target]
    return .bool .or ts

/-- `valid_message_condition`, `rflx/generator/parser.py:763-794`. -/
def Pkg.messageValid (P : Pkg) (structural : Bool) (c : Context) : Run Bool := do
  need c.hasBuffer
  P.cond (some U64) c none (← P.messageCondition (P.m.msg.fields.length + 1) structural INITIAL)

/-- `Structural_Valid_Message`, `rflx/generator/parser.py:568-587`. -/
def Pkg.structuralValidMessage (P : Pkg) (c : Context) : Run Bool := P.messageValid true c

/-- `Valid_Message`, `rflx/generator/parser.py:589-608`. -/
def Pkg.validMessage (P : Pkg) (c : Context) : Run Bool := P.messageValid false c

/-- `Initialize`, `rflx/generator/generator.py:721-819`: the procedure with explicit bounds. -/
def Pkg.initialize (P : Pkg) (b : Bytes) (first last : Int) : Run Context := do
  need (decide (0 < b.length) && decide (byteIndex first ≥ b.first) && decide (byteIndex last ≤ b.last) && decide (first ≤ last) &&
    decide (last < P.bitLast))
  return ⟨b.first, b.last, first, last, first, some b,
    fun f => if P.m.msg.fields.head? = some f then invalidFrom INITIAL else invalidFrom FINAL⟩

/-- `Take_Buffer`, `rflx/generator/generator.py:867-903`. -/
def Pkg.takeBuffer (_ : Pkg) (c : Context) : Run (Context × Bytes) :=
  match c.buffer with
  | some b => .ok ({ c with buffer := none }, b)
  | none => .error (.ada .precondition)

/-- `Reset_Dependent_Fields`, `rflx/generator/generator.py:1355-1524`. -/
def Pkg.reset (P : Pkg) (c : Context) (f : Field) : Run Context := do
  P.needNext c f
  let c := (← ofPy (successors P.m.msg.fields f)).reverse.foldl (fun c s => c.set s (invalidFrom FINAL)) c
  return c.set f (invalidFrom (c.cursors f).pred)

/-- The end of a setter: the cursors of the field and of its successor, `rflx/generator/serializer.py:345-388,858-900`,
`rflx/generator/common.py:556-600`. -/
def Pkg.finish (P : Pkg) (c : Context) (f : Field) (state : State) (first last value : Int) : Run Context := do
  let c := { c with messageLast := last }
  let c := c.set f ⟨state, (c.cursors f).pred, first, last, value⟩
  let s ← P.successor c f
  return c.set s (invalidFrom f)

/-- `setter_preconditions`, `rflx/generator/serializer.py:766-771`. `not Ctx'Constrained` is about the declaration of the
object. -/
def Pkg.setterPre (P : Pkg) (c : Context) (f : Field) : Run Unit := do
  need c.hasBuffer
  P.needNext c f

/-- `Set_Field_Value`, `rflx/generator/serializer.py:82-233`: the new buffer, `Fst` and `Lst`. -/
def Pkg.setFieldValue (P : Pkg) (c : Context) (f : Field) (v : Int) : Run (Bytes × Int × Int) := do
  need c.hasBuffer
  P.needNext c f
  need (← P.sufficientSpace c f)
  let first ← P.fieldFirst c f
  let last ← P.fieldLast c f
  need (P.m.msg.fields.all fun g => !(c.cursors g).sv || decide ((c.cursors g).last ≤ last))
  match P.m.msg.type? f, c.buffer with
  | some t, some b => do
    let size ← ofPy t.size
    let s ← ofAda (slice b (byteIndex first) (byteIndex last))
    let s' ← ofAda (insert size.v.toNat v.toNat s (offset last))
    return (← ofAda (assign b (byteIndex first) (byteIndex last) s'.data), first, last)
  | _, _ => .error .illegal

/-- `Set_X` for a scalar field, `rflx/generator/serializer.py:236-388`. The parameter is the number that `To_Base` gives for
the value: for enumerations that is the number of a literal (C32), a condition that is a consequence of the type of the
parameter there and part of the precondition here. `Field_Condition` is called without `Size`, which is 0 then (262-273). -/
def Pkg.setScalar (P : Pkg) (c : Context) (f : Field) (v : Int) : Run Context := do
  P.setterPre c f
  need (P.isScalar f)
  need (← P.fieldCondition c f v 0)
  need (← P.validValue f v)
  need (← P.sufficientSpace c f)
  let c ← P.reset c f
  let (b, first, last) ← P.setFieldValue c f v
  P.finish { c with buffer := some b } f .valid first last v

/-- `composite_setter_preconditions`, `rflx/generator/serializer.py:815-855`. -/
def Pkg.compositePre (P : Pkg) (c : Context) (f : Field) : Run Unit := do
  P.setterPre c f
  need (P.isComposite f)
  need (← P.fieldCondition c f 0 (← P.fieldSize c f))
  need (← P.sufficientSpace c f)
  need (decide ((← P.fieldFirst c f) % 8 = 1))
  need (decide ((← P.fieldSize c f) % 8 = 0))

/-- `Initialize_X` for an opaque field, `rflx/generator/serializer.py:727-763`. -/
def Pkg.initializeField (P : Pkg) (c : Context) (f : Field) : Run Context := do
  P.compositePre c f
  let first ← P.fieldFirst c f
  let last ← P.fieldLast c f
  let c ← P.reset c f
  P.finish c f .structuralValid first last 0

/-- `Set_X_Empty`, `rflx/generator/serializer.py:391-457`. -/
def Pkg.setEmpty (P : Pkg) (c : Context) (f : Field) : Run Context := do
  P.compositePre c f
  need (decide ((← P.fieldSize c f) = 0))
  let first ← P.fieldFirst c f
  let last ← P.fieldLast c f
  let c ← P.reset c f
  P.finish c f .valid first last 0

/-- `Set_X` for an opaque field, `rflx/generator/serializer.py:552-633`. `Generic_Set_X` (636-724) does the same with the bytes
that its parameter `Process_X` provides. -/
def Pkg.setOpaque (P : Pkg) (c : Context) (f : Field) (ds : List Nat) : Run Context := do
  P.compositePre c f
  let first ← P.fieldFirst c f
  let last ← P.fieldLast c f
  need (decide ((ds.length : Int) = byteIndex last - byteIndex first + 1))
  let c ← P.initializeField c f
  match c.buffer with
  | some b => do
    let b ← ofAda (assign b (byteIndex first) (byteIndex last) ds)
    return { c with buffer := some b }
  | none => .error (.ada .access)

/-- `Present`, `rflx/generator/parser.py:416-440`. -/
def Context.present (c : Context) (f : Field) : Bool := (c.cursors f).sv && decide ((c.cursors f).first < (c.cursors f).last + 1)

end Verif.Ctx
