import Verif.Spark.Runtime

/-! # Sequences of scalars (`rflx/templates/rflx_scalar_sequence.adb`, `rflx/templates/rflx_scalar_sequence.ads`)

Pointers are owned, so a buffer is modelled by its content: moving the pointer moves the content. `Ctx'Constrained` and the
`Depends` clauses are not modelled. Preconditions are checked where a procedure is called, the predicate of the context when a
procedure with an `out` or `in out` context returns. Postconditions are not modelled. -/

namespace Verif.Spark

/-- `Byte_Index`, `rflx/templates/rflx_generic_types.ads:39-40`. -/
def byteIndex (bitIdx : Nat) : Nat := (bitIdx - 1) / 8 + 1

/-- `First_Bit_Index`, `rflx/templates/rflx_generic_types.ads:42-43`. -/
def firstBitIndex (idx : Nat) : Nat := (idx - 1) * 8 + 1

/-- `Last_Bit_Index`, `rflx/templates/rflx_generic_types.ads:45-46`. -/
def lastBitIndex (idx : Nat) : Nat := (idx - 1) * 8 + 8

/-- A slice `Data (First .. Last)`; the bounds of a slice that is not empty have to be in the range of the array (Ada Reference
Manual 4.1.2). The index of an empty slice is not observable here. -/
def Bytes.slice (b : Bytes) (first last : Nat) : Ada Bytes :=
  if last < first then .ok ⟨first, []⟩
  else if b.first ≤ first ∧ (last : Int) ≤ b.last then
    .ok ⟨first, (b.data.drop (first - b.first)).take (last - first + 1)⟩
  else .error .index

/-- Writing back a slice `Data (First .. Last)` that was passed as an `in out` parameter. -/
def Bytes.putSlice (b : Bytes) (first : Nat) (s : Bytes) : Bytes :=
  { b with data := b.data.take (first - b.first) ++ s.data ++ b.data.drop (first - b.first + s.length) }

namespace ScalarSeq

/-- The formal parameters of the generic package, `rflx/templates/rflx_scalar_sequence.ads:4-10`: `Types.Index'Last`,
`Element_Base_Type'Size` and the functions. -/
structure Params (α : Type) where
  indexLast : Nat
  size : Nat
  valid : Nat → Bool
  toActual : Nat → α
  toBase : α → Nat

/-- `Context`, `rflx/templates/rflx_scalar_sequence.ads:157-163`. -/
structure Ctx where
  bufferFirst : Nat
  bufferLast : Nat
  first : Nat
  last : Nat
  sequenceLast : Nat
  buffer : Option Bytes
  valid : Bool
  nextElement : Nat

/-- `Dynamic_Predicate`, `rflx/templates/rflx_scalar_sequence.ads:164-174`. -/
def Ctx.Pred {α : Type} (P : Params α) (c : Ctx) : Prop :=
  (∀ b, c.buffer = some b → b.first = c.bufferFirst ∧ b.last = c.bufferLast) ∧
  c.bufferFirst ≤ byteIndex c.first ∧
  byteIndex c.last ≤ c.bufferLast ∧
  c.first % 8 = 1 ∧
  c.first ≤ c.last ∧
  c.last ≤ 8 * P.indexLast - 1 ∧
  c.first - 1 ≤ c.sequenceLast ∧
  c.sequenceLast ≤ c.last

instance {α : Type} (P : Params α) (c : Ctx) : Decidable (c.Pred P) := by
  unfold Ctx.Pred
  cases c.buffer with
  | none => exact @instDecidableAnd _ _ (.isTrue fun _ h => nomatch h) inferInstance
  | some b =>
    exact @instDecidableAnd _ _
      (decidable_of_iff (b.first = c.bufferFirst ∧ b.last = c.bufferLast)
        ⟨fun h _ hb => by cases hb; exact h, fun h => h b rfl⟩) inferInstance

/-- The check of the predicate. -/
def checked {α : Type} (P : Params α) (c : Ctx) : Ada Ctx := if c.Pred P then .ok c else .error .predicate

/-- `Has_Element`, `rflx/templates/rflx_scalar_sequence.ads:176-177`. -/
def Ctx.hasElement {α : Type} (P : Params α) (c : Ctx) : Bool := c.valid && decide (P.size ≤ c.last - c.sequenceLast)

/-- `Valid_Element`, `rflx/templates/rflx_scalar_sequence.ads:179-180`. -/
def Ctx.validElement {α : Type} (P : Params α) (c : Ctx) : Bool := c.valid && P.valid c.nextElement

/-- `Has_Buffer`, `rflx/templates/rflx_scalar_sequence.ads:185-186`. -/
def Ctx.hasBuffer (c : Ctx) : Bool := c.buffer.isSome

/-- `Size`, `rflx/templates/rflx_scalar_sequence.ads:191-192`. -/
def Ctx.size (c : Ctx) : Nat := c.sequenceLast + 1 - c.first

/-- `Byte_Size`, `rflx/templates/rflx_scalar_sequence.ads:194-200`. -/
def Ctx.byteSize (c : Ctx) : Nat :=
  if c.sequenceLast = c.first - 1 then 0 else byteIndex c.sequenceLast - byteIndex c.first + 1

/-- `Available_Space`, `rflx/templates/rflx_scalar_sequence.ads:202-203`. -/
def Ctx.availableSpace (c : Ctx) : Nat := c.last - c.sequenceLast

/-- The precondition of the second `Initialize`, `rflx/templates/rflx_scalar_sequence.ads:46-55`. -/
def initPre {α : Type} (P : Params α) (b : Bytes) (bufferFirst bufferLast first last : Nat) : Prop :=
  b.first = bufferFirst ∧ b.last = bufferLast ∧ b.first ≤ byteIndex first ∧ (byteIndex last : Int) ≤ b.last ∧
  first % 8 = 1 ∧ first ≤ last ∧ last ≤ 8 * P.indexLast - 1

instance {α : Type} (P : Params α) (b : Bytes) (bf bl f l : Nat) : Decidable (initPre P b bf bl f l) := by
  unfold initPre; infer_instance

/-- The second `Initialize`, `rflx/templates/rflx_scalar_sequence.adb:30-34`. -/
def init {α : Type} (P : Params α) (b : Bytes) (bufferFirst bufferLast first last : Nat) : Ada Ctx := do
  pre (initPre P b bufferFirst bufferLast first last)
  checked P { bufferFirst, bufferLast, first, last, sequenceLast := first - 1, buffer := some b, valid := true, nextElement := 0 }

/-- The first `Initialize`, `rflx/templates/rflx_scalar_sequence.adb:25-28`, with its precondition,
`rflx/templates/rflx_scalar_sequence.ads:29-33`. -/
def initAll {α : Type} (P : Params α) (b : Bytes) : Ada Ctx := do
  pre (0 < b.length ∧ b.last < P.indexLast)
  init P b b.first b.last.toNat (firstBitIndex b.first) (lastBitIndex b.last.toNat)

/-- `Take_Buffer`, `rflx/templates/rflx_scalar_sequence.adb:36-40`. -/
def takeBuffer {α : Type} (P : Params α) (c : Ctx) : Ada (Ctx × Option Bytes) := do
  pre (c.hasBuffer = true)
  return (← checked P { c with buffer := none }, c.buffer)

/-- `Ctx.Buffer.all`. -/
def Ctx.content (c : Ctx) : Ada Bytes :=
  match c.buffer with
  | some b => .ok b
  | none => .error .access

/-- `Copy` into a buffer of a length, `rflx/templates/rflx_scalar_sequence.adb:42-49`; the lengths of both sides of an array
assignment have to be the same. -/
def copy {α : Type} (P : Params α) (c : Ctx) (length : Nat) : Ada (List Nat) := do
  pre (c.hasBuffer = true ∧ c.byteSize = length)
  let b ← c.content
  let s ← (if 0 < length then do
      inRange (0 < c.sequenceLast)
      b.slice (byteIndex c.first) (byteIndex c.sequenceLast)
    else b.slice P.indexLast 1 : Ada Bytes)
  if s.length = length then return s.data else throw .range

/-- `Read_Next_Element`, `rflx/templates/rflx_scalar_sequence.adb:7-23`. -/
def readNextElement {α : Type} (P : Params α) (c : Ctx) : Ada Ctx := do
  pre (c.hasBuffer = true ∧ P.size ≤ c.last - c.sequenceLast)
  let lastBit := c.sequenceLast + P.size
  inRange (lastBit ≤ 8 * P.indexLast)
  let bufferFirst := byteIndex (c.sequenceLast + 1)
  let bufferLast := byteIndex lastBit
  let offset := (8 - lastBit % 8) % 8
  let b ← c.content
  if b.first ≤ bufferFirst ∧ (bufferLast : Int) ≤ b.last ∧ bufferFirst ≤ bufferLast then do
    let c := { c with nextElement := ← extract P.size (← b.slice bufferFirst bufferLast) offset }
    checked P (if c.validElement P then c else { c with valid := false })
  else checked P c

/-- `Next`, `rflx/templates/rflx_scalar_sequence.adb:51-55`, with its precondition,
`rflx/templates/rflx_scalar_sequence.ads:91-93`. -/
def next {α : Type} (P : Params α) (c : Ctx) : Ada Ctx := do
  pre (c.hasBuffer = true ∧ c.hasElement P = true)
  let c ← readNextElement P c
  inRange (c.sequenceLast + P.size ≤ 8 * P.indexLast)
  checked P { c with sequenceLast := c.sequenceLast + P.size }

/-- `Get_Element`, `rflx/templates/rflx_scalar_sequence.adb:57-58`, with its precondition,
`rflx/templates/rflx_scalar_sequence.ads:111-113`. -/
def getElement {α : Type} (P : Params α) (c : Ctx) : Ada α := do
  pre (c.validElement P = true)
  return P.toActual c.nextElement

/-- `Append_Element`, `rflx/templates/rflx_scalar_sequence.adb:60-75`, with its precondition,
`rflx/templates/rflx_scalar_sequence.ads:115-120`. -/
def appendElement {α : Type} (P : Params α) (c : Ctx) (value : α) : Ada Ctx := do
  pre (c.hasBuffer = true ∧ c.valid = true ∧ P.valid (P.toBase value) = true ∧ P.size ≤ c.availableSpace)
  let lastBit := c.sequenceLast + P.size
  inRange (lastBit ≤ 8 * P.indexLast)
  let first := byteIndex (c.sequenceLast + 1)
  let last := byteIndex lastBit
  let offset := (8 - lastBit % 8) % 8
  let b ← c.content
  if b.first ≤ first ∧ (last : Int) ≤ b.last ∧ first ≤ last then do
    let s ← insert P.size (P.toBase value) (← b.slice first last) offset
    checked P { c with buffer := some (b.putSlice first s), sequenceLast := lastBit }
  else checked P { c with sequenceLast := lastBit }

end ScalarSeq

end Verif.Spark
