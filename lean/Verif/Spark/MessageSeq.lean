import Verif.Spark.ScalarSeq

/-! # Sequences of messages (`rflx/templates/rflx_message_sequence.adb`, `rflx/templates/rflx_message_sequence.ads`)

The element context is a formal parameter of the package. As in `Verif.Spark.ScalarSeq`, a pointer to a buffer is modelled by
the content of the buffer. -/

namespace Verif.Spark.MessageSeq

/-- The formal parameters, `rflx/templates/rflx_message_sequence.ads:4-12`. The discriminants of `Element_Context` are
functions. `Element_Initialized` is only used in a postcondition and not modelled. -/
structure Element (E : Type) where
  indexLast : Nat
  bufferFirst : E → Nat
  bufferLast : E → Nat
  first : E → Nat
  last : E → Nat
  initElement : Bytes → Nat → Nat → Ada E
  takeBuffer : E → Ada (E × Option Bytes)
  hasBuffer : E → Bool
  elementLast : E → Ada Nat
  validMessage : E → Ada Bool

/-- `Context`, `rflx/templates/rflx_message_sequence.ads:173-179`. -/
structure Ctx where
  bufferFirst : Nat
  bufferLast : Nat
  first : Nat
  last : Nat
  sequenceLast : Nat
  buffer : Option Bytes
  valid : Bool

/-- `Dynamic_Predicate`, `rflx/templates/rflx_message_sequence.ads:180-190`. -/
def Ctx.Pred (indexLast : Nat) (c : Ctx) : Prop :=
  (∀ b, c.buffer = some b → b.first = c.bufferFirst ∧ b.last = c.bufferLast) ∧
  c.bufferFirst ≤ byteIndex c.first ∧
  byteIndex c.last ≤ c.bufferLast ∧
  c.first % 8 = 1 ∧
  c.first ≤ c.last ∧
  c.last ≤ 8 * indexLast - 1 ∧
  c.first - 1 ≤ c.sequenceLast ∧
  c.sequenceLast ≤ c.last

instance (n : Nat) (c : Ctx) : Decidable (c.Pred n) := by
  unfold Ctx.Pred
  cases c.buffer with
  | none => exact @instDecidableAnd _ _ (.isTrue fun _ h => nomatch h) inferInstance
  | some b =>
    exact @instDecidableAnd _ _
      (decidable_of_iff (b.first = c.bufferFirst ∧ b.last = c.bufferLast)
        ⟨fun h _ hb => by cases hb; exact h, fun h => h b rfl⟩) inferInstance

/-- The check of the predicate. -/
def checked (n : Nat) (c : Ctx) : Ada Ctx := if c.Pred n then .ok c else .error .predicate

/-- `Has_Element`, `rflx/templates/rflx_message_sequence.ads:192-193`. -/
def Ctx.hasElement (c : Ctx) : Bool := c.valid && decide (c.sequenceLast < c.last)

/-- `Has_Buffer`, `rflx/templates/rflx_message_sequence.ads:198-199`. -/
def Ctx.hasBuffer (c : Ctx) : Bool := c.buffer.isSome

/-- `Size`, `rflx/templates/rflx_message_sequence.ads:204-205`. -/
def Ctx.size (c : Ctx) : Nat := c.sequenceLast + 1 - c.first

/-- The precondition of `Initialize`, `rflx/templates/rflx_message_sequence.ads:50-59`. -/
def initPre (indexLast : Nat) (b : Bytes) (bufferFirst bufferLast first last : Nat) : Prop :=
  b.first = bufferFirst ∧ b.last = bufferLast ∧ b.first ≤ byteIndex first ∧ (byteIndex last : Int) ≤ b.last ∧
  first % 8 = 1 ∧ first ≤ last ∧ last ≤ 8 * indexLast - 1

instance (n : Nat) (b : Bytes) (bf bl f l : Nat) : Decidable (initPre n b bf bl f l) := by unfold initPre; infer_instance

/-- The second `Initialize`, `rflx/templates/rflx_message_sequence.adb:12-16`. -/
def init (n : Nat) (b : Bytes) (bufferFirst bufferLast first last : Nat) : Ada Ctx := do
  pre (initPre n b bufferFirst bufferLast first last)
  checked n { bufferFirst, bufferLast, first, last, sequenceLast := first - 1, buffer := some b, valid := true }

/-- `Take_Buffer`, `rflx/templates/rflx_message_sequence.adb:18-22`. -/
def takeBuffer (n : Nat) (c : Ctx) : Ada (Ctx × Option Bytes) := do
  pre (c.hasBuffer = true)
  return (← checked n { c with buffer := none }, c.buffer)

/-- The precondition of `Switch`, `rflx/templates/rflx_message_sequence.ads:100-104`. -/
def switchPre (c : Ctx) : Prop := c.hasBuffer = true ∧ c.hasElement = true ∧ c.valid = true

instance (c : Ctx) : Decidable (switchPre c) := by unfold switchPre; infer_instance

/-- `Switch`, `rflx/templates/rflx_message_sequence.adb:33-41`. -/
def switch {E : Type} (P : Element E) (c : Ctx) : Ada (Ctx × E) := do
  pre (switchPre c)
  let b ← (match c.buffer with
    | some b => .ok b
    | none => .error .access : Ada Bytes)
  inRange (c.sequenceLast + 1 ≤ 8 * P.indexLast)
  let e ← P.initElement b (c.sequenceLast + 1) c.last
  let c ← checked P.indexLast { c with buffer := none }
  return (c, e)

/-- The precondition of `Update`, `rflx/templates/rflx_message_sequence.ads:126-134`. -/
def updatePre {E : Type} (P : Element E) (c : Ctx) (e : E) : Prop :=
  c.hasBuffer = false ∧ P.hasBuffer e = true ∧ c.hasElement = true ∧ c.valid = true ∧ c.bufferFirst = P.bufferFirst e ∧
  c.bufferLast = P.bufferLast e ∧ c.first ≤ P.first e ∧ P.last e ≤ c.last

instance {E : Type} (P : Element E) (c : Ctx) (e : E) : Decidable (updatePre P c e) := by unfold updatePre; infer_instance

/-- `Update`, `rflx/templates/rflx_message_sequence.adb:43-58`. -/
def update {E : Type} (P : Element E) (c : Ctx) (e : E) : Ada (Ctx × E) := do
  pre (updatePre P c e)
  let validMessage ← P.validMessage e
  let last ← (if validMessage then P.elementLast e else .ok 1 : Ada Nat)
  let (e, buffer) ← P.takeBuffer e
  let c := { c with buffer := buffer }
  let c ← checked P.indexLast (if validMessage then { c with sequenceLast := last } else { c with valid := false })
  return (c, e)

end Verif.Spark.MessageSeq
