import Verif.PyRFLX.MsgArrayProps
import Verif.PyRFLX.MessageParseExample

/-! # PyRFLX arrays of messages: examples, and arrays for which the property fails -/

namespace Verif.PyRFLX

open Verif Verif.Types Verif.Bits Verif.Graph

/-- The message `P::E`. -/
def exElem : ID := ⟨[['P'], ['E']]⟩

/-- The encodings of the elements, if there are no errors. -/
def encodings : List Item → Option (List (List Bool))
  | [] => some []
  | v :: vs => match v.bitstring with
    | .ok b => (encodings vs).map (b.bits :: ·)
    | .error _ => none

theorem encodings_mem : ∀ {vs : List Item} {bs : List (List Bool)}, encodings vs = some bs → ∀ v ∈ vs, ∃ b ∈ bs, v.bitstring = .ok ⟨b⟩
  | [], _, _ => by simp
  | v :: vs, bs, h => by
    unfold encodings at h
    split at h
    · rename_i b hb
      rw [Option.map_eq_some_iff] at h
      obtain ⟨cs, h1, rfl⟩ := h
      intro x hx
      rcases List.mem_cons.mp hx with rfl | hx
      · exact ⟨b.bits, by simp, hb⟩
      · obtain ⟨c, hc, h⟩ := encodings_mem h1 x hx
        exact ⟨c, by simp [hc], h⟩
    · cases h

/-- The encodings of the elements and the exception after an array that has read `first` without error reads `second`. -/
def reread (m : Msg) (fuel : Nat) (first second : List Byte) : Option (List (List Bool)) × Option PyErr :=
  match MsgArray.parseBytes fuel exElem m none [] first with
  | (vs, none) => match MsgArray.parseBytes fuel exElem m none vs second with
    | (ws, e) => (encodings ws, e)
  | (_, some e) => (none, some e)

/-- The elements of an array after it has read some bytes. -/
def readItems (m : Msg) (fuel : Nat) (input : List Byte) : List Item := (MsgArray.parse fuel exElem m none [] (Bitstring.fromBytes input)).1

/-- The bits of bytes. -/
def bitsOf (l : List Byte) : List Bool := l.flatMap Spec.byteBits

/-- Three messages, one of each kind; the last one extends to the end of the input. -/
theorem exArray : encodings (readItems exTlv 20 [1, 2, 7, 8, 3, 2, 9, 9]) = some [bitsOf [1, 2, 7, 8], bitsOf [3], bitsOf [2, 9, 9]] ∧
    (MsgArray.parse 20 exElem exTlv none [] (Bitstring.fromBytes [1, 2, 7, 8, 3, 2, 9, 9])).2 = none := by
  constructor <;> with_unfolding_all rfl

/-- The hypotheses of `C70_parse_partial` and `C70_encoding_partial`. -/
example : Well exTlv exTlvRank (fun f => f == exRest) ∧
    (Bitstring.fromBytes [1, 2, 7, 8, 3, 2, 9, 9]).len % 8 = 0 ∧
    (∀ v ∈ readItems exTlv 20 [1, 2, 7, 8, 3, 2, 9, 9], ∀ R, v.bitstring = .ok R → R.len % 8 = 0) ∧
    ∃ vs, vs ≠ [] ∧ MsgArray.parse 20 exElem exTlv none [] (Bitstring.fromBytes [1, 2, 7, 8, 3, 2, 9, 9]) = (vs, none) := by
  obtain ⟨h1, h2⟩ := exArray
  refine ⟨exTlv_well, by with_unfolding_all rfl, ?_, readItems exTlv 20 [1, 2, 7, 8, 3, 2, 9, 9], ?_, ?_⟩
  · intro v hv R hR
    obtain ⟨b, hb, h⟩ := encodings_mem h1 v hv
    rw [h] at hR
    cases hR
    simp only [List.mem_cons, List.not_mem_nil, or_false] at hb
    rcases hb with rfl | rfl | rfl <;> rfl
  · intro h
    rw [h] at h1
    cases h1
  · rw [← h2]
    rfl

/-- The result of reading a message from bits, with its encoding, if the message is valid. -/
def readBack (m : Msg) (B : List Bool) : Option (State × List Bool) :=
  match m.new.bind fun σ => m.parse σ ⟨B⟩ with
  | .error _ => none
  | .ok σ => match m.validMessage σ, m.bitstring σ with
    | .ok true, .ok b => some (σ, b.bits)
    | _, _ => none

theorem readBack_parsed {m : Msg} {B : List Bool} {x : State × List Bool} (h : readBack m B = some x) (hb : x.2 = B) : Parsed m x.1 x.2 := by
  subst hb
  unfold readBack at h
  split at h
  · cases h
  rename_i σ hσ
  obtain ⟨σ0, h0, h1⟩ := bind_ok hσ
  split at h
  · rename_i b hv hbits
    obtain rfl := Option.some.inj h
    exact ⟨⟨σ0, h0, h1⟩, hv, hbits⟩
  · cases h

/-- The hypotheses of `C70_delimited_partial` and `C70_roundtrip`: two messages, the field that extends to the end is not set in
them. -/
example : ∃ x y : State × List Bool, x.2 = bitsOf [1, 2, 7, 8] ∧ y.2 = bitsOf [3] ∧ Parsed exTlv x.1 x.2 ∧ Parsed exTlv y.1 y.2 ∧
    (∀ f, (fun f => f == exRest) f = true → (x.1.fv f).value = none) ∧ Delimited exTlv x.1 x.2 ∧
    MsgArray.assign exElem (some 40) (items exElem exTlv [x, y]) true = .ok (items exElem exTlv [x, y]) := by
  have hx : (readBack exTlv (bitsOf [1, 2, 7, 8])).map (fun x => (x.2, (x.1.fv exRest).value.isNone)) = some (bitsOf [1, 2, 7, 8], true) := by
    with_unfolding_all rfl
  have hy : (readBack exTlv (bitsOf [3])).map (·.2) = some (bitsOf [3]) := by with_unfolding_all rfl
  obtain ⟨x, hx1, hx⟩ := Option.map_eq_some_iff.mp hx
  obtain ⟨hx2, hx3⟩ := Prod.mk.inj hx
  obtain ⟨y, hy1, hy2⟩ := Option.map_eq_some_iff.mp hy
  have px := readBack_parsed hx1 hx2
  have py := readBack_parsed hy1 hy2
  have hr : ∀ f, (fun f => f == exRest) f = true → (x.1.fv f).value = none := by
    intro f hf
    have hf : f = exRest := by simpa using hf
    rw [hf, ← Option.isNone_iff_eq_none]
    exact hx3
  refine ⟨x, y, hx2, hy2, px, py, hr, C70_delimited_partial exTlv_well px hr, ?_⟩
  refine (C70_assign _ _ _).mpr ⟨rfl, ⟨Bitstring.join [⟨x.2⟩, ⟨y.2⟩], ?_, ?_⟩, ?_⟩
  · simp only [itemBits, items, List.map_cons, List.map_nil, List.mapM_cons, List.mapM_nil, Item.bitstring, px.bits, py.bits]
    rfl
  · intro n hn
    cases hn
    rw [hx2, hy2]
    rfl
  · intro v hv
    simp only [items, List.map_cons, List.map_nil, List.mem_cons, List.not_mem_nil, or_false] at hv
    rcases hv with rfl | rfl
    · exact ⟨_, _, _, rfl, by decide, px.valid⟩
    · exact ⟨_, _, _, rfl, by decide, py.valid⟩

/-! ## Arrays for which the property fails -/

/-- C70 is false for an array that has read something before: the new elements are appended to the old ones, so the encoding of the
array is not its input. -/
theorem C70_reread_counterexample : reread exTlv 20 [3, 3] [1, 1, 5] = (some [bitsOf [3], bitsOf [3], bitsOf [1, 1, 5]], none) := by
  with_unfolding_all rfl

/-- C70 is false after an error: an array keeps the elements it has read before the error. -/
theorem C70_error_counterexample : reread exTlv 20 [3] [3, 7] = (some [bitsOf [3], bitsOf [3]], some .pyrflx) := by
  with_unfolding_all rfl

/-- A message with an opaque field of size 0. -/
def exVoid : Msg where
  links := [⟨INITIAL, exVal, .tru, .n 0, .undefined⟩, ⟨exVal, FINAL, .tru, .undefined, .undefined⟩]
  fields := [exVal]
  types := fun _ => .opaque
  lits := []
  fuel := 10

theorem exVoid_read (B : List Bool) : (readBack exVoid B).map (·.2) = some [] := by with_unfolding_all rfl

/-- C70 is false for messages with an empty encoding: reading any array of them that is not empty does not end. -/
theorem C70_endless_counterexample (expected : Option Int) (old : List Item) (b : Bitstring) (hne : b.bits ≠ [])
    (hex : ∀ n, expected = some n → n = b.len) (fuel : Nat) : (MsgArray.parse fuel exElem exVoid expected old b).2 = some .fuel := by
  have hc : checkSize expected b.len = .ok () := by
    unfold checkSize
    cases expected with
    | none => rfl
    | some n => simp [hex n rfl]
  unfold MsgArray.parse
  rw [hc]
  obtain ⟨x, h1, h2⟩ := Option.map_eq_some_iff.mp (exVoid_read b.bits)
  unfold readBack at h1
  split at h1
  · cases h1
  rename_i σ hσ
  obtain ⟨σ0, h0, hp⟩ := bind_ok hσ
  split at h1
  · rename_i r hv hr
    obtain rfl := Option.some.inj h1
    simp only at h2
    exact loop_diverges hne h0 hp hv (by rw [hr, ← h2]) fuel old
  · cases h1

/-- The hypotheses of `C70_endless_counterexample`, for an array of one byte. -/
example : bitsOf [7] ≠ [] ∧ ∀ n, some 8 = some n → n = ((Bitstring.mk (bitsOf [7])).len : Int) :=
  ⟨by decide, fun n h => by cases h; rfl⟩

end Verif.PyRFLX
