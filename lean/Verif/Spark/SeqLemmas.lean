import Verif.Spark.ScalarSeq
import Verif.Spark.RuntimeProps

/-! # Lemmas about slices of buffers -/

namespace Verif.Spark

theorem last_eq {b : Bytes} {l : Nat} (h : b.last = l) : b.first + b.length = l + 1 := by
  unfold Bytes.last at h
  unfold Bytes.length
  omega

theorem slice_ok {b : Bytes} {bl f l : Nat} (hl : b.last = bl) (hf : b.first ≤ f) (hfl : f ≤ l) (hlb : l ≤ bl) :
    ∃ s, b.slice f l = .ok s ∧ s.first = f ∧ s.length = l - f + 1 ∧ (∀ j, j < s.length → s.fromEnd j = b.fromEnd (j + (bl - l))) ∧
      s.data = (b.data.drop (f - b.first)).take (l - f + 1) := by
  have hlen := last_eq hl
  unfold Bytes.length at hlen
  have hlen' : ((b.data.drop (f - b.first)).take (l - f + 1)).length = l - f + 1 := by
    rw [List.length_take, List.length_drop]
    omega
  refine ⟨⟨f, (b.data.drop (f - b.first)).take (l - f + 1)⟩,
    by unfold Bytes.slice; rw [if_neg (by omega), if_pos ⟨hf, by omega⟩], rfl, hlen', fun j hj => ?_, rfl⟩
  unfold Bytes.fromEnd Bytes.length at *
  simp only at hj ⊢
  rw [hlen'] at hj ⊢
  rw [List.getElem?_take_of_lt (by omega), List.getElem?_drop]
  congr 2
  omega

theorem slice_bytes {b s : Bytes} {f l : Nat} (hb : AreBytes b.data) (h : b.slice f l = .ok s) : AreBytes s.data := by
  unfold Bytes.slice at h
  split at h
  · cases h
    intro x hx
    cases hx
  · split at h
    · cases h
      intro x hx
      exact hb x (List.mem_of_mem_drop (List.mem_of_mem_take hx))
    · cases h

theorem slice_bit {b s : Bytes} {bl f l : Nat} (hb : AreBytes b.data) (hl : b.last = bl) (hf : b.first ≤ f) (hfl : f ≤ l)
    (hlb : l ≤ bl) (h : b.slice f l = .ok s) {k : Nat} (hk : k < 8 * (l - f + 1)) :
    bit s.data k = bit b.data (k + 8 * (bl - l)) := by
  obtain ⟨s', hs, _, hlen, hbytes, _⟩ := slice_ok hl hf hfl hlb
  cases h.symm.trans hs
  have := last_eq hl
  rw [bit_fromEnd (slice_bytes hb h) (by omega), bit_fromEnd hb (by omega), hbytes _ (by omega),
    show (k + 8 * (bl - l)) / 8 = k / 8 + (bl - l) by omega, show (k + 8 * (bl - l)) % 8 = k % 8 by omega]

theorem putSlice_length {b s s' : Bytes} {bl f l : Nat} (hl : b.last = bl) (hf : b.first ≤ f) (hfl : f ≤ l)
    (hlb : l ≤ bl) (hs : s.length = l - f + 1) : (b.putSlice f s).length = b.length := by
  have := last_eq hl
  unfold Bytes.putSlice Bytes.length at *
  simp only [List.length_append, List.length_take, List.length_drop]
  omega

theorem putSlice_fromEnd {b s : Bytes} {bl f l : Nat} (hl : b.last = bl) (hf : b.first ≤ f) (hfl : f ≤ l)
    (hlb : l ≤ bl) (hs : s.length = l - f + 1) {j : Nat} (hj : j < b.length) :
    (b.putSlice f s).fromEnd j = if bl - l ≤ j ∧ j ≤ bl - f then s.fromEnd (j - (bl - l)) else b.fromEnd j := by
  have hlen := last_eq hl
  have hpl := putSlice_length (s' := s) hl hf hfl hlb hs
  unfold Bytes.length at *
  have h1 : (b.data.take (f - b.first)).length = f - b.first := by
    rw [List.length_take]; omega
  unfold Bytes.fromEnd
  rw [hpl]
  simp only [Bytes.putSlice, List.append_assoc, Bytes.length]
  by_cases hc : bl - l ≤ j ∧ j ≤ bl - f
  · rw [if_pos hc, List.getElem?_append_right (by omega), List.getElem?_append_left (by omega)]
    congr 2
    omega
  · rw [if_neg hc]
    by_cases hlt : j < bl - l
    · rw [List.getElem?_append_right (by omega), List.getElem?_append_right (by omega), List.getElem?_drop]
      congr 2
      omega
    · rw [List.getElem?_append_left (by omega), List.getElem?_take_of_lt (by omega)]

theorem putSlice_bytes {b s : Bytes} {f : Nat} (hb : AreBytes b.data) (hs : AreBytes s.data) : AreBytes (b.putSlice f s).data := by
  intro x hx
  unfold Bytes.putSlice at hx
  rw [List.mem_append, List.mem_append] at hx
  rcases hx with (hx | hx) | hx
  · exact hb x (List.mem_of_mem_take hx)
  · exact hs x hx
  · exact hb x (List.mem_of_mem_drop hx)

theorem putSlice_bit {b s : Bytes} {bl f l : Nat} (hb : AreBytes b.data) (hsb : AreBytes s.data) (hl : b.last = bl)
    (hf : b.first ≤ f) (hfl : f ≤ l) (hlb : l ≤ bl) (hs : s.length = l - f + 1) (k : Nat) :
    bit (b.putSlice f s).data k =
      if 8 * (bl - l) ≤ k ∧ k < 8 * (bl - f + 1) then bit s.data (k - 8 * (bl - l)) else bit b.data k := by
  have hlen := last_eq hl
  have hpl := putSlice_length (s' := s) hl hf hfl hlb hs
  have hpb := putSlice_bytes (f := f) hb hsb
  by_cases hk : k / 8 < b.length
  · rw [bit_fromEnd hpb (by omega), putSlice_fromEnd hl hf hfl hlb hs hk]
    by_cases hc : bl - l ≤ k / 8 ∧ k / 8 ≤ bl - f
    · rw [if_pos hc, if_pos (by omega), bit_fromEnd hsb (by omega),
        show (k - 8 * (bl - l)) / 8 = k / 8 - (bl - l) by omega, show (k - 8 * (bl - l)) % 8 = k % 8 by omega]
    · rw [if_neg hc, if_neg (by omega), bit_fromEnd hb hk]
  · rw [bit_beyond hpb (by unfold Bytes.length at *; omega), if_neg (by omega), bit_beyond hb (by unfold Bytes.length at *; omega)]

/-! ## A scalar in a buffer -/

/-- Specification: the `s` bits that end with bit `lastBit` (counted from 1 for the first bit of index 1) are the value `v`. -/
def HoldsAt (b : Bytes) (s lastBit v : Nat) : Prop :=
  v < 2 ^ s ∧ ∀ j, j < s → v.testBit j = bit b.data ((8 * b.last).toNat - lastBit + j)

theorem HoldsAt.unique {b : Bytes} {s lastBit v w : Nat} (hv : HoldsAt b s lastBit v) (hw : HoldsAt b s lastBit w) : v = w := by
  apply Nat.eq_of_testBit_eq
  intro j
  by_cases hj : j < s
  · rw [hv.2 j hj, hw.2 j hj]
  · rw [Nat.testBit_lt_two_pow (Nat.lt_of_lt_of_le hv.1 (Nat.pow_le_pow_right (by omega) (by omega))),
      Nat.testBit_lt_two_pow (Nat.lt_of_lt_of_le hw.1 (Nat.pow_le_pow_right (by omega) (by omega)))]

/-- Reading the scalar whose last bit is `p + s` through the slice of the bytes that contain it. -/
theorem read_scalar {b : Bytes} {bl p s : Nat} (hb : AreBytes b.data) (hl : b.last = bl) (h1 : 1 ≤ s) (h2 : s ≤ 64)
    (hf : b.first ≤ byteIndex (p + 1)) (hlb : byteIndex (p + s) ≤ bl) :
    ∃ sl v, b.slice (byteIndex (p + 1)) (byteIndex (p + s)) = .ok sl ∧ extract s sl ((8 - (p + s) % 8) % 8) = .ok v ∧
      HoldsAt b s (p + s) v := by
  unfold byteIndex at *
  obtain ⟨sl, hs, _, hlen, _, _⟩ := slice_ok (f := (p + 1 - 1) / 8 + 1) (l := (p + s - 1) / 8 + 1) hl hf (by omega) hlb
  obtain ⟨v, hv, hlt, hbits⟩ := C25_extract (b := sl) (size := s) (off := (8 - (p + s) % 8) % 8) (slice_bytes hb hs)
    (by omega) h1 h2 (by omega)
  refine ⟨sl, v, hs, hv, hlt, fun j hj => ?_⟩
  rw [hbits j hj, slice_bit hb hl hf (by omega) hlb hs (by omega)]
  congr 1
  omega

/-- Writing the scalar whose last bit is `p + s`. -/
theorem write_scalar {b : Bytes} {bl p s x : Nat} (hb : AreBytes b.data) (hl : b.last = bl) (h1 : 1 ≤ s) (h2 : s ≤ 64)
    (hx : x < 2 ^ s) (hf : b.first ≤ byteIndex (p + 1)) (hlb : byteIndex (p + s) ≤ bl) :
    ∃ sl sl', b.slice (byteIndex (p + 1)) (byteIndex (p + s)) = .ok sl ∧ insert s x sl ((8 - (p + s) % 8) % 8) = .ok sl' ∧
      (b.putSlice (byteIndex (p + 1)) sl').length = b.length ∧ AreBytes (b.putSlice (byteIndex (p + 1)) sl').data ∧
      ∀ k, bit (b.putSlice (byteIndex (p + 1)) sl').data k =
        if 8 * bl - (p + s) ≤ k ∧ k < 8 * bl - p then x.testBit (k - (8 * bl - (p + s))) else bit b.data k := by
  unfold byteIndex at *
  obtain ⟨sl, hs, _, hlen, _, _⟩ := slice_ok (f := (p + 1 - 1) / 8 + 1) (l := (p + s - 1) / 8 + 1) hl hf (by omega) hlb
  have hsb := slice_bytes hb hs
  obtain ⟨sl', hv, _, hlen', hsb', hbits⟩ := C26_insert (b := sl) (size := s) (off := (8 - (p + s) % 8) % 8) hsb
    (by omega) h1 h2 hx (by omega)
  have hlen'' : sl'.length = (p + s - 1) / 8 + 1 - ((p + 1 - 1) / 8 + 1) + 1 := by omega
  refine ⟨sl, sl', hs, hv, putSlice_length (s' := sl) hl hf (by omega) hlb hlen'', putSlice_bytes hb hsb', fun k => ?_⟩
  rw [putSlice_bit hb hsb' hl hf (by omega) hlb hlen'', hbits]
  by_cases hc : 8 * bl - (p + s) ≤ k ∧ k < 8 * bl - p
  · rw [if_pos (by omega), if_pos (by omega), if_pos hc]
    congr 1
    omega
  · rw [if_neg hc]
    split
    · rw [if_neg (by omega), slice_bit hb hl hf (by omega) hlb hs (by omega)]
      congr 1
      omega
    · rfl

end Verif.Spark
