import Verif.Ctx.Agree

/-! # Writing to the buffer -/

namespace Verif.Ctx
open Verif Verif.Graph Verif.Verify Verif.Types Verif.Gen Verif.Spark

section
variable {b : Bytes} {lo hi : Int} {ds : List Nat}

/-- Assignment to a slice. -/
theorem assign_ok (h1 : lo ≤ hi + 1) (h2 : (b.first : Int) ≤ lo) (h3 : hi ≤ b.last) (hl : (ds.length : Int) = hi - lo + 1) :
    ∃ b', assign b lo hi ds = .ok b' ∧ b'.first = b.first ∧ b'.data.length = b.data.length ∧
      ∀ k : Nat, b'.data.getD k 0 = if lo - b.first ≤ k ∧ k ≤ hi - b.first then ds.getD (k - (lo - b.first).toNat) 0 else b.data.getD k 0 := by
  unfold assign
  rw [if_neg (by omega)]
  by_cases h : hi < lo
  · rw [if_pos h]
    exact ⟨b, rfl, rfl, rfl, fun k => by rw [if_neg (by omega)]⟩
  · rw [if_neg h, if_pos ⟨h2, h3⟩]
    simp only [Bytes.last] at h3
    refine ⟨_, rfl, rfl, ?_, ?_⟩
    · simp only [List.length_append, List.length_take, List.length_drop]
      omega
    · intro k
      simp only [List.getD_eq_getElem?_getD]
      have ht : (b.data.take (lo - b.first).toNat).length = (lo - b.first).toNat := by rw [List.length_take]; omega
      split
      · rename_i hk
        rw [List.append_assoc, List.getElem?_append_right (by rw [ht]; omega), ht, List.getElem?_append_left (by omega)]
      · rename_i hk
        by_cases hk' : (k : Int) < lo - b.first
        · rw [List.append_assoc, List.getElem?_append_left (by rw [ht]; omega), List.getElem?_take_of_lt (by omega)]
        · rw [List.getElem?_append_right (by rw [List.length_append, ht]; omega), List.length_append, ht, List.getElem?_drop]
          congr 2
          omega

theorem assign_bytes (hb : AreBytes b.data) (hd : AreBytes ds) {b' : Bytes} (h : assign b lo hi ds = .ok b') : AreBytes b'.data := by
  unfold assign at h
  split at h
  · cases h
  · split at h
    · cases h; exact hb
    · split at h
      · cases h
        intro x hx
        simp only [List.mem_append] at hx
        rcases hx with (hx | hx) | hx
        · exact hb x (List.mem_of_mem_take hx)
        · exact hd x hx
        · exact hb x (List.mem_of_mem_drop hx)
      · cases h

/-- The bits after the assignment to a slice. -/
theorem assign_bits (h1 : lo ≤ hi + 1) (h2 : (b.first : Int) ≤ lo) (h3 : hi ≤ b.last) (hl : (ds.length : Int) = hi - lo + 1) (hd : AreBytes ds) :
    ∃ b', assign b lo hi ds = .ok b' ∧ b'.first = b.first ∧ b'.data.length = b.data.length ∧
      ∀ x : Int, (b.first : Int) ≤ byteIndex x → bitAt b' x = if lo ≤ byteIndex x ∧ byteIndex x ≤ hi then bit ds (8 * hi - x).toNat else bitAt b x := by
  obtain ⟨b', h, hf, hlen, hk⟩ := assign_ok h1 h2 h3 hl
  refine ⟨b', h, hf, hlen, fun x hx => ?_⟩
  have h5 : (lo - b.first ≤ (((x - 1) / 8 + 1 - b.first).toNat : Int) ∧ (((x - 1) / 8 + 1 - b.first).toNat : Int) ≤ hi - b.first) ↔
      (lo ≤ byteIndex x ∧ byteIndex x ≤ hi) := by simp only [byteIndex] at hx ⊢; omega
  unfold bitAt
  rw [hf, hk]
  by_cases h4 : lo ≤ byteIndex x ∧ byteIndex x ≤ hi
  · rw [if_pos h4, if_pos (h5.2 h4)]
    simp only [byteIndex] at hx h4
    rw [bit_eq hd (by omega), List.getD_eq_getElem?_getD]
    congr 2
    · congr 1
      omega
    · omega
  · rw [if_neg h4, if_neg (fun h => h4 (h5.1 h))]

/-- A scalar is written: its bits are those of the number, the others stay. -/
theorem insert_ok (hb : AreBytes b.data) {i : Int} {n v : Nat} (hi : 1 ≤ i) (h1 : 1 ≤ n) (h2 : n ≤ 64) (hv : v < 2 ^ n)
    (h3 : (b.first : Int) ≤ byteIndex i) (h4 : byteIndex (i + n - 1) ≤ b.last) :
    ∃ s s' b', slice b (byteIndex i) (byteIndex (i + n - 1)) = .ok s ∧ insert n v s (offset (i + n - 1)) = .ok s' ∧
      assign b (byteIndex i) (byteIndex (i + n - 1)) s'.data = .ok b' ∧ b'.first = b.first ∧ b'.data.length = b.data.length ∧ AreBytes b'.data ∧
      bitsAt b' i n = v ∧ ∀ x, (b.first : Int) ≤ byteIndex x → x < i ∨ i + n - 1 < x → bitAt b' x = bitAt b x := by
  have hlo : byteIndex i ≤ byteIndex (i + n - 1) := by simp only [byteIndex]; omega
  have hlen : ((b.data.drop (byteIndex i - b.first).toNat).take (byteIndex (i + n - 1) - byteIndex i + 1).toNat).length =
      (byteIndex (i + n - 1) - byteIndex i + 1).toNat := by
    rw [List.length_take, List.length_drop]
    simp only [Bytes.last] at h4
    omega
  have hby : AreBytes ((b.data.drop (byteIndex i - b.first).toNat).take (byteIndex (i + n - 1) - byteIndex i + 1).toNat) :=
    fun x hx => hb x (List.mem_of_mem_drop (List.mem_of_mem_take hx))
  have hoff : (offset (i + n - 1) : Int) = 8 * byteIndex (i + n - 1) - (i + n - 1) := by simp only [offset, byteIndex]; omega
  obtain ⟨s', hs', _, hl', hb', hbits⟩ := C26_insert (b := ⟨(byteIndex i).toNat, (b.data.drop (byteIndex i - b.first).toNat).take
    (byteIndex (i + n - 1) - byteIndex i + 1).toNat⟩) (off := offset (i + n - 1)) hby (by simp only [offset]; omega) h1 h2 hv (by
      simp only [Bytes.length]
      rw [hlen]
      simp only [offset, byteIndex]
      omega)
  simp only [Bytes.length, hlen] at hl'
  obtain ⟨b', ha, hf, hlen', hx⟩ := assign_bits (b := b) (lo := byteIndex i) (hi := byteIndex (i + n - 1)) (ds := s'.data) (by omega) h3 h4 (by omega) hb'
  refine ⟨_, s', b', slice_ok hlo h3 h4, hs', ha, hf, hlen', assign_bytes hb hb' ha, ?_, ?_⟩
  · refine (bitsAt_unique hv fun j hj => ?_).symm
    have e1 : (b.first : Int) ≤ byteIndex (i + (n - 1 - j : Nat)) := by simp only [byteIndex] at h3 ⊢; omega
    rw [hx _ e1, if_pos (by simp only [byteIndex]; omega), hbits, if_pos (by omega)]
    congr 1
    omega
  · intro x hx1 hx2
    rw [hx x hx1]
    split
    · rename_i h5
      have hx3 : (0 : Int) ≤ 8 * byteIndex (i + n - 1) - x := by simp only [byteIndex] at h5 ⊢; omega
      rw [hbits, if_neg (by omega)]
      have := slice_bit hb hlo h3 h4 (k := (8 * byteIndex (i + n - 1) - x).toNat) (by simp only [byteIndex] at h5 ⊢; omega)
      rw [this]
      congr 1
      omega
    · rfl

end

end Verif.Ctx
