import Verif.Ctx.Own
import Verif.Generator.ScalarProps

/-! # Bits of the buffer -/

namespace Verif.Ctx
open Verif Verif.Graph Verif.Verify Verif.Types Verif.Gen Verif.Spark

theorem bitsAt_lt (b : Bytes) (i : Int) (n : Nat) : bitsAt b i n < 2 ^ n := by
  induction n with
  | zero => simp [bitsAt]
  | succ n ih =>
    rw [bitsAt, Nat.pow_succ]
    have : (bitAt b (i + n)).toNat < 2 := by cases bitAt b (i + n) <;> simp
    omega

theorem testBit_bitsAt (b : Bytes) (i : Int) : ∀ (n j : Nat), j < n → (bitsAt b i n).testBit j = bitAt b (i + (n - 1 - j : Nat)) := by
  intro n
  induction n with
  | zero => intro j hj; omega
  | succ n ih =>
    intro j hj
    rw [bitsAt]
    cases j with
    | zero =>
      rw [Nat.testBit_zero]
      have : i + ((n + 1 - 1 - 0 : Nat) : Int) = i + n := by omega
      rw [this]
      cases bitAt b (i + n) <;> simp <;> omega
    | succ j =>
      rw [Nat.testBit_succ]
      have : (2 * bitsAt b i n + (bitAt b (i + n)).toNat) / 2 = bitsAt b i n := by
        have : (bitAt b (i + n)).toNat < 2 := by cases bitAt b (i + n) <;> simp
        omega
      rw [this, ih j (by omega)]
      congr 2
      omega

/-- Numbers are determined by their bits. -/
theorem bitsAt_unique {b : Bytes} {i : Int} {n v : Nat} (hv : v < 2 ^ n) (h : ∀ j, j < n → v.testBit j = bitAt b (i + (n - 1 - j : Nat))) :
    v = bitsAt b i n := by
  apply Nat.eq_of_testBit_eq
  intro j
  by_cases hj : j < n
  · rw [h j hj, testBit_bitsAt b i n j hj]
  · have hle : 2 ^ n ≤ 2 ^ j := Nat.pow_le_pow_right (by omega) (by omega)
    rw [Nat.testBit_lt_two_pow (Nat.lt_of_lt_of_le hv hle), Nat.testBit_lt_two_pow (Nat.lt_of_lt_of_le (bitsAt_lt b i n) hle)]

theorem slice_ok {b : Bytes} {lo hi : Int} (h1 : lo ≤ hi) (h2 : (b.first : Int) ≤ lo) (h3 : hi ≤ b.last) :
    slice b lo hi = .ok ⟨lo.toNat, (b.data.drop (lo - b.first).toNat).take (hi - lo + 1).toNat⟩ := by
  unfold slice
  rw [if_neg (by omega), if_pos ⟨h2, h3⟩]

theorem slice_bit {b : Bytes} (hb : AreBytes b.data) {lo hi : Int} (h1 : lo ≤ hi) (h2 : (b.first : Int) ≤ lo) (h3 : hi ≤ b.last) {k : Nat}
    (hk : (k / 8 : Nat) ≤ hi - lo) :
    bit ((b.data.drop (lo - b.first).toNat).take (hi - lo + 1).toNat) k = bitAt b (8 * hi - k) := by
  simp only [Bytes.last] at h3
  have hlen : ((b.data.drop (lo - b.first).toNat).take (hi - lo + 1).toNat).length = (hi - lo + 1).toNat := by
    rw [List.length_take, List.length_drop]
    omega
  have hby : AreBytes ((b.data.drop (lo - b.first).toNat).take (hi - lo + 1).toNat) := fun x hx => hb x (List.mem_of_mem_drop (List.mem_of_mem_take hx))
  rw [bit_eq hby (by rw [hlen]; omega), hlen]
  rw [List.getElem?_take_of_lt (by omega), List.getElem?_drop]
  unfold bitAt
  rw [List.getD_eq_getElem?_getD]
  have e1 : (lo - b.first).toNat + ((hi - lo + 1).toNat - 1 - k / 8) = ((8 * hi - k - 1) / 8 + 1 - b.first).toNat := by omega
  have e2 : k % 8 = 7 - ((8 * hi - k - 1) % 8).toNat := by omega
  rw [e1, ← e2]

/-- The field from bit `i` on with `n` bits is read. -/
theorem slice_extract {b : Bytes} (hb : AreBytes b.data) {i : Int} {n : Nat} (hi : 1 ≤ i) (h1 : 1 ≤ n) (h2 : n ≤ 64)
    (h3 : (b.first : Int) ≤ byteIndex i) (h4 : byteIndex (i + n - 1) ≤ b.last) :
    ∃ s, slice b (byteIndex i) (byteIndex (i + n - 1)) = .ok s ∧ extract n s (offset (i + n - 1)) = .ok (bitsAt b i n) := by
  have hlo : byteIndex i ≤ byteIndex (i + n - 1) := by simp only [byteIndex]; omega
  refine ⟨_, slice_ok hlo h3 h4, ?_⟩
  have hlen : ((b.data.drop (byteIndex i - b.first).toNat).take (byteIndex (i + n - 1) - byteIndex i + 1).toNat).length =
      (byteIndex (i + n - 1) - byteIndex i + 1).toNat := by
    rw [List.length_take, List.length_drop]
    simp only [Bytes.last] at h4
    omega
  have hby : AreBytes ((b.data.drop (byteIndex i - b.first).toNat).take (byteIndex (i + n - 1) - byteIndex i + 1).toNat) :=
    fun x hx => hb x (List.mem_of_mem_drop (List.mem_of_mem_take hx))
  obtain ⟨v, hv, hlt, hbits⟩ := C25_extract (b := ⟨(byteIndex i).toNat, (b.data.drop (byteIndex i - b.first).toNat).take
    (byteIndex (i + n - 1) - byteIndex i + 1).toNat⟩) (off := offset (i + n - 1)) hby (by simp only [offset]; omega) h1 h2 (by
      simp only [Bytes.length]
      rw [hlen]
      simp only [offset, byteIndex]
      omega)
  rw [hv]
  congr 1
  refine bitsAt_unique hlt fun j hj => ?_
  rw [hbits j hj, slice_bit hb hlo h3 h4]
  · congr 1
    simp only [offset, byteIndex]
    omega
  · simp only [offset, byteIndex]
    omega

theorem content_eq {b : Bytes} {i j : Int} (h2 : (b.first : Int) ≤ byteIndex i) (h3 : byteIndex j ≤ b.last) :
    content (some b) i j = bytesAt b i j := by
  simp only [content, bytesAt]
  by_cases h : byteIndex j < byteIndex i
  · unfold slice
    rw [if_pos h]
    have : ((j - 1) / 8 - (i - 1) / 8 + 1).toNat = 0 := by simp only [byteIndex] at h; omega
    rw [this]
    rfl
  · rw [slice_ok (by omega) h2 h3]
    simp only [byteIndex, Bytes.last] at h h2 h3 ⊢
    apply List.ext_getElem
    · simp only [List.length_map, List.length_take, List.length_drop, List.length_range]
      omega
    · intro k hk1 hk2
      simp only [List.getElem_map, List.getElem_take, List.getElem_drop, List.getElem_range]
      rw [List.getD_eq_getElem?_getD, List.getElem?_eq_getElem]
      · simp
      · simp only [List.length_map, List.length_take, List.length_drop] at hk1
        omega

section
variable {P : Pkg}

/-- The size of a scalar type. -/
theorem scalar_size (W : WellFormed P) {f : Field} {t : FTy} (h : (f, t) ∈ P.m.msg.types) (hs : Scalar t) :
    ∃ n, t.size = .ok n ∧ 1 ≤ n.v ∧ n.v ≤ 64 := by
  obtain ⟨n, hn, h1⟩ := W.sized f t h hs
  refine ⟨n, hn, h1, ?_⟩
  cases t with
  | int t =>
    obtain ⟨_, _, s, _, _, hsz, _, _, h64, _⟩ := C05_accepted t (W.int f t h)
    have : t.size = .ok n := hn
    rw [hsz] at this
    cases this
    exact h64
  | enum t =>
    obtain ⟨s, hsz, h64, _⟩ := C06_accepted t (W.enum f t h).1
    have : scalarSize t.size = .ok n := hn
    rw [hsz] at this
    cases this
    exact h64
  | _ => exact hs.elim

theorem validValue_ok (W : WellFormed P) {f : Field} {t : FTy} (h : (f, t) ∈ P.m.msg.types) (hs : Scalar t) {n : Num} (hn : t.size = .ok n)
    {v : Int} (h0 : 0 ≤ v) (h1 : v < 2 ^ n.v.toNat) : ∃ x, P.validValue f v = .ok x ∧ (x = true ↔ InType t v) := by
  have ht := type?_some W.names h
  cases t with
  | int t =>
    obtain ⟨f', l, s, fs, hf, hl, hsz, hfs, hv, _⟩ := Generator.C32_integer t (W.int f t h)
    have : t.size = .ok n := hn
    rw [hsz] at this
    cases this
    refine ⟨decide (f'.v ≤ v ∧ v ≤ l.v), ?_, ?_⟩
    · simp only [Pkg.validValue, ht, hfs, ofPy, bind, Except.bind, hv v ⟨h0, h1⟩]
      rfl
    · simp only [decide_eq_true_eq, InType]
      constructor
      · intro hr; exact ⟨f', l, hf, hl, hr⟩
      · rintro ⟨f'', l', hf', hl', hr⟩
        rw [hf] at hf'
        rw [hl] at hl'
        cases hf'
        cases hl'
        exact hr
  | enum t =>
    obtain ⟨s, fs, hsz, hfs, hv, _⟩ := Generator.C32_enumeration_partial t (W.enum f t h).1 (W.enum f t h).2
    have : scalarSize t.size = .ok n := hn
    rw [hsz] at this
    cases this
    refine ⟨t.alwaysValid || decide (v ∈ t.literals.map (·.2)), ?_, ?_⟩
    · simp only [Pkg.validValue, ht, hfs, ofPy, bind, Except.bind, hv v ⟨h0, h1⟩]
      rfl
    · simp [InType]
  | _ => exact hs.elim

theorem validValue_other (W : WellFormed P) {f : Field} {t : FTy} (h : (f, t) ∈ P.m.msg.types) (hs : ¬ Scalar t) (v : Int) : P.validValue f v = .ok true := by
  have ht := type?_some W.names h
  cases t with
  | int t => exact (hs trivial).elim
  | enum t => exact (hs trivial).elim
  | _ => simp [Pkg.validValue, ht]

end

end Verif.Ctx
