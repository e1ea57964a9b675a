import Verif.Bits.Model

/-! Helper lemmas on binary digit lists. -/

namespace Verif.Bits

/-- Fixed-width big-endian binary: the `w` low bits of `n`, most significant first.
Specification device, used to say what an encoding is. -/
def natBits : Nat → Nat → List Bool
  | 0, _ => []
  | w + 1, n => ((n / 2 ^ w) % 2 == 1) :: natBits w n

theorem foldl_bits (bs : List Bool) (a : Nat) :
    bs.foldl (fun acc b => 2 * acc + b.toNat) a = a * 2 ^ bs.length + bitsToNat bs := by
  induction bs generalizing a with
  | nil => simp [bitsToNat]
  | cons b bs ih =>
    simp only [List.foldl_cons, List.length_cons, bitsToNat]
    rw [ih, ih (2 * 0 + b.toNat)]
    simp only [bitsToNat, Nat.pow_succ]
    grind

theorem bitsToNat_nil : bitsToNat [] = 0 := rfl

theorem bitsToNat_cons (b : Bool) (bs : List Bool) :
    bitsToNat (b :: bs) = b.toNat * 2 ^ bs.length + bitsToNat bs := by
  conv => lhs; unfold bitsToNat
  rw [List.foldl_cons, foldl_bits]; simp

theorem bitsToNat_append (a b : List Bool) :
    bitsToNat (a ++ b) = bitsToNat a * 2 ^ b.length + bitsToNat b := by
  conv => lhs; unfold bitsToNat
  rw [List.foldl_append, foldl_bits]; rfl

theorem bitsToNat_lt (bs : List Bool) : bitsToNat bs < 2 ^ bs.length := by
  induction bs with
  | nil => simp [bitsToNat]
  | cons b bs ih =>
    rw [bitsToNat_cons, List.length_cons, Nat.pow_succ]
    cases b <;> simp <;> omega

theorem bitsToNat_replicate_false (n : Nat) : bitsToNat (List.replicate n false) = 0 := by
  induction n with
  | zero => rfl
  | succ n ih => rw [List.replicate_succ, bitsToNat_cons]; simp [ih]

theorem length_natBits (w n : Nat) : (natBits w n).length = w := by
  induction w with
  | zero => rfl
  | succ w ih => simp [natBits, ih]

theorem bitsToNat_natBits (w n : Nat) : bitsToNat (natBits w n) = n % 2 ^ w := by
  induction w with
  | zero => simp [natBits, bitsToNat, Nat.mod_one]
  | succ w ih =>
    rw [natBits, bitsToNat_cons, length_natBits, ih]
    have h : n % 2 ^ (w + 1) = (n / 2 ^ w % 2) * 2 ^ w + n % 2 ^ w := by
      rw [Nat.pow_succ, Nat.mod_mul]; grind
    rw [h]
    rcases Nat.mod_two_eq_zero_or_one (n / 2 ^ w) with h | h <;> simp [h]

/-- Equal length and equal value determine a digit list. -/
theorem bits_ext {a b : List Bool} (hl : a.length = b.length) (hv : bitsToNat a = bitsToNat b) :
    a = b := by
  induction a generalizing b with
  | nil => cases b with
    | nil => rfl
    | cons _ _ => simp at hl
  | cons x xs ih => cases b with
    | nil => simp at hl
    | cons y ys =>
      simp only [List.length_cons, Nat.add_right_cancel_iff] at hl
      rw [bitsToNat_cons, bitsToNat_cons, hl] at hv
      have h1 := bitsToNat_lt xs
      have h2 := bitsToNat_lt ys
      rw [hl] at h1
      have hxy : x = y := by
        cases x <;> cases y <;> simp at hv ⊢ <;> omega
      subst hxy
      rw [ih hl (by omega)]

theorem natBits_bitsToNat (bs : List Bool) : natBits bs.length (bitsToNat bs) = bs := by
  apply bits_ext
  · rw [length_natBits]
  · rw [bitsToNat_natBits, Nat.mod_eq_of_lt (bitsToNat_lt bs)]

theorem binDigitsAux_val (n : Nat) (acc : List Bool) :
    bitsToNat (binDigitsAux n acc) = n * 2 ^ acc.length + bitsToNat acc := by
  induction n, acc using binDigitsAux.induct with
  | case1 n acc h =>
    rw [binDigitsAux, dif_pos h, bitsToNat_cons]
    have : n = 0 ∨ n = 1 := by omega
    rcases this with rfl | rfl <;> simp
  | case2 n acc h ih =>
    rw [binDigitsAux, dif_neg h, ih, bitsToNat_cons, List.length_cons, Nat.pow_succ]
    have : n = 2 * (n / 2) + n % 2 := by omega
    have hb : (decide (n % 2 = 1)).toNat = n % 2 := by
      rcases Nat.mod_two_eq_zero_or_one n with h | h <;> simp [h]
    rw [hb]
    conv => rhs; rw [this]
    grind

theorem binDigits_val (n : Nat) : bitsToNat (binDigits n) = n := by
  rw [binDigits, binDigitsAux_val]; simp [bitsToNat]

theorem binDigitsAux_len (n : Nat) (acc : List Bool) (w : Nat) (hn : n < 2 ^ w) (hw : 0 < w) :
    (binDigitsAux n acc).length ≤ w + acc.length := by
  induction n, acc using binDigitsAux.induct generalizing w with
  | case1 n acc h => rw [binDigitsAux, dif_pos h]; simp; omega
  | case2 n acc h ih =>
    rw [binDigitsAux, dif_neg h]
    obtain ⟨w', rfl⟩ : ∃ w', w = w' + 1 := ⟨w - 1, by omega⟩
    have hw' : 0 < w' := by
      rcases Nat.eq_zero_or_pos w' with h0 | h0
      · subst h0; simp at hn; omega
      · exact h0
    have := ih w' (by rw [Nat.pow_succ] at hn; omega) hw'
    simp only [List.length_cons] at this
    omega

theorem formatBin_eq {w n : Nat} (hw : 0 < w) (hn : n < 2 ^ w) : formatBin w n = natBits w n := by
  have hl : (binDigits n).length ≤ w := by
    have := binDigitsAux_len n [] w hn hw
    simpa [binDigits] using this
  apply bits_ext
  · simp only [formatBin, List.length_append, List.length_replicate, length_natBits]; omega
  · simp only [formatBin]
    rw [bitsToNat_append, bitsToNat_replicate_false, binDigits_val, bitsToNat_natBits,
      Nat.mod_eq_of_lt hn]
    simp

theorem foldl_bytes (bs : List Byte) (a : Nat) :
    bs.foldl (fun acc b => 256 * acc + b.val) a = a * 256 ^ bs.length + bytesToNat bs := by
  induction bs generalizing a with
  | nil => simp [bytesToNat]
  | cons b bs ih =>
    simp only [List.foldl_cons, List.length_cons, bytesToNat]
    rw [ih, ih (256 * 0 + b.val)]
    simp only [bytesToNat, Nat.pow_succ]
    grind

theorem bytesToNat_append (a b : List Byte) :
    bytesToNat (a ++ b) = bytesToNat a * 256 ^ b.length + bytesToNat b := by
  conv => lhs; unfold bytesToNat
  rw [List.foldl_append, foldl_bytes]; rfl

theorem bytesToNat_cons (b : Byte) (bs : List Byte) :
    bytesToNat (b :: bs) = b.val * 256 ^ bs.length + bytesToNat bs := by
  conv => lhs; unfold bytesToNat
  rw [List.foldl_cons, foldl_bytes]; simp

theorem bytesToNat_lt (bs : List Byte) : bytesToNat bs < 2 ^ (bs.length * 8) := by
  induction bs with
  | nil => simp [bytesToNat]
  | cons b bs ih =>
    rw [bytesToNat_cons, List.length_cons, Nat.add_mul, Nat.pow_add]
    have h256 : (256 : Nat) ^ bs.length = 2 ^ (bs.length * 8) := by
      rw [show (256 : Nat) = 2 ^ 8 from rfl, ← Nat.pow_mul, Nat.mul_comm]
    rw [h256]
    have hb := b.isLt
    have : b.val * 2 ^ (bs.length * 8) + 2 ^ (bs.length * 8) ≤ 256 * 2 ^ (bs.length * 8) := by
      rw [← Nat.succ_mul]; exact Nat.mul_le_mul_right _ hb
    have h2 : (2 : Nat) ^ (1 * 8) = 256 := rfl
    rw [h2]
    omega

end Verif.Bits
