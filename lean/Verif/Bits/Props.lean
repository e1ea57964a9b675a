import Verif.Bits.Lemmas

/-! # Properties C01 and C02: bit strings -/

namespace Verif.Bits

open Verif

/-! ## Specification -/

/-- The number a big-endian byte string denotes: each byte counts `256` to the number of bytes
that follow it. -/
def Spec.beValue : List Byte → Nat
  | [] => 0
  | b :: bs => b.val * 256 ^ bs.length + Spec.beValue bs

/-- The eight bits of a byte, most significant first. -/
def Spec.byteBits (b : Byte) : List Bool :=
  [b.val.testBit 7, b.val.testBit 6, b.val.testBit 5, b.val.testBit 4,
   b.val.testBit 3, b.val.testBit 2, b.val.testBit 1, b.val.testBit 0]

/-! ## Lemmas -/

theorem bytesToNat_eq_spec (bs : List Byte) : bytesToNat bs = Spec.beValue bs := by
  induction bs with
  | nil => rfl
  | cons b bs ih => rw [bytesToNat_cons, ih]; rfl

theorem byteBits_eq (b : Byte) : Spec.byteBits b = natBits 8 b.val := by
  simp [Spec.byteBits, natBits, Nat.testBit, Nat.shiftRight_eq_div_pow, Nat.one_and_eq_mod_two, bne]
  grind

theorem length_byteBits (b : Byte) : (Spec.byteBits b).length = 8 := rfl

theorem length_flatMap_byteBits (bs : List Byte) :
    (bs.flatMap Spec.byteBits).length = bs.length * 8 := by
  induction bs with
  | nil => rfl
  | cons b bs ih => rw [List.flatMap_cons, List.length_append, ih, length_byteBits,
      List.length_cons]; omega

theorem bitsToNat_flatMap (bs : List Byte) :
    bitsToNat (bs.flatMap Spec.byteBits) = bytesToNat bs := by
  induction bs with
  | nil => rfl
  | cons b bs ih =>
    rw [List.flatMap_cons, bitsToNat_append, ih, length_flatMap_byteBits, bytesToNat_cons,
      byteBits_eq, bitsToNat_natBits, Nat.mod_eq_of_lt b.isLt, Nat.mul_comm bs.length 8,
      Nat.pow_mul]

theorem fromBytes_bits {b : List Byte} (hb : b ≠ []) :
    (Bitstring.fromBytes b).bits = b.flatMap Spec.byteBits := by
  have hpos : 0 < b.length := List.length_pos_iff.mpr hb
  simp only [Bitstring.fromBytes]
  rw [formatBin_eq (by omega) (bytesToNat_lt b)]
  apply bits_ext
  · rw [length_natBits, length_flatMap_byteBits]
  · rw [bitsToNat_natBits, bitsToNat_flatMap, Nat.mod_eq_of_lt (bytesToNat_lt b)]

theorem chunkByte_byteBits (b : Byte) : chunkByte (Spec.byteBits b) = b := by
  apply Fin.ext
  simp only [chunkByte, byteBits_eq, bitsToNat_natBits]
  have := b.isLt
  omega

theorem chunks8_flatMap (b : List Byte) :
    chunks8 (b.flatMap Spec.byteBits) = b.map Spec.byteBits := by
  induction b with
  | nil => rw [chunks8]; simp
  | cons b bs ih =>
    rw [chunks8, dif_neg (by simp [Spec.byteBits]), List.flatMap_cons, List.map_cons]
    have h8 : (Spec.byteBits b).length = 8 := rfl
    rw [List.take_append_of_le_length (by omega), List.drop_append_of_le_length (by omega)]
    rw [List.take_of_length_le (by omega), List.drop_of_length_le (by omega), List.nil_append, ih]

theorem join_foldl (l : List Bitstring) (a : Bitstring) :
    (l.foldl Bitstring.add a).bits = a.bits ++ (l.map Bitstring.bits).flatten := by
  induction l generalizing a with
  | nil => simp
  | cons b bs ih => rw [List.foldl_cons, ih]; simp [Bitstring.add]

/-! ## C01 -/

/-- **C01**: for a non-empty byte string, `from_bytes` gives its bits in order, eight per byte;
`bytes()` returns the byte string; `int()` is the big-endian value. -/
theorem C01_roundtrip (b : List Byte) (hb : b ≠ []) :
    (Bitstring.fromBytes b).bits = b.flatMap Spec.byteBits ∧
    (Bitstring.fromBytes b).len = 8 * b.length ∧
    (Bitstring.fromBytes b).toBytes = b ∧
    (Bitstring.fromBytes b).toInt = .ok (Spec.beValue b) := by
  have h := fromBytes_bits hb
  refine ⟨h, ?_, ?_, ?_⟩
  · rw [Bitstring.len, h, length_flatMap_byteBits, Nat.mul_comm]
  · rw [Bitstring.toBytes, h, chunks8_flatMap, List.map_map]
    conv => rhs; rw [← List.map_id b]
    apply List.map_congr_left
    intro x _
    exact chunkByte_byteBits x
  · rw [Bitstring.toInt, h]
    cases b with
    | nil => exact absurd rfl hb
    | cons x xs =>
      rw [if_neg (by simp [Spec.byteBits]), bitsToNat_flatMap, bytesToNat_eq_spec]

example : (Bitstring.fromBytes [0, 255, 18]).toBytes = [0, 255, 18] :=
  (C01_roundtrip [0, 255, 18] (by decide)).2.2.1

/-- **C01**: `from_bytes` turns concatenation of non-empty byte strings into concatenation. -/
theorem C01_append (a b : List Byte) (ha : a ≠ []) (hb : b ≠ []) :
    Bitstring.fromBytes (a ++ b) = (Bitstring.fromBytes a).add (Bitstring.fromBytes b) := by
  have hab : a ++ b ≠ [] := by simp [ha]
  have h1 := fromBytes_bits hab
  have h2 := fromBytes_bits ha
  have h3 := fromBytes_bits hb
  cases h : Bitstring.fromBytes (a ++ b) with
  | mk bits =>
    rw [h] at h1
    simp only [Bitstring.add, h2, h3] at *
    rw [h1, List.flatMap_append]

example : Bitstring.fromBytes ([1] ++ [2, 3])
    = (Bitstring.fromBytes [1]).add (Bitstring.fromBytes [2, 3]) :=
  C01_append [1] [2, 3] (by decide) (by decide)

/-- **C01**, other direction: a non-empty bit string whose length is a multiple of eight is
recovered from its bytes. -/
theorem C01_roundtrip_bits (s : Bitstring) (hne : s.bits ≠ []) (hlen : s.len % 8 = 0) :
    Bitstring.fromBytes s.toBytes = s := by
  obtain ⟨bits⟩ := s
  simp only [Bitstring.len] at hlen hne
  -- the bits are the bits of some byte list
  have key : ∀ n (l : List Bool), l.length = 8 * n → ∃ b : List Byte, l = b.flatMap Spec.byteBits := by
    intro n
    induction n with
    | zero => intro l hl; exact ⟨[], by simpa using hl⟩
    | succ n ih =>
      intro l hl
      obtain ⟨b, hb⟩ := ih (l.drop 8) (by rw [List.length_drop]; omega)
      refine ⟨chunkByte (l.take 8) :: b, ?_⟩
      rw [List.flatMap_cons, ← hb]
      conv => lhs; rw [← List.take_append_drop 8 l]
      congr 1
      have h8 : (l.take 8).length = 8 := by rw [List.length_take]; omega
      rw [byteBits_eq]
      apply bits_ext
      · rw [length_natBits, h8]
      · rw [bitsToNat_natBits]
        have := bitsToNat_lt (l.take 8)
        rw [h8] at this
        simp only [chunkByte]
        omega
  obtain ⟨b, rfl⟩ := key (bits.length / 8) bits (by omega)
  have hb : b ≠ [] := by intro h; subst h; exact hne rfl
  have := C01_roundtrip b hb
  have hfb : Bitstring.fromBytes b = ⟨b.flatMap Spec.byteBits⟩ := by
    cases h : Bitstring.fromBytes b with
    | mk x => rw [← this.1, h]
  rw [← hfb, this.2.2.1]

example : Bitstring.fromBytes (Bitstring.toBytes ⟨List.replicate 16 true⟩)
    = ⟨List.replicate 16 true⟩ := C01_roundtrip_bits _ (by decide) (by decide)

/-- **C01**, the exception: the empty byte string becomes a one-bit string and comes back as one
zero byte (`format(0, "00b")` is `"0"`). -/
theorem C01_empty_counterexample :
    (Bitstring.fromBytes []).len = 1 ∧ (Bitstring.fromBytes []).toBytes = [0] := by
  have h : (Bitstring.fromBytes []) = ⟨[false]⟩ := by
    simp [Bitstring.fromBytes, formatBin, bytesToNat, binDigits, binDigitsAux]
  rw [h]
  refine ⟨rfl, ?_⟩
  simp [Bitstring.toBytes, chunks8, chunkByte, bitsToNat]

/-! ## C02 -/

/-- **C02**: a slice `[i:j]` inside the string has exactly the bits `i, …, j-1`; a stop beyond the
end raises `IndexError`. -/
theorem C02_slice (s : Bitstring) (i j : Nat) :
    (j ≤ s.len → ∃ r, s.slice i (some j) = .ok r ∧ r.len = j - i ∧
      ∀ k, k < j - i → r.bits[k]? = s.bits[i + k]?) ∧
    (s.len < j → s.slice i (some j) = .error .indexError) := by
  constructor
  · intro h
    simp only [Bitstring.len] at h
    refine ⟨⟨pySlice s.bits i j⟩, ?_, ?_, ?_⟩
    · simp only [Bitstring.slice]; rw [if_neg (by omega)]
    · simp only [Bitstring.len, pySlice, List.length_drop, List.length_take]; omega
    · intro k hk
      simp only [pySlice, List.getElem?_drop, List.getElem?_take]
      rw [if_pos (by omega)]
  · intro h
    simp only [Bitstring.len] at h
    simp only [Bitstring.slice]; rw [if_pos h]

/-- **C02**: cutting a bit string at any position and joining the pieces gives it back. -/
theorem C02_cut_join (s : Bitstring) (i : Nat) (hi : i ≤ s.len) :
    ∃ a b, s.slice 0 (some i) = .ok a ∧ s.slice i none = .ok b ∧ Bitstring.join [a, b] = s ∧
      a.add b = s := by
  simp only [Bitstring.len] at hi
  refine ⟨⟨s.bits.take i⟩, ⟨s.bits.drop i⟩, ?_, rfl, ?_, ?_⟩
  · simp only [Bitstring.slice, pySlice]; rw [if_neg (by omega)]; rfl
  · simp [Bitstring.join, Bitstring.add]
  · simp [Bitstring.add]

example : ∃ a b, Bitstring.slice ⟨[true, false, true]⟩ 0 (some 2) = .ok a ∧
    Bitstring.slice ⟨[true, false, true]⟩ 2 none = .ok b ∧
    Bitstring.join [a, b] = ⟨[true, false, true]⟩ ∧ a.add b = ⟨[true, false, true]⟩ :=
  C02_cut_join ⟨[true, false, true]⟩ 2 (by decide)

/-- **C02**: `join` is concatenation in order. -/
theorem C02_join (l : List Bitstring) :
    (Bitstring.join l).bits = (l.map Bitstring.bits).flatten := by
  rw [Bitstring.join, join_foldl]; rfl

/-- **C02**: the constructor accepts exactly strings of `0` and `1`, and `str` returns the
argument. -/
theorem C02_init (s : List Char) :
    (∀ b, Bitstring.init s = .ok b → b.str = s) ∧
    ((∃ b, Bitstring.init s = .ok b) ↔ ∀ c ∈ s, c = '0' ∨ c = '1') := by
  have hv : validBitstring s = true ↔ ∀ c ∈ s, c = '0' ∨ c = '1' := by
    simp [validBitstring]
  constructor
  · intro b h
    simp only [Bitstring.init] at h
    split at h
    · rename_i hs
      rw [hv] at hs
      cases h
      simp only [Bitstring.str, List.map_map]
      conv => rhs; rw [← List.map_id s]
      apply List.map_congr_left
      intro c hc
      rcases hs c hc with rfl | rfl <;> simp
    · cases h
  · rw [← hv]
    simp only [Bitstring.init]
    constructor
    · rintro ⟨b, h⟩
      split at h
      · assumption
      · cases h
    · intro h; rw [if_pos h]; exact ⟨_, rfl⟩

end Verif.Bits
