import Verif.Spark.BitLemmas

/-! # Reading and writing scalars: properties C25 and C26

The specification knows only the content of the buffer as a number or as bits: `bit data k` is bit `k` of the big-endian
number formed by the bytes, so bit 0 is the least significant bit of the last byte. -/

namespace Verif.Spark

/-- Specification: the number formed by bytes in big-endian order. -/
def number : List Nat → Nat
  | [] => 0
  | x :: xs => x * 256 ^ xs.length + number xs

/-- Specification: all elements are bytes. -/
def AreBytes (data : List Nat) : Prop := ∀ x ∈ data, x < 256

instance (data : List Nat) : Decidable (AreBytes data) := inferInstanceAs (Decidable (∀ x ∈ data, x < 256))

/-- Specification: bit `k` of a buffer, counted from the end. -/
def bit (data : List Nat) (k : Nat) : Bool := (number data).testBit k

/-! ## Numbers and bytes -/

theorem number_lt : ∀ {data : List Nat}, AreBytes data → number data < 2 ^ (8 * data.length) := by
  intro data
  induction data with
  | nil => simp [number]
  | cons x xs ih =>
    intro h
    have h1 := ih fun y hy => h y (List.mem_cons_of_mem _ hy)
    have h2 : x < 2 ^ 8 := h x (List.mem_cons_self ..)
    have := join_lt h1 h2
    rw [number, show (256 : Nat) = 2 ^ 8 by decide, ← Nat.pow_mul, Nat.add_comm, List.length_cons, Nat.mul_add, Nat.mul_one]
    exact this

theorem bit_eq : ∀ {data : List Nat} (_ : AreBytes data) {k : Nat}, k / 8 < data.length →
    bit data k = ((data[data.length - 1 - k / 8]?).getD 0).testBit (k % 8) := by
  intro data
  induction data with
  | nil => intro _ k hk; simp at hk
  | cons x xs ih =>
    intro h k hk
    have hxs : AreBytes xs := fun y hy => h y (List.mem_cons_of_mem _ hy)
    have hx : x < 256 := h x (List.mem_cons_self ..)
    have h1 := number_lt hxs
    unfold bit
    rw [number, show (256 : Nat) = 2 ^ 8 by decide, ← Nat.pow_mul, Nat.add_comm, testBit_join h1]
    rw [List.length_cons] at hk ⊢
    split
    · have : k / 8 < xs.length := by omega
      have h2 := ih hxs this
      unfold bit at h2
      rw [h2, show xs.length + 1 - 1 - k / 8 = (xs.length - 1 - k / 8) + 1 by omega, List.getElem?_cons_succ]
    · rw [show xs.length + 1 - 1 - k / 8 = 0 by omega, show k - 8 * xs.length = k % 8 by omega]
      rfl

theorem bit_beyond {data : List Nat} (h : AreBytes data) {k : Nat} (hk : data.length ≤ k / 8) : bit data k = false :=
  Nat.testBit_lt_two_pow (Nat.lt_of_lt_of_le (number_lt h) (Nat.pow_le_pow_right (by omega) (by omega)))

theorem bit_fromEnd {b : Bytes} (h : AreBytes b.data) {k : Nat} (hk : k / 8 < b.length) :
    bit b.data k = (b.fromEnd (k / 8)).testBit (k % 8) := bit_eq h hk

theorem fromEnd_lt {b : Bytes} (h : AreBytes b.data) (j : Nat) : b.fromEnd j < 256 := by
  unfold Bytes.fromEnd
  cases hx : b.data[b.data.length - 1 - j]? with
  | none => exact (by decide : (0 : Nat) < 256)
  | some x => exact h x (List.mem_of_getElem? hx)

theorem areBytes_of {b : Bytes} (h : ∀ j, j < b.length → b.fromEnd j < 256) : AreBytes b.data := by
  intro x hx
  obtain ⟨i, hi, rfl⟩ := List.mem_iff_getElem.mp hx
  have := h (b.data.length - 1 - i) (by unfold Bytes.length; omega)
  unfold Bytes.fromEnd at this
  rwa [show b.data.length - 1 - (b.data.length - 1 - i) = i by omega, List.getElem?_eq_getElem hi] at this

/-! ## C25 -/

/-- C25: reading a scalar of 1 to 64 bits that lies in the buffer at any of the eight offsets raises nothing (no check of the
arithmetic fails), the result fits into the type, and its bits are the bits of the buffer from the offset on. -/
theorem C25_extract {b : Bytes} {size off : Nat} (hb : AreBytes b.data) (ho : off < 8) (h1 : 1 ≤ size) (h2 : size ≤ 64)
    (hl : off + size ≤ 8 * b.length) :
    ∃ v, extract size b off = .ok v ∧ v < 2 ^ size ∧ ∀ j, j < size → v.testBit j = bit b.data (off + j) := by
  have hlen : (off + size - 1) / 8 < b.length := by omega
  obtain ⟨v, hv, hlt, hbits⟩ := u64Extract_ok (b := b) ho h1 h2 hlen
  refine ⟨v, ?_, hlt, fun j hj => ?_⟩
  · unfold extract
    rw [inRange_ok ho, pre_ok ⟨hlen, by omega, by omega⟩, hv]
    show (inRange (v < 2 ^ size)).bind _ = _
    rw [inRange_ok hlt]
    rfl
  · rw [hbits j hj, bit_fromEnd hb (by omega)]

/-- C25 as a formula: the value is the number in the buffer without its last `off` bits, modulo the size of the type. -/
theorem C25_extract_value {b : Bytes} {size off : Nat} (hb : AreBytes b.data) (ho : off < 8) (h1 : 1 ≤ size) (h2 : size ≤ 64)
    (hl : off + size ≤ 8 * b.length) : extract size b off = .ok (number b.data / 2 ^ off % 2 ^ size) := by
  obtain ⟨v, hv, hlt, hbits⟩ := C25_extract hb ho h1 h2 hl
  rw [hv]
  congr 1
  apply Nat.eq_of_testBit_eq
  intro j
  rw [Nat.testBit_mod_two_pow, Nat.testBit_div_two_pow]
  by_cases hj : j < size
  · rw [hbits j hj, decide_eq_true hj, Bool.true_and, Nat.add_comm j]
    rfl
  · rw [decide_eq_false hj, Bool.false_and]
    exact Nat.testBit_lt_two_pow (Nat.lt_of_lt_of_le hlt (Nat.pow_le_pow_right (by omega) (by omega)))

/-- C25, the error branch: a scalar that does not lie in the buffer is rejected by the precondition. -/
theorem C25_extract_outside {b : Bytes} {size off : Nat} (ho : off < 8) (h1 : 1 ≤ size) (hl : 8 * b.length < off + size) :
    extract size b off = .error .precondition := by
  unfold extract
  rw [inRange_ok ho]
  show (pre _).bind _ = _
  unfold pre
  rw [if_neg (by omega)]
  rfl

/-- C25: the bytes in front and the bits behind the scalar do not matter. -/
theorem C25_extract_local {b b' : Bytes} {size off : Nat} (hb : AreBytes b.data) (hb' : AreBytes b'.data) (ho : off < 8)
    (h1 : 1 ≤ size) (h2 : size ≤ 64) (hl : off + size ≤ 8 * b.length) (hl' : off + size ≤ 8 * b'.length)
    (h : ∀ k, off ≤ k → k < off + size → bit b.data k = bit b'.data k) : extract size b off = extract size b' off := by
  obtain ⟨v, hv, hlt, hbits⟩ := C25_extract hb ho h1 h2 hl
  obtain ⟨w, hw, hlt', hbits'⟩ := C25_extract hb' ho h1 h2 hl'
  rw [hv, hw]
  congr 1
  apply Nat.eq_of_testBit_eq
  intro j
  by_cases hj : j < size
  · rw [hbits j hj, hbits' j hj, h _ (by omega) (by omega)]
  · rw [Nat.testBit_lt_two_pow (Nat.lt_of_lt_of_le hlt (Nat.pow_le_pow_right (by omega) (by omega))),
      Nat.testBit_lt_two_pow (Nat.lt_of_lt_of_le hlt' (Nat.pow_le_pow_right (by omega) (by omega)))]

/-- The hypotheses are met: a scalar of 64 bits over nine bytes at offset 5. -/
example : extract 64 ⟨7, [0x12, 0x34, 0x56, 0x78, 0x9A, 0xBC, 0xDE, 0xF0, 0x11]⟩ 5 =
    .ok (0x123456789ABCDEF011 / 2 ^ 5 % 2 ^ 64) :=
  C25_extract_value (by decide) (by decide) (by decide) (by decide) (by decide)

/-- … and one of three bits in the middle of a byte. -/
example : extract 3 ⟨1, [0xFF, 0xA4]⟩ 2 = .ok 1 := C25_extract_value (by decide) (by decide) (by decide) (by decide) (by decide)

example : extract 12 ⟨1, [0xFF]⟩ 0 = .error .precondition := C25_extract_outside (by decide) (by decide) (by decide)

/-! ## C26 -/

/-- C26: writing a scalar of 1 to 64 bits that lies in the buffer at any of the eight offsets raises nothing, keeps the
bounds of the buffer and all bits around the scalar, and the bits of the scalar are the ones of the value. -/
theorem C26_insert {b : Bytes} {size off val : Nat} (hb : AreBytes b.data) (ho : off < 8) (h1 : 1 ≤ size) (h2 : size ≤ 64)
    (hv : val < 2 ^ size) (hl : off + size ≤ 8 * b.length) :
    ∃ b', insert size val b off = .ok b' ∧ b'.first = b.first ∧ b'.length = b.length ∧ AreBytes b'.data ∧
      ∀ k, bit b'.data k = if off ≤ k ∧ k < off + size then val.testBit (k - off) else bit b.data k := by
  have hlen : (off + size - 1) / 8 < b.length := by omega
  obtain ⟨b', hw, hf, hl', hby, hbits⟩ := u64Insert_ok ho h1 h2 hv hlen fun j _ => fromEnd_lt hb j
  have hb' : AreBytes b'.data := areBytes_of fun j hj => hby j (by rwa [hl'] at hj)
  refine ⟨b', ?_, hf, hl', hb', fun k => ?_⟩
  · unfold insert
    rw [inRange_ok ⟨ho, hv⟩, pre_ok hlen]
    exact hw
  · by_cases hk : k / 8 < b.length
    · rw [bit_fromEnd hb (k := k) hk, ← hbits k hk, bit_fromEnd hb' (by rwa [hl'])]
    · rw [bit_beyond hb' (by unfold Bytes.length at hl' hk; omega), if_neg (by omega),
        bit_beyond hb (by unfold Bytes.length at hk; omega)]

/-- C26: what was written is read back. -/
theorem C26_extract_insert {b b' : Bytes} {size off val : Nat} (hb : AreBytes b.data) (ho : off < 8) (h1 : 1 ≤ size)
    (h2 : size ≤ 64) (hl : off + size ≤ 8 * b.length) (h : insert size val b off = .ok b') : extract size b' off = .ok val := by
  have hv : val < 2 ^ size := by
    obtain ⟨_, h3, _⟩ := bind_ok (h : (inRange _).bind _ = _)
    unfold inRange at h3
    split at h3
    · rename_i h4
      exact h4.2
    · cases h3
  obtain ⟨b'', hw, _, hl', hb', hbits⟩ := C26_insert hb ho h1 h2 hv hl
  cases h.symm.trans hw
  obtain ⟨v, hv', hlt, hvb⟩ := C25_extract (b := b') hb' ho h1 h2 (by rw [hl']; exact hl)
  rw [hv']
  congr 1
  apply Nat.eq_of_testBit_eq
  intro j
  by_cases hj : j < size
  · rw [hvb j hj, hbits, if_pos (by omega), show off + j - off = j by omega]
  · rw [Nat.testBit_lt_two_pow (Nat.lt_of_lt_of_le hlt (Nat.pow_le_pow_right (by omega) (by omega))),
      Nat.testBit_lt_two_pow (Nat.lt_of_lt_of_le hv (Nat.pow_le_pow_right (by omega) (by omega)))]

/-- C26: writing one scalar does not change another one at other bits of the same buffer. -/
theorem C26_insert_elsewhere {b b' : Bytes} {size off val size' off' : Nat} (hb : AreBytes b.data) (ho : off < 8)
    (h1 : 1 ≤ size) (h2 : size ≤ 64) (hl : off + size ≤ 8 * b.length) (h : insert size val b off = .ok b')
    (ho' : off' < 8) (h1' : 1 ≤ size') (h2' : size' ≤ 64) (hl' : off' + size' ≤ 8 * b.length)
    (hd : off' + size' ≤ off ∨ off + size ≤ off') : extract size' b' off' = extract size' b off' := by
  have hv : val < 2 ^ size := by
    obtain ⟨_, h3, _⟩ := bind_ok (h : (inRange _).bind _ = _)
    unfold inRange at h3
    split at h3
    · rename_i h4
      exact h4.2
    · cases h3
  obtain ⟨b'', hw, _, hlen, hb', hbits⟩ := C26_insert hb ho h1 h2 hv hl
  cases h.symm.trans hw
  refine C25_extract_local hb' hb ho' h1' h2' (by rw [hlen]; exact hl') hl' fun k hk hk' => ?_
  rw [hbits, if_neg (by omega)]

/-- C26, the error branch: a scalar that does not lie in the buffer is rejected, nothing is written. -/
theorem C26_insert_outside {b : Bytes} {size off val : Nat} (ho : off < 8) (h1 : 1 ≤ size) (hv : val < 2 ^ size)
    (hl : 8 * b.length < off + size) : insert size val b off = .error .precondition := by
  unfold insert
  rw [inRange_ok ⟨ho, hv⟩]
  show (pre _).bind _ = _
  unfold pre
  rw [if_neg (by omega)]
  rfl

/-- The hypotheses are met: 64 bits over nine bytes at offset 5. -/
example : ∃ b', insert 64 0xFEDCBA9876543210 ⟨7, [1, 2, 3, 4, 5, 6, 7, 8, 9]⟩ 5 = .ok b' ∧ extract 64 b' 5 = .ok 0xFEDCBA9876543210 := by
  obtain ⟨b', h, _⟩ := C26_insert (b := ⟨7, [1, 2, 3, 4, 5, 6, 7, 8, 9]⟩) (size := 64) (off := 5) (val := 0xFEDCBA9876543210)
    (by decide) (by decide) (by decide) (by decide) (by decide) (by decide)
  exact ⟨b', h, C26_extract_insert (by decide) (by decide) (by decide) (by decide) (by decide) h⟩

/-- Concretely. -/
example : insert 3 0b101 ⟨1, [0xFF, 0x00]⟩ 2 = .ok ⟨1, [0xFF, 0b00010100]⟩ := by rfl

example : ∃ b', insert 3 0b101 ⟨1, [0xFF, 0x00]⟩ 2 = .ok b' ∧ extract 2 b' 5 = extract 2 ⟨1, [0xFF, 0x00]⟩ 5 :=
  ⟨_, rfl, C26_insert_elsewhere (b := ⟨1, [0xFF, 0x00]⟩) (size := 3) (off := 2) (val := 0b101) (by decide) (by decide) (by decide)
    (by decide) (by decide) rfl (by decide) (by decide) (by decide) (by decide) (by decide)⟩

end Verif.Spark
