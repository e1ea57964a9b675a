import Verif.Spark.Runtime

/-! # Lemmas about reading and writing scalars -/

namespace Verif.Spark

/-! ## Checks -/

theorem bind_ok {α β : Type} {x : Ada α} {f : α → Ada β} {y : β} (h : x.bind f = .ok y) :
    ∃ a, x = .ok a ∧ f a = .ok y := by
  cases x with
  | error e => cases h
  | ok a => exact ⟨a, rfl, h⟩

theorem pre_ok {p : Prop} [Decidable p] (h : p) : pre p = .ok () := by simp [pre, h]
theorem inRange_ok {p : Prop} [Decidable p] (h : p) : inRange p = .ok () := by simp [inRange, h]
theorem u64_ok {n : Nat} (h : n < 2 ^ 64) : u64 n = .ok n := by simp only [u64, h, if_true]
theorem byteVal_ok {n : Nat} (h : n < 256) : byteVal n = .ok n := by simp only [byteVal, h, if_true]

theorem pow2_ok {n : Nat} (h : n < 64) : pow2 n = .ok (2 ^ n) := by
  unfold pow2
  rw [pre_ok h]
  exact u64_ok (Nat.pow_lt_pow_right (by omega) h)

theorem modPow2_ok {v n : Nat} (h : n < 64) : modPow2 v n = .ok (v % 2 ^ n) := by
  unfold modPow2
  rw [pre_ok h, pow2_ok h]
  rfl

theorem rightShift_ok {v s n : Nat} (h0 : 0 < s) (h1 : s ≤ 64) (h2 : n < 64) (h3 : n ≤ s) (h4 : s - n ≤ 63)
    (h5 : s < 64 → v < 2 ^ s) : rightShift v s n = .ok (v / 2 ^ n) := by
  unfold rightShift
  rw [inRange_ok h0, pre_ok ⟨h1, h2, h3, h4, h5⟩, pow2_ok h2]
  rfl

theorem mul_pow_lt {v s n : Nat} (h : v < 2 ^ s) (h3 : s + n ≤ 64) : v * 2 ^ n < 2 ^ 64 := by
  have h6 : v * 2 ^ n < 2 ^ s * 2 ^ n := Nat.mul_lt_mul_of_pos_right h (Nat.two_pow_pos n)
  rw [← Nat.pow_add] at h6
  exact Nat.lt_of_lt_of_le h6 (Nat.pow_le_pow_right (by omega) h3)

theorem leftShift_ok {v s n : Nat} (h0 : 0 < s) (h1 : s ≤ 64) (h2 : n < 64) (h3 : s + n ≤ 64) (h5 : v < 2 ^ s) :
    leftShift v s n = .ok (v * 2 ^ n) := by
  unfold leftShift
  rw [inRange_ok h0, pre_ok ⟨h1, h2, by omega, h3, fun _ => h5⟩]
  exact u64_ok (mul_pow_lt h5 h3)

/-! ## Bits -/

theorem testBit_join {a b i : Nat} (h : b < 2 ^ i) (j : Nat) :
    (b + a * 2 ^ i).testBit j = if j < i then b.testBit j else a.testBit (j - i) := by
  rw [show b + a * 2 ^ i = 2 ^ i * a + b by rw [Nat.mul_comm]; omega]
  exact Nat.testBit_two_pow_mul_add a h j

theorem join_lt {a b i k : Nat} (h : b < 2 ^ i) (h2 : a < 2 ^ k) : b + a * 2 ^ i < 2 ^ (i + k) := by
  have : (a + 1) * 2 ^ i ≤ 2 ^ k * 2 ^ i := Nat.mul_le_mul_right _ h2
  rw [Nat.add_mul] at this
  rw [Nat.pow_add, Nat.mul_comm (2 ^ i)]
  omega

/-! ## Bytes -/

/-- The byte at a distance from the last byte. -/
def Bytes.fromEnd (b : Bytes) (i : Nat) : Nat := (b.data[b.data.length - 1 - i]?).getD 0

theorem readByte_ok {b : Bytes} {i : Nat} (h : i < b.length) : readByte b i = .ok (b.fromEnd i) := by
  unfold readByte
  rw [pre_ok h]
  show b.get _ = _
  unfold Bytes.length at h
  unfold Bytes.get Bytes.last Bytes.fromEnd
  rw [if_pos (by omega)]
  have : ((b.first : Int) + b.data.length - 1 - i - b.first).toNat = b.data.length - 1 - i := by omega
  rw [this, List.getElem?_eq_getElem (by omega)]
  rfl

theorem writeByte_ok {b : Bytes} {i x : Nat} (h : i < b.length) :
    writeByte b i x = .ok { b with data := b.data.set (b.data.length - 1 - i) x } := by
  unfold writeByte
  rw [pre_ok h]
  show b.set _ _ = _
  unfold Bytes.length at h
  unfold Bytes.set Bytes.last
  rw [if_pos (by omega)]
  have : ((b.first : Int) + b.data.length - 1 - i - b.first).toNat = b.data.length - 1 - i := by omega
  rw [this]

/-! ## Extract -/

theorem extractIntermediate_ok {d0 d1 off sh : Nat} (h0 : d0 < 256) (h1 : d1 < 256) (ho : off ≤ 7) (hs : sh ≤ 56) :
    extractIntermediate d0 d1 (8 - off) off sh = .ok ((d0 / 2 ^ off + d1 % 2 ^ off * 2 ^ (8 - off)) * 2 ^ sh) := by
  have hc : d0 / 2 ^ off < 2 ^ (8 - off) := by
    rw [Nat.div_lt_iff_lt_mul (Nat.two_pow_pos _), ← Nat.pow_add, show 8 - off + off = 8 by omega]
    exact h0
  have hn : d1 % 2 ^ off < 2 ^ off := Nat.mod_lt _ (Nat.two_pow_pos _)
  have hsum : d0 / 2 ^ off + d1 % 2 ^ off * 2 ^ (8 - off) < 2 ^ 8 := by
    have := join_lt hc hn
    rwa [show 8 - off + off = 8 by omega] at this
  unfold extractIntermediate
  rw [pre_ok ⟨h0, h1, by omega, ho, hs, by omega⟩]
  show (rightShift d0 8 off).bind _ = _
  rw [rightShift_ok (by omega) (by omega) (by omega) (by omega) (by omega) (fun _ => h0)]
  have hnext : (if 0 < off then do leftShift (d1 % (← pow2 off)) off (8 - off) else do return d1 % (← pow2 off) : Ada Nat)
      = .ok (d1 % 2 ^ off * 2 ^ (8 - off)) := by
    rw [pow2_ok (by omega)]
    split
    · show leftShift _ _ _ = _
      exact leftShift_ok (by omega) (by omega) (by omega) (by omega) hn
    · have : off = 0 := by omega
      subst this
      show Except.ok (d1 % 2 ^ 0) = _
      rw [Nat.pow_zero, Nat.mod_one, Nat.zero_mul]
  show (if 0 < off then do leftShift (d1 % (← pow2 off)) off (8 - off) else do return d1 % (← pow2 off) : Ada Nat).bind _ = _
  rw [hnext]
  show (u64 _).bind _ = _
  rw [u64_ok (Nat.lt_trans hsum (by decide))]
  exact leftShift_ok (by omega) (by omega) (by omega) (by omega) hsum

theorem extractRemaining_ok {d n e off : Nat} (he : e ≤ 8) (ho : off ≤ 7) (h1 : off < e) (hn : n ≤ 7)
    (hs : e - off + 8 * n ≤ 64) : extractRemaining d n e off = .ok (d % 2 ^ e / 2 ^ off * 2 ^ (8 * n)) := by
  have hm : d % 2 ^ e < 2 ^ e := Nat.mod_lt _ (Nat.two_pow_pos _)
  have hd : d % 2 ^ e / 2 ^ off < 2 ^ (e - off) := by
    rw [Nat.div_lt_iff_lt_mul (Nat.two_pow_pos _), ← Nat.pow_add, show e - off + off = e by omega]
    exact hm
  unfold extractRemaining
  rw [pre_ok ⟨he, ho, by omega, by omega, hn⟩]
  show (pow2 e).bind _ = _
  rw [pow2_ok (by omega)]
  show (rightShift _ _ _).bind _ = _
  rw [rightShift_ok (by omega) (by omega) (by omega) (by omega) (by omega) (fun _ => hm)]
  exact leftShift_ok (by omega) (by omega) (by omega) hs hd

/-- The byte that is used for a value that ends in byte `m` with `e` bits. -/
def masked (b : Bytes) (e m i : Nat) : Nat := b.fromEnd i % (if i < m then 2 ^ 8 else 2 ^ e)

theorem extractByte_ok {b : Bytes} {s off m i : Nat} (h1 : 1 ≤ s) (h2 : s ≤ 64) (hi : i < b.length) :
    extractByte b s off m i = .ok (masked b ((off + s + 8 - 1) % 8 + 1) m i) := by
  unfold extractByte
  rw [pre_ok ⟨h1, h2⟩]
  show (readByte b i).bind _ = _
  rw [readByte_ok hi]
  rfl

theorem masked_lt (b : Bytes) {e m : Nat} (he : e ≤ 8) (i : Nat) : masked b e m i < 256 := by
  unfold masked
  split
  · exact Nat.mod_lt _ (by decide)
  · exact Nat.lt_of_lt_of_le (Nat.mod_lt _ (Nat.two_pow_pos _)) (Nat.pow_le_pow_right (by omega) he)

theorem extractLoop_step {b : Bytes} {s off m i n r : Nat} (h1 : 1 ≤ s) (h2 : s ≤ 64) (ho : off ≤ 7) (hi : i ≤ 7)
    (hb : i + 1 < b.length) (hr : r < 2 ^ (8 * i)) {e : Nat} (he : (off + s + 8 - 1) % 8 + 1 = e) :
    extractLoop b s (8 - off) off 0 m (n + 1) i r = extractLoop b s (8 - off) off 0 m n (i + 1)
      (r + (masked b e m i / 2 ^ off + masked b e m (i + 1) % 2 ^ off * 2 ^ (8 - off)) * 2 ^ (8 * i)) ∧
    r + (masked b e m i / 2 ^ off + masked b e m (i + 1) % 2 ^ off * 2 ^ (8 - off)) * 2 ^ (8 * i) < 2 ^ (8 * (i + 1)) := by
  have he8 : e ≤ 8 := by omega
  have l0 := masked_lt b (m := m) he8 i
  have l1 := masked_lt b (m := m) he8 (i + 1)
  have hc : masked b e m i / 2 ^ off < 2 ^ (8 - off) := by
    rw [Nat.div_lt_iff_lt_mul (Nat.two_pow_pos _), ← Nat.pow_add, show 8 - off + off = 8 by omega]
    exact l0
  have hsum := join_lt hc (Nat.mod_lt (masked b e m (i + 1)) (Nat.two_pow_pos off))
  rw [show 8 - off + off = 8 by omega] at hsum
  have hlt := join_lt hr hsum
  rw [show 8 * i + 8 = 8 * (i + 1) by omega] at hlt
  refine ⟨?_, hlt⟩
  rw [extractLoop, extractByte_ok h1 h2 (by omega), extractByte_ok h1 h2 (by omega), he]
  show (extractIntermediate (masked b e m i) (masked b e m (i + 1)) (8 - off) off (8 * (i - 0))).bind _ = _
  rw [extractIntermediate_ok l0 l1 ho (by omega)]
  show (u64 (r + (masked b e m i / 2 ^ off + masked b e m (i + 1) % 2 ^ off * 2 ^ (8 - off)) * 2 ^ (8 * (i - 0)))).bind _ = _
  rw [Nat.sub_zero, u64_ok (Nat.lt_of_lt_of_le hlt (Nat.pow_le_pow_right (by omega) (by omega)))]
  rfl

theorem step_bits {d0 d1 off : Nat} (h0 : d0 < 256) (ho : off ≤ 7) {k : Nat} (hk : k < 8) :
    (d0 / 2 ^ off + d1 % 2 ^ off * 2 ^ (8 - off)).testBit k =
      if off + k < 8 then d0.testBit (off + k) else d1.testBit (off + k - 8) := by
  have hc : d0 / 2 ^ off < 2 ^ (8 - off) := by
    rw [Nat.div_lt_iff_lt_mul (Nat.two_pow_pos _), ← Nat.pow_add, show 8 - off + off = 8 by omega]
    exact h0
  rw [testBit_join hc, Nat.testBit_div_two_pow, Nat.testBit_mod_two_pow]
  split
  · rw [if_pos (by omega), Nat.add_comm]
  · rw [if_neg (by omega), show k - (8 - off) = off + k - 8 by omega, decide_eq_true (by omega : off + k - 8 < off), Bool.true_and]

theorem extractLoop_ok {b : Bytes} {s off m e : Nat} (h1 : 1 ≤ s) (h2 : s ≤ 64) (ho : off ≤ 7) (hm : m ≤ 8)
    (hb : m < b.length) (he : (off + s + 8 - 1) % 8 + 1 = e) : ∀ (n i r : Nat), i + n = m → r < 2 ^ (8 * i) →
      (∀ j, j < 8 * i → r.testBit j = (masked b e m ((off + j) / 8)).testBit ((off + j) % 8)) →
      ∃ r', extractLoop b s (8 - off) off 0 m n i r = .ok r' ∧ r' < 2 ^ (8 * m) ∧
        ∀ j, j < 8 * m → r'.testBit j = (masked b e m ((off + j) / 8)).testBit ((off + j) % 8) := by
  intro n
  induction n with
  | zero =>
    intro i r hi hr hj
    obtain rfl : i = m := by omega
    exact ⟨r, rfl, hr, hj⟩
  | succ n ih =>
    intro i r hi hr hj
    obtain ⟨hs, hlt⟩ := extractLoop_step (b := b) (m := m) (n := n) h1 h2 ho (by omega : i ≤ 7) (by omega) hr he
    rw [hs]
    refine ih _ _ (by omega) hlt fun j hj' => ?_
    rw [testBit_join hr]
    split
    · rename_i hlt'
      exact hj j hlt'
    · have l0 := masked_lt b (m := m) (by omega : e ≤ 8) i
      rw [step_bits l0 ho (by omega)]
      split
      · rw [show (off + j) / 8 = i by omega, show (off + j) % 8 = off + (j - 8 * i) by omega]
      · rw [show (off + j) / 8 = i + 1 by omega, show (off + j) % 8 = off + (j - 8 * i) - 8 by omega]

theorem masked_bit (b : Bytes) {e m i k : Nat} (hk : k < 8) (h : i < m ∨ k < e) :
    (masked b e m i).testBit k = (b.fromEnd i).testBit k := by
  unfold masked
  split
  · rw [Nat.testBit_mod_two_pow, decide_eq_true hk, Bool.true_and]
  · rw [Nat.testBit_mod_two_pow, decide_eq_true (by omega), Bool.true_and]

/-- Bits beyond the value are zero. -/
theorem masked_zero (b : Bytes) {e m k : Nat} (h : e ≤ k) : (masked b e m m).testBit k = false := by
  unfold masked
  rw [if_neg (by omega), Nat.testBit_mod_two_pow, decide_eq_false (by omega), Bool.false_and]

theorem u64Extract_eq {b : Bytes} {off s e m r : Nat} (ho : off < 8) (h1 : 1 ≤ s) (h2 : s ≤ 64)
    (hb : m < b.length) (he : (off + s + 8 - 1) % 8 + 1 = e) (hm : (off + s - 1) / 8 = m)
    (hr : extractLoop b s (8 - off) off 0 m m 0 0 = .ok r) (hrl : r < 2 ^ (8 * m)) :
    u64Extract b off s = .ok
      (if s < 64 then (if off < e then r + masked b e m m % 2 ^ e / 2 ^ off * 2 ^ (8 * m) else r) % 2 ^ s
      else (if off < e then r + masked b e m m % 2 ^ e / 2 ^ off * 2 ^ (8 * m) else r)) := by
  have hsum : 8 * m + e = off + s := by omega
  have hend : ∀ x : Nat, (if s < 64 then do return x % (← pow2 s) else do return x : Ada Nat) = .ok (if s < 64 then x % 2 ^ s else x) := by
    intro x
    split
    · rw [pow2_ok (by assumption)]
      rfl
    · rfl
  have hmid : (if off < e then do
      let val ← extractRemaining (← extractByte b s off m m) m e off
      u64 (r + val)
    else .ok r : Ada Nat) = .ok (if off < e then r + masked b e m m % 2 ^ e / 2 ^ off * 2 ^ (8 * m) else r) := by
    split
    · rename_i hlt
      have hd : masked b e m m % 2 ^ e / 2 ^ off < 2 ^ (e - off) := by
        rw [Nat.div_lt_iff_lt_mul (Nat.two_pow_pos _), ← Nat.pow_add, show e - off + off = e by omega]
        exact Nat.mod_lt _ (Nat.two_pow_pos _)
      have := join_lt hrl hd
      rw [extractByte_ok h1 h2 hb, he]
      show (extractRemaining _ _ _ _).bind _ = _
      rw [extractRemaining_ok (by omega) (by omega) hlt (by omega) (by omega)]
      exact u64_ok (Nat.lt_of_lt_of_le this (Nat.pow_le_pow_right (by omega) (by omega)))
    · rfl
  unfold u64Extract
  rw [pre_ok ⟨h1, h2, by omega, by omega, by omega⟩]
  show (extractLoop b s (8 - off % 8) (off % 8) (off / 8) ((off + s - 1) / 8) ((off + s - 1) / 8 - off / 8) (off / 8) 0).bind _ = _
  rw [Nat.mod_eq_of_lt ho, hm, Nat.div_eq_of_lt ho, Nat.sub_zero, hr]
  show (if off < (off + s + 8 - 1) % 8 + 1 then do
      let val ← extractRemaining (← extractByte b s off m m) m ((off + s + 8 - 1) % 8 + 1) off
      u64 (r + val)
    else .ok r : Ada Nat).bind _ = _
  rw [he, hmid]
  exact hend _

theorem u64Extract_ok {b : Bytes} {off s : Nat} (ho : off < 8) (h1 : 1 ≤ s) (h2 : s ≤ 64)
    (hb : (off + s - 1) / 8 < b.length) :
    ∃ v, u64Extract b off s = .ok v ∧ v < 2 ^ s ∧
      ∀ j, j < s → v.testBit j = (b.fromEnd ((off + j) / 8)).testBit ((off + j) % 8) := by
  obtain ⟨e, he⟩ : ∃ e, (off + s + 8 - 1) % 8 + 1 = e := ⟨_, rfl⟩
  obtain ⟨m, hm⟩ : ∃ m, (off + s - 1) / 8 = m := ⟨_, rfl⟩
  have hm8 : m ≤ 8 := by omega
  have hsum : 8 * m + e = off + s := by omega
  rw [hm] at hb
  obtain ⟨r, hr, hrl, hrb⟩ := extractLoop_ok (b := b) (e := e) h1 h2 (by omega : off ≤ 7) hm8 hb he m 0 0 (by omega) (by simp)
    (fun j hj => absurd hj (by omega))
  refine ⟨_, u64Extract_eq ho h1 h2 hb he hm hr hrl, ?_⟩
  generalize hw : (if off < e then r + masked b e m m % 2 ^ e / 2 ^ off * 2 ^ (8 * m) else r) = w
  have key : (s ≥ 64 → w < 2 ^ s) ∧
      ∀ j, j < s → w.testBit j = (b.fromEnd ((off + j) / 8)).testBit ((off + j) % 8) := by
    by_cases hlt : off < e
    · rw [if_pos hlt] at hw
      have hd : masked b e m m % 2 ^ e / 2 ^ off < 2 ^ (e - off) := by
        rw [Nat.div_lt_iff_lt_mul (Nat.two_pow_pos _), ← Nat.pow_add, show e - off + off = e by omega]
        exact Nat.mod_lt _ (Nat.two_pow_pos _)
      have hl := join_lt hrl hd
      rw [hw, show 8 * m + (e - off) = s by omega] at hl
      refine ⟨fun _ => hl, fun j hj => ?_⟩
      rw [← hw, testBit_join hrl]
      split
      · rename_i hj8
        rw [hrb j hj8, masked_bit b (by omega) (by omega)]
      · rw [Nat.testBit_div_two_pow, Nat.testBit_mod_two_pow, decide_eq_true (by omega), Bool.true_and,
          masked_bit b (by omega) (by omega), show (off + j) / 8 = m by omega,
          show (off + j) % 8 = j - 8 * m + off by omega]
    · rw [if_neg hlt] at hw
      subst hw
      refine ⟨fun hs => ?_, fun j hj => ?_⟩
      · rwa [show 8 * m = s by omega] at hrl
      · rw [hrb j (by omega), masked_bit b (by omega) (by omega)]
  obtain ⟨k1, k2⟩ := key
  split
  · refine ⟨Nat.mod_lt _ (Nat.two_pow_pos _), fun j hj => ?_⟩
    rw [Nat.testBit_mod_two_pow, decide_eq_true hj, Bool.true_and, k2 j hj]
  · exact ⟨k1 (by omega), k2⟩

/-! ## Insert -/

theorem fromEnd_write {b : Bytes} {i x : Nat} (h : i < b.length) (j : Nat) (hj : j < b.length) :
    Bytes.fromEnd { b with data := b.data.set (b.data.length - 1 - i) x } j = if j = i then x else b.fromEnd j := by
  unfold Bytes.length at h hj
  unfold Bytes.fromEnd
  simp only [List.length_set, List.getElem?_set]
  split
  · rw [if_pos (by omega), if_pos (by omega)]
    rfl
  · rw [if_neg (by omega)]

theorem split_byte {l off s v : Nat} (hl : l < 256) (h : off + s ≤ 8) (hv : v < 2 ^ s) :
    l % 2 ^ off + v * 2 ^ off + l / 2 ^ (off + s) * 2 ^ (off + s) < 256 ∧
    ∀ k, k < 8 → (l % 2 ^ off + v * 2 ^ off + l / 2 ^ (off + s) * 2 ^ (off + s)).testBit k =
      if off ≤ k ∧ k < off + s then v.testBit (k - off) else l.testBit k := by
  have h1 : l % 2 ^ off < 2 ^ off := Nat.mod_lt _ (Nat.two_pow_pos _)
  have h2 := join_lt h1 hv
  have h3 : l / 2 ^ (off + s) < 2 ^ (8 - (off + s)) := by
    rw [Nat.div_lt_iff_lt_mul (Nat.two_pow_pos _), ← Nat.pow_add, show 8 - (off + s) + (off + s) = 8 by omega]
    exact hl
  have h4 := join_lt h2 h3
  rw [show off + s + (8 - (off + s)) = 8 by omega] at h4
  refine ⟨h4, fun k hk => ?_⟩
  rw [testBit_join h2, testBit_join h1]
  split
  · split
    · rw [if_neg (by omega), Nat.testBit_mod_two_pow, decide_eq_true (by omega), Bool.true_and]
    · rw [if_pos (by omega)]
  · rw [if_neg (by omega), Nat.testBit_div_two_pow, show k - (off + s) + (off + s) = k by omega]

/-- What a write leaves. -/
structure Wrote (b b' : Bytes) (f : Nat → Nat) : Prop where
  first : b'.first = b.first
  length : b'.length = b.length
  bytes : ∀ j, j < b.length → b'.fromEnd j = f j

theorem write_wrote {b : Bytes} {i x : Nat} (h : i < b.length) :
    ∃ b', writeByte b i x = .ok b' ∧ Wrote b b' (fun j => if j = i then x else b.fromEnd j) :=
  ⟨_, writeByte_ok h, rfl, by simp [Bytes.length], fun j hj => fromEnd_write h j hj⟩

theorem insertSingle_ok {b : Bytes} {off s v : Nat} (h1 : 1 ≤ s) (h : off + s ≤ 8) (hv : v < 2 ^ s)
    (hb : 0 < b.length) (hl : b.fromEnd 0 < 256) :
    ∃ b', insertSingle v b 0 0 off s = .ok b' ∧ Wrote b b' (fun j => if j = 0 then
      b.fromEnd 0 % 2 ^ off + v * 2 ^ off + b.fromEnd 0 / 2 ^ (off + s) * 2 ^ (off + s) else b.fromEnd j) := by
  have hs := split_byte hl h hv
  have h1' : b.fromEnd 0 % 2 ^ off < 2 ^ off := Nat.mod_lt _ (Nat.two_pow_pos _)
  have h2 := join_lt h1' hv
  have h2' : b.fromEnd 0 % 2 ^ off + v * 2 ^ off < 2 ^ 64 :=
    Nat.lt_of_lt_of_le h2 (Nat.pow_le_pow_right (by omega) (by omega))
  have h3 : b.fromEnd 0 / 2 ^ (off + s) < 2 ^ (8 - (off + s)) := by
    rw [Nat.div_lt_iff_lt_mul (Nat.two_pow_pos _), ← Nat.pow_add, show 8 - (off + s) + (off + s) = 8 by omega]
    exact hl
  have hu : (if off + s < 8 then leftShift (b.fromEnd 0 / 2 ^ (off + s)) (8 - off - s) (off + s)
      else .ok (b.fromEnd 0 / 2 ^ (off + s)) : Ada Nat) = .ok (b.fromEnd 0 / 2 ^ (off + s) * 2 ^ (off + s)) := by
    split
    · exact leftShift_ok (by omega) (by omega) (by omega) (by omega) (by rw [Nat.sub_sub]; exact h3)
    · rw [show 8 - (off + s) = 0 by omega, Nat.pow_zero] at h3
      have : b.fromEnd 0 / 2 ^ (off + s) = 0 := Nat.lt_one_iff.mp h3
      rw [this, Nat.zero_mul]
  obtain ⟨b', hw, hb'⟩ := write_wrote (b := b) (i := 0)
    (x := b.fromEnd 0 % 2 ^ off + v * 2 ^ off + b.fromEnd 0 / 2 ^ (off + s) * 2 ^ (off + s)) hb
  refine ⟨b', ?_, hb'⟩
  unfold insertSingle
  rw [readByte_ok hb]
  show (modPow2 (b.fromEnd 0) off).bind _ = _
  rw [modPow2_ok (by omega)]
  show (rightShift (b.fromEnd 0) 8 (off + s)).bind _ = _
  rw [rightShift_ok (by omega) (by omega) (by omega) (by omega) (by omega) (fun _ => hl)]
  show (leftShift v s off).bind _ = _
  rw [leftShift_ok (by omega) (by omega) (by omega) (by omega) hv]
  show (if off + s < 8 then leftShift (b.fromEnd 0 / 2 ^ (off + s)) (8 - off - s) (off + s)
      else .ok (b.fromEnd 0 / 2 ^ (off + s)) : Ada Nat).bind _ = _
  rw [hu]
  show (u64 (b.fromEnd 0 % 2 ^ off + v * 2 ^ off)).bind _ = _
  rw [u64_ok h2']
  show (u64 _).bind _ = _
  rw [u64_ok (Nat.lt_trans hs.1 (by decide))]
  show (byteVal _).bind _ = _
  rw [byteVal_ok hs.1]
  exact hw

theorem insertLoop_ok {s off v m : Nat} (h2 : s ≤ 64) (ho : off < 8) (hv : v < 2 ^ s) (hm : 8 * m < off + s) :
    ∀ (n i : Nat) (b : Bytes), 1 ≤ i → i + n = m → m < b.length →
      ∃ b', insertLoop s (8 - off) 0 n i (v / 2 ^ (8 * i - off)) b = .ok (v / 2 ^ (8 * m - off), b') ∧
        Wrote b b' (fun j => if i ≤ j ∧ j < m then v / 2 ^ (8 * j - off) % 2 ^ 8 else b.fromEnd j) := by
  intro n
  induction n with
  | zero =>
    intro i b h1 hi hb
    obtain rfl : i = m := by omega
    exact ⟨b, rfl, rfl, rfl, fun j hj => by rw [if_neg (by omega)]⟩
  | succ n ih =>
    intro i b h1 hi hb
    obtain ⟨b1, hw, hb1⟩ := write_wrote (b := b) (i := i) (x := v / 2 ^ (8 * i - off) % 2 ^ 8) (by omega)
    obtain ⟨b2, hw2, hb2⟩ := ih (i + 1) b1 (by omega) (by omega) (by rw [hb1.length]; exact hb)
    refine ⟨b2, ?_, hb2.first.trans hb1.first, hb2.length.trans hb1.length, fun j hj => ?_⟩
    · rw [insertLoop, byteVal_ok (Nat.mod_lt _ (by decide))]
      show (writeByte b i (v / 2 ^ (8 * i - off) % 2 ^ 8)).bind _ = _
      rw [hw]
      show (inRange _).bind _ = _
      rw [inRange_ok (by omega)]
      have hlt : v / 2 ^ (8 * i - off) < 2 ^ (s - (8 - off) - (i - 0 - 1) * 8) := by
        rw [Nat.div_lt_iff_lt_mul (Nat.two_pow_pos _), ← Nat.pow_add,
          show s - (8 - off) - (i - 0 - 1) * 8 + (8 * i - off) = s by omega]
        exact hv
      show (rightShift (v / 2 ^ (8 * i - off)) (s - (8 - off) - (i - 0 - 1) * 8) 8).bind _ = _
      rw [rightShift_ok (by omega) (by omega) (by omega) (by omega) (by omega) (fun _ => hlt), Nat.div_div_eq_div_mul,
        ← Nat.pow_add, show 8 * i - off + 8 = 8 * (i + 1) - off by omega]
      exact hw2
    · rw [hb2.bytes j (by rw [hb1.length]; exact hj), hb1.bytes j hj]
      by_cases hji : j = i
      · subst hji
        rw [if_neg (by omega), if_pos rfl, if_pos (by omega)]
      · rw [if_neg hji]
        by_cases h3 : i ≤ j ∧ j < m
        · rw [if_pos (by omega), if_pos h3]
        · rw [if_neg (by omega), if_neg h3]

theorem u64Insert_ok {b : Bytes} {off s v : Nat} (ho : off < 8) (h1 : 1 ≤ s) (h2 : s ≤ 64) (hv : v < 2 ^ s)
    (hb : (off + s - 1) / 8 < b.length) (hby : ∀ j, j < b.length → b.fromEnd j < 256) :
    ∃ b', u64Insert v b off s = .ok b' ∧ b'.first = b.first ∧ b'.length = b.length ∧
      (∀ j, j < b.length → b'.fromEnd j < 256) ∧
      ∀ k, k / 8 < b.length → (b'.fromEnd (k / 8)).testBit (k % 8) =
        if off ≤ k ∧ k < off + s then v.testBit (k - off) else (b.fromEnd (k / 8)).testBit (k % 8) := by
  obtain ⟨e, he⟩ : ∃ e, (off + s + 8 - 1) % 8 + 1 = e := ⟨_, rfl⟩
  obtain ⟨m, hm⟩ : ∃ m, (off + s - 1) / 8 = m := ⟨_, rfl⟩
  have hm8 : m ≤ 8 := by omega
  have hsum : 8 * m + e = off + s := by omega
  rw [hm] at hb
  have hpre : s ≤ 64 ∧ (s < 64 → v < 2 ^ s) ∧ (off + s - 1) / 8 < b.length := ⟨h2, fun _ => hv, by omega⟩
  by_cases h0 : m = 0
  · subst h0
    have hby0 := hby 0 (by omega)
    obtain ⟨b', hw, hb'⟩ := insertSingle_ok h1 (by omega : off + s ≤ 8) hv hb hby0
    have hs := split_byte hby0 (by omega : off + s ≤ 8) hv
    refine ⟨b', ?_, hb'.first, hb'.length, fun j hj => ?_, fun k hk => ?_⟩
    · unfold u64Insert
      rw [pre_ok hpre]
      show (if off / 8 = (off + s - 1) / 8 then insertSingle v b (off / 8) ((off + s - 1) / 8) (off % 8) s else _) = _
      rw [if_pos (by omega), hm, Nat.mod_eq_of_lt ho, Nat.div_eq_of_lt ho]
      exact hw
    · rw [hb'.bytes j hj]
      split
      · exact hs.1
      · exact hby j hj
    · rw [hb'.bytes _ hk]
      split
      · rename_i hk0
        rw [hs.2 _ (by omega), show k % 8 = k by omega, hk0]
      · rw [if_neg (by omega)]
  · have hby0 := hby 0 (by omega)
    have hv0 : v % 2 ^ (8 - off) < 2 ^ (8 - off) := Nat.mod_lt _ (Nat.two_pow_pos _)
    have hl0 : b.fromEnd 0 % 2 ^ off < 2 ^ off := Nat.mod_lt _ (Nat.two_pow_pos _)
    have hj0 := join_lt hl0 hv0
    rw [show off + (8 - off) = 8 by omega] at hj0
    obtain ⟨b1, hw1, hb1⟩ := write_wrote (b := b) (i := 0) (x := b.fromEnd 0 % 2 ^ off + v % 2 ^ (8 - off) * 2 ^ off) (by omega)
    obtain ⟨b2, hw2, hb2⟩ := insertLoop_ok h2 ho hv (by omega : 8 * m < off + s) (m - 1) 1 b1 (by omega) (by omega)
      (by rw [hb1.length]; exact hb)
    have hbm : b2.fromEnd m = b.fromEnd m := by
      rw [hb2.bytes m (by rw [hb1.length]; exact hb), if_neg (by omega), hb1.bytes m hb, if_neg h0]
    have hbym := hby m hb
    have hvm : v / 2 ^ (8 * m - off) % 2 ^ e < 2 ^ e := Nat.mod_lt _ (Nat.two_pow_pos _)
    have hum : b.fromEnd m / 2 ^ e < 2 ^ (8 - e) := by
      rw [Nat.div_lt_iff_lt_mul (Nat.two_pow_pos _), ← Nat.pow_add, show 8 - e + e = 8 by omega]
      exact hbym
    have hjm := join_lt hvm hum
    rw [show e + (8 - e) = 8 by omega] at hjm
    obtain ⟨b3, hw3, hb3⟩ := write_wrote (b := b2) (i := m)
      (x := v / 2 ^ (8 * m - off) % 2 ^ e + b.fromEnd m / 2 ^ e * 2 ^ e) (by rw [hb2.length, hb1.length]; exact hb)
    have hu : (if 0 < 8 - e then leftShift (b.fromEnd m / 2 ^ e) (8 - e) e else .ok (b.fromEnd m / 2 ^ e) : Ada Nat)
        = .ok (b.fromEnd m / 2 ^ e * 2 ^ e) := by
      split
      · exact leftShift_ok (by omega) (by omega) (by omega) (by omega) hum
      · rw [show 8 - e = 0 by omega, Nat.pow_zero] at hum
        have : b.fromEnd m / 2 ^ e = 0 := Nat.lt_one_iff.mp hum
        rw [this, Nat.zero_mul]
    have hbytes : ∀ j, j < b.length → b3.fromEnd j =
        if j = m then v / 2 ^ (8 * m - off) % 2 ^ e + b.fromEnd m / 2 ^ e * 2 ^ e
        else if 1 ≤ j ∧ j < m then v / 2 ^ (8 * j - off) % 2 ^ 8
        else if j = 0 then b.fromEnd 0 % 2 ^ off + v % 2 ^ (8 - off) * 2 ^ off else b.fromEnd j := by
      intro j hj
      rw [hb3.bytes j (by rw [hb2.length, hb1.length]; exact hj), hb2.bytes j (by rw [hb1.length]; exact hj), hb1.bytes j hj]
    refine ⟨b3, ?_, hb3.first.trans (hb2.first.trans hb1.first), hb3.length.trans (hb2.length.trans hb1.length),
      fun j hj => ?_, fun k hk => ?_⟩
    · unfold u64Insert
      rw [pre_ok hpre]
      show (if off / 8 = (off + s - 1) / 8 then _ else _) = _
      rw [if_neg (by omega), hm, Nat.mod_eq_of_lt ho, Nat.div_eq_of_lt ho, he]
      show (readByte b 0).bind _ = _
      rw [readByte_ok (by omega)]
      show (modPow2 (b.fromEnd 0) off).bind _ = _
      rw [modPow2_ok (by omega)]
      show (modPow2 v (8 - off)).bind _ = _
      rw [modPow2_ok (by omega)]
      show (leftShift (v % 2 ^ (8 - off)) (8 - off) off).bind _ = _
      rw [leftShift_ok (by omega) (by omega) (by omega) (by omega) hv0]
      show (u64 (b.fromEnd 0 % 2 ^ off + v % 2 ^ (8 - off) * 2 ^ off)).bind _ = _
      rw [u64_ok (Nat.lt_trans hj0 (by decide))]
      show (byteVal (b.fromEnd 0 % 2 ^ off + v % 2 ^ (8 - off) * 2 ^ off)).bind _ = _
      rw [byteVal_ok hj0]
      show (writeByte b 0 (b.fromEnd 0 % 2 ^ off + v % 2 ^ (8 - off) * 2 ^ off)).bind _ = _
      rw [hw1]
      show (rightShift v s (8 - off)).bind _ = _
      rw [rightShift_ok (by omega) (by omega) (by omega) (by omega) (by omega) (fun _ => hv)]
      show (insertLoop s (8 - off) 0 (m - 1) 1 (v / 2 ^ (8 * 1 - off)) b1).bind _ = _
      rw [hw2]
      show (modPow2 (v / 2 ^ (8 * m - off)) e).bind _ = _
      rw [modPow2_ok (by omega)]
      show (readByte b2 m).bind _ = _
      rw [readByte_ok (by rw [hb2.length, hb1.length]; exact hb), hbm]
      show (rightShift (b.fromEnd m) 8 e).bind _ = _
      rw [rightShift_ok (by omega) (by omega) (by omega) (by omega) (by omega) (fun _ => hbym)]
      show (if 0 < 8 - e then leftShift (b.fromEnd m / 2 ^ e) (8 - e) e else .ok (b.fromEnd m / 2 ^ e) : Ada Nat).bind _ = _
      rw [hu]
      show (u64 (v / 2 ^ (8 * m - off) % 2 ^ e + b.fromEnd m / 2 ^ e * 2 ^ e)).bind _ = _
      rw [u64_ok (Nat.lt_trans hjm (by decide))]
      show (byteVal (v / 2 ^ (8 * m - off) % 2 ^ e + b.fromEnd m / 2 ^ e * 2 ^ e)).bind _ = _
      rw [byteVal_ok hjm]
      exact hw3
    · rw [hbytes j hj]
      split
      · exact hjm
      · split
        · exact Nat.mod_lt _ (by decide)
        · split
          · exact hj0
          · exact hby j hj
    · rw [hbytes _ hk]
      split
      · rename_i hkm
        rw [testBit_join hvm]
        split
        · rw [if_pos (by omega), Nat.testBit_mod_two_pow, Nat.testBit_div_two_pow, decide_eq_true (by omega), Bool.true_and,
            show k % 8 + (8 * m - off) = k - off by omega]
        · rw [if_neg (by omega), Nat.testBit_div_two_pow, show k % 8 - e + e = k % 8 by omega, hkm]
      · split
        · rw [if_pos (by omega), Nat.testBit_mod_two_pow, Nat.testBit_div_two_pow, decide_eq_true (by omega), Bool.true_and,
            show k % 8 + (8 * (k / 8) - off) = k - off by omega]
        · split
          · rename_i hk0
            rw [testBit_join hl0, show k % 8 = k by omega, hk0]
            split
            · rw [if_neg (by omega), Nat.testBit_mod_two_pow, decide_eq_true (by omega), Bool.true_and]
            · rw [if_pos (by omega), Nat.testBit_mod_two_pow, decide_eq_true (by omega), Bool.true_and]
          · rw [if_neg (by omega)]

end Verif.Spark
