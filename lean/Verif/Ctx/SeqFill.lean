import Verif.Ctx.SeqBits

/-! # Filling a sequence -/

namespace Verif.Ctx
open Verif Verif.Graph Verif.Verify Verif.Types Verif.Gen
open Verif.Spark hiding byteIndex

/-- A sequence with a number of elements in a buffer. As long as it is valid, so are the elements. -/
structure Filling (E : ScalarSeq.Params Nat) (s : ScalarSeq.Ctx) (b : Bytes) (k : Nat) : Prop where
  inv : ScalarSeq.Inv E s
  buffer : s.buffer = some b
  grid : s.sequenceLast + 1 = s.first + k * E.size
  valid : s.valid = true → ∀ i : Nat, i < k → E.valid (bitsAt b (s.first + i * E.size) E.size) = true

/-- An element has been written. -/
structure Wrote (b b' : Bytes) (i : Int) (n v : Nat) : Prop where
  first : b'.first = b.first
  length : b'.data.length = b.data.length
  bytes : AreBytes b'.data
  value : bitsAt b' i n = v
  others : ∀ x, (b.first : Int) ≤ byteIndex x → x < i ∨ i + n - 1 < x → bitAt b' x = bitAt b x

section
variable {E : ScalarSeq.Params Nat} {s s' : ScalarSeq.Ctx} {b : Bytes} {k : Nat}

theorem Filling.bounds (F : Filling E s b k) : 1 ≤ b.first ∧ b.first = s.bufferFirst ∧ b.last = s.bufferLast ∧ AreBytes b.data ∧
    (b.first : Int) ≤ byteIndex s.first ∧ byteIndex s.last ≤ b.last ∧ s.first % 8 = 1 ∧ s.first ≤ s.last ∧ s.sequenceLast ≤ s.last := by
  obtain ⟨p1, p2, p3, p4, p5, p6, p7, p8⟩ := F.inv.pred
  obtain ⟨q1, q2⟩ := p1 b F.buffer
  obtain ⟨o1, o2, o3⟩ := F.inv.buffer b F.buffer
  unfold Spark.byteIndex at p2 p3
  refine ⟨o1, q1, q2, o3, ?_, ?_, p4, p5, p8⟩ <;> simp only [byteIndex] <;> omega

theorem Filling.init {bf bl f l : Nat} (hb : ScalarSeq.OkBytes E b) (h : ScalarSeq.init E b bf bl f l = .ok s) :
    Filling E s b 0 ∧ s.valid = true ∧ s.first = f ∧ s.last = l ∧ s.bufferFirst = bf ∧ s.bufferLast = bl := by
  obtain ⟨hp, h1, h2, h3, h4, h5, h6, h7, h8⟩ := ScalarSeq.init_inv hb h
  refine ⟨⟨h1, h2, ?_, fun _ i hi => by omega⟩, h3, h5, h6, h7, h8⟩
  obtain ⟨_, _, _, _, h9, h10, _⟩ := hp
  omega

theorem Filling.next (hE : E.Ok) (F : Filling E s b k) (h : ScalarSeq.next E s = .ok s') :
    Filling E s' b (k + 1) ∧ ScalarSeq.Same s s' ∧ s'.nextElement = bitsAt b (s.first + k * E.size) E.size := by
  have he : s.hasElement E = true := by
    obtain ⟨_, h1, _⟩ := Spark.bind_ok (h : (pre _).bind _ = _)
    unfold pre at h1
    split at h1
    · rename_i h2; exact h2.2
    · cases h1
  obtain ⟨x, hx, hn, hi⟩ := ScalarSeq.next_ok hE F.inv F.buffer he
  rw [h] at hn
  cases hn
  have hB := F.bounds
  have hg := F.grid
  have hpos := hE.pos
  simp only [ScalarSeq.Ctx.hasElement, Bool.and_eq_true, decide_eq_true_eq] at he
  simp only [byteIndex, Bytes.last] at hB
  have hx' := holdsAt_bits hB.2.2.2.1 hx (by push_cast; omega) (by simp only [Bytes.last]; omega) (by omega)
  have e : ((s.sequenceLast + E.size : Nat) : Int) - (E.size : Int) + 1 = s.first + k * E.size := by push_cast; omega
  rw [e] at hx'
  refine ⟨⟨hi, F.buffer, ?_, ?_⟩, ⟨rfl, rfl, rfl, rfl⟩, hx'⟩
  · show s.sequenceLast + E.size + 1 = s.first + (k + 1) * E.size
    rw [Nat.add_mul]
    omega
  · intro hv i hi
    have hv : (s.valid && E.valid x) = true := hv
    rw [Bool.and_eq_true] at hv
    by_cases hik : i = k
    · subst hik
      show E.valid (bitsAt b (s.first + i * E.size) E.size) = true
      rw [← hx']
      exact hv.2
    · exact F.valid hv.1 i (by omega)

theorem Filling.append (hE : E.Ok) (F : Filling E s b k) {v : Nat} (hv : s.valid = true) (hval : E.valid (E.toBase v) = true) (hsp : E.size ≤ s.availableSpace) :
    ∃ s' b', ScalarSeq.appendElement E s v = .ok s' ∧ Filling E s' b' (k + 1) ∧ ScalarSeq.Same s s' ∧ s'.valid = true ∧
      Wrote b b' (s.first + k * E.size) E.size (E.toBase v) := by
  obtain ⟨b', ha, hi, hf, hl, hbits⟩ := ScalarSeq.append_ok hE F.inv F.buffer hv hval hsp
  have hB := F.bounds
  have hg := F.grid
  have hpos := hE.pos
  have hsp' : E.size ≤ s.last - s.sequenceLast := hsp
  have hby := (hi.buffer b' rfl).2.2
  have hlen : b'.data.length = b.data.length := hl
  have hbit : ∀ x : Int, (b.first : Int) ≤ byteIndex x → x ≤ 8 * b.last → bitAt b' x =
      if s.first + k * E.size ≤ x ∧ x ≤ s.first + k * E.size + E.size - 1 then (E.toBase v).testBit (s.first + k * E.size + E.size - 1 - x).toNat
      else bitAt b x := by
    intro x h1 h2
    simp only [byteIndex, Bytes.last] at h1 h2 hB
    have h3 := hbits (8 * b.last - x).toNat
    rw [bit_at hby (by simp only [Bytes.last, hlen]; omega), bit_at hB.2.2.2.1 (by simp only [Bytes.last]; omega)] at h3
    have hlast : b'.last = b.last := by simp only [Bytes.last, hf, hlen]
    have e : 8 * b.last - ((8 * b.last - x).toNat : Int) = x := by simp only [Bytes.last]; omega
    rw [hlast, e] at h3
    rw [h3]
    have hbl : (s.bufferLast : Int) = b.first + b.data.length - 1 := by omega
    by_cases hin : (s.first : Int) + k * E.size ≤ x ∧ x ≤ s.first + k * E.size + E.size - 1
    · rw [if_pos hin, if_pos (by simp only [Bytes.last]; omega)]
      congr 1
      simp only [Bytes.last]
      omega
    · rw [if_neg hin, if_neg (by simp only [Bytes.last]; omega)]
  have hw : Wrote b b' (s.first + k * E.size) E.size (E.toBase v) := by
    refine ⟨hf, hlen, hby, ?_, ?_⟩
    · refine (bitsAt_unique (hE.base v) fun j hj => ?_).symm
      simp only [byteIndex, Bytes.last] at hB
      rw [hbit _ (by simp only [byteIndex]; omega) (by simp only [Bytes.last]; omega), if_pos (by omega)]
      congr 1
      omega
    · intro x h1 h2
      by_cases h3 : x ≤ 8 * b.last
      · rw [hbit x h1 h3, if_neg (by omega)]
      · unfold bitAt
        rw [hf]
        simp only [Bytes.last] at h3
        rw [List.getD_eq_getElem?_getD, List.getD_eq_getElem?_getD, List.getElem?_eq_none (by omega), List.getElem?_eq_none (by omega)]
  refine ⟨_, b', ha, ⟨hi, rfl, ?_, ?_⟩, ⟨rfl, rfl, rfl, rfl⟩, hv, hw⟩
  · show s.sequenceLast + E.size + 1 = s.first + (k + 1) * E.size
    rw [Nat.add_mul]
    omega
  · intro _ i hi
    show E.valid (bitsAt b' (s.first + i * E.size) E.size) = true
    by_cases hik : i = k
    · subst hik
      rw [hw.value]
      exact hval
    · have hmul : (i : Int) * E.size + E.size ≤ k * E.size := by
        have : (i + 1) * E.size ≤ k * E.size := Nat.mul_le_mul_right _ (by omega)
        rw [Nat.add_mul] at this
        omega
      have h0 : (0 : Int) ≤ i * E.size := Int.mul_nonneg (by omega) (by omega)
      rw [bitsAt_congr (b := b) fun j hj => ?_]
      · exact F.valid hv i (by omega)
      · simp only [byteIndex, Bytes.last] at hB
        exact hw.others _ (by simp only [byteIndex]; omega) (by omega)

theorem Filling.congr (F : Filling E s b k) : s.hasBuffer = true := by simp [ScalarSeq.Ctx.hasBuffer, F.buffer]

/-- A call of a subprogram of the sequence. -/
theorem Filling.run (hE : E.Ok) (F : Filling E s b k) {op : SeqOp} (h : op.run E s = .ok s') :
    ∃ b' k', Filling E s' b' k' ∧ ScalarSeq.Same s s' ∧ (b' = b ∨ ∃ v, v < 2 ^ E.size ∧ E.valid (E.toBase v) = true ∧
      s.sequenceLast + E.size ≤ s.last ∧ Wrote b b' (s.first + k * E.size) E.size (E.toBase v)) := by
  cases op with
  | next =>
    have h : ofAda (ScalarSeq.next E s) = .ok s' := h
    cases hn : ScalarSeq.next E s with
    | error e => rw [hn] at h; cases h
    | ok s'' =>
      rw [hn] at h
      cases h
      obtain ⟨h1, h2, _⟩ := F.next hE hn
      exact ⟨b, k + 1, h1, h2, .inl rfl⟩
  | getElement =>
    obtain ⟨_, _, h⟩ := bind_run h
    cases h
    exact ⟨b, k, F, ⟨rfl, rfl, rfl, rfl⟩, .inl rfl⟩
  | append v =>
    obtain ⟨_, h1, h⟩ := bind_run h
    have hv := of_decide_eq_true (need_run h1)
    have hpre : s.valid = true ∧ E.valid (E.toBase v) = true ∧ E.size ≤ s.availableSpace := by
      cases ha : ScalarSeq.appendElement E s v with
      | error e => rw [ha] at h; cases h
      | ok s'' =>
        obtain ⟨_, h1, _⟩ := Spark.bind_ok (ha : (pre _).bind _ = _)
        unfold pre at h1
        split at h1
        · rename_i h2; exact h2.2
        · cases h1
    obtain ⟨s1, b', ha, h3, h4, _, h5⟩ := F.append hE hpre.1 hpre.2.1 hpre.2.2
    rw [ha] at h
    cases h
    have : E.size ≤ s.last - s.sequenceLast := hpre.2.2
    have := hE.pos
    exact ⟨b', k + 1, h3, h4, .inr ⟨v, hv, hpre.2.1, by omega, h5⟩⟩

/-- A history of a sequence. -/
theorem Filling.history (hE : E.Ok) {ops : List SeqOp} (F : Filling E s b k) (h : ops.foldlM (SeqOp.run E) s = .ok s') :
    ∃ b' k', Filling E s' b' k' := by
  induction ops generalizing s b k with
  | nil => cases h; exact ⟨_, _, F⟩
  | cons op ops ih =>
    rw [List.foldlM_cons] at h
    obtain ⟨s1, h1, h2⟩ := bind_run h
    obtain ⟨_, _, F1, _⟩ := F.run hE h1
    exact ih F1 h2

end

end Verif.Ctx
