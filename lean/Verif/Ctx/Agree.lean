import Verif.Ctx.Message

/-! # Buffers with the same bits in front of a position -/

namespace Verif.Ctx
open Verif Verif.Graph Verif.Verify Verif.Types Verif.Gen Verif.Spark

/-- Composite fields consist of whole bytes; this is what is proved about opaque fields by `rflx` (C19). -/
def Aligned (P : Pkg) (b : Bytes) (lo hi : Int) : Prop :=
  ∀ es p pos, Follows P.m.msg b lo hi es p pos → ∀ e ∈ es, ∀ t, (e.f, t) ∈ P.m.msg.types → ¬ Scalar t → e.first % 8 = 1 ∧ e.last % 8 = 0

/-- The buffers have the same bounds, and the same bits from `lo` up to `pos`. -/
structure Agree (b b' : Bytes) (lo pos : Int) : Prop where
  first : b'.first = b.first
  length : b'.data.length = b.data.length
  bytes : AreBytes b'.data
  bits : ∀ i, lo ≤ i → i < pos → bitAt b' i = bitAt b i

section
variable {P : Pkg} {b b' : Bytes} {lo hi : Int} {es : List Item} {p : Field} {pos : Int}

theorem Agree.mono (A : Agree b b' lo pos) {q : Int} (h : q ≤ pos) : Agree b b' lo q :=
  ⟨A.first, A.length, A.bytes, fun i h1 h2 => A.bits i h1 (by omega)⟩

theorem Agree.refl (hb : AreBytes b.data) : Agree b b lo pos := ⟨rfl, rfl, hb, fun _ _ _ => rfl⟩

theorem Agree.trans {b'' : Bytes} (A : Agree b b' lo pos) (A' : Agree b' b'' lo pos) : Agree b b'' lo pos :=
  ⟨A'.first.trans A.first, A'.length.trans A.length, A'.bytes, fun i h1 h2 => (A'.bits i h1 h2).trans (A.bits i h1 h2)⟩

theorem Agree.inBuffer (A : Agree b b' lo pos) (I : InBuffer P b lo hi) : InBuffer P b' lo hi where
  bytes := A.bytes
  lower := by rw [A.first]; exact I.lower
  order := I.order
  upper := by simp only [Bytes.last, A.first, A.length]; exact I.upper
  range := I.range

theorem bitsAt_congr {i : Int} : ∀ {n : Nat}, (∀ k : Nat, k < n → bitAt b' (i + k) = bitAt b (i + k)) → bitsAt b' i n = bitsAt b i n
  | 0, _ => rfl
  | n + 1, h => by rw [bitsAt, bitsAt, bitsAt_congr (n := n) fun k hk => h k (by omega), h n (by omega)]

theorem getD_lt {ds : List Nat} (h : AreBytes ds) (k : Nat) : ds.getD k 0 < 256 := by
  rw [List.getD_eq_getElem?_getD]
  cases hx : ds[k]? with
  | none => exact (by decide : (0 : Nat) < 256)
  | some x => exact h x (List.mem_of_getElem? hx)

/-- Bytes with the same bits are equal. -/
theorem byte_ext {x y : Nat} (hx : x < 256) (hy : y < 256) (h : ∀ t, t < 8 → x.testBit t = y.testBit t) : x = y := by
  apply Nat.eq_of_testBit_eq
  intro j
  by_cases hj : j < 8
  · exact h j hj
  · have hle : 2 ^ 8 ≤ 2 ^ j := Nat.pow_le_pow_right (by omega) (by omega)
    rw [Nat.testBit_lt_two_pow (Nat.lt_of_lt_of_le hx hle), Nat.testBit_lt_two_pow (Nat.lt_of_lt_of_le hy hle)]

/-- The byte at a position is determined by its bits. -/
theorem byte_congr (hb : AreBytes b.data) (hb' : AreBytes b'.data) (hf : b'.first = b.first) {k : Int} (hk : (b.first : Int) ≤ k)
    (h : ∀ t : Int, 0 ≤ t → t < 8 → bitAt b' (8 * (k - 1) + 1 + t) = bitAt b (8 * (k - 1) + 1 + t)) :
    b'.data.getD (k - b.first).toNat 0 = b.data.getD (k - b.first).toNat 0 := by
  refine byte_ext (getD_lt hb' _) (getD_lt hb _) fun t ht => ?_
  have := h (7 - t) (by omega) (by omega)
  unfold bitAt at this
  rw [hf] at this
  have e1 : (8 * (k - 1) + 1 + (7 - (t : Int)) - 1) / 8 + 1 - (b.first : Int) = k - b.first := by omega
  have e2 : 7 - ((8 * (k - 1) + 1 + (7 - (t : Int)) - 1) % 8).toNat = t := by omega
  rwa [e1, e2] at this

/-- The bytes of an aligned field. -/
theorem Agree.bytesAt (A : Agree b b' lo pos) (I : InBuffer P b lo hi) {i j : Int} (hi : i % 8 = 1) (hj : j % 8 = 0) (h1 : lo ≤ i) (h2 : j < pos) :
    bytesAt b' i j = bytesAt b i j := by
  have hlow := I.low h1
  simp only [byteIndex] at hlow
  unfold Ctx.bytesAt
  refine List.map_congr_left fun k hk => ?_
  rw [List.mem_range] at hk
  have := byte_congr (k := (i - 1) / 8 + 1 + k) I.bytes A.bytes A.first (by omega) fun t h3 h4 => A.bits _ (by omega) (by omega)
  rw [A.first]
  have e : (((i - 1) / 8 + 1 - (b.first : Int)).toNat + k) = ((i - 1) / 8 + 1 + (k : Int) - (b.first : Int)).toNat := by omega
  rw [e, this]

/-- The fields in front mean the same. -/
theorem itemEnv_congr {m : Msg} (h : ∀ e ∈ es, ∀ t, m.type? e.f = some t → t.isScalar = false → bytesAt b' e.first e.last = bytesAt b e.first e.last) :
    itemEnv m b' lo hi es = itemEnv m b lo hi es := by
  unfold itemEnv
  congr 1
  funext k
  cases ht : m.type? ⟨k⟩ with
  | none => rfl
  | some t =>
    cases hf : es.find? (fun e => e.f == ⟨k⟩) with
    | none => rfl
    | some e =>
      simp only
      have hk : e.f = ⟨k⟩ := by simpa using List.find?_some hf
      cases hs : t.isScalar with
      | true => rfl
      | false => rw [h e (List.mem_of_find?_eq_some hf) t (by rw [hk]; exact ht) hs]

/-- Fields end in front of the position. -/
theorem follows_last_lt (W : WellFormed P) (I : lo ≤ hi) (h : Follows P.m.msg b lo hi es p pos) : ∀ e ∈ es, e.last < pos := by
  induction h with
  | start => intro e he; cases he
  | @scalar es p pos l t n h _ _ _ _ h5 h6 h7 h8 h9 ih =>
    obtain ⟨n', hn, h10⟩ := W.sized _ _ h5 h6
    rw [h7] at hn
    cases hn
    intro e he
    rcases List.mem_cons.mp he with rfl | he
    · simp only; omega
    · have := ih e he
      omega
  | @composite es p pos l t n h _ _ _ _ h5 h6 h7 h8 h9 ih =>
    intro e he
    rcases List.mem_cons.mp he with rfl | he
    · simp only; omega
    · have := ih e he
      omega

theorem Agree.itemEnv (A : Agree b b' lo pos) (W : WellFormed P) (I : InBuffer P b lo hi) (hal : Aligned P b lo hi) (h : Follows P.m.msg b lo hi es p pos) :
    itemEnv P.m.msg b' lo hi es = itemEnv P.m.msg b lo hi es := by
  refine itemEnv_congr fun e he t ht hs => ?_
  have hm := type?_mem ht
  obtain ⟨h1, h2⟩ := hal es p pos h e he t hm (by rw [← scalar_iff, hs]; simp)
  have hle := (follows_bounds W I.order h).2.2 e he
  exact A.bytesAt I h1 h2 hle.1 (follows_last_lt W I.order h e he)

/-- The fields in front are the same. -/
theorem Agree.follows (A : Agree b b' lo pos) (W : WellFormed P) (I : InBuffer P b lo hi) (hal : Aligned P b lo hi) (h : Follows P.m.msg b lo hi es p pos) :
    Follows P.m.msg b' lo hi es p pos := by
  induction h with
  | start => exact .start
  | @scalar es p pos l t n h h1 h2 h3 h4 h5 h6 h7 h8 h9 ih =>
    obtain ⟨n', hn, h10⟩ := W.sized _ _ h5 h6
    rw [h7] at hn
    cases hn
    have A' := A.mono (q := pos) (by omega)
    have he := A'.itemEnv W I hal h
    have hv : bitsAt b' pos n.v.toNat = bitsAt b pos n.v.toNat := by
      refine bitsAt_congr fun k hk => A.bits _ ?_ ?_
      · have := (follows_bounds W I.order h).1
        omega
      · omega
    rw [← hv]
    refine .scalar (ih A') h1 h2 h3 ?_ h5 h6 h7 h8 (by rw [hv]; exact h9)
    unfold IsTrue
    rw [he]
    exact h4
  | @composite es p pos l t n h h1 h2 h3 h4 h5 h6 h7 h8 h9 ih =>
    have A' := A.mono (q := pos) (by omega)
    have he := A'.itemEnv W I hal h
    refine .composite (ih A') h1 h2 h3 ?_ h5 h6 (by rw [he]; exact h7) h8 h9
    unfold IsTrue
    rw [he]
    exact h4

end

end Verif.Ctx
