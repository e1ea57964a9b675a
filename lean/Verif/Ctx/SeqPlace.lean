import Verif.Ctx.SeqStep

/-! # Handing over the buffer to a sequence -/

namespace Verif.Ctx
open Verif Verif.Graph Verif.Verify Verif.Types Verif.Gen
open Verif.Spark hiding byteIndex

section
variable {P : Pkg} {b b' : Bytes} {lo hi : Int} {c c' c'' : Context} {es : List Item} {p : Field} {pos : Int} {f g : Field} {l : Link} {t : FTy}

theorem Elements.congr (T : ElementTypes P) (ha : ArrayOf P.m.msg f t) {first last : Int} {vs : List Nat} (h : Elements b t first last vs)
    (hb : ∀ i, first ≤ i → i ≤ last → bitAt b' i = bitAt b i) : Elements b' t first last vs := by
  obtain ⟨n, h1, h2, h3⟩ := h
  refine ⟨n, h1, h2, fun i hi => ?_⟩
  obtain ⟨h4, h5⟩ := h3 i hi
  obtain ⟨n', h6, h7⟩ := T.sized f t ha
  rw [h1] at h6
  cases h6
  refine ⟨?_, h5⟩
  rw [← h4]
  refine bitsAt_congr fun k hk => hb _ ?_ ?_
  · have : (0 : Int) ≤ i * n.v := Int.mul_nonneg (by omega) (by omega)
    omega
  · have : ((i : Int) + 1) * n.v ≤ vs.length * n.v := Int.mul_le_mul_of_nonneg_right (by omega) (by omega)
    rw [Int.add_mul] at this
    omega

/-- Sequences that are valid consist of valid elements. -/
def Sound (P : Pkg) (c : Context) (b : Bytes) : Prop :=
  ∀ f ∈ P.m.msg.fields, ∀ t, ArrayOf P.m.msg f t → (c.cursors f).state = .valid → ∃ vs, Elements b t (c.cursors f).first (c.cursors f).last vs

theorem Sound.keep (W : WellFormed P) (T : ElementTypes P) (S : Sound P c b) (K : Kept P c b c' b') : Sound P c' b' := by
  intro f hf t ha hv
  rcases K f hf (arrayOf_composite W.names ha) hv with h | ⟨h1, h2⟩
  · obtain ⟨n, hn, _⟩ := T.sized f t ha
    exact ⟨[], n, hn, by simp; omega, fun i hi => by cases hi⟩
  · rw [h1] at hv ⊢
    obtain ⟨vs, hvs⟩ := S f hf t ha hv
    exact ⟨vs, hvs.congr T ha h2⟩

/-- The place of a sequence that has been set, with or without the buffer. -/
theorem Inv.place (W : WellFormed P) (U : Verified P lo hi) (N : Unread P) (V : Inv P lo hi c b es p pos) {e : Item} (he : e ∈ es) (ha : ArrayOf P.m.msg e.f t) :
    P.needNext c e.f = .ok () ∧ P.fieldSize c e.f = .ok (e.last - e.first + 1) ∧ P.fieldFirst c e.f = .ok e.first ∧ P.fieldLast c e.f = .ok e.last := by
  obtain ⟨xs, ys, hes⟩ := List.append_of_mem he
  have hch : Chained { c with buffer := some b } es := V.chained
  obtain ⟨q, qpos, l, R, hs, _⟩ := V.holds.ready W hch hes
  have I := V.inside
  obtain ⟨n, hz, hn, h0, _, hst⟩ := R.fieldSize W I (U.deterministic b I) (U.sizes b I)
  obtain ⟨h1, h2, h3, h4⟩ := R.bare W N ha
  have hnum : n = e.last - e.first + 1 ∧ qpos = e.first ∧ e.last ≤ hi := by
    obtain ⟨t1, ht1, hz⟩ := hz
    obtain ⟨_, _, _, _, t2, ht2, hs'⟩ := hs
    obtain ⟨_, id, hm⟩ := ha
    have e1 := nodup_pair W.names.once hm ht1
    subst e1
    rw [R.target] at ht2
    have e2 := nodup_pair W.names.once hm ht2
    subst e2
    rcases hz with ⟨h, _⟩ | ⟨_, hz⟩
    · exact h.elim
    · rcases hs' with ⟨h, _⟩ | ⟨_, n', hn', _, hle, rfl⟩
      · exact h.elim
      · rw [hz] at hn'
        cases hn'
        exact ⟨by show n = qpos + n - 1 - qpos + 1; omega, rfl, hle⟩
  obtain ⟨rfl, rfl, hle⟩ := hnum
  refine ⟨h1.trans (R.needNext W I), h2.trans hn, h3.trans (R.fieldFirst W I), ?_⟩
  rw [h4, R.fieldLast W I hn h0 hst (by omega)]
  congr 1
  omega

/-- The precondition of `Switch_To_X`. -/
structure SwitchPre (P : Pkg) (c : Context) (f : Field) : Prop where
  buffer : c.hasBuffer = true
  next : P.needNext c f = .ok ()
  size : ∃ n, P.fieldSize c f = .ok n ∧ 0 < n ∧ P.fieldCondition c f 0 n = .ok true
  first : ∃ i, P.fieldFirst c f = .ok i ∧ i % 8 = 1
  space : P.sufficientSpace c f = .ok true

theorem switch_pre {s : ScalarSeq.Ctx} (h : P.switchTo c f = .ok (c', s)) : (∃ E, P.element f = .ok E) ∧ SwitchPre P c f := by
  unfold Pkg.switchTo at h
  obtain ⟨E, h1, h⟩ := bind_run h
  obtain ⟨_, h2, h⟩ := bind_run h
  obtain ⟨_, h3, h⟩ := bind_run h
  obtain ⟨n, h4, h⟩ := bind_run h
  obtain ⟨_, h5, h⟩ := bind_run h
  obtain ⟨i, h6, h⟩ := bind_run h
  obtain ⟨_, h7, h⟩ := bind_run h
  obtain ⟨n', h8, h⟩ := bind_run h
  obtain ⟨x, h9, h⟩ := bind_run h
  obtain ⟨_, h10, h⟩ := bind_run h
  obtain ⟨y, h11, h⟩ := bind_run h
  obtain ⟨_, h12, h⟩ := bind_run h
  cases h4.symm.trans h8
  cases need_run h10
  cases need_run h12
  exact ⟨⟨E, h1⟩, need_run h2, h3, ⟨n, h4, of_decide_eq_true (need_run h5), h9⟩, ⟨i, h6, of_decide_eq_true (need_run h7)⟩, h11⟩

/-- The sequence that is to be written can be set. -/
theorem Inv.switchPre (W : WellFormed P) (U : Verified P lo hi) (V : Inv P lo hi c b es p pos) (hf : f ∈ P.m.msg.fields) (ha : ArrayOf P.m.msg f t)
    (h : SwitchPre P c f) : P.compositePre c f = .ok () := by
  have hb : c.buffer = some b := by
    rcases V.buffer with hb | hb
    · exact hb
    · have := h.buffer
      simp [Context.hasBuffer, hb] at this
  have I := V.inside
  obtain ⟨xs, ys, q, qpos, l, hes, R, _⟩ := V.ready W hb hf h.next
  obtain ⟨n, hz, hn, h0, _, hst⟩ := R.fieldSize W I (U.deterministic b I) (U.sizes b I)
  obtain ⟨n', hn', hpos, hcond⟩ := h.size
  rw [hn] at hn'
  cases hn'
  have hsp := h.space
  rw [R.sufficientSpace W I hn, Except.ok.injEq, decide_eq_true_eq] at hsp
  obtain ⟨i, hi1, hi2⟩ := h.first
  rw [R.fieldFirst W I] at hi1
  cases hi1
  have hcomp := arrayOf_composite W.names ha
  have hev : eval .ada (itemEnv P.m.msg b lo hi ys) l.size = some (.int n) := by
    obtain ⟨t', ht', hz⟩ := hz
    rcases hz with ⟨hs, _⟩ | ⟨_, hev⟩
    · rw [isComposite_iff W.names ht', (scalar_iff t').mpr hs] at hcomp
      cases hcomp
    · exact hev
  obtain ⟨t', ht', hs'⟩ := composite_type W.names hcomp
  have hF := Follows.composite R.follows R.mem R.source (R.target ▸ R.ne_final W) R.holds (R.target ▸ ht') hs' hev h0 (by omega)
  obtain ⟨_, h2⟩ := U.aligned b I _ _ _ hF _ List.mem_cons_self t' (by rw [R.target]; exact ht') hs'
  simp only at h2
  simp only [Pkg.compositePre, Pkg.setterPre, h.buffer, h.next, hcomp, hn, hcond, h.space, R.fieldFirst W I, bind, Except.bind, need, if_true, hi2, decide_true]
  rw [if_pos (decide_eq_true (by omega))]

theorem takeBuffer_inv (V : Inv P lo hi c b es p pos) : Inv P lo hi { c with buffer := none } b es p pos :=
  ⟨V.inside, .inr rfl, V.bounds, V.holds, V.chained, V.others, V.pending, V.unique, V.messageLast, V.covers⟩

/-- `Switch_To_X`. -/
theorem Inv.switch (W : WellFormed P) (U : Verified P lo hi) (N : Unread P) (T : ElementTypes P) (V : Inv P lo hi c b es p pos) (X : Indexed P b)
    (hf : f ∈ P.m.msg.fields) {E : ScalarSeq.Params Nat} (hE : P.element f = .ok E) (h : SwitchPre P c f) :
    ∃ c' s es' p' pos', P.switchTo c f = .ok (c', s) ∧ Inv P lo hi c' b es' p' pos' ∧ c'.buffer = none ∧ Kept P c b c' b ∧ Filling E s b 0 ∧ s.valid = true ∧
      (c'.cursors f).sv = true ∧ (s.first : Int) = (c'.cursors f).first ∧ (s.last : Int) = (c'.cursors f).last ∧
      P.fieldFirst c f = .ok (c'.cursors f).first ∧ P.fieldLast c f = .ok (c'.cursors f).last ∧
      (c'.bufFirst = s.bufferFirst ∧ c'.bufLast = s.bufferLast) := by
  have I := V.inside
  obtain ⟨t, n, Ins⟩ := element_instance T I.range.2 hE
  have ha := Ins.array
  have hpre := V.switchPre W U hf ha h
  have hb : c.buffer = some b := (V.compositePre W U hf hpre).1
  -- the context with the field
  obtain ⟨c1, es1, p1, pos1, hc1, V1, hb1, K1, hsv, hfirst, hlast, hno⟩ : ∃ c1 es1 p1 pos1,
      (if (c.cursors f).inv then do
          P.finish (← P.reset c f) f .structuralValid (c1.cursors f).first (c1.cursors f).last 0
        else .ok c : Run Context) = .ok c1 ∧ Inv P lo hi c1 b es1 p1 pos1 ∧ c1.buffer = some b ∧ Kept P c b c1 b ∧ (c1.cursors f).sv = true ∧
        P.fieldFirst c f = .ok (c1.cursors f).first ∧ P.fieldLast c f = .ok (c1.cursors f).last ∧ (c1.cursors f).first % 8 = 1 := by
    by_cases hi : (c.cursors f).inv = true
    · obtain ⟨c0, c1, xs, ys, q, qpos, l, n, l', h1, h2, h3, C, h5, h6, h7, hcur, _, _, _, _, V'⟩ := V.setComposite W U hf hpre (st := .structuralValid) (.inr rfl)
      refine ⟨c1, _, _, _, ?_, V', h7, ?_, by rw [hcur]; rfl, by rw [hcur]; exact h5, by rw [hcur]; exact h6, by rw [hcur]; exact C.aligned.1⟩
      · rw [if_pos hi, h1, hcur]
        exact h2
      · refine V'.kept W rfl I C.ready.follows ((reset_old h1).1.trans (finish_old h2)) (fun _ _ _ => rfl) fun _ hv => ?_
        rw [hcur] at hv
        cases hv
    · have hm : f ∈ es.map (·.f) := by
        by_cases hm : f ∈ es.map (·.f)
        · exact hm
        · exact absurd (V.others f hf hm) hi
      obtain ⟨e, he, rfl⟩ := List.mem_map.mp hm
      obtain ⟨_, _, h3, h4⟩ := V.place W U N he ha
      have hF := V.holds.follows
      have e1 : (c.cursors e.f).first = e.first := V.holds.cursors.first e he
      have e2 : (c.cursors e.f).last = e.last := V.holds.cursors.last e he
      refine ⟨c, es, p, pos, by rw [if_neg hi], V, hb, Kept.refl, V.holds.cursors.sv e he, by rw [e1]; exact h3, by rw [e2]; exact h4, ?_⟩
      obtain ⟨i, hi1, hi2⟩ := h.first
      rw [h3] at hi1
      cases hi1
      rw [e1]
      exact hi2
  obtain ⟨e, he, hef, he1, he2⟩ := V1.item hf hsv
  have hB := (follows_bounds W I.order V1.holds.follows).2.2 e he
  have hl := X.last
  have hbits := X.bits
  have hx := X.first
  have hlow := I.low hB.1
  have hhigh := I.high hB.2.2
  have hr := I.range.1
  have hlo := I.lower.1
  obtain ⟨n0, hn0, hpos, _⟩ := h.size
  have hle : e.first ≤ e.last := by
    obtain ⟨_, _, xs, ys, q, qpos, l, n, _, C⟩ := V.compositePre W U hf hpre
    have h1 := C.ready.fieldFirst W I
    have h2 := C.ready.fieldLast W I C.size C.natural C.start C.space
    rw [hfirst] at h1
    rw [hlast] at h2
    have h3 := C.size
    rw [hn0] at h3
    have h1 := Except.ok.inj h1
    have h2 := Except.ok.inj h2
    have h3 := Except.ok.inj h3
    omega
  obtain ⟨hbf, hbl⟩ := V1.bounds
  simp only [byteIndex] at hlow hhigh
  have hip : ScalarSeq.initPre E b c1.bufFirst.toNat c1.bufLast.toNat (c1.cursors f).first.toNat (c1.cursors f).last.toNat := by
    rw [hbf, hbl, he1, he2]
    rw [he1] at hno
    have hla := Ins.last
    refine ⟨by omega, ?_, ?_, ?_, ?_, ?_, ?_⟩
    · simp only [Bytes.last] at hhigh ⊢; omega
    · simp only [Spark.byteIndex]; omega
    · simp only [Spark.byteIndex]; omega
    · omega
    · omega
    · omega
  have hin := ScalarSeq.init_ok hip
  have hob : ScalarSeq.OkBytes E b := ⟨hx, by have hla := Ins.last; omega, I.bytes⟩
  obtain ⟨F, hv, g1, g2, g3, g4⟩ := Filling.init hob hin
  refine ⟨{ c1 with buffer := none }, _, es1, p1, pos1, ?_, takeBuffer_inv V1, rfl, ?_, F, hv, hsv, ?_, ?_, hfirst, hlast, ?_⟩
  · unfold Pkg.switchTo
    obtain ⟨n, hn, hpos, hcond⟩ := h.size
    obtain ⟨i, hi1, hi2⟩ := h.first
    rw [hfirst] at hi1
    cases hi1
    simp only [hE, h.buffer, h.next, hn, hfirst, hlast, hcond, h.space, bind, Except.bind, need, if_true, decide_eq_true hi2, decide_eq_true (show n > 0 from hpos)]
    by_cases hi : (c.cursors f).inv = true
    · rw [if_pos hi] at hc1 ⊢
      obtain ⟨c2, h2, h3⟩ := bind_run hc1
      simp only [h2, h3, Pkg.takeBuffer, hb1, ofAda, hin]
      rfl
    · rw [if_neg hi] at hc1 ⊢
      cases hc1
      simp only [Pkg.takeBuffer, hb1, ofAda, hin]
      rfl
  · exact K1
  · rw [g1]
    show _ = (c1.cursors f).first
    rw [he1]
    omega
  · rw [g2]
    show _ = (c1.cursors f).last
    rw [he2]
    omega
  · rw [g3, g4]
    show c1.bufFirst = _ ∧ c1.bufLast = _
    rw [hbf, hbl]
    simp only [Bytes.last] at hhigh ⊢
    omega

end

end Verif.Ctx
