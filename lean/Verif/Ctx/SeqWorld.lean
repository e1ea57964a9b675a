import Verif.Ctx.SeqPlace

/-! # Calls for a sequence, and the way back to the message -/

namespace Verif.Ctx
open Verif Verif.Graph Verif.Verify Verif.Types Verif.Gen
open Verif.Spark hiding byteIndex

/-- The sequence of a field has the buffer of the message. -/
structure Lent (P : Pkg) (c : Context) (b : Bytes) (f : Field) (E : ScalarSeq.Params Nat) (s : ScalarSeq.Ctx) (k : Nat) : Prop where
  buffer : c.buffer = none
  field : f ∈ P.m.msg.fields
  element : P.element f = .ok E
  sv : (c.cursors f).sv = true
  filling : Filling E s b k
  first : (s.first : Int) = (c.cursors f).first
  last : (s.last : Int) = (c.cursors f).last

section
variable {P : Pkg} {b b' : Bytes} {lo hi : Int} {c c' c'' : Context} {es : List Item} {p : Field} {pos : Int} {f g : Field} {l : Link} {t : FTy}
  {E : ScalarSeq.Params Nat} {s s' : ScalarSeq.Ctx} {k : Nat}

/-- Fields do not overlap. -/
theorem follows_overlap (W : WellFormed P) (I : lo ≤ hi) (h : Follows P.m.msg b lo hi es p pos) {e e' : Item} (he : e ∈ es) (he' : e' ∈ es) {i : Int}
    (h1 : e.first ≤ i) (h2 : i ≤ e.last) (h3 : e'.first ≤ i) (h4 : i ≤ e'.last) : e = e' := by
  induction es generalizing p pos with
  | nil => cases he
  | cons y es ih =>
    obtain ⟨q, qpos, l, hf, hs, _, _⟩ := follows_cons h
    have hy := hs.field.2
    have hlt := follows_last_lt W I hf
    rcases List.mem_cons.mp he with rfl | he
    · rcases List.mem_cons.mp he' with rfl | he'
      · rfl
      · have := hlt e' he'
        omega
    · rcases List.mem_cons.mp he' with hy' | he'
      · have := hlt e he
        rw [hy'] at h3
        omega
      · exact ih hf he he'

theorem Indexed.congr (X : Indexed P b) (h1 : b'.first = b.first) (h2 : b'.data.length = b.data.length) : Indexed P b' := by
  obtain ⟨x1, x2, x3⟩ := X
  refine ⟨by omega, ?_, x3⟩
  simp only [Bytes.last, h1, h2] at x2 ⊢
  exact x2

theorem bare_eq (h : c.buffer = none) (x : Option Bytes) : ({ ({ c with buffer := x } : Context) with buffer := none } : Context) = c := by
  cases c
  simp only at h
  subst h
  rfl

/-- A call of a subprogram of the sequence. -/
theorem Lent.run (W : WellFormed P) (U : Verified P lo hi) (N : Unread P) (T : ElementTypes P) (V : Inv P lo hi c b es p pos) (X : Indexed P b)
    (S : Sound P c b) (L : Lent P c b f E s k) {op : SeqOp} (h : op.run E s = .ok s') :
    ∃ b' k', Inv P lo hi c b' es p pos ∧ Indexed P b' ∧ Sound P c b' ∧ Lent P c b' f E s' k' ∧ ScalarSeq.Same s s' ∧
      ∀ i, lo ≤ i → i < (c.cursors f).first ∨ (c.cursors f).last < i → bitAt b' i = bitAt b i := by
  have I := V.inside
  obtain ⟨t, n, Ins⟩ := element_instance T I.range.2 L.element
  obtain ⟨b', k', F', hsame, hcase⟩ := L.filling.run Ins.ok h
  have hL : Lent P c b' f E s' k' :=
    ⟨L.buffer, L.field, L.element, L.sv, F', by rw [hsame.first]; exact L.first, by rw [hsame.last]; exact L.last⟩
  rcases hcase with rfl | ⟨v, hv, hval, hsp, Wr⟩
  · exact ⟨_, _, V, X, S, hL, hsame, fun _ _ _ => rfl⟩
  · obtain ⟨e, he, hef, he1, he2⟩ := V.item L.field L.sv
    have hgrid := L.filling.grid
    have hB := L.filling.bounds
    have h1 := L.first
    have h2 := L.last
    have hpos := Ins.ok.pos
    have hk0 : (0 : Int) ≤ k * E.size := Int.mul_nonneg (by omega) (by omega)
    have hout : ∀ i, lo ≤ i → i < e.first ∨ e.last < i → bitAt b' i = bitAt b i := fun i h3 h4 =>
      Wr.others i (I.low h3) (by omega)
    have hother : ∀ e' ∈ es, e'.f ≠ f → ∀ i, e'.first ≤ i → i ≤ e'.last → bitAt b' i = bitAt b i := by
      intro e' he' hne i h3 h4
      have hle := (follows_bounds W I.order V.holds.follows).2.2 e' he'
      refine hout i (by omega) ?_
      by_cases h5 : i < e.first ∨ e.last < i
      · exact h5
      · exfalso
        have := follows_overlap W I.order V.holds.follows he he' (i := i) (by omega) (by omega) h3 h4
        exact hne (this ▸ hef)
    have Tc : Touch P b b' es := by
      refine ⟨Wr.first, Wr.length, Wr.bytes, fun e' he' hna => hother e' he' fun hef' => hna ?_⟩
      rw [hef']
      exact ⟨t, Ins.array⟩
    have hF := Tc.follows W N I (U.aligned b I) V.holds.follows
    have V' := takeBuffer_inv (V.rewrite (Tc.inBuffer I) Wr.first Wr.length hF)
    rw [bare_eq L.buffer] at V'
    refine ⟨b', k', V', X.congr Wr.first Wr.length, ?_, hL, hsame, fun i h3 h4 => hout i h3 (by omega)⟩
    intro g hg u ha hst
    obtain ⟨vs, hvs⟩ := S g hg u ha hst
    by_cases hgf : g = f
    · subst hgf
      have := arrayOf_unique W.names ha Ins.array
      subst this
      obtain ⟨n', hn', hl, hel⟩ := hvs
      rw [Ins.size] at hn'
      cases hn'
      have hw := Ins.width
      have hb1 := Ins.bits.1
      refine ⟨vs.set k v, n, Ins.size, by rw [List.length_set]; exact hl, fun i hi => ?_⟩
      rw [List.length_set] at hi
      rw [List.getElem_set]
      have hwn : n.v.toNat = E.size := by omega
      by_cases hik : k = i
      · subst hik
        rw [if_pos rfl]
        refine ⟨?_, (Ins.valid v hv).mp (by rw [Ins.base v hv] at hval; exact hval)⟩
        have := Wr.value
        rw [Ins.base v hv] at this
        rw [hwn, ← hw, ← h1]
        exact this
      · rw [if_neg hik]
        obtain ⟨h3, h4⟩ := hel i hi
        refine ⟨?_, h4⟩
        rw [← h3]
        refine bitsAt_congr fun j hj => ?_
        have h0 : (0 : Int) ≤ i * n.v := Int.mul_nonneg (by omega) (by omega)
        have hlt : (i : Int) * n.v + n.v ≤ k * n.v ∨ (k : Int) * n.v + n.v ≤ i * n.v := by
          rcases Nat.lt_or_gt_of_ne hik with h | h
          · right
            have : ((k : Int) + 1) * n.v ≤ i * n.v := Int.mul_le_mul_of_nonneg_right (by omega) (by omega)
            rw [Int.add_mul] at this
            omega
          · left
            have : ((i : Int) + 1) * n.v ≤ k * n.v := Int.mul_le_mul_of_nonneg_right (by omega) (by omega)
            rw [Int.add_mul] at this
            omega
        have hle := (follows_bounds W I.order V.holds.follows).2.2 e he
        refine Wr.others _ (I.low (by omega)) ?_
        rw [hw]
        rcases hlt with hlt | hlt <;> omega
    · obtain ⟨e', he', hef', h3, h4⟩ := V.item hg (sv_valid hst)
      exact ⟨vs, hvs.congr T ha fun i h5 h6 => hother e' he' (by rw [hef']; exact hgf) i (by omega) (by omega)⟩

/-- Calls without a buffer. -/
theorem run_none (hb : s.buffer = none) {op : SeqOp} (h : op.run E s = .ok s') : s'.buffer = none := by
  have hnb : s.hasBuffer = false := by simp [ScalarSeq.Ctx.hasBuffer, hb]
  cases op with
  | next =>
    have h : ofAda (ScalarSeq.next E s) = .ok s' := h
    have : ScalarSeq.next E s = .error .precondition := by
      unfold ScalarSeq.next pre
      rw [if_neg (by simp [hnb])]
      rfl
    rw [this] at h
    cases h
  | getElement =>
    obtain ⟨_, _, h⟩ := bind_run h
    cases h
    exact hb
  | append v =>
    obtain ⟨_, _, h⟩ := bind_run h
    have : ScalarSeq.appendElement E s v = .error .precondition := by
      unfold ScalarSeq.appendElement pre
      rw [if_neg (by simp [hnb])]
      rfl
    rw [this] at h
    cases h

/-- A composite field becomes valid. -/
theorem Inv.mark (V : Inv P lo hi c b es p pos) (hf : f ∈ P.m.msg.fields) (hsv : (c.cursors f).sv = true) :
    Inv P lo hi (({ c with buffer := some b } : Context).set f { c.cursors f with state := .valid }) b es p pos := by
  have hcur : ∀ g, (((({ c with buffer := some b } : Context).set f { c.cursors f with state := .valid })).cursors g).pred = (c.cursors g).pred ∧
      (((({ c with buffer := some b } : Context).set f { c.cursors f with state := .valid })).cursors g).first = (c.cursors g).first ∧
      (((({ c with buffer := some b } : Context).set f { c.cursors f with state := .valid })).cursors g).last = (c.cursors g).last ∧
      (((({ c with buffer := some b } : Context).set f { c.cursors f with state := .valid })).cursors g).value = (c.cursors g).value := by
    intro g
    rw [set_cursor]
    split
    · rename_i h; subst h; exact ⟨rfl, rfl, rfl, rfl⟩
    · exact ⟨rfl, rfl, rfl, rfl⟩
  have hH := V.holds
  refine ⟨V.inside, .inl rfl, V.bounds, ⟨hH.follows, rfl, hH.first, hH.last, ?_⟩, ?_, ?_, ?_, ?_, V.messageLast, V.covers⟩
  · refine ⟨fun e he => ?_, fun e he hc => ?_, fun e he => (hcur _).2.1.trans (hH.cursors.first e he), fun e he => (hcur _).2.2.1.trans (hH.cursors.last e he),
      fun e he => (hcur _).2.2.2.trans (hH.cursors.value e he)⟩
    · show (((({ c with buffer := some b } : Context).set f { c.cursors f with state := .valid })).cursors e.f).sv = true
      rw [set_cursor]
      split
      · rfl
      · exact hH.cursors.sv e he
    · show (((({ c with buffer := some b } : Context).set f { c.cursors f with state := .valid })).cursors e.f).ok = true
      rw [set_cursor]
      split
      · rfl
      · exact hH.cursors.ok e he hc
  · intro xs y ys h
    rw [(hcur _).1]
    exact V.chained xs y ys h
  · intro g hg hm
    have hgf : g ≠ f := fun h => hm (h ▸ (V.sv hf).mp hsv)
    rw [set_cursor, if_neg hgf]
    exact V.others g hg hm
  · intro g hg hm
    rw [(hcur _).1]
    exact V.pending g hg hm
  · intro g hg g' hg' h1 h2 h3 h4
    rw [(hcur _).1] at h3 h4
    exact V.unique g hg g' hg' h1 h2 h3 h4

/-- The elements of a sequence that fills its field. -/
theorem Filling.elements {n : Num} (Ins : Instance P f t n E) (F : Filling E s b k) (hv : s.valid = true) (hfull : s.sequenceLast = s.last) :
    Elements b t s.first s.last ((List.range k).map fun i : Nat => bitsAt b (s.first + i * n.v) n.v.toNat) := by
  have hg := F.grid
  have hw := Ins.width
  have hwn : n.v.toNat = E.size := by omega
  refine ⟨n, Ins.size, ?_, fun i hi => ?_⟩
  · rw [List.length_map, List.length_range, ← hw]
    omega
  · simp only [List.getElem_map, List.getElem_range]
    refine ⟨trivial, ?_⟩
    rw [List.length_map, List.length_range] at hi
    have := F.valid hv i hi
    rw [hwn, ← hw]
    exact (Ins.valid _ (bitsAt_lt _ _ _)).mp this

/-- What the precondition of `Update_X` says. -/
theorem update_pre (h : P.update c f s = .ok (c', s')) : (∃ E, P.element f = .ok E ∧ ∃ x, ScalarSeq.takeBuffer E s = .ok (s', x) ∧
      c' = (if s.valid then ({ c with buffer := x } : Context).set f { c.cursors f with state := .valid } else { c with buffer := x })) ∧
    c.present f = true ∧ s.valid = true ∧ P.fieldSize c f = .ok s.size ∧ c.buffer = none ∧ s.hasBuffer = true ∧
    P.fieldFirst c f = .ok s.first ∧ P.fieldLast c f = .ok s.last := by
  unfold Pkg.update at h
  obtain ⟨E, h1, h⟩ := bind_run h
  obtain ⟨_, h2, h⟩ := bind_run h
  obtain ⟨x, h3, h⟩ := bind_run h
  obtain ⟨_, h4, h⟩ := bind_run h
  obtain ⟨_, h5, h⟩ := bind_run h
  obtain ⟨_, h6, h⟩ := bind_run h
  obtain ⟨_, h7, h⟩ := bind_run h
  obtain ⟨i, h8, h⟩ := bind_run h
  obtain ⟨_, h9, h⟩ := bind_run h
  obtain ⟨j, h10, h⟩ := bind_run h
  obtain ⟨_, h11, h⟩ := bind_run h
  obtain ⟨⟨s1, y⟩, h12, h⟩ := bind_run h
  have hc := h3
  rw [need_run h4] at hc
  unfold Pkg.complete at hc
  obtain ⟨_, _, hc⟩ := bind_run hc
  obtain ⟨n, hn, hc⟩ := bind_run hc
  have hc := Except.ok.inj hc
  rw [Bool.and_eq_true, decide_eq_true_eq] at hc
  rw [← of_decide_eq_true (need_run h9)] at h8
  rw [← of_decide_eq_true (need_run h11)] at h10
  cases ht : ScalarSeq.takeBuffer E s with
  | error e => rw [ht] at h12; cases h12
  | ok r =>
    rw [ht] at h12
    have h12 := Except.ok.inj h12
    subst h12
    have h := Except.ok.inj h
    rw [Prod.mk.injEq] at h
    obtain ⟨ha, hb⟩ := h
    subst hb
    refine ⟨⟨E, h1, y, ht, ?_⟩, need_run h2, hc.1, by rw [hc.2]; exact hn, ?_, need_run h6, h8, h10⟩
    · rw [← ha]
    · have := need_run h5
      cases hb : c.buffer with
      | none => rfl
      | some b => simp [Context.hasBuffer, hb] at this

/-- `Update_X`. -/
theorem Inv.update (W : WellFormed P) (U : Verified P lo hi) (N : Unread P) (T : ElementTypes P) (V : Inv P lo hi c b es p pos) (S : Sound P c b)
    (L : Lent P c b g E s k) (hf : f ∈ P.m.msg.fields) (h : P.update c f s = .ok (c', s')) :
    f = g ∧ s.valid = true ∧ s.sequenceLast = s.last ∧ c' = ({ c with buffer := some b } : Context).set f { c.cursors f with state := .valid } ∧ s'.buffer = none ∧
      Inv P lo hi c' b es p pos ∧ Sound P c' b := by
  obtain ⟨⟨E', hE', x, ht, hc'⟩, hpr, hv, hsize, hnb, hsb, hfi, hla⟩ := update_pre h
  have I := V.inside
  -- the field is that of the sequence
  simp only [Context.present, Bool.and_eq_true, decide_eq_true_eq] at hpr
  obtain ⟨e, he, hef, he1, he2⟩ := V.item hf hpr.1
  obtain ⟨t', n', Ins'⟩ := element_instance T I.range.2 hE'
  obtain ⟨_, hp2, hp3, hp4⟩ := V.place W U N he (hef ▸ Ins'.array)
  rw [hef] at hp2 hp3 hp4
  have q1 := Except.ok.inj (hfi.symm.trans hp3)
  have q2 := Except.ok.inj (hla.symm.trans hp4)
  have q3 := Except.ok.inj (hsize.symm.trans hp2)
  obtain ⟨e', he', hef', he1', he2'⟩ := V.item L.field L.sv
  have h1 := L.first
  have h2 := L.last
  have : e = e' := follows_overlap W I.order V.holds.follows he he' (i := e.first) (by omega) (by omega) (by omega) (by omega)
  subst this
  have hfg : f = g := hef.symm.trans hef'
  subst hfg
  cases L.element.symm.trans hE'
  have hbx : x = some b ∧ s'.buffer = none := by
    obtain ⟨_, _, h3⟩ := Spark.bind_ok (ht : (pre _).bind _ = _)
    obtain ⟨s1, h4, h3⟩ := Spark.bind_ok (h3 : (ScalarSeq.checked _ _).bind _ = _)
    cases h3
    unfold ScalarSeq.checked at h4
    split at h4
    · cases h4
      exact ⟨L.filling.buffer, rfl⟩
    · cases h4
  obtain ⟨rfl, hs'⟩ := hbx
  rw [hv, if_pos rfl] at hc'
  have hgrid := L.filling.grid
  have hB := L.filling.bounds
  have hfull : s.sequenceLast = s.last := by
    simp only [ScalarSeq.Ctx.size] at q3
    omega
  refine ⟨rfl, hv, hfull, hc', hs', hc' ▸ V.mark hf hpr.1, ?_⟩
  subst hc'
  intro g hg u ha hst
  rw [set_cursor] at hst ⊢
  by_cases hgf : g = f
  · subst hgf
    rw [if_pos rfl]
    have := arrayOf_unique W.names ha Ins'.array
    subst this
    have := L.filling.elements Ins' hv hfull
    rw [h1, h2] at this
    exact ⟨_, this⟩
  · rw [if_neg hgf] at hst ⊢
    exact S g hg u ha hst

end

end Verif.Ctx
