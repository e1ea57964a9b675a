import Verif.Ctx.SeqKeep

/-! # Which sequences calls for a message leave alone -/

namespace Verif.Ctx
open Verif Verif.Graph Verif.Verify Verif.Types Verif.Gen
open Verif.Spark hiding byteIndex

/-- Fields other than `f` that are composite and valid have been so before. -/
def Old (P : Pkg) (f : Field) (c c' : Context) : Prop :=
  ∀ g, g ≠ f → P.isComposite g = true → (c'.cursors g).state = .valid → c'.cursors g = c.cursors g

/-- Composite fields that are valid are empty, or have been valid before with the same bits. -/
def Kept (P : Pkg) (c : Context) (b : Bytes) (c' : Context) (b' : Bytes) : Prop :=
  ∀ g ∈ P.m.msg.fields, P.isComposite g = true → (c'.cursors g).state = .valid → (c'.cursors g).last + 1 = (c'.cursors g).first ∨
    c'.cursors g = c.cursors g ∧ ∀ i, (c.cursors g).first ≤ i → i ≤ (c.cursors g).last → bitAt b' i = bitAt b i

section
variable {P : Pkg} {b b' : Bytes} {lo hi : Int} {c c' c'' : Context} {es : List Item} {p : Field} {pos : Int} {f g : Field} {l : Link}

theorem Old.trans (h : Old P f c c') (h' : Old P f c' c'') : Old P f c c'' := by
  intro g hg hc hv
  have h1 := h' g hg hc hv
  rw [h1]
  exact h g hg hc (h1 ▸ hv)

theorem Kept.refl : Kept P c b c b := fun _ _ _ _ => .inr ⟨rfl, fun _ _ _ => rfl⟩

theorem Kept.trans {b'' : Bytes} (h : Kept P c b c' b') (h' : Kept P c' b' c'' b'') : Kept P c b c'' b'' := by
  intro g hg hc hv
  rcases h' g hg hc hv with h1 | ⟨h1, h2⟩
  · exact .inl h1
  · rw [h1] at hv ⊢
    rcases h g hg hc hv with h3 | ⟨h3, h4⟩
    · exact .inl h3
    · refine .inr ⟨h3, fun i h5 h6 => ?_⟩
      rw [h2 i (by rw [h3]; exact h5) (by rw [h3]; exact h6)]
      exact h4 i h5 h6

theorem reset_old (h : P.reset c f = .ok c') : Old P f c c' ∧ (c'.cursors f).state = .invalid := by
  unfold Pkg.reset at h
  obtain ⟨_, _, h⟩ := bind_run h
  obtain ⟨ss, _, h⟩ := bind_run h
  cases h
  refine ⟨fun g hg _ hv => ?_, by rw [set_cursor, if_pos rfl]; rfl⟩
  rw [set_cursor, if_neg hg, foldl_set] at hv ⊢
  simp only at hv ⊢
  split at hv
  · cases hv
  · rename_i h1
    rw [if_neg h1]

theorem finish_old {st : State} {first last v : Int} (h : P.finish c f st first last v = .ok c') : Old P f c c' := by
  unfold Pkg.finish at h
  obtain ⟨s, _, h⟩ := bind_run h
  cases h
  intro g hg _ hv
  rw [set_cursor] at hv ⊢
  split at hv
  · cases hv
  · rename_i h1
    rw [if_neg h1, set_cursor, if_neg hg]

theorem initializeField_old (h : P.initializeField c f = .ok c') : Old P f c c' := by
  unfold Pkg.initializeField at h
  obtain ⟨_, _, h⟩ := bind_run h
  obtain ⟨_, _, h⟩ := bind_run h
  obtain ⟨_, _, h⟩ := bind_run h
  obtain ⟨c1, h3, h⟩ := bind_run h
  exact (reset_old h3).1.trans (finish_old h)

theorem verify_old (h : P.verify c f = .ok c') : c'.buffer = c.buffer ∧ ∀ g, P.isComposite g = true → (c'.cursors g).state = .valid → c'.cursors g = c.cursors g := by
  have key : ∀ {c : Context} {k : Cursor}, (P.isComposite f = true → k.state ≠ .valid) → ∀ g, P.isComposite g = true → ((c.set f k).cursors g).state = .valid →
      (c.set f k).cursors g = c.cursors g := by
    intro c k hk g hc hv
    rw [set_cursor] at hv ⊢
    by_cases hg : g = f
    · rw [if_pos hg] at hv
      exact absurd hv (hk (hg ▸ hc))
    · rw [if_neg hg]
  unfold Pkg.verify at h
  split at h
  · obtain ⟨x, _, h⟩ := bind_run h
    cases x with
    | false => cases h; exact ⟨rfl, fun _ _ _ => rfl⟩
    | true =>
      obtain ⟨y, _, h⟩ := bind_run h
      cases y with
      | false =>
        cases h
        exact ⟨rfl, key fun _ h => by cases h⟩
      | true =>
        obtain ⟨v, _, h⟩ := bind_run h
        obtain ⟨ok, _, h⟩ := bind_run h
        obtain ⟨n, _, h⟩ := bind_run h
        obtain ⟨fu, _, h⟩ := bind_run h
        simp only at h
        split at h
        · obtain ⟨last, _, h⟩ := bind_run h
          obtain ⟨first, _, h⟩ := bind_run h
          obtain ⟨s, _, h⟩ := bind_run h
          cases h
          refine ⟨rfl, fun g hc hv => ?_⟩
          rw [set_cursor] at hv ⊢
          split at hv
          · cases hv
          · rename_i h1
            rw [if_neg h1]
            refine key (c := { c with messageLast := last }) (fun hc => ?_) g hc hv
            simp only [hc, if_true]
            exact fun h => by cases h
        · cases h
          exact ⟨rfl, key fun _ h => by cases h⟩
  · cases h
    exact ⟨rfl, fun _ _ _ => rfl⟩

theorem verifyAll_old {gs : List Field} (h : gs.foldlM P.verify c = .ok c') :
    c'.buffer = c.buffer ∧ ∀ g, P.isComposite g = true → (c'.cursors g).state = .valid → c'.cursors g = c.cursors g := by
  induction gs generalizing c with
  | nil => cases h; exact ⟨rfl, fun _ _ _ => rfl⟩
  | cons f gs ih =>
    rw [List.foldlM_cons] at h
    obtain ⟨c1, h1, h2⟩ := bind_run h
    obtain ⟨h3, h4⟩ := verify_old h1
    obtain ⟨h5, h6⟩ := ih h2
    refine ⟨h5.trans h3, fun g hc hv => ?_⟩
    have h7 := h6 g hc hv
    rw [h7]
    exact h4 g hc (h7 ▸ hv)

/-- A field that is structurally valid has been set. -/
theorem Inv.item (V : Inv P lo hi c b es p pos) (hg : g ∈ P.m.msg.fields) (hv : (c.cursors g).sv = true) :
    ∃ e ∈ es, e.f = g ∧ (c.cursors g).first = e.first ∧ (c.cursors g).last = e.last := by
  by_cases hm : g ∈ es.map (·.f)
  · obtain ⟨e, he, rfl⟩ := List.mem_map.mp hm
    exact ⟨e, he, rfl, V.holds.cursors.first e he, V.holds.cursors.last e he⟩
  · have := V.others g hg hm
    unfold Cursor.inv at this
    unfold Cursor.sv at hv
    cases hs : (c.cursors g).state <;> simp [hs] at this hv

theorem sv_valid {k : Cursor} (h : k.state = .valid) : k.sv = true := by simp [Cursor.sv, h]

/-- Fields in front of a field that has been set are kept. -/
theorem Inv.kept {y : Item} (W : WellFormed P) (V' : Inv P lo hi c' b' (y :: es) f pos) (hy : y.f = f) (I : InBuffer P b lo hi) {q : Field} {qpos : Int}
    (hF : Follows P.m.msg b lo hi es q qpos) (hold : Old P f c c') (A : ∀ i, lo ≤ i → i < qpos → bitAt b' i = bitAt b i)
    (hf : P.isComposite f = true → (c'.cursors f).state = .valid → (c'.cursors f).last + 1 = (c'.cursors f).first) : Kept P c b c' b' := by
  intro g hg hc hv
  by_cases hgf : g = f
  · subst hgf
    exact .inl (hf hc hv)
  · right
    have e1 := hold g hgf hc hv
    refine ⟨e1, fun i h1 h2 => ?_⟩
    obtain ⟨e, he, hef, h3, h4⟩ := V'.item hg (sv_valid hv)
    rw [← e1] at h1 h2
    have he : e ∈ es := (List.mem_cons.mp he).resolve_left fun h => hgf (by rw [← hef, h, hy])
    have h5 := follows_last_lt W I.order hF e he
    have h6 := (follows_bounds W I.order hF).2.2 e he
    exact A i (by omega) (by omega)

/-- A call for a message that has its buffer. -/
theorem Inv.keep (W : WellFormed P) (U : Verified P lo hi) (V : Inv P lo hi c b es p pos) {op : Op} (h : P.step c op = .ok c') :
    ∃ b' es' p' pos', Inv P lo hi c' b' es' p' pos' ∧ b'.first = b.first ∧ b'.data.length = b.data.length ∧ Kept P c b c' b' := by
  cases op with
  | verify f =>
    obtain ⟨_, h1, h⟩ := bind_run h
    obtain ⟨c2, es', p', pos', h2, V'⟩ := V.verify W U (needField_run h1)
    rw [h2] at h
    cases h
    exact ⟨_, _, _, _, V', rfl, rfl, fun g _ hc hv => .inr ⟨(verify_old h2).2 g hc hv, fun _ _ _ => rfl⟩⟩
  | verifyMessage =>
    obtain ⟨c2, es', p', pos', h2, V'⟩ := V.verifyMessage W U
    have h : P.verifyMessage c = .ok c' := h
    rw [h2] at h
    cases h
    exact ⟨_, _, _, _, V', rfl, rfl, fun g _ hc hv => .inr ⟨(verifyAll_old h2).2 g hc hv, fun _ _ _ => rfl⟩⟩
  | reset f =>
    obtain ⟨_, h1, h⟩ := bind_run h
    obtain ⟨_, h2, h⟩ := bind_run h
    have hb : c.buffer = some b := by
      rcases V.buffer with hb | hb
      · exact hb
      · have := need_run h2
        simp [Context.hasBuffer, hb] at this
    have hn : P.needNext c f = .ok () := by
      unfold Pkg.reset at h
      obtain ⟨_, h3, _⟩ := bind_run h
      exact h3
    obtain ⟨c2, _, ys, q, qpos, _, h3, _, V', _⟩ := V.reset W hb (needField_run h1) hn
    rw [h3] at h
    cases h
    obtain ⟨h4, h5⟩ := reset_old h3
    refine ⟨_, _, _, _, V', rfl, rfl, fun g _ hc hv => .inr ⟨?_, fun _ _ _ => rfl⟩⟩
    by_cases hg : g = f
    · rw [hg, h5] at hv; cases hv
    · exact h4 g hg hc hv
  | setScalar f v =>
    obtain ⟨_, h1, h⟩ := bind_run h
    obtain ⟨hb, hpre⟩ := V.scalarPre W U (needField_run h1) h
    obtain ⟨c2, b', xs, ys, q, qpos, l, t, n, s, h2, _, R, ht, hs, _, _, _, A, _, _, _, _, _, _, V'⟩ := V.setScalar W U hb hpre
    have hold : Old P f c c2 := by
      have h := h2
      unfold Pkg.setScalar at h
      obtain ⟨_, _, h⟩ := bind_run h
      obtain ⟨_, _, h⟩ := bind_run h
      obtain ⟨_, _, h⟩ := bind_run h
      obtain ⟨_, _, h⟩ := bind_run h
      obtain ⟨_, _, h⟩ := bind_run h
      obtain ⟨_, _, h⟩ := bind_run h
      obtain ⟨_, _, h⟩ := bind_run h
      obtain ⟨_, _, h⟩ := bind_run h
      obtain ⟨c1, h3, h⟩ := bind_run h
      obtain ⟨⟨b1, first, last⟩, _, h⟩ := bind_run h
      exact (reset_old h3).1.trans (finish_old (c := { c1 with buffer := some b1 }) h)
    rw [h2] at h
    cases h
    refine ⟨_, _, _, _, V', A.first, A.length, V'.kept W rfl V.inside R.follows hold A.bits fun hc => ?_⟩
    rw [isComposite_iff W.names ht, (scalar_iff t).mpr hs] at hc
    cases hc
  | setEmpty f =>
    obtain ⟨_, h1, h⟩ := bind_run h
    have hpre : P.compositePre c f = .ok () ∧ P.fieldSize c f = .ok 0 := by
      unfold Pkg.setEmpty at h
      obtain ⟨_, h2, h⟩ := bind_run h
      obtain ⟨n, h3, h⟩ := bind_run h
      obtain ⟨_, h4, h⟩ := bind_run h
      have := of_decide_eq_true (need_run h4)
      exact ⟨h2, this ▸ h3⟩
    obtain ⟨c2, _, ys, q, qpos, l, l', h2, _, C, _, _, _, hcur, _, _, _, _, V'⟩ := V.setEmpty W U (needField_run h1) hpre.1 hpre.2
    have hold : Old P f c c2 := by
      have h := h2
      unfold Pkg.setEmpty at h
      obtain ⟨_, _, h⟩ := bind_run h
      obtain ⟨_, _, h⟩ := bind_run h
      obtain ⟨_, _, h⟩ := bind_run h
      obtain ⟨_, _, h⟩ := bind_run h
      obtain ⟨_, _, h⟩ := bind_run h
      obtain ⟨c1, h3, h⟩ := bind_run h
      exact (reset_old h3).1.trans (finish_old h)
    rw [h2] at h
    cases h
    refine ⟨_, _, _, _, V', rfl, rfl, V'.kept W rfl V.inside C.ready.follows hold (fun _ _ _ => rfl) fun _ _ => ?_⟩
    rw [hcur]
    simp only
    omega
  | initializeField f =>
    obtain ⟨_, h1, h⟩ := bind_run h
    have hpre : P.compositePre c f = .ok () := by
      unfold Pkg.initializeField at h
      obtain ⟨_, h2, h⟩ := bind_run h
      exact h2
    obtain ⟨c2, _, ys, q, qpos, l, n, l', h2, _, C, _, _, _, hcur, _, _, _, _, V'⟩ := V.initializeField W U (needField_run h1) hpre
    have hold : Old P f c c2 := initializeField_old h2
    rw [h2] at h
    cases h
    refine ⟨_, _, _, _, V', rfl, rfl, V'.kept W rfl V.inside C.ready.follows hold (fun _ _ _ => rfl) fun _ hv => ?_⟩
    rw [hcur] at hv
    cases hv
  | setOpaque f ds =>
    obtain ⟨hf, h, hpre, hd, hlen⟩ := V.setOpaque_step W U h
    obtain ⟨c2, b', _, ys, q, qpos, l, l', h6, _, C, _, hcur, A, _, _, _, _, _, _, V'⟩ := V.setOpaque W U hf hpre hd hlen
    have hold : Old P f c c2 := by
      have h := h6
      unfold Pkg.setOpaque at h
      obtain ⟨_, _, h⟩ := bind_run h
      obtain ⟨_, _, h⟩ := bind_run h
      obtain ⟨_, _, h⟩ := bind_run h
      obtain ⟨_, _, h⟩ := bind_run h
      obtain ⟨c1, h3, h⟩ := bind_run h
      have := initializeField_old h3
      split at h
      · obtain ⟨_, _, h⟩ := bind_run h
        cases h
        exact this
      · cases h
    rw [h6] at h
    cases h
    refine ⟨_, _, _, _, V', A.first, A.length, V'.kept W rfl V.inside C.ready.follows hold A.bits fun _ hv => ?_⟩
    rw [hcur] at hv
    cases hv
  | takeBuffer =>
    obtain ⟨⟨c2, b2⟩, h1, h⟩ := bind_run h
    cases h
    unfold Pkg.takeBuffer at h1
    cases hb : c.buffer with
    | none => rw [hb] at h1; cases h1
    | some b1 =>
      rw [hb] at h1
      cases h1
      exact ⟨b, es, p, pos, ⟨V.inside, .inr rfl, V.bounds, V.holds, V.chained, V.others, V.pending, V.unique, V.messageLast, V.covers⟩, rfl, rfl,
        fun _ _ _ _ => .inr ⟨rfl, fun _ _ _ => rfl⟩⟩

/-- Without a buffer nothing changes. -/
theorem step_none (hb : c.buffer = none) {op : Op} (h : P.step c op = .ok c') : c' = c := by
  have hh : ∀ {u}, need c.hasBuffer = .ok u → False := fun h => by
    have := need_run h
    simp [Context.hasBuffer, hb] at this
  have hv : ∀ {f c'}, P.verify c f = .ok c' → c' = c := fun {f c'} h => by
    unfold Pkg.verify at h
    rw [if_neg (by simp [Context.hasBuffer, hb])] at h
    cases h
    rfl
  have hpre : ∀ {f u}, P.setterPre c f = .ok u → False := fun {f u} h => by
    unfold Pkg.setterPre at h
    obtain ⟨_, h1, _⟩ := bind_run h
    exact hh h1
  have hcp : ∀ {f u}, P.compositePre c f = .ok u → False := fun {f u} h => by
    unfold Pkg.compositePre at h
    obtain ⟨_, h1, _⟩ := bind_run h
    exact hpre h1
  cases op with
  | verify f =>
    obtain ⟨_, _, h⟩ := bind_run h
    exact hv h
  | verifyMessage =>
    have h : P.m.msg.fields.foldlM P.verify c = .ok c' := h
    revert h
    generalize P.m.msg.fields = gs
    induction gs with
    | nil => intro h; cases h; rfl
    | cons g gs ih =>
      intro h
      rw [List.foldlM_cons] at h
      obtain ⟨c1, h1, h2⟩ := bind_run h
      cases hv h1
      exact ih h2
  | reset f =>
    obtain ⟨_, _, h⟩ := bind_run h
    obtain ⟨_, h1, _⟩ := bind_run h
    exact (hh h1).elim
  | setScalar f v =>
    obtain ⟨_, _, h⟩ := bind_run h
    obtain ⟨_, h1, _⟩ := bind_run (show (P.setterPre c f >>= _) = _ from h)
    exact (hpre h1).elim
  | setEmpty f =>
    obtain ⟨_, _, h⟩ := bind_run h
    obtain ⟨_, h1, _⟩ := bind_run (show (P.compositePre c f >>= _) = _ from h)
    exact (hcp h1).elim
  | initializeField f =>
    obtain ⟨_, _, h⟩ := bind_run h
    obtain ⟨_, h1, _⟩ := bind_run (show (P.compositePre c f >>= _) = _ from h)
    exact (hcp h1).elim
  | setOpaque f ds =>
    obtain ⟨_, _, h⟩ := bind_run h
    obtain ⟨_, _, h⟩ := bind_run h
    obtain ⟨_, h1, _⟩ := bind_run (show (P.compositePre c f >>= _) = _ from h)
    exact (hcp h1).elim
  | takeBuffer =>
    obtain ⟨_, h1, _⟩ := bind_run h
    unfold Pkg.takeBuffer at h1
    rw [hb] at h1
    cases h1

end

end Verif.Ctx
