import Verif.Post.Definite
import Verif.Ctx.Rebuild

/-! # Postconditions of setters -/

namespace Verif.Ctx
open Verif Verif.Graph Verif.Verify Verif.Types Verif.Gen Verif.Spark

section
variable {P : Pkg} {b b' : Bytes} {lo hi : Int} {c c' : Context} {es ys : List Item} {p q : Field} {pos qpos : Int} {f g : Field} {l : Link}

theorem Cursor.same_refl (a : Cursor) : a.same a = true := by simp [Cursor.same]

theorem sameCursors_of (h : c'.cursors = c.cursors) : P.sameCursors c' c = true := by
  simp only [Pkg.sameCursors, h, List.all_eq_true]
  exact fun _ _ => Cursor.same_refl _

theorem successors_ok (W : WellFormed P) (hf : f ∈ P.m.msg.fields) :
    successors P.m.msg.fields f = .ok (P.m.msg.fields.drop (P.m.msg.fields.idxOf f + 1)) := by
  unfold successors
  rw [if_neg (fun h : f = INITIAL => W.initial (h ▸ hf)), if_neg (fun h : f = FINAL => W.final (h ▸ hf)), if_pos hf]

theorem predecessors_ok (W : WellFormed P) (hf : f ∈ P.m.msg.fields) :
    predecessors P.m.msg.fields f = .ok (P.m.msg.fields.take (P.m.msg.fields.idxOf f)) := by
  unfold predecessors
  rw [if_neg (fun h : f = INITIAL => W.initial (h ▸ hf)), if_neg (fun h : f = FINAL => W.final (h ▸ hf)), if_pos hf]

theorem mem_take_idxOf {xs : List Field} (hg : g ∈ xs.take (xs.idxOf f)) : g ∈ xs ∧ xs.idxOf g < xs.idxOf f := by
  refine ⟨List.mem_of_mem_take hg, ?_⟩
  induction xs with
  | nil => simp at hg
  | cons a xs ih =>
    by_cases ha : a = f
    · subst ha
      simp at hg
    · rw [idxOf_ne ha, List.take_succ_cons] at hg
      rw [idxOf_ne ha]
      by_cases hag : a = g
      · subst hag
        simp
      · rw [idxOf_ne hag]
        have := ih ((List.mem_cons.mp hg).resolve_left fun h => hag h.symm)
        omega

theorem front_same (W : WellFormed P) (hf : f ∈ P.m.msg.fields)
    (h : ∀ g ∈ P.m.msg.fields, P.m.msg.fields.idxOf g < P.m.msg.fields.idxOf f → c'.cursors g = c.cursors g) :
    (do return (← ofPy (predecessors P.m.msg.fields f)).all fun p => (c'.cursors p).same (c.cursors p) : Run Bool) = .ok true := by
  rw [predecessors_ok W hf]
  show Except.ok _ = _
  congr 1
  rw [List.all_eq_true]
  intro g hg
  obtain ⟨h1, h2⟩ := mem_take_idxOf hg
  rw [h g h1 h2]
  exact Cursor.same_refl _

/-- Fields after the last one are not valid. -/
theorem Inv.after_inv (W : WellFormed P) {y : Item} {pos' : Int} (V : Inv P lo hi c b (y :: ys) f pos') (hy : y.f = f) (hg : g ∈ P.m.msg.fields)
    (hlt : P.m.msg.fields.idxOf f < P.m.msg.fields.idxOf g) : (c.cursors g).inv = true := by
  refine V.others g hg fun hm => ?_
  have ho := (follows_order W (xs := []) V.holds.follows).2.1
  rw [List.map_cons, List.mem_cons] at hm
  rcases hm with h | h
  · rw [h, hy] at hlt
    omega
  · obtain ⟨e, he, rfl⟩ := List.mem_map.mp h
    have := ho e he
    rw [hy] at this
    omega

/-- What a setter does to the other components of a context. -/
def Keeps (f : Field) (c c' : Context) : Prop :=
  c'.bufFirst = c.bufFirst ∧ c'.bufLast = c.bufLast ∧ c'.messageLast = (c'.cursors f).last

/-- The part of the postconditions that all setters have in common. -/
theorem Inv.setterPost (W : WellFormed P) (U : Verified P lo hi) (I : InBuffer P b lo hi) (R : Ready P b lo hi c ys q qpos f l) {y : Item} {pos' : Int}
    (V : Inv P lo hi c' b' (y :: ys) f pos') (hb : c'.buffer = some b') (hy : y.f = f)
    (hk : Keeps f c c')
    (hnext : ∀ l' ∈ P.m.msg.links, l'.source = f → l'.target ≠ FINAL → IsTrue P.m.msg b' lo hi (y :: ys) l'.condition → (c'.cursors l'.target).pred = f) :
    P.setterPost c c' f = .ok true := by
  have H := V.contains hb
  have hym : y ∈ y :: ys := List.mem_cons_self
  obtain ⟨hn, hfirst, hlast, hsize⟩ := H.positions W V.inside U V.chained hym
  rw [hy] at hn hfirst hlast hsize
  have hf := R.field
  have hfi : f ≠ INITIAL := fun h => W.initial (h ▸ hf)
  unfold Pkg.setterPost
  rw [allOf_true]
  intro x hx
  simp only [List.mem_append, List.mem_cons, List.not_mem_nil, or_false] at hx
  rcases hx with (((rfl | rfl) | hx) | (rfl | rfl | rfl | rfl))
  · rw [hlast]
    show Except.ok (decide (c'.messageLast = y.last)) = _
    rw [hk.2.2, ← hy, H.cursors.last y hym]
    simp
  · rw [successors_ok W hf]
    show Except.ok _ = _
    congr 1
    rw [List.all_eq_true]
    intro s hs
    obtain ⟨h3, h4⟩ := (mem_drop_idxOf W.nodup hf).mp hs
    rw [V.after_inv W hy h3 h4]
    simp
  · unfold Pkg.pathToNext at hx
    obtain ⟨l', hl', rfl⟩ := List.mem_map.mp hx
    rw [List.mem_filter] at hl'
    obtain ⟨hl', hne⟩ := hl'
    have hne : l'.target ≠ FINAL := by simpa using hne
    have hl' : l' ∈ P.m.msg.links ∧ l'.source = f := by simpa [outgoing] using hl'
    obtain ⟨x, hx, hiff⟩ := H.publicCond W V.inside U V.chained hl'.1 hl'.2
    rw [hx]
    cases x with
    | false => rfl
    | true =>
      have ht := hiff.mp rfl
      have hp := hnext l' hl'.1 hl'.2 hne ht
      have htf := (W.links l' hl'.1).2.resolve_left hne
      have R' : Ready P b' lo hi c' (y :: ys) f pos' l'.target l' :=
        ⟨⟨H, htf, hp, List.ne_nil_of_mem (mem_between.mpr ⟨hl'.1, hl'.2, rfl⟩)⟩, hl'.1, hl'.2, rfl, ht⟩
      show allOf _ = _
      rw [allOf_true]
      intro x hx
      simp only [List.mem_cons, List.not_mem_nil, or_false] at hx
      rcases hx with rfl | rfl
      · have : l'.target ≠ INITIAL := fun h => W.initial (h ▸ htf)
        simp [Context.predecessor, this, hp]
      · exact validNext_true (R'.needNext W V.inside)
  · simp [contextInvariant, hk.1, hk.2.1, H.first, H.last, R.first, R.last]
  · have e1 : (c'.cursors f).pred = q := by
      have := V.chained [] y ys rfl
      rw [hy] at this
      rw [this]
      exact (follows_last R.follows).symm
    exact unchanged_true (a := q) (by simp [Context.predecessor, hfi, e1]) (by simp [Context.predecessor, hfi, R.pred])
  · exact unchanged_true (a := true) (validNext_true hn) (validNext_true (R.needNext W I))
  · obtain ⟨ds, hds, hmem⟩ := definite_ok W (R.source ▸ follows_path R.follows) R.mem R.target hf
    rw [hds]
    show allOf _ = _
    rw [allOf_true]
    intro x hx
    obtain ⟨g, hg, rfl⟩ := List.mem_map.mp hx
    rw [List.mem_filter] at hg
    obtain ⟨e, he, rfl⟩ := List.mem_map.mp (hmem g hg.1)
    exact unchanged_true (H.get W (List.mem_cons_of_mem _ he) hg.2).2 (R.toContains.get W he hg.2).2

/-! ## The end of a setter -/

theorem finish_keeps (W : WellFormed P) (hf : f ∈ P.m.msg.fields) {st : State} {first last v : Int} (h : P.finish c f st first last v = .ok c') :
    Keeps f c c' := by
  unfold Pkg.finish at h
  obtain ⟨s, h1, h⟩ := bind_run h
  cases h
  have hs : f ≠ s := by
    rintro rfl
    rcases successor_target h1 with h | ⟨l, hl, h2, h3⟩
    · exact W.initial (h ▸ hf)
    · have := W.order l hl (h2 ▸ hf) (h3 ▸ hf)
      rw [h2, h3] at this
      omega
  refine ⟨rfl, rfl, ?_⟩
  simp [Context.set, hs]

theorem reset_keeps (W : WellFormed P) (hf : f ∈ P.m.msg.fields) (h : P.reset c f = .ok c') :
    c'.bufFirst = c.bufFirst ∧ c'.bufLast = c.bufLast := by
  have hn : P.needNext c f = .ok () := by
    unfold Pkg.reset at h
    obtain ⟨_, h1, _⟩ := bind_run h
    exact h1
  rw [reset_ok W hf hn] at h
  cases h
  exact ⟨rfl, rfl⟩

theorem setScalar_keeps (W : WellFormed P) (hf : f ∈ P.m.msg.fields) {v : Int} (h : P.setScalar c f v = .ok c') : Keeps f c c' := by
  unfold Pkg.setScalar at h
  obtain ⟨_, _, h⟩ := bind_run h
  obtain ⟨_, _, h⟩ := bind_run h
  obtain ⟨_, _, h⟩ := bind_run h
  obtain ⟨_, _, h⟩ := bind_run h
  obtain ⟨_, _, h⟩ := bind_run h
  obtain ⟨_, _, h⟩ := bind_run h
  obtain ⟨_, _, h⟩ := bind_run h
  obtain ⟨_, _, h⟩ := bind_run h
  obtain ⟨c1, h1, h⟩ := bind_run h
  obtain ⟨⟨b1, first, last⟩, _, h⟩ := bind_run h
  obtain ⟨h2, h3⟩ := reset_keeps W hf h1
  obtain ⟨h4, h5, h6⟩ := finish_keeps W hf h
  exact ⟨h4.trans h2, h5.trans h3, h6⟩

theorem initializeField_keeps (W : WellFormed P) (hf : f ∈ P.m.msg.fields) (h : P.initializeField c f = .ok c') : Keeps f c c' := by
  unfold Pkg.initializeField at h
  obtain ⟨_, _, h⟩ := bind_run h
  obtain ⟨_, _, h⟩ := bind_run h
  obtain ⟨_, _, h⟩ := bind_run h
  obtain ⟨c1, h1, h⟩ := bind_run h
  obtain ⟨h2, h3⟩ := reset_keeps W hf h1
  obtain ⟨h4, h5, h6⟩ := finish_keeps W hf h
  exact ⟨h4.trans h2, h5.trans h3, h6⟩

theorem setEmpty_keeps (W : WellFormed P) (hf : f ∈ P.m.msg.fields) (h : P.setEmpty c f = .ok c') : Keeps f c c' := by
  unfold Pkg.setEmpty at h
  obtain ⟨_, _, h⟩ := bind_run h
  obtain ⟨_, _, h⟩ := bind_run h
  obtain ⟨_, _, h⟩ := bind_run h
  obtain ⟨_, _, h⟩ := bind_run h
  obtain ⟨_, _, h⟩ := bind_run h
  obtain ⟨c1, h1, h⟩ := bind_run h
  obtain ⟨h2, h3⟩ := reset_keeps W hf h1
  obtain ⟨h4, h5, h6⟩ := finish_keeps W hf h
  exact ⟨h4.trans h2, h5.trans h3, h6⟩

theorem setOpaque_keeps (W : WellFormed P) (hf : f ∈ P.m.msg.fields) {ds : List Nat} (h : P.setOpaque c f ds = .ok c') : Keeps f c c' := by
  unfold Pkg.setOpaque at h
  obtain ⟨_, _, h⟩ := bind_run h
  obtain ⟨_, _, h⟩ := bind_run h
  obtain ⟨_, _, h⟩ := bind_run h
  obtain ⟨_, _, h⟩ := bind_run h
  obtain ⟨c1, h1, h⟩ := bind_run h
  have hk := initializeField_keeps W hf h1
  cases hb : c1.buffer with
  | none => rw [hb] at h; cases h
  | some b1 =>
    rw [hb] at h
    obtain ⟨b2, _, h⟩ := bind_run h
    cases h
    exact hk

/-- Conditions that do not depend on the content of the last field. -/
theorem isTrue_free (W : WellFormed P) (U : Verified P lo hi) (I : InBuffer P b lo hi) (A : Agree b b' lo qpos) {y : Item}
    (h : Follows P.m.msg b lo hi ys q qpos) (hfree : ContentFree y.f l.condition) :
    IsTrue P.m.msg b' lo hi (y :: ys) l.condition ↔ IsTrue P.m.msg b lo hi (y :: ys) l.condition := by
  have same : (itemEnv P.m.msg b' lo hi (y :: ys)).set y.f.parts (.seq []) = (itemEnv P.m.msg b lo hi (y :: ys)).set y.f.parts (.seq []) := by
    unfold Env.set itemEnv
    congr 1
    funext k
    by_cases hk : k = y.f.parts
    · simp only [if_pos hk]
    · simp only [if_neg hk]
      cases ht : P.m.msg.type? ⟨k⟩ with
      | none => rfl
      | some t =>
        cases hf : (y :: ys).find? (fun e => e.f == ⟨k⟩) with
        | none => rfl
        | some e' =>
          simp only
          have hk' : e'.f = ⟨k⟩ := by simpa using List.find?_some hf
          cases hsc : t.isScalar with
          | true => rfl
          | false =>
            have he' : e' ∈ ys := by
              rcases List.mem_cons.mp (List.mem_of_find?_eq_some hf) with rfl | h
              · exact absurd (by rw [hk']) hk
              · exact h
            obtain ⟨a1, a2⟩ := U.aligned b I _ _ _ h e' he' t (by rw [hk']; exact type?_mem ht) (by rw [← scalar_iff, hsc]; simp)
            have hb := (follows_bounds W I.order h).2.2 e' he'
            have hlt := follows_last_lt W I.order h e' he'
            rw [A.bytesAt I a1 a2 hb.1 hlt]
  rw [IsTrue, ← hfree _ (.seq []), same, hfree _ (.seq []), IsTrue]

/-! ## The procedures -/

theorem hasBuffer_of (h : c.buffer = some b) : c.hasBuffer = true := by simp [Context.hasBuffer, h]

theorem Inv.setScalarPost (W : WellFormed P) (U : Verified P lo hi) (V : Inv P lo hi c b es p pos) (hf : f ∈ P.m.msg.fields) {v : Nat}
    (h : P.setScalar c f v = .ok c') (hv : ∀ t, (f, FTy.enum t) ∈ P.m.msg.types → (v : Int) ∈ t.literals.map (·.2)) :
    P.setScalarPost c c' f v = .ok true := by
  obtain ⟨hb, hpre⟩ := V.scalarPre W U hf h
  obtain ⟨c2, b', xs, ys, q, qpos, l, t, n, s, h2, hes, R, ht, hs, hn, h1, hle, A, _, hbits, hb', hcur, hpred, hsucc, V'⟩ := V.setScalar W U hb hpre
  obtain rfl := Except.ok.inj (h2.symm.trans h)
  have H := V'.contains hb'
  have hscal : P.isScalar f = true := by rw [isScalar_iff W.names ht, (scalar_iff t).mpr hs]
  obtain ⟨hvalid, hget⟩ := H.get W (e := ⟨f, qpos, qpos + n.v - 1, v⟩) List.mem_cons_self hscal
  unfold Pkg.setScalarPost
  rw [allOf_true]
  intro x hx
  simp only [List.mem_cons, List.not_mem_nil, or_false] at hx
  rcases hx with rfl | rfl | rfl | rfl | rfl
  · rw [hasBuffer_of hb']
  · rw [hvalid]
  · unfold Pkg.getIs
    rw [hget, type?_some W.names ht]
    show Except.ok _ = _
    congr 1
    simp only [decide_true, Bool.true_and]
    cases t with
    | enum t =>
      have := hv t ht
      simp only [decide_eq_true this, Bool.or_true]
    | _ => rfl
  · refine V'.setterPost W U V.inside R hb' rfl (setScalar_keeps W hf h) ?_
    intro l' hl' hs' _ htrue
    rcases hsucc with ⟨_, hnone⟩ | ⟨l1, hl1, hs1, ht1, htrue1⟩
    · exact absurd htrue (hnone l' hl' hs')
    · obtain rfl := U.deterministic b' V'.inside _ _ _ V'.holds.follows l' hl' l1 hl1 hs' hs1 htrue htrue1
      rw [ht1]
      exact hpred
  · exact front_same W hf fun g hg hlt => setScalar_front W hf h hg hlt

theorem Inv.compositePost (W : WellFormed P) (U : Verified P lo hi) (I : InBuffer P b lo hi) (R : Ready P b lo hi c ys q qpos f l) {y : Item} {pos' : Int}
    (V : Inv P lo hi c' b' (y :: ys) f pos') (hb : c'.buffer = some b') (hy : y.f = f) (hk : Keeps f c c')
    (hnext : ∀ l' ∈ P.m.msg.links, l'.source = f → l'.target ≠ FINAL → IsTrue P.m.msg b' lo hi (y :: ys) l'.condition → (c'.cursors l'.target).pred = f) :
    P.compositePost c c' f = .ok true := by
  unfold Pkg.compositePost
  rw [allOf_true]
  intro x hx
  simp only [List.mem_cons, List.not_mem_nil, or_false] at hx
  rcases hx with rfl | rfl | rfl
  · rw [hasBuffer_of hb]
  · exact V.setterPost W U I R hb hy hk hnext
  · rw [← hy, (V.contains hb).cursors.sv y List.mem_cons_self]

/-- The successor is the target of the only link whose condition holds. -/
theorem next_of (U : Verified P lo hi) (I : InBuffer P b lo hi) (h : Follows P.m.msg b lo hi es f pos) {l' : Link} (hl' : l' ∈ P.m.msg.links)
    (hs' : l'.source = f) (ht' : IsTrue P.m.msg b lo hi es l'.condition) (hp' : (c'.cursors l'.target).pred = f) (hl : l ∈ P.m.msg.links) (hs : l.source = f)
    (ht : IsTrue P.m.msg b lo hi es l.condition) : (c'.cursors l.target).pred = f := by
  obtain rfl := U.deterministic b I _ _ _ h l' hl' l hl hs' hs ht' ht
  exact hp'

theorem Inv.initializeFieldPost (W : WellFormed P) (U : Verified P lo hi) (V : Inv P lo hi c b es p pos) (hf : f ∈ P.m.msg.fields)
    (h : P.initializeField c f = .ok c') : P.compositePost c c' f = .ok true := by
  have hpre : P.compositePre c f = .ok () := by
    unfold Pkg.initializeField at h
    obtain ⟨_, h2, h⟩ := bind_run h
    exact h2
  obtain ⟨c2, xs, ys, q, qpos, l, n, l', h2, hes, C, _, _, hb', _, hl', hs', ht', hp', V'⟩ := V.initializeField W U hf hpre
  obtain rfl := Except.ok.inj (h2.symm.trans h)
  exact Inv.compositePost W U V.inside C.ready V' hb' rfl (initializeField_keeps W hf h)
    fun l1 h1 h2 _ h3 => next_of U V.inside V'.holds.follows hl' hs' ht' hp' h1 h2 h3

theorem Inv.setEmptyPost (W : WellFormed P) (U : Verified P lo hi) (V : Inv P lo hi c b es p pos) (hf : f ∈ P.m.msg.fields)
    (h : P.setEmpty c f = .ok c') : P.compositePost c c' f = .ok true := by
  have hpre : P.compositePre c f = .ok () ∧ P.fieldSize c f = .ok 0 := by
    unfold Pkg.setEmpty at h
    obtain ⟨_, h2, h⟩ := bind_run h
    obtain ⟨n, h3, h⟩ := bind_run h
    obtain ⟨_, h4, h⟩ := bind_run h
    have := of_decide_eq_true (need_run h4)
    exact ⟨h2, this ▸ h3⟩
  obtain ⟨c2, xs, ys, q, qpos, l, l', h2, hes, C, _, _, hb', _, hl', hs', ht', hp', V'⟩ := V.setEmpty W U hf hpre.1 hpre.2
  obtain rfl := Except.ok.inj (h2.symm.trans h)
  exact Inv.compositePost W U V.inside C.ready V' hb' rfl (setEmpty_keeps W hf h)
    fun l1 h1 h2 _ h3 => next_of U V.inside V'.holds.follows hl' hs' ht' hp' h1 h2 h3

theorem Inv.setOpaquePost (W : WellFormed P) (U : Verified P lo hi) (V : Inv P lo hi c b es p pos) {ds : List Nat}
    (h : P.step c (.setOpaque f ds) = .ok c') (hfree : ∀ l ∈ P.m.msg.links, l.source = f → l.target ≠ FINAL → ContentFree f l.condition) :
    P.compositePost c c' f = .ok true := by
  obtain ⟨hf, h, hpre, hd, hlen⟩ := V.setOpaque_step W U h
  obtain ⟨c2, b', xs, ys, q, qpos, l, l', h2, hes, C, hb', _, A, _, _, hl', hs', ht', hp', V'⟩ := V.setOpaque W U hf hpre hd hlen
  obtain rfl := Except.ok.inj (h2.symm.trans h)
  refine Inv.compositePost W U V.inside C.ready V' hb' rfl (setOpaque_keeps W hf h) ?_
  intro l1 h3 h4 h5 h6
  have hfo := follows_step C.ready.follows (C.step W)
  rw [C.ready.target] at hfo
  exact next_of U V.inside hfo hl' hs' ht' hp' h3 h4 ((isTrue_free W U V.inside A C.ready.follows (hfree l1 h3 h4 h5)).mp h6)

/-! ## Reset_Dependent_Fields, Verify, Take_Buffer -/

theorem sizeOf_fun (W : WellFormed P) {n k : Int} (h : SizeOf P b lo hi es l f n) (h' : SizeOf P b lo hi es l f k) : n = k := by
  obtain ⟨t, ht, h⟩ := h
  obtain ⟨t', ht', h'⟩ := h'
  obtain rfl := nodup_pair W.names.once ht ht'
  rcases h with ⟨hs, a, ha, rfl, _⟩ | ⟨hs, ha⟩
  · rcases h' with ⟨_, a', ha', rfl, _⟩ | ⟨hs', _⟩
    · rw [Except.ok.inj (ha.symm.trans ha')]
    · exact absurd hs hs'
  · rcases h' with ⟨hs', _⟩ | ⟨_, ha'⟩
    · exact absurd hs' hs
    · rw [ha] at ha'
      simpa using ha'

theorem Inv.resetPost (W : WellFormed P) (U : Verified P lo hi) (V : Inv P lo hi c b es p pos) (hb : c.buffer = some b) (hf : f ∈ P.m.msg.fields)
    (h : P.reset c f = .ok c') : P.resetPost c c' f = .ok true := by
  have hn : P.needNext c f = .ok () := by
    unfold Pkg.reset at h
    obtain ⟨_, h3, _⟩ := bind_run h
    exact h3
  obtain ⟨c2, xs, ys, q, qpos, l, h2, hes, V', R, R', hb', _⟩ := V.reset W hb hf hn
  obtain rfl := Except.ok.inj (h2.symm.trans h)
  have hex := h
  rw [reset_ok W hf hn] at hex
  have hcur := congrArg Context.cursors (Except.ok.inj hex)
  have hback := congrArg (fun c : Context => (c.bufFirst, c.bufLast, c.first, c.last, c.buffer)) (Except.ok.inj hex)
  simp only [Prod.mk.injEq] at hback
  have hinv : ∀ g ∈ P.m.msg.fields, P.m.msg.fields.idxOf f < P.m.msg.fields.idxOf g → (c2.cursors g).inv = true := by
    intro g hg hlt
    rw [← hcur]
    have : g ≠ f := fun h => by rw [h] at hlt; omega
    simp only [if_neg this, if_pos (And.intro hg hlt)]
    rfl
  have hfc : c2.cursors f = invalidFrom (c.cursors f).pred := by rw [← hcur]; simp
  unfold Pkg.resetPost
  rw [allOf_true]
  intro x hx
  simp only [List.mem_cons, List.not_mem_nil, or_false] at hx
  rcases hx with rfl | rfl | rfl | rfl | rfl | rfl | rfl | rfl | rfl | rfl
  · exact validNext_true (R'.needNext W V.inside)
  · rw [hfc]; rfl
  · congr 1
    rw [Bool.or_eq_true]
    right
    unfold Pkg.invalidSuccessor
    rw [List.all_eq_true]
    intro s hs
    rw [List.mem_filter] at hs
    have hne : s ≠ FINAL := by simpa using hs.2
    have hm : s ∈ (outgoing P.m.msg.links f).map Link.target := by
      have := hs.1
      unfold directSuccessors at this
      exact mem_dedup.mp this
    obtain ⟨l', hl', rfl⟩ := List.mem_map.mp hm
    have hl' : l' ∈ P.m.msg.links ∧ l'.source = f := by simpa [outgoing] using hl'
    have ht := (W.links l' hl'.1).2.resolve_left hne
    have := W.order l' hl'.1 (hl'.2 ▸ hf) ht
    rw [hl'.2] at this
    exact hinv _ ht this
  · obtain ⟨e1, e2, e3, e4, _⟩ := hback
    simp [contextInvariant, e1, e2, e3, e4]
  · rw [hfc]; simp [invalidFrom]
  · rw [hasBuffer_of hb, hasBuffer_of hb']; rfl
  · exact unchanged_true (R'.fieldFirst W V.inside) (R.fieldFirst W V.inside)
  · obtain ⟨n, hz, hn, _⟩ := R.fieldSize W V.inside (U.deterministic b V.inside) (U.sizes b V.inside)
    obtain ⟨k, hz', hk, _⟩ := R'.fieldSize W V.inside (U.deterministic b V.inside) (U.sizes b V.inside)
    obtain rfl := sizeOf_fun W hz hz'
    exact unchanged_true hk hn
  · exact front_same W hf fun g hg hlt => reset_front W hf h hlt
  · rw [successors_ok W hf]
    show Except.ok _ = _
    congr 1
    rw [List.all_eq_true]
    intro s hs
    rcases List.mem_cons.mp hs with rfl | hs
    · rw [hfc]; rfl
    · obtain ⟨h3, h4⟩ := (mem_drop_idxOf W.nodup hf).mp hs
      exact hinv s h3 h4

/-- Components that `Verify` does not change. -/
def SameBounds (c c' : Context) : Prop :=
  c'.bufFirst = c.bufFirst ∧ c'.bufLast = c.bufLast ∧ c'.first = c.first ∧ c'.last = c.last ∧ c'.buffer = c.buffer

theorem SameBounds.post (h : SameBounds c c') : verifyPost c c' = .ok true := by
  obtain ⟨h1, h2, h3, h4, h5⟩ := h
  have : c'.hasBuffer = c.hasBuffer := by simp [Context.hasBuffer, h5]
  simp [verifyPost, allOf, contextInvariant, h1, h2, h3, h4, this, bind, Except.bind, pure, Except.pure]

theorem verify_bounds (h : P.verify c f = .ok c') : SameBounds c c' := by
  have refl : ∀ {c}, SameBounds c c := fun {c} => ⟨rfl, rfl, rfl, rfl, rfl⟩
  unfold Pkg.verify at h
  split at h
  · obtain ⟨x, _, h⟩ := bind_run h
    split at h
    · obtain ⟨x, _, h⟩ := bind_run h
      split at h
      · obtain ⟨_, _, h⟩ := bind_run h
        obtain ⟨_, _, h⟩ := bind_run h
        obtain ⟨_, _, h⟩ := bind_run h
        obtain ⟨_, _, h⟩ := bind_run h
        split at h
        · obtain ⟨_, _, h⟩ := bind_run h
          obtain ⟨_, _, h⟩ := bind_run h
          obtain ⟨_, _, h⟩ := bind_run h
          cases h
          exact ⟨rfl, rfl, rfl, rfl, rfl⟩
        · cases h
          exact ⟨rfl, rfl, rfl, rfl, rfl⟩
      · cases h
        exact ⟨rfl, rfl, rfl, rfl, rfl⟩
    · cases h
      exact refl
  · cases h
    exact refl

theorem verifyMessage_bounds (h : P.verifyMessage c = .ok c') : SameBounds c c' := by
  unfold Pkg.verifyMessage at h
  generalize P.m.msg.fields = fs at h
  induction fs generalizing c with
  | nil => cases h; exact ⟨rfl, rfl, rfl, rfl, rfl⟩
  | cons g fs ih =>
    rw [List.foldlM_cons] at h
    obtain ⟨c1, h1, h2⟩ := bind_run h
    obtain ⟨a1, a2, a3, a4, a5⟩ := verify_bounds h1
    obtain ⟨b1, b2, b3, b4, b5⟩ := ih h2
    exact ⟨b1.trans a1, b2.trans a2, b3.trans a3, b4.trans a4, b5.trans a5⟩

theorem Inv.takeBufferPost (V : Inv P lo hi c b es p pos) (hb : c.buffer = some b) {b1 : Bytes} (h : P.takeBuffer c = .ok (c', b1)) :
    b1 = b ∧ P.takeBufferPost b1 c c' = .ok true := by
  unfold Pkg.takeBuffer at h
  rw [hb] at h
  cases h
  refine ⟨rfl, ?_⟩
  unfold Pkg.takeBufferPost
  rw [allOf_true]
  intro x hx
  simp only [List.mem_cons, List.not_mem_nil, or_false] at hx
  rcases hx with rfl | rfl | rfl | rfl | rfl
  · rfl
  · simp [V.bounds.1]
  · simp [V.bounds.2]
  · simp [contextInvariant]
  · exact congrArg _ (sameCursors_of rfl)

end

end Verif.Ctx
