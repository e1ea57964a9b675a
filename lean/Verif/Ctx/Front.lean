import Verif.Ctx.Steps

/-! # Setters keep the cursors of the fields in front -/

namespace Verif.Ctx
open Verif Verif.Graph Verif.Verify Verif.Types Verif.Gen Verif.Spark

section
variable {P : Pkg} {b : Bytes} {lo hi : Int} {c c' : Context} {es : List Item} {p : Field} {pos : Int} {f g s : Field} {l : Link}

theorem firstTrue_mem {α : Type} : ∀ {xs : List (Run Bool × α)} {a : α}, firstTrue xs = .ok (some a) → ∃ x ∈ xs, x.2 = a
  | [], _, h => by cases h
  | (x, y) :: xs, a, h => by
    unfold firstTrue at h
    obtain ⟨r, _, h⟩ := bind_run h
    cases r with
    | true => cases h; exact ⟨_, List.mem_cons_self, rfl⟩
    | false =>
      obtain ⟨z, hz, he⟩ := firstTrue_mem (xs := xs) h
      exact ⟨z, List.mem_cons_of_mem _ hz, he⟩

theorem successor_target (h : P.successor c f = .ok s) : s = INITIAL ∨ ∃ l ∈ P.m.msg.links, l.source = f ∧ l.target = s := by
  unfold Pkg.successor at h
  obtain ⟨_, _, h⟩ := bind_run h
  obtain ⟨_, _, h⟩ := bind_run h
  obtain ⟨_, _, h⟩ := bind_run h
  obtain ⟨r, h1, h⟩ := bind_run h
  cases r with
  | none => cases h; exact .inl rfl
  | some t =>
    cases h
    obtain ⟨x, hx, rfl⟩ := firstTrue_mem h1
    obtain ⟨l, hl, rfl⟩ := List.mem_map.mp hx
    have : l ∈ P.m.msg.links ∧ l.source = f := by simpa [outgoing] using hl
    exact .inr ⟨l, this.1, this.2, rfl⟩

theorem finish_front (W : WellFormed P) (hf : f ∈ P.m.msg.fields) {st : State} {first last v : Int} (h : P.finish c f st first last v = .ok c')
    (hg : g ∈ P.m.msg.fields) (hlt : P.m.msg.fields.idxOf g < P.m.msg.fields.idxOf f) : c'.cursors g = c.cursors g := by
  unfold Pkg.finish at h
  obtain ⟨s, h1, h⟩ := bind_run h
  cases h
  have hgf : g ≠ f := fun h => by subst h; exact Nat.lt_irrefl _ hlt
  have hgs : g ≠ s := by
    rintro rfl
    rcases successor_target h1 with h | ⟨l, hl, hs, ht⟩
    · exact W.initial (h ▸ hg)
    · have := W.order l hl (hs ▸ hf) (ht ▸ hg)
      rw [hs, ht] at this
      omega
  simp [Context.set, hgf, hgs]

theorem reset_front (W : WellFormed P) (hf : f ∈ P.m.msg.fields) (h : P.reset c f = .ok c')
    (hlt : P.m.msg.fields.idxOf g < P.m.msg.fields.idxOf f) : c'.cursors g = c.cursors g := by
  have hn : P.needNext c f = .ok () := by
    unfold Pkg.reset at h
    obtain ⟨_, h1, _⟩ := bind_run h
    exact h1
  rw [reset_ok W hf hn] at h
  cases h
  have hgf : g ≠ f := fun h => by subst h; exact Nat.lt_irrefl _ hlt
  simp only [if_neg hgf]
  rw [if_neg fun h => by omega]

theorem setScalar_front (W : WellFormed P) (hf : f ∈ P.m.msg.fields) {v : Int} (h : P.setScalar c f v = .ok c') (hg : g ∈ P.m.msg.fields)
    (hlt : P.m.msg.fields.idxOf g < P.m.msg.fields.idxOf f) : c'.cursors g = c.cursors g := by
  unfold Pkg.setScalar at h
  obtain ⟨_, _, h⟩ := bind_run h
  obtain ⟨_, _, h⟩ := bind_run h
  obtain ⟨_, _, h⟩ := bind_run h
  obtain ⟨_, _, h⟩ := bind_run h
  obtain ⟨_, _, h⟩ := bind_run h
  obtain ⟨_, _, h⟩ := bind_run h
  obtain ⟨_, _, h⟩ := bind_run h
  obtain ⟨_, _, h⟩ := bind_run h
  obtain ⟨c1, h1, h⟩ := bind_run h
  obtain ⟨⟨b1, first, last⟩, _, h⟩ := bind_run h
  have h2 := reset_front W hf h1 hlt
  exact (finish_front W hf h hg hlt).trans h2

theorem initializeField_front (W : WellFormed P) (hf : f ∈ P.m.msg.fields) (h : P.initializeField c f = .ok c') (hg : g ∈ P.m.msg.fields)
    (hlt : P.m.msg.fields.idxOf g < P.m.msg.fields.idxOf f) : c'.cursors g = c.cursors g := by
  unfold Pkg.initializeField at h
  obtain ⟨_, _, h⟩ := bind_run h
  obtain ⟨_, _, h⟩ := bind_run h
  obtain ⟨_, _, h⟩ := bind_run h
  obtain ⟨c1, h1, h⟩ := bind_run h
  exact (finish_front W hf h hg hlt).trans (reset_front W hf h1 hlt)

theorem setOpaque_front (W : WellFormed P) (hf : f ∈ P.m.msg.fields) {ds : List Nat} (h : P.setOpaque c f ds = .ok c') (hg : g ∈ P.m.msg.fields)
    (hlt : P.m.msg.fields.idxOf g < P.m.msg.fields.idxOf f) : c'.cursors g = c.cursors g := by
  unfold Pkg.setOpaque at h
  obtain ⟨_, _, h⟩ := bind_run h
  obtain ⟨_, _, h⟩ := bind_run h
  obtain ⟨_, _, h⟩ := bind_run h
  obtain ⟨_, _, h⟩ := bind_run h
  obtain ⟨c1, h1, h⟩ := bind_run h
  rw [← initializeField_front W hf h1 hg hlt]
  cases hb : c1.buffer with
  | none => rw [hb] at h; cases h
  | some b1 =>
    rw [hb] at h
    obtain ⟨b2, _, h⟩ := bind_run h
    cases h
    rfl

/-- The bytes of a call. -/
theorem Inv.setOpaque_step (W : WellFormed P) (U : Verified P lo hi) (V : Inv P lo hi c b es p pos) {ds : List Nat} (h : P.step c (.setOpaque f ds) = .ok c') :
    f ∈ P.m.msg.fields ∧ P.setOpaque c f ds = .ok c' ∧ P.compositePre c f = .ok () ∧ AreBytes ds ∧
      ∃ n, P.fieldSize c f = .ok n ∧ (8 * ds.length : Int) = n := by
  obtain ⟨_, h1, h⟩ := bind_run h
  obtain ⟨_, h2, h⟩ := bind_run h
  have hd : AreBytes ds := by
    have := need_run h2
    rw [List.all_eq_true] at this
    intro x hx
    exact of_decide_eq_true (this x hx)
  obtain ⟨hpre, first, last, h3, h4, h5⟩ := setOpaque_pre h
  obtain ⟨hb, hn, xs, ys, q, qpos, l, n, hes, C⟩ := V.compositePre W U (needField_run h1) hpre
  have R := C.ready
  have e1 := Except.ok.inj (h3.symm.trans (R.fieldFirst W V.inside))
  have e2 := Except.ok.inj (h4.symm.trans (R.fieldLast W V.inside C.size C.natural C.start C.space))
  refine ⟨needField_run h1, h, hpre, hd, n, C.size, ?_⟩
  obtain ⟨a1, a2⟩ := C.aligned
  have := C.natural
  simp only [byteIndex] at h5
  omega

end

end Verif.Ctx
