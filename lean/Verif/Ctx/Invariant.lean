import Verif.Ctx.Write
import Verif.Ctx.History

/-! # What holds in every state of a context -/

namespace Verif.Ctx
open Verif Verif.Graph Verif.Verify Verif.Types Verif.Gen Verif.Spark

/-- What `rflx` proves about a message, for every content of the buffer: conditions of links are disjoint (C18), sizes are not
negative and composite fields consist of whole bytes (C19). In addition sizes are in range, and the first field is not
empty. -/
structure Verified (P : Pkg) (lo hi : Int) : Prop where
  deterministic : ∀ b, InBuffer P b lo hi → Deterministic P.m.msg b lo hi
  sizes : ∀ b, InBuffer P b lo hi → Sizes P b lo hi
  aligned : ∀ b, InBuffer P b lo hi → Aligned P b lo hi
  nonempty : ∀ b, InBuffer P b lo hi → ∀ y p pos, Follows P.m.msg b lo hi [y] p pos → y.first ≤ y.last

/-- The state of a context: the buffer `b` (which may have been taken) contains the fields `es`, these are the ones that are valid.
At most one field may come next. -/
structure Inv (P : Pkg) (lo hi : Int) (c : Context) (b : Bytes) (es : List Item) (p : Field) (pos : Int) : Prop where
  inside : InBuffer P b lo hi
  buffer : c.buffer = some b ∨ c.buffer = none
  bounds : c.bufFirst = b.first ∧ c.bufLast = b.last
  holds : Contains P b lo hi { c with buffer := some b } es p pos
  chained : Chained c es
  others : Others P c es
  pending : ∀ f ∈ P.m.msg.fields, f ∉ es.map (·.f) → (c.cursors f).pred = FINAL ∨ (c.cursors f).pred = p ∧ between P.m.msg p f ≠ []
  unique : ∀ f ∈ P.m.msg.fields, ∀ g ∈ P.m.msg.fields, f ∉ es.map (·.f) → g ∉ es.map (·.f) → (c.cursors f).pred ≠ FINAL → (c.cursors g).pred ≠ FINAL → f = g
  messageLast : lo ≤ c.messageLast ∧ c.messageLast ≤ hi
  covers : ∀ e ∈ es, e.last ≤ c.messageLast

section
variable {P : Pkg} {b : Bytes} {lo hi : Int} {c : Context} {es : List Item} {p : Field} {pos : Int} {f : Field} {l : Link}

theorem Inv.contains (V : Inv P lo hi c b es p pos) (hb : c.buffer = some b) : Contains P b lo hi c es p pos := by
  have := V.holds
  rwa [show ({ c with buffer := some b } : Context) = c by rw [← hb]] at this

/-- After `Initialize`. -/
theorem Inv.init (W : WellFormed P) (I : InBuffer P b lo hi) : Inv P lo hi ⟨b.first, b.last, lo, hi, lo, some b,
    fun f => if P.m.msg.fields.head? = some f then invalidFrom INITIAL else invalidFrom FINAL⟩ b [] INITIAL lo where
  inside := I
  buffer := .inl rfl
  bounds := ⟨rfl, rfl⟩
  holds := ⟨.start, rfl, rfl, rfl, ⟨by simp, by simp, by simp, by simp, by simp⟩⟩
  chained := by intro xs y ys h; simp at h
  others := by
    intro f _ _
    simp only
    split <;> rfl
  pending := by
    intro f hf _
    simp only
    split
    · rename_i hh
      right
      obtain ⟨l, hl, hhd⟩ := W.start
      rw [hhd, Option.some.injEq] at hh
      refine ⟨rfl, List.ne_nil_of_mem (a := l) (mem_between.mpr ?_)⟩
      have : l ∈ outgoing P.m.msg.links INITIAL := by rw [hl]; exact List.mem_cons_self
      simp only [outgoing, List.mem_filter, beq_iff_eq] at this
      exact ⟨this.1, this.2, hh⟩
    · left; rfl
  unique := by
    intro f _ g _ _ _ hf hg
    simp only at hf hg
    split at hf
    · split at hg
      · rename_i h1 h2
        rw [h1] at h2
        exact Option.some.inj h2
      · exact absurd rfl hg
    · exact absurd rfl hf
  messageLast := ⟨Int.le_refl _, I.order⟩
  covers := by simp

theorem needNext_ok (h : P.needNext c f = .ok ()) : P.validPredecessor c f = true ∧ P.pathCondition c f = .ok true := by
  unfold Pkg.needNext Pkg.validNext at h
  split at h
  · rename_i hv
    refine ⟨hv, ?_⟩
    cases hp : P.pathCondition c f with
    | error e => rw [hp] at h; cases h
    | ok x =>
      rw [hp] at h
      cases x with
      | true => rfl
      | false => cases h
  · cases h

/-- A field that may be set: it comes after some of the fields. -/
theorem Inv.ready (W : WellFormed P) (V : Inv P lo hi c b es p pos) (hb : c.buffer = some b) (hf : f ∈ P.m.msg.fields) (hn : P.needNext c f = .ok ()) :
    ∃ xs ys q qpos l, es = xs ++ ys ∧ Ready P b lo hi c ys q qpos f l ∧ (xs = [] ∨ ∃ zs z, xs = zs ++ [z] ∧ z.f = f) := by
  have H := V.contains hb
  by_cases hm : f ∈ es.map (·.f)
  · obtain ⟨e, he, rfl⟩ := List.mem_map.mp hm
    obtain ⟨xs, ys, hes⟩ := List.append_of_mem he
    obtain ⟨q, qpos, l, R, _⟩ := H.ready W V.chained hes
    exact ⟨xs ++ [e], ys, q, qpos, l, by simp [hes], R, .inr ⟨xs, e, rfl, rfl⟩⟩
  · obtain ⟨h1, h2⟩ := needNext_ok hn
    rcases V.pending f hf hm with h | ⟨h3, h4⟩
    · rw [validPredecessor_final W hf h] at h1
      cases h1
    · have N : Next P b lo hi c es p pos f := ⟨H, hf, h3, h4⟩
      obtain ⟨x, hx, hiff⟩ := N.pathCondition W V.inside
      rw [h2] at hx
      cases hx
      obtain ⟨l, hl, ht⟩ := hiff.mp rfl
      obtain ⟨h5, h6, h7⟩ := mem_between.mp hl
      exact ⟨[], es, p, pos, l, rfl, ⟨N, h5, h6, h7, ht⟩, .inl rfl⟩

/-- Fields that have been set are in the order of the message. -/
theorem follows_order (W : WellFormed P) {xs ys : List Item} {z : Item} (h : Follows P.m.msg b lo hi (xs ++ z :: ys) p pos) :
    (∀ e ∈ xs, P.m.msg.fields.idxOf z.f < P.m.msg.fields.idxOf e.f) ∧ (∀ e ∈ ys, P.m.msg.fields.idxOf e.f < P.m.msg.fields.idxOf z.f) ∧
      P.m.msg.fields.idxOf z.f ≤ P.m.msg.fields.idxOf p := by
  have lt : ∀ {g g' : Field}, g ∈ P.m.msg.fields → g ≠ g' → P.m.msg.fields.idxOf g ≤ P.m.msg.fields.idxOf g' →
      P.m.msg.fields.idxOf g < P.m.msg.fields.idxOf g' := by
    intro g g' hg hne hle
    rcases Nat.lt_or_eq_of_le hle with h | h
    · exact h
    · exfalso
      apply hne
      have h1 := List.getElem_idxOf (List.idxOf_lt_length_of_mem hg)
      have h2 : P.m.msg.fields.idxOf g' < P.m.msg.fields.length := by rw [← h]; exact List.idxOf_lt_length_of_mem hg
      have h3 := List.getElem_idxOf h2
      rw [← h1, ← h3]
      congr 1
  have hmem : ∀ e ∈ xs ++ z :: ys, e.f ∈ P.m.msg.fields := fun e he => follows_fields W h he
  have hnd := follows_nodup W h
  refine ⟨?_, ?_, ?_⟩
  · intro e he
    obtain ⟨as, bs, rfl⟩ := List.append_of_mem he
    rw [List.append_assoc] at h
    obtain ⟨q, qpos, h1⟩ := follows_suffix h
    have hq := follows_last h1
    simp only [List.cons_append, lastField] at hq
    subst hq
    obtain ⟨h2, h3⟩ := path_order W (follows_path h1)
    refine lt (hmem z (by simp)) ?_ (h2 _ (by simp))
    intro heq
    simp only [List.cons_append, List.map_cons, List.map_append, List.nodup_cons] at h3
    exact h3.1 (by simp [heq])
  · intro e he
    obtain ⟨q, qpos, h1⟩ := follows_suffix h
    have hq := follows_last h1
    simp only [lastField] at hq
    subst hq
    obtain ⟨h2, h3⟩ := path_order W (follows_path h1)
    refine lt (hmem e (by simp [he])) ?_ (h2 _ (by simp only [List.map_cons, List.mem_cons]; exact .inr (List.mem_map_of_mem he)))
    intro heq
    simp only [List.map_cons, List.nodup_cons] at h3
    exact h3.1 (by rw [← heq]; exact List.mem_map_of_mem he)
  · exact (path_order W (follows_path h)).1 _ (by simp)

theorem set_cursor {g : Field} {k : Cursor} : (c.set f k).cursors g = if g = f then k else c.cursors g := rfl

theorem foldl_set (c : Context) (k : Cursor) (gs : List Field) :
    (gs.foldl (fun c s => c.set s k) c) = { c with cursors := fun g => if g ∈ gs then k else c.cursors g } := by
  induction gs generalizing c with
  | nil => simp
  | cons g gs ih =>
    rw [List.foldl_cons, ih]
    simp only [Context.set, Context.mk.injEq, true_and]
    funext h
    by_cases h1 : h ∈ gs
    · simp [h1]
    · by_cases h2 : h = g <;> simp [h1, h2]

theorem idxOf_ne {xs : List Field} {a g : Field} (h : a ≠ g) : (a :: xs).idxOf g = xs.idxOf g + 1 := by
  rw [List.idxOf_cons, show (a == g) = false from by simpa using h]
  rfl

theorem mem_drop_idxOf {xs : List Field} (hn : xs.Nodup) (hf : f ∈ xs) {g : Field} : g ∈ xs.drop (xs.idxOf f + 1) ↔ g ∈ xs ∧ xs.idxOf f < xs.idxOf g := by
  induction xs with
  | nil => cases hf
  | cons a xs ih =>
    rw [List.nodup_cons] at hn
    by_cases ha : a = f
    · subst ha
      simp only [List.idxOf_cons_self, Nat.zero_add, List.drop_succ_cons, List.drop_zero, List.mem_cons]
      constructor
      · intro h
        refine ⟨.inr h, ?_⟩
        rw [idxOf_ne (a := a) (g := g) (fun h' => hn.1 (h' ▸ h))]
        omega
      · rintro ⟨rfl | h, h2⟩
        · simp at h2
        · exact h
    · have hf' : f ∈ xs := (List.mem_cons.mp hf).resolve_left fun h => ha h.symm
      rw [idxOf_ne ha, List.drop_succ_cons, ih hn.2 hf']
      constructor
      · rintro ⟨h1, h2⟩
        refine ⟨List.mem_cons_of_mem _ h1, ?_⟩
        rw [idxOf_ne (a := a) (g := g) (fun h' => hn.1 (h' ▸ h1))]
        omega
      · rintro ⟨h1, h2⟩
        rcases List.mem_cons.mp h1 with rfl | h1
        · simp at h2
        · refine ⟨h1, ?_⟩
          rw [idxOf_ne (a := a) (g := g) (fun h' => hn.1 (h' ▸ h1))] at h2
          omega

/-- `Reset_Dependent_Fields`. -/
theorem reset_ok (W : WellFormed P) (hf : f ∈ P.m.msg.fields) (hn : P.needNext c f = .ok ()) :
    P.reset c f = .ok { c with cursors := fun g => if g = f then invalidFrom (c.cursors f).pred else
      if g ∈ P.m.msg.fields ∧ P.m.msg.fields.idxOf f < P.m.msg.fields.idxOf g then invalidFrom FINAL else c.cursors g } := by
  have hs : successors P.m.msg.fields f = .ok (P.m.msg.fields.drop (P.m.msg.fields.idxOf f + 1)) := by
    unfold successors
    rw [if_neg (fun h : f = INITIAL => W.initial (h ▸ hf)), if_neg (fun h : f = FINAL => W.final (h ▸ hf)), if_pos hf]
  simp only [Pkg.reset, hn, hs, ofPy, bind, Except.bind, foldl_set]
  show Except.ok _ = _
  congr 1
  simp only [Context.set, Context.mk.injEq, true_and]
  funext g
  have hff : f ∉ P.m.msg.fields.drop (P.m.msg.fields.idxOf f + 1) := by
    intro h
    have := ((mem_drop_idxOf W.nodup hf).mp h).2
    omega
  by_cases hg : g = f
  · simp [hg, hff]
  · simp only [hg, if_false, List.mem_reverse, mem_drop_idxOf W.nodup hf]

/-- The state after `Reset_Dependent_Fields`: the fields in front of `f`. -/
theorem Inv.reset (W : WellFormed P) (V : Inv P lo hi c b es p pos) (hb : c.buffer = some b) (hf : f ∈ P.m.msg.fields) (hn : P.needNext c f = .ok ()) :
    ∃ c' xs ys q qpos l, P.reset c f = .ok c' ∧ es = xs ++ ys ∧ Inv P lo hi c' b ys q qpos ∧ Ready P b lo hi c ys q qpos f l ∧
      Ready P b lo hi c' ys q qpos f l ∧ c'.buffer = some b ∧
      (∀ g ∈ P.m.msg.fields, g ∉ ys.map (·.f) → g ≠ f → (c'.cursors g).pred = FINAL) := by
  obtain ⟨xs, ys, q, qpos, l, hes, R, hx⟩ := V.ready W hb hf hn
  have H := V.contains hb
  refine ⟨_, xs, ys, q, qpos, l, reset_ok W hf hn, hes, ?_⟩
  -- fields in front of `f` keep their cursors
  have hlt : ∀ e ∈ ys, P.m.msg.fields.idxOf e.f < P.m.msg.fields.idxOf f := by
    rcases hx with rfl | ⟨zs, z, rfl, rfl⟩
    · intro e he
      have h1 := follows_path R.follows
      have h2 := Path.step h1 R.mem R.source (R.target ▸ R.ne_final W)
      rw [R.target] at h2
      have hle := (path_order W h2).1 e.f (List.mem_cons_of_mem _ (List.mem_map_of_mem he))
      rcases Nat.lt_or_eq_of_le hle with h | h
      · exact h
      · exfalso
        have hm := follows_fields W R.follows he
        have h3 := List.getElem_idxOf (List.idxOf_lt_length_of_mem hm)
        have h4 := List.getElem_idxOf (List.idxOf_lt_length_of_mem hf)
        have : e.f = f := by
          rw [← h3, ← h4]
          congr 1
        exact R.toNext.new W (this ▸ List.mem_map_of_mem he)
    · rw [hes, List.append_assoc] at H
      exact (follows_order W H.follows).2.1
  have hne : ∀ e ∈ ys, e.f ≠ f := fun e he h => R.toNext.new W (h ▸ List.mem_map_of_mem he)
  have hsame : ∀ e ∈ ys, (if e.f = f then invalidFrom (c.cursors f).pred else
      if e.f ∈ P.m.msg.fields ∧ P.m.msg.fields.idxOf f < P.m.msg.fields.idxOf e.f then invalidFrom FINAL else c.cursors e.f) = c.cursors e.f := by
    intro e he
    have := hlt e he
    rw [if_neg (hne e he), if_neg (by omega)]
  -- fields after `f`, and the others that have been set or come next
  have hafter : ∀ g ∈ P.m.msg.fields, g ∉ ys.map (·.f) → g ≠ f → ¬ (g ∈ P.m.msg.fields ∧ P.m.msg.fields.idxOf f < P.m.msg.fields.idxOf g) →
      g ∉ es.map (·.f) ∧ (c.cursors g).pred = FINAL := by
    intro g hg hgy hgf hidx
    have hidx : ¬ P.m.msg.fields.idxOf f < P.m.msg.fields.idxOf g := fun h => hidx ⟨hg, h⟩
    rcases hx with rfl | ⟨zs, z, rfl, rfl⟩
    · simp only [List.nil_append] at hes
      subst hes
      refine ⟨hgy, ?_⟩
      by_cases hp : (c.cursors g).pred = FINAL
      · exact hp
      · refine absurd (V.unique g hg f hf hgy (R.toNext.new W) hp ?_) hgf
        rw [R.pred, ← R.source]
        intro h
        rcases (W.links l R.mem).1 with h' | h'
        · exact initial_ne_final (h'.symm.trans h)
        · exact W.final (h ▸ h')
    · rw [List.append_assoc] at hes
      subst hes
      have ho := follows_order W H.follows
      have hge : g ∉ (zs ++ ([z] ++ ys)).map (·.f) := by
        intro hm
        simp only [List.map_append, List.map_cons, List.map_nil, List.mem_append, List.mem_cons, List.not_mem_nil, or_false] at hm
        rcases hm with hm | hm | hm
        · obtain ⟨e, he, rfl⟩ := List.mem_map.mp hm
          exact hidx (ho.1 e he)
        · exact hgf hm
        · exact hgy hm
      refine ⟨hge, ?_⟩
      rcases V.pending g hg hge with h | ⟨_, h⟩
      · exact h
      · exfalso
        apply hidx
        obtain ⟨l', hl'⟩ := List.exists_mem_of_ne_nil _ h
        obtain ⟨h1, h2, h3⟩ := mem_between.mp hl'
        have hp : p ∈ P.m.msg.fields := by
          rcases (W.links l' h1).1 with h4 | h4
          · exfalso
            rw [h2] at h4
            have hm : p ∈ (zs ++ ([z] ++ ys)).map (·.f) := by
              have := follows_last H.follows
              rw [this]
              cases zs <;> simp [lastField]
            exact W.initial (h4 ▸ (path_mem W (follows_path H.follows)).1 p hm)
          · exact h2 ▸ h4
        have := W.order l' h1 (h2 ▸ hp) (h3 ▸ hg)
        rw [h2, h3] at this
        have := ho.2.2
        omega
  have hfin : ∀ g ∈ P.m.msg.fields, g ∉ ys.map (·.f) → g ≠ f → (if g = f then invalidFrom (c.cursors f).pred else
      if g ∈ P.m.msg.fields ∧ P.m.msg.fields.idxOf f < P.m.msg.fields.idxOf g then invalidFrom FINAL else c.cursors g).pred = FINAL := by
    intro g hg hgy hgf
    rw [if_neg hgf]
    split
    · rfl
    · rename_i h
      exact (hafter g hg hgy hgf h).2
  have hcy : Contains P b lo hi _ ys q qpos := R.toContains.congr (c' := ⟨c.bufFirst, c.bufLast, c.first, c.last, c.messageLast, c.buffer,
      fun g => if g = f then invalidFrom (c.cursors f).pred else
        if g ∈ P.m.msg.fields ∧ P.m.msg.fields.idxOf f < P.m.msg.fields.idxOf g then invalidFrom FINAL else c.cursors g⟩) rfl rfl rfl hsame
  refine ⟨?_, R, ⟨⟨hcy, hf, by simp [invalidFrom, R.pred], R.link⟩, R.mem, R.source, R.target, R.holds⟩, hb, hfin⟩
  exact
    { inside := V.inside
      buffer := .inl hb
      bounds := V.bounds
      holds := by
        refine hcy.congr ?_ rfl rfl fun _ _ => rfl
        exact hb.symm
      chained := by
        intro as y bs he
        show (if y.f = f then _ else _ : Cursor).pred = _
        rw [hsame y (by simp [he])]
        exact V.chained (xs ++ as) y bs (by simp [hes, he])
      others := by
        intro g hg hgy
        show (if g = f then _ else _ : Cursor).inv = _
        split
        · rfl
        · rename_i hgf
          split
          · rfl
          · rename_i h
            exact V.others g hg (hafter g hg hgy hgf h).1
      pending := by
        intro g hg hgy
        by_cases hgf : g = f
        · right
          subst hgf
          exact ⟨by simp [invalidFrom, R.pred], R.link⟩
        · exact .inl (hfin g hg hgy hgf)
      unique := by
        intro g hg h hh hgy hhy hpg hph
        have h1 : g = f := by
          by_cases hgf : g = f
          · exact hgf
          · exact absurd (hfin g hg hgy hgf) hpg
        have h2 : h = f := by
          by_cases hhf : h = f
          · exact hhf
          · exact absurd (hfin h hh hhy hhf) hph
        rw [h1, h2]
      messageLast := V.messageLast
      covers := fun e he => V.covers e (by simp [hes, he]) }

end

end Verif.Ctx
