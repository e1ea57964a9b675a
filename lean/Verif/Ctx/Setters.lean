import Verif.Ctx.Invariant

/-! # `Verify` and setters in a state of a context -/

namespace Verif.Ctx
open Verif Verif.Graph Verif.Verify Verif.Types Verif.Gen Verif.Spark

section
variable {P : Pkg} {b : Bytes} {lo hi : Int} {c : Context} {es : List Item} {p : Field} {pos : Int} {f : Field} {l : Link}

theorem follows_pos (U : Verified P lo hi) (W : WellFormed P) (I : InBuffer P b lo hi) (h : Follows P.m.msg b lo hi es p pos) (hne : es ≠ []) : lo < pos := by
  induction es generalizing p pos with
  | nil => exact absurd rfl hne
  | cons y ys ih =>
    obtain ⟨q, qpos, l, h1, hs, _, hp⟩ := follows_cons h
    have hf := hs.field.2
    cases ys with
    | nil =>
      have := U.nonempty b I y p pos h
      obtain ⟨_, h2⟩ := follows_nil h1
      omega
    | cons z zs =>
      have h3 := ih h1 (by simp)
      have h4 := ((follows_bounds W I.order h).2.2 y List.mem_cons_self).2.1
      omega

theorem Next.pred_ne_final (W : WellFormed P) (N : Next P b lo hi c es p pos f) : p ≠ FINAL := by
  obtain ⟨l, hl⟩ := List.exists_mem_of_ne_nil _ N.link
  obtain ⟨h1, h2, _⟩ := mem_between.mp hl
  intro h
  rcases (W.links l h1).1 with h' | h'
  · exact initial_ne_final (h'.symm.trans (h2.trans h))
  · exact W.final (h ▸ h2 ▸ h')

/-- One more field has been set. -/
theorem Inv.extend (W : WellFormed P) (U : Verified P lo hi) (V : Inv P lo hi c b es p pos) (hb : c.buffer = some b) (hf : f ∈ P.m.msg.fields)
    (hfin : ∀ g ∈ P.m.msg.fields, g ∉ es.map (·.f) → g ≠ f → (c.cursors g).pred = FINAL) {y : Item} (hs : Step P.m.msg b lo hi es p pos l y)
    (ht : l.target = f) {k : Cursor} (hsv : k.sv = true) (hok : P.isComposite f = false → k.ok = true) (hp : k.pred = p) (h1 : k.first = y.first)
    (h2 : k.last = y.last) (h3 : k.value = y.value) {s : Field} (hsucc : s = INITIAL ∨ ∃ l' ∈ P.m.msg.links, l'.source = f ∧ l'.target = s) :
    Inv P lo hi ((({ c with messageLast := y.last } : Context).set f k).set s (invalidFrom f)) b (y :: es) f (y.last + 1) := by
  have H := V.contains hb
  have hy : y.f = f := hs.field.1.trans ht
  have hnew : f ∉ es.map (·.f) := by
    have := path_next W (follows_path H.follows) hs.1 hs.2.1 hs.2.2.1
    rwa [ht] at this
  have hfollows : Follows P.m.msg b lo hi (y :: es) f (y.last + 1) := ht ▸ follows_step H.follows hs
  have hsn : ∀ e ∈ y :: es, e.f ≠ s := by
    intro e he h
    rcases hsucc with rfl | ⟨l', h4, h5, rfl⟩
    · exact W.initial (h ▸ follows_fields W hfollows he)
    · by_cases hfin' : l'.target = FINAL
      · exact W.final (hfin' ▸ h ▸ follows_fields W hfollows he)
      · exact path_next W (follows_path hfollows) h4 h5 hfin' (h ▸ List.mem_map_of_mem he)
  have hne : ∀ e ∈ es, e.f ≠ f := fun e he h => hnew (h ▸ List.mem_map_of_mem he)
  have hsame : ∀ e ∈ es, ((({ c with messageLast := y.last } : Context).set f k).set s (invalidFrom f)).cursors e.f = c.cursors e.f := by
    intro e he
    simp only [set_cursor, if_neg (hsn e (List.mem_cons_of_mem _ he)), if_neg (hne e he)]
  have hk : ((({ c with messageLast := y.last } : Context).set f k).set s (invalidFrom f)).cursors y.f = k := by
    rw [set_cursor, if_neg (hsn y List.mem_cons_self), set_cursor, if_pos hy]
  obtain ⟨hc, hch⟩ := H.advance W V.chained hs hsv (hy ▸ hok) hp h1 h2 h3 (c' := (({ c with messageLast := y.last } : Context).set f k).set s (invalidFrom f))
    rfl rfl rfl hk hsame
  rw [ht] at hc
  have hb' := follows_bounds W V.inside.order hfollows
  have hpos := follows_pos U W V.inside hfollows (by simp)
  exact
    { inside := V.inside
      buffer := .inl hb
      bounds := V.bounds
      holds := hc.congr hb.symm rfl rfl fun _ _ => rfl
      chained := hch
      others := by
        intro g hg hge
        simp only [List.map_cons, List.mem_cons, not_or, hy] at hge
        simp only [set_cursor, if_neg hge.1]
        split
        · rfl
        · exact V.others g hg hge.2
      pending := by
        intro g hg hge
        simp only [List.map_cons, List.mem_cons, not_or, hy] at hge
        simp only [set_cursor, if_neg hge.1]
        split
        · rename_i hgs
          right
          refine ⟨rfl, ?_⟩
          rcases hsucc with rfl | ⟨l', h4, h5, rfl⟩
          · exact absurd (hgs ▸ hg) W.initial
          · exact List.ne_nil_of_mem (mem_between.mpr ⟨h4, h5, hgs.symm⟩)
        · exact .inl (hfin g hg hge.2 hge.1)
      unique := by
        intro g hg g' hg' hge hge' hp1 hp2
        simp only [List.map_cons, List.mem_cons, not_or, hy] at hge hge'
        simp only [set_cursor, if_neg hge.1] at hp1
        simp only [set_cursor, if_neg hge'.1] at hp2
        have e1 : g = s := by
          by_cases h : g = s
          · exact h
          · rw [if_neg h] at hp1
            exact absurd (hfin g hg hge.2 hge.1) hp1
        have e2 : g' = s := by
          by_cases h : g' = s
          · exact h
          · rw [if_neg h] at hp2
            exact absurd (hfin g' hg' hge'.2 hge'.1) hp2
        rw [e1, e2]
      messageLast := ⟨by show lo ≤ y.last; omega, (hb'.2.2 y List.mem_cons_self).2.2⟩
      covers := by
        intro e he
        have := follows_last_lt W V.inside.order hfollows e he
        show e.last ≤ y.last
        omega }

/-- `Verify` succeeds in every state. -/
theorem Inv.verify (W : WellFormed P) (U : Verified P lo hi) (V : Inv P lo hi c b es p pos) (hf : f ∈ P.m.msg.fields) :
    ∃ c' es' p' pos', P.verify c f = .ok c' ∧ Inv P lo hi c' b es' p' pos' := by
  rcases V.buffer with hb | hb
  · have H := V.contains hb
    by_cases hm : f ∈ es.map (·.f)
    · obtain ⟨e, he, rfl⟩ := List.mem_map.mp hm
      exact ⟨c, es, p, pos, verify_done (H.cursors.sv e he), V⟩
    · rcases V.pending f hf hm with h | ⟨h1, h2⟩
      · exact ⟨c, es, p, pos, verify_final W hf h, V⟩
      · have N : Next P b lo hi c es p pos f := ⟨H, hf, h1, h2⟩
        by_cases ht : ∃ l ∈ between P.m.msg p f, IsTrue P.m.msg b lo hi es l.condition
        · obtain ⟨l, hl, ht⟩ := ht
          obtain ⟨h5, h6, h7⟩ := mem_between.mp hl
          have R : Ready P b lo hi c es p pos f l := ⟨N, h5, h6, h7, ht⟩
          have hfin : ∀ g ∈ P.m.msg.fields, g ∉ es.map (·.f) → g ≠ f → (c.cursors g).pred = FINAL := by
            intro g hg hge hgf
            by_cases hp : (c.cursors g).pred = FINAL
            · exact hp
            · exact absurd (V.unique g hg f hf hge hm hp (by rw [h1]; exact N.pred_ne_final W)) hgf
          rcases R.verify W V.inside (U.deterministic b V.inside) (U.sizes b V.inside) V.chained (V.others f hf hm) with
            ⟨y, l', c', hy, hl', hs', ht', hv, rfl, _⟩ | ⟨_, s, hs, hv⟩
          · exact ⟨_, _, _, _, hv, V.extend W U hb hf hfin hy h7 (by simp only [Cursor.sv]; split <;> rfl) (fun h => by simp [Cursor.ok, h]) rfl rfl rfl rfl
              (.inr ⟨l', hl', hs', rfl⟩)⟩
          · refine ⟨_, es, p, pos, hv, ?_⟩
            have hsame : ∀ e ∈ es, (c.set f ⟨s, FINAL, 0, 0, 0⟩).cursors e.f = c.cursors e.f := by
              intro e he
              have : e.f ≠ f := fun h => hm (h ▸ List.mem_map_of_mem he)
              simp only [set_cursor, if_neg this]
            exact
              { inside := V.inside
                buffer := .inl hb
                bounds := V.bounds
                holds := H.congr hb.symm rfl rfl hsame
                chained := V.chained.congr hsame
                others := by
                  intro g hg hge
                  simp only [set_cursor]
                  split
                  · rcases hs with rfl | rfl <;> rfl
                  · exact V.others g hg hge
                pending := by
                  intro g hg hge
                  simp only [set_cursor]
                  split
                  · exact .inl rfl
                  · rename_i hgf
                    exact .inl (hfin g hg hge hgf)
                unique := by
                  intro g hg g' hg' hge hge' hp1 _
                  exfalso
                  simp only [set_cursor] at hp1
                  split at hp1
                  · exact hp1 rfl
                  · rename_i hgf
                    exact hp1 (hfin g hg hge hgf)
                messageLast := V.messageLast
                covers := V.covers }
        · exact ⟨c, es, p, pos, N.verify W V.inside fun l hl h => ht ⟨l, hl, h⟩, V⟩
  · refine ⟨c, es, p, pos, ?_, V⟩
    have : c.hasBuffer = false := by simp [Context.hasBuffer, hb]
    simp only [Pkg.verify, this, Bool.false_and, Bool.false_eq_true, if_false]
    rfl

/-- `Verify_Message` succeeds in every state. -/
theorem Inv.verifyMessage (W : WellFormed P) (U : Verified P lo hi) (V : Inv P lo hi c b es p pos) :
    ∃ c' es' p' pos', P.verifyMessage c = .ok c' ∧ Inv P lo hi c' b es' p' pos' := by
  unfold Pkg.verifyMessage
  suffices ∀ (gs : List Field), (∀ g ∈ gs, g ∈ P.m.msg.fields) → ∀ {c es p pos}, Inv P lo hi c b es p pos →
      ∃ c' es' p' pos', gs.foldlM P.verify c = .ok c' ∧ Inv P lo hi c' b es' p' pos' from this _ (fun _ h => h) V
  intro gs
  induction gs with
  | nil => intro _ c es p pos V; exact ⟨c, es, p, pos, rfl, V⟩
  | cons g gs ih =>
    intro hg c es p pos V
    obtain ⟨c1, es1, p1, pos1, h1, V1⟩ := V.verify W U (hg g List.mem_cons_self)
    obtain ⟨c2, es2, p2, pos2, h2, V2⟩ := ih (fun g h => hg g (List.mem_cons_of_mem _ h)) V1
    exact ⟨c2, es2, p2, pos2, by simp only [List.foldlM_cons, h1, bind, Except.bind]; exact h2, V2⟩

/-- The end of a setter. -/
theorem Inv.finish (W : WellFormed P) (U : Verified P lo hi) (V : Inv P lo hi c b es p pos) (hb : c.buffer = some b) (R : Ready P b lo hi c es p pos f l)
    (hfin : ∀ g ∈ P.m.msg.fields, g ∉ es.map (·.f) → g ≠ f → (c.cursors g).pred = FINAL) {y : Item} (hs : Step P.m.msg b lo hi es p pos l y)
    {st : State} (hsv : st = .valid ∨ st = .structuralValid) (hok : P.isComposite f = false → st = .valid) :
    ∃ c' s, P.finish c f st y.first y.last y.value = .ok c' ∧
      c' = (({ c with messageLast := y.last } : Context).set f ⟨st, p, y.first, y.last, y.value⟩).set s (invalidFrom f) ∧
      ((s = INITIAL ∧ ∀ l' ∈ P.m.msg.links, l'.source = f → ¬ IsTrue P.m.msg b lo hi (y :: es) l'.condition) ∨
        ∃ l' ∈ P.m.msg.links, l'.source = f ∧ l'.target = s ∧ IsTrue P.m.msg b lo hi (y :: es) l'.condition) ∧
      Inv P lo hi c' b (y :: es) f (y.last + 1) := by
  have H := V.contains hb
  have hsv' : (⟨st, p, y.first, y.last, y.value⟩ : Cursor).sv = true := by rcases hsv with rfl | rfl <;> rfl
  have hok' : P.isComposite f = false → (⟨st, p, y.first, y.last, y.value⟩ : Cursor).ok = true := by
    intro h; rw [hok h]; rfl
  have hy : y.f = f := hs.field.1.trans R.target
  have hnew := R.toNext.new W
  have hne : ∀ e ∈ es, e.f ≠ f := fun e he h => hnew (h ▸ List.mem_map_of_mem he)
  have hsame : ∀ e ∈ es, (({ c with messageLast := y.last } : Context).set f ⟨st, p, y.first, y.last, y.value⟩).cursors e.f = c.cursors e.f := by
    intro e he
    simp only [set_cursor, if_neg (hne e he)]
  obtain ⟨hc, hch⟩ := H.advance W V.chained hs hsv' (hy ▸ hok') rfl rfl rfl rfl
    (c' := ({ c with messageLast := y.last } : Context).set f ⟨st, p, y.first, y.last, y.value⟩) rfl rfl rfl
    (by simp only [set_cursor, hy, if_true]) hsame
  rw [R.target] at hc
  have hvp : P.validPredecessor (({ c with messageLast := y.last } : Context).set f ⟨st, p, y.first, y.last, y.value⟩) f = true := by
    have N : Next P b lo hi (({ c with messageLast := y.last } : Context).set f ⟨st, p, y.first, y.last, y.value⟩) es p pos f :=
      ⟨H.congr rfl rfl rfl hsame, R.field, by simp [set_cursor], R.link⟩
    exact N.validPredecessor
  have hbuf : (({ c with messageLast := y.last } : Context).set f ⟨st, p, y.first, y.last, y.value⟩).hasBuffer = true := by
    simp [Context.hasBuffer, Context.set, hb]
  have hsvf : ((({ c with messageLast := y.last } : Context).set f ⟨st, p, y.first, y.last, y.value⟩).cursors f).sv = true := by
    simp only [set_cursor, if_true]; exact hsv'
  have hout : ∀ l ∈ outgoing P.m.msg.links f, l ∈ P.m.msg.links ∧ l.source = f := by
    intro l hl; simpa [outgoing] using hl
  have hsucc : ∃ s, P.successor (({ c with messageLast := y.last } : Context).set f ⟨st, p, y.first, y.last, y.value⟩) f = .ok s ∧
      ((s = INITIAL ∧ ∀ l' ∈ P.m.msg.links, l'.source = f → ¬ IsTrue P.m.msg b lo hi (y :: es) l'.condition) ∨
        ∃ l' ∈ P.m.msg.links, l'.source = f ∧ l'.target = s ∧ IsTrue P.m.msg b lo hi (y :: es) l'.condition) := by
    unfold Pkg.successor
    simp only [hbuf, hsvf, hvp, need, if_true, bind, Except.bind]
    rcases firstTrue_map (ls := outgoing P.m.msg.links f) (h := fun l => l.target) (q := fun l => IsTrue P.m.msg b lo hi (y :: es) l.condition)
        (g := fun l => P.cond (some U64) (({ c with messageLast := y.last } : Context).set f ⟨st, p, y.first, y.last, y.value⟩) none l.condition)
        (fun l hl => cond_ok W V.inside hc (.inl rfl) (hout l hl).1 (hout l hl).2) with ⟨l', h3, h4, h5⟩ | ⟨h3, h5⟩
    · rw [h5]
      exact ⟨l'.target, rfl, .inr ⟨l', (hout l' h3).1, (hout l' h3).2, rfl, h4⟩⟩
    · rw [h5]
      exact ⟨INITIAL, rfl, .inl ⟨rfl, fun l' h6 h7 => h3 l' (by simp [outgoing, h6, h7])⟩⟩
  obtain ⟨s, h1, h2⟩ := hsucc
  refine ⟨_, s, ?_, rfl, h2, V.extend W U hb R.field hfin hs R.target hsv' hok' rfl rfl rfl rfl ?_⟩
  · unfold Pkg.finish
    simp only [R.pred, h1, bind, Except.bind]
    rfl
  · rcases h2 with ⟨h, _⟩ | ⟨l', h3, h4, h5, _⟩
    · exact .inl h
    · exact .inr ⟨l', h3, h4, h5⟩

end

end Verif.Ctx
