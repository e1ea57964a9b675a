import Verif.Ctx.Verify

/-! # `Structural_Valid_Message` and `Valid_Message` -/

namespace Verif.Ctx
open Verif Verif.Graph Verif.Verify Verif.Types Verif.Gen Verif.Spark

section
variable {P : Pkg} {b : Bytes} {lo hi : Int} {c : Context} {es : List Item} {p : Field} {pos : Int} {f : Field} {l : Link} {st : Bool}

/-- The result of `Structural_Valid (Ctx, F)` or `Valid (Ctx, F)`. -/
def accepted (P : Pkg) (c : Context) (st : Bool) (f : Field) : Bool :=
  if st && P.isComposite f then (c.cursors f).sv else (c.cursors f).ok && decide ((c.cursors f).first < (c.cursors f).last + 1)

theorem eval_field {D : Division} (W : WellFormed P) {g : Field} (hg : g ∈ P.m.msg.fields) :
    evalL D (P.env c none) [ctxVar, fieldImm (P.m.spell g)] = some [.bool true, nameVal (PyStr.lower (P.m.spell g))] := by
  have h1 : eval D (P.env c none) ctxVar = some (.bool true) := by
    have : (P.env c none).var (ID.key ⟨[CTX]⟩) = .bool true := by
      rw [env_other W.names]
      · rfl
      · exact W.names.ctx
    simp only [ctxVar, eval, this]
    rfl
  have h2 : eval D (P.env c none) (fieldImm (P.m.spell g)) = some (nameVal (PyStr.lower (P.m.spell g))) := by
    have : (P.env c none).var (ID.key ⟨[affixed (P.m.spell g)]⟩) = nameVal (PyStr.lower (P.m.spell g)) := by
      rw [env_other W.names]
      · simp [View.var, ID.key, lower_affixed, unaffixed]
      · intro hmem
        have := W.affix _ hmem _ rfl
        simp [lower_affixed, unaffixed] at this
    simp only [fieldImm, eval, this]
    rfl
  rw [evalL, evalL, evalL, h1, h2]

theorem nameVal_inv (n : PyStr) : Gen.valName (nameVal n) = n := by
  simp only [nameVal, Gen.valName, List.map_map]
  conv => rhs; rw [← List.map_id n]
  refine List.map_congr_left fun a _ => ?_
  simp

theorem eval_valid {D : Division} (W : WellFormed P) {g : Field} (hg : g ∈ P.m.msg.fields) :
    eval D (P.env c none) (P.validCall st g) = some (.bool (accepted P c st g)) := by
  have hk : (⟨[PyStr.lower (P.m.spell g)]⟩ : Field) = g := (W.names.field g hg).2.symm
  have h := eval_field (D := D) (c := c) W hg
  rw [Pkg.validCall, eval]
  rw [show (Expr.var false true ⟨[affixed (P.m.spell g)]⟩) = fieldImm (P.m.spell g) from rfl, h]
  have hn := nameVal_inv (PyStr.lower (P.m.spell g))
  by_cases hst : (st && P.isComposite g) = true
  · simp only [hst, if_true, accepted]
    show some (Val.bool (P.view c none |>.structuralValid (Gen.valName (nameVal (PyStr.lower (P.m.spell g)))))) = _
    rw [hn]
    simp only [Pkg.view, hk]
  · simp only [hst, Bool.false_eq_true, if_false, accepted]
    show some (Val.bool (P.view c none |>.valid (Gen.valName (nameVal (PyStr.lower (P.m.spell g)))))) = _
    rw [hn]
    simp only [Pkg.view, hk]

/-- The fields after `f` are valid, and the conditions hold. -/
inductive Complete (P : Pkg) (c : Context) (st : Bool) : Field → Prop
  | final {l : Link} : l ∈ P.m.msg.links → l.target = FINAL → eval .ada (P.env c none) l.condition = some (.bool true) → Complete P c st l.source
  | next {l : Link} : l ∈ P.m.msg.links → l.target ≠ FINAL → accepted P c st l.target = true →
      eval .ada (P.env c none) l.condition = some (.bool true) → Complete P c st l.target → Complete P c st l.source

theorem mapM_all {α β : Type} {g : α → Run β} {Q : α → β → Prop} : ∀ {xs : List α}, (∀ x ∈ xs, ∃ y, g x = .ok y ∧ Q x y) →
    ∃ ys, xs.mapM g = .ok ys ∧ (∀ y ∈ ys, ∃ x ∈ xs, Q x y) ∧ (∀ x ∈ xs, ∃ y ∈ ys, Q x y) ∧ ys.length = xs.length := by
  intro xs
  induction xs with
  | nil => intro _; exact ⟨[], rfl, by simp, by simp, rfl⟩
  | cons x xs ih =>
    intro h
    obtain ⟨y, h1, h2⟩ := h x List.mem_cons_self
    obtain ⟨ys, h3, h4, h5, h6⟩ := ih fun x hx => h x (List.mem_cons_of_mem _ hx)
    refine ⟨y :: ys, ?_, ?_, ?_, by simp [h6]⟩
    · rw [List.mapM_cons, h1, h3]; rfl
    · intro z hz
      rcases List.mem_cons.mp hz with rfl | hz
      · exact ⟨x, List.mem_cons_self, h2⟩
      · obtain ⟨x', h7, h8⟩ := h4 z hz
        exact ⟨x', List.mem_cons_of_mem _ h7, h8⟩
    · intro z hz
      rcases List.mem_cons.mp hz with rfl | hz
      · exact ⟨y, List.mem_cons_self, h2⟩
      · obtain ⟨x', h7, h8⟩ := h5 z hz
        exact ⟨x', List.mem_cons_of_mem _ h7, h8⟩

/-- What is known about a generated condition. -/
structure Generated (P : Pkg) (c : Context) (e : Expr) (q : Prop) : Prop where
  accepts : Accepts P.m e
  wf : e.WF
  good : e.Good Division.ada.Odd false
  value : ∃ x, eval .ada (P.env c none) e = some (.bool x) ∧ (x = true ↔ q)

theorem Generated.cond {e : Expr} {q : Prop} (W : WellFormed P) (G : Generated P c e q) : ∃ x, P.cond (some U64) c none e = .ok x ∧ (x = true ↔ q) := by
  obtain ⟨x, hx, hiff⟩ := G.value
  refine ⟨x, ?_, hiff⟩
  simp only [Pkg.cond, value_ok W (.inl rfl) G.accepts G.wf G.good hx, bind, Except.bind, asBool]

theorem generated_link (W : WellFormed P) (hl : l ∈ P.m.msg.links) :
    Generated P c l.condition (eval .ada (P.env c none) l.condition = some (.bool true)) := by
  obtain ⟨x, hx⟩ := W.bool l hl (P.env c none) (env_typed W.names rfl rfl)
  refine ⟨accepts_cond W (cond_fields W hl) (W.wf l hl).1, (W.wf l hl).1, (W.wf l hl).2, x, hx, ?_⟩
  rw [hx]
  simp

theorem generated_valid (W : WellFormed P) {g : Field} (hg : g ∈ P.m.msg.fields) : Generated P c (P.validCall st g) (accepted P c st g = true) := by
  have hleaf : Leaf3 P.m (P.validCall st g) := .valid (st && P.isComposite g) hg
  refine ⟨leaf3_cov hleaf ⟨leaf3_wf W.names hleaf, .inr hleaf⟩, leaf3_wf W.names hleaf, ?_, _, eval_valid W hg, Iff.rfl⟩
  simp [Pkg.validCall, Expr.Good]

theorem Generated.andThen {e1 e2 e3 : Expr} {q1 q2 q3 : Prop} (G1 : Generated P c e1 q1) (G2 : Generated P c e2 q2) (G3 : Generated P c e3 q3) :
    Generated P c (.bool .andThen [e1, e2, e3]) (q1 ∧ q2 ∧ q3) := by
  have hb : ∀ t ∈ [e1, e2, e3], ∃ x, eval .ada (P.env c none) t = some (.bool x) := by
    intro t ht
    simp only [List.mem_cons, List.not_mem_nil, or_false] at ht
    rcases ht with rfl | rfl | rfl
    · exact ⟨_, G1.value.choose_spec.1⟩
    · exact ⟨_, G2.value.choose_spec.1⟩
    · exact ⟨_, G3.value.choose_spec.1⟩
  have hq : ∀ {e q}, Generated P c e q → (eval .ada (P.env c none) e = some (.bool true) ↔ q) := by
    intro e q G
    obtain ⟨x, hx, hiff⟩ := G.value
    rw [hx, ← hiff]
    simp
  obtain ⟨x, hx, hiff⟩ := eval_andThen hb
  refine ⟨?_, ?_, ?_, x, hx, ?_⟩
  · simp only [Accepts, Cov, covL_iff, List.mem_cons, List.not_mem_nil, or_false]
    rintro t (rfl | rfl | rfl)
    · exact G1.accepts
    · exact G2.accepts
    · exact G3.accepts
  · simp only [Expr.WF, WFL_iff, List.mem_cons, List.not_mem_nil, or_false]
    refine ⟨?_, by simp⟩
    rintro t (rfl | rfl | rfl)
    · exact G1.wf
    · exact G2.wf
    · exact G3.wf
  · simp only [Expr.Good, GoodL_iff, List.mem_cons, List.not_mem_nil, or_false]
    refine ⟨trivial, ?_⟩
    rintro t (rfl | rfl | rfl)
    · exact G1.good
    · exact G2.good
    · exact G3.good
  · rw [hiff]
    simp only [List.mem_cons, List.not_mem_nil, or_false, forall_eq_or_imp, forall_eq, hq G1, hq G2, hq G3]

theorem Generated.or {α : Type} {xs : List α} {ts : List Expr} {q : α → Prop} (hne : ts ≠ [])
    (h1 : ∀ t ∈ ts, ∃ x ∈ xs, Generated P c t (q x)) (h2 : ∀ x ∈ xs, ∃ t ∈ ts, Generated P c t (q x)) :
    Generated P c (.bool .or ts) (∃ x ∈ xs, q x) := by
  have hb : ∀ t ∈ ts, ∃ x, eval .ada (P.env c none) t = some (.bool x) := by
    intro t ht
    obtain ⟨x, _, G⟩ := h1 t ht
    exact ⟨_, G.value.choose_spec.1⟩
  have hq : ∀ {e q}, Generated P c e q → (eval .ada (P.env c none) e = some (.bool true) ↔ q) := by
    intro e q G
    obtain ⟨x, hx, hiff⟩ := G.value
    rw [hx, ← hiff]
    simp
  obtain ⟨x, hx, hiff⟩ := eval_or hb
  refine ⟨?_, ?_, ?_, x, hx, ?_⟩
  · simp only [Accepts, Cov, covL_iff]
    intro t ht
    obtain ⟨_, _, G⟩ := h1 t ht
    exact G.accepts
  · simp only [Expr.WF, WFL_iff]
    refine ⟨?_, fun h => absurd (by simpa using h) hne⟩
    intro t ht
    obtain ⟨_, _, G⟩ := h1 t ht
    exact G.wf
  · simp only [Expr.Good, GoodL_iff]
    refine ⟨trivial, ?_⟩
    intro t ht
    obtain ⟨_, _, G⟩ := h1 t ht
    exact G.good
  · rw [hiff]
    constructor
    · rintro ⟨t, ht, h⟩
      obtain ⟨x, hx, G⟩ := h1 t ht
      exact ⟨x, hx, (hq G).mp h⟩
    · rintro ⟨x, hx, h⟩
      obtain ⟨t, ht, G⟩ := h2 x hx
      exact ⟨t, ht, (hq G).mpr h⟩

/-- The condition that is generated for a field. -/
theorem messageCondition_ok (W : WellFormed P) : ∀ k (f : Field), (f = INITIAL ∧ P.m.msg.fields.length + 1 ≤ k ∨
    f ∈ P.m.msg.fields ∧ P.m.msg.fields.length ≤ k + P.m.msg.fields.idxOf f) →
    ∃ e, P.messageCondition k st f = .ok e ∧ Generated P c e (Complete P c st f) := by
  intro k
  induction k with
  | zero =>
    rintro f (⟨_, h⟩ | ⟨h1, h2⟩)
    · omega
    · have := List.idxOf_lt_length_of_mem h1
      omega
  | succ k ih =>
    intro f hf
    have hout : ∀ l ∈ outgoing P.m.msg.links f, l ∈ P.m.msg.links ∧ l.source = f := by
      intro l hl; simpa [outgoing] using hl
    have hne : outgoing P.m.msg.links f ≠ [] := by
      rcases hf with ⟨rfl, _⟩ | ⟨h, _⟩
      · obtain ⟨l, hl, _⟩ := W.start
        rw [hl]
        simp
      · exact W.left f h
    obtain ⟨ts, hts, h1, h2, hlen⟩ := mapM_all (xs := outgoing P.m.msg.links f)
      (g := fun l => if l.target = FINAL then .ok l.condition
        else do return .bool .andThen [P.validCall st l.target, l.condition, ← P.messageCondition k st l.target])
      (Q := fun l t => Generated P c t ((l.target = FINAL ∧ eval .ada (P.env c none) l.condition = some (.bool true)) ∨
        (l.target ≠ FINAL ∧ accepted P c st l.target = true ∧ eval .ada (P.env c none) l.condition = some (.bool true) ∧ Complete P c st l.target))) (by
        intro l hl
        obtain ⟨hm, hs⟩ := hout l hl
        by_cases hfin : l.target = FINAL
        · refine ⟨l.condition, by simp only [hfin, if_true], ?_⟩
          have := generated_link (c := c) W hm
          simpa [hfin] using this
        · have ht : l.target ∈ P.m.msg.fields := ((W.links l hm).2).resolve_left hfin
          obtain ⟨e, he, G⟩ := ih l.target (.inr ⟨ht, by
            rcases hf with ⟨rfl, h⟩ | ⟨h, h'⟩
            · omega
            · have := W.order l hm (hs ▸ h) ht
              rw [hs] at this
              omega⟩)
          refine ⟨_, by simp only [if_neg hfin, he, bind, Except.bind]; rfl, ?_⟩
          have := (generated_valid (c := c) (st := st) W ht).andThen (generated_link (c := c) W hm) G
          simpa [hfin] using this)
    refine ⟨.bool .or ts, ?_, ?_⟩
    · rw [Pkg.messageCondition, hts]
      rfl
    · have hne' : ts ≠ [] := by
        intro h
        rw [h] at hlen
        exact hne (List.length_eq_zero_iff.mp hlen.symm)
      obtain ⟨g1, g2, g3, x, g4, g5⟩ := Generated.or hne' h1 h2
      refine ⟨g1, g2, g3, x, g4, g5.trans ?_⟩
      constructor
      · rintro ⟨l, hl, ⟨h3, h4⟩ | ⟨h3, h4, h5, h6⟩⟩
        · have := Complete.final (st := st) (hout l hl).1 h3 h4
          rwa [(hout l hl).2] at this
        · have := Complete.next (hout l hl).1 h3 h4 h5 h6
          rwa [(hout l hl).2] at this
      · intro h
        cases h with
        | @final l h3 h4 h5 => exact ⟨l, by simp [outgoing, h3], .inl ⟨h4, h5⟩⟩
        | @next l h3 h4 h5 h6 h7 => exact ⟨l, by simp [outgoing, h3], .inr ⟨h4, h5, h6, h7⟩⟩

/-! ## Parts of a message -/

theorem Contains.suffix {xs ys : List Item} (H : Contains P b lo hi c (xs ++ ys) p pos) : ∃ q qpos, Contains P b lo hi c ys q qpos := by
  obtain ⟨q, qpos, h⟩ := follows_suffix H.follows
  refine ⟨q, qpos, h, H.buffer, H.first, H.last, ?_⟩
  have hm : ∀ e ∈ ys, e ∈ xs ++ ys := fun e he => List.mem_append_right _ he
  exact ⟨fun e he => H.cursors.sv e (hm e he), fun e he => H.cursors.ok e (hm e he), fun e he => H.cursors.first e (hm e he),
    fun e he => H.cursors.last e (hm e he), fun e he => H.cursors.value e (hm e he)⟩

/-- A field of a message comes after those in front of it. -/
theorem Contains.ready (H : Contains P b lo hi c es p pos) (W : WellFormed P) (hch : Chained c es) {xs ys : List Item} {z : Item} (he : es = xs ++ z :: ys) :
    ∃ q qpos l, Ready P b lo hi c ys q qpos z.f l ∧ Step P.m.msg b lo hi ys q qpos l z ∧ q = lastField ys := by
  subst he
  obtain ⟨q1, qpos1, H1⟩ := Contains.suffix H
  obtain ⟨q, qpos, l, h1, hs, hq, _⟩ := follows_cons H1.follows
  obtain ⟨q', qpos', H2⟩ := Contains.suffix (xs := [z]) H1
  obtain ⟨rfl, rfl⟩ := follows_fun h1 H2.follows
  have hf := hs.field.1
  refine ⟨q, qpos, l, ⟨⟨H2, follows_fields W H1.follows List.mem_cons_self, ?_, ?_⟩, hs.1, hs.2.1, hf.symm, hs.2.2.2.1⟩, hs, follows_last h1⟩
  · rw [hch xs z ys rfl, follows_last h1]
  · exact List.ne_nil_of_mem (mem_between.mpr ⟨hs.1, hs.2.1, hf.symm⟩)

theorem not_accepted (h : (c.cursors f).inv = true) : accepted P c st f = false := by
  have : (c.cursors f).state ≠ .valid ∧ (c.cursors f).state ≠ .structuralValid := by
    simp only [Cursor.inv, Bool.or_eq_true, decide_eq_true_eq] at h
    rcases h with h | h <;> rw [h] <;> decide
  simp [accepted, Cursor.sv, Cursor.ok, this.1, this.2]

theorem complete_iff (W : WellFormed P) (I : InBuffer P b lo hi) (hD : Deterministic P.m.msg b lo hi) (H : Contains P b lo hi c es p pos)
    (ho : Others P c es) : Complete P c st INITIAL ↔ (∀ e ∈ es, accepted P c st e.f = true) ∧
      ∃ l ∈ P.m.msg.links, l.source = p ∧ l.target = FINAL ∧ IsTrue P.m.msg b lo hi es l.condition := by
  suffices ∀ n (xs ys : List Item), xs.length = n → es = xs ++ ys → (Complete P c st (lastField ys) ↔ (∀ e ∈ xs, accepted P c st e.f = true) ∧
      ∃ l ∈ P.m.msg.links, l.source = p ∧ l.target = FINAL ∧ IsTrue P.m.msg b lo hi es l.condition) from
    this _ es [] rfl (by simp)
  intro n
  induction n with
  | zero =>
    intro xs ys hn he
    rw [List.length_eq_zero_iff.mp hn] at he ⊢
    simp only [List.nil_append] at he
    subst he
    rw [← follows_last H.follows]
    constructor
    · intro h
      refine ⟨by simp, ?_⟩
      generalize hg : p = g at h
      cases h with
      | @final l h1 h2 h3 =>
        exact ⟨l, h1, rfl, h2, by rw [IsTrue, isTrue_eq W I H h1 hg.symm]; exact h3⟩
      | @next l h1 h2 h3 h4 h5 =>
        have ht : l.target ∈ P.m.msg.fields := ((W.links l h1).2).resolve_left h2
        have := not_accepted (P := P) (st := st) (ho _ ht (path_next W (follows_path H.follows) h1 hg.symm h2))
        rw [h3] at this
        cases this
    · rintro ⟨_, l, h1, h2, h3, h4⟩
      rw [IsTrue, isTrue_eq W I H h1 h2] at h4
      exact h2 ▸ Complete.final h1 h3 h4
  | succ n ih =>
    intro xs ys hn he
    rcases List.eq_nil_or_concat xs with rfl | ⟨zs, z, rfl⟩
    · cases hn
    rw [List.concat_eq_append] at he hn ⊢
    simp only [List.length_append, List.length_singleton, Nat.add_right_cancel_iff] at hn
    have he' : es = zs ++ z :: ys := by simpa using he
    have ih := ih zs (z :: ys) hn he'
    obtain ⟨q1, qpos1, H1⟩ := Contains.suffix (he' ▸ H)
    obtain ⟨q, qpos, H2⟩ := Contains.suffix (xs := [z]) H1
    obtain ⟨q', qpos', l, h1, hs, _, _⟩ := follows_cons H1.follows
    obtain ⟨rfl, rfl⟩ := follows_fun h1 H2.follows
    rw [← follows_last h1]
    simp only [lastField] at ih
    have huniq : ∀ l' ∈ P.m.msg.links, l'.source = q' → eval .ada (P.env c none) l'.condition = some (.bool true) → l' = l := by
      intro l' h2 h3 h4
      refine hD ys q' qpos' h1 l' h2 l hs.1 h3 hs.2.1 ?_ hs.2.2.2.1
      rw [IsTrue, isTrue_eq W I H2 h2 h3]
      exact h4
    have hstep : Complete P c st q' ↔ accepted P c st z.f = true ∧ Complete P c st z.f := by
      constructor
      · intro h
        generalize hg : q' = g at h
        cases h with
        | @final l' h2 h3 h4 => exact absurd h3 (huniq l' h2 hg.symm h4 ▸ hs.2.2.1)
        | @next l' h2 h3 h4 h5 h6 =>
          have := huniq l' h2 hg.symm h5
          subst this
          rw [hs.field.1]
          exact ⟨h4, h6⟩
      · rintro ⟨h2, h3⟩
        rw [hs.field.1] at h2 h3
        have h4 := hs.2.2.2.1
        rw [IsTrue, isTrue_eq W I H2 hs.1 hs.2.1] at h4
        exact hs.2.1 ▸ Complete.next hs.1 hs.2.2.1 h2 h4 h3
    rw [hstep, ih]
    constructor
    · rintro ⟨h2, h3, h4⟩
      refine ⟨?_, h4⟩
      intro e he
      rcases List.mem_append.mp he with he | he
      · exact h3 e he
      · cases List.mem_singleton.mp he
        exact h2
    · rintro ⟨h2, h3⟩
      exact ⟨h2 z (by simp), fun e he => h2 e (by simp [he]), h3⟩

/-- `Structural_Valid_Message`, `Valid_Message`. -/
theorem messageValid_ok (W : WellFormed P) (I : InBuffer P b lo hi) (hD : Deterministic P.m.msg b lo hi) (H : Contains P b lo hi c es p pos)
    (ho : Others P c es) : ∃ x, P.messageValid st c = .ok x ∧ (x = true ↔ (∀ e ∈ es, accepted P c st e.f = true) ∧
      ∃ l ∈ P.m.msg.links, l.source = p ∧ l.target = FINAL ∧ IsTrue P.m.msg b lo hi es l.condition) := by
  obtain ⟨e, he, G⟩ := messageCondition_ok (c := c) (st := st) W (P.m.msg.fields.length + 1) INITIAL (.inl ⟨rfl, Nat.le_refl _⟩)
  obtain ⟨x, hx, hiff⟩ := G.cond W
  have hb : c.hasBuffer = true := by simp [Context.hasBuffer, H.buffer]
  refine ⟨x, ?_, hiff.trans (complete_iff W I hD H ho)⟩
  simp only [Pkg.messageValid, hb, need, if_true, he, hx, bind, Except.bind]

theorem scalar_accepted (W : WellFormed P) (H : Contains P b lo hi c es p pos) {e : Item} (he : e ∈ es) (hs : P.isComposite e.f = false) :
    accepted P c st e.f = true := by
  obtain ⟨t, ht, _, h2⟩ := follows_type H.follows he
  rw [isComposite_iff W.names ht] at hs
  have hsc : Scalar t := (scalar_iff t).mp (by simpa using hs)
  obtain ⟨n, hn, _, hl, _⟩ := h2 hsc
  obtain ⟨n', hn', h1⟩ := W.sized _ _ ht hsc
  rw [hn] at hn'
  cases hn'
  rw [← isComposite_iff W.names ht] at hs
  simp only [accepted, hs, Bool.and_false, Bool.false_eq_true, if_false, H.cursors.ok e he hs, H.cursors.first e he, H.cursors.last e he, Bool.true_and,
    decide_eq_true_eq]
  omega

theorem structural_accepted (W : WellFormed P) (H : Contains P b lo hi c es p pos) {e : Item} (he : e ∈ es) : accepted P c true e.f = true := by
  cases hs : P.isComposite e.f with
  | false => exact scalar_accepted W H he hs
  | true => simp [accepted, hs, H.cursors.sv e he]

end

end Verif.Ctx
