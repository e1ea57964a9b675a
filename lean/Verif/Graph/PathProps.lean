import Verif.Graph.Termination
import Verif.Expr.Props

/-! # Properties C15, C16, C17: paths, conditions of fields, predecessors and successors -/

namespace Verif.Graph
open Verif

/-! ## Lemmas -/

/-- What is needed of the links of an accepted message. -/
structure Sorted (s : List Link) (R : List Field) : Prop extends Order s R where
  nodup : R.Nodup
  inj : ∀ x ∈ s, ∀ y ∈ s, x.eq y = true → x = y
  distinct : s.Nodup

theorem accepted_sorted {m : Def} {fields : List Field} (hr : m.Regular) (h : m.Accepted fields) :
    ∃ R, Sorted m.links R ∧ fields = R.filter (fun f => f != INITIAL && f != FINAL) := by
  rcases accepted_checked h with ⟨h1, rfl⟩ | ⟨R, V, hc⟩
  · refine ⟨[INITIAL], ?_, by simp⟩
    rw [h1]
    refine ⟨⟨by simp, by simp, by simp, ?_, ?_⟩, by simp, by simp, by simp⟩
    · intro t ht
      simp at ht
      subst ht
      exact ⟨[], .nil⟩
    · rintro f ⟨p, hp, hpath⟩
      cases hpath with
      | nil => exact hp rfl
      | snoc _ hl => simp at hl
  · obtain ⟨h1, h2⟩ := links_distinct hr hc.nodups
    exact ⟨R, ⟨hc.order, hc.nodup hr, h1, h2⟩, hc.fields⟩

theorem Sorted.earlier {s : List Link} {R : List Field} (h : Sorted s R) {xs ys : List Field} {f : Field}
    (hR : R = xs ++ f :: ys) {l : Link} (hl : l ∈ s) (ht : l.target = f) : l.source ∈ xs := by
  have hs := (h.links l hl).1
  rw [hR, List.mem_append, List.mem_cons] at hs
  have hnd := h.nodup
  rw [hR] at hnd
  have hnd' := List.nodup_append.mp hnd
  have hnd2 := List.nodup_cons.mp hnd'.2.1
  rcases hs with hs | hs | hs
  · exact hs
  · exfalso
    have := h.later xs f ys hR l hl hs
    rw [ht] at this
    exact hnd2.1 this
  · exfalso
    obtain ⟨us, ws, hw⟩ := List.append_of_mem hs
    have := h.later (xs ++ f :: us) l.source ws (by rw [hR, hw]; simp) l hl rfl
    rw [ht] at this
    exact hnd2.1 (by rw [hw]; simp [this])

theorem pathEq_eq {s : List Link} (hinj : ∀ x ∈ s, ∀ y ∈ s, x.eq y = true → x = y) (p : List Link) :
    ∀ q, (∀ l ∈ p, l ∈ s) → (∀ l ∈ q, l ∈ s) → (pathEq p q = true ↔ p = q) := by
  induction p with
  | nil => intro q _ _; cases q <;> simp [pathEq]
  | cons a p ih =>
    intro q hp hq
    cases q with
    | nil => simp [pathEq]
    | cons b q =>
      have := ih q (fun l hl => hp l (by simp [hl])) (fun l hl => hq l (by simp [hl]))
      simp only [pathEq, Bool.and_eq_true, this, List.cons.injEq]
      constructor
      · rintro ⟨h1, h2⟩
        exact ⟨hinj a (hp a (by simp)) b (hq b (by simp)) h1, h2⟩
      · rintro ⟨rfl, h2⟩
        exact ⟨link_eq_refl _, h2⟩

/-- A list of paths over `s` without repetition. -/
def Clean (s : List Link) (r : List (List Link)) : Prop := r.Nodup ∧ ∀ p ∈ r, ∀ l ∈ p, l ∈ s

theorem addPath_spec {s : List Link} (hinj : ∀ x ∈ s, ∀ y ∈ s, x.eq y = true → x = y) {r : List (List Link)}
    {p : List Link} (hr : Clean s r) (hp : ∀ l ∈ p, l ∈ s) :
    Clean s (addPath r p) ∧ ∀ q, q ∈ addPath r p ↔ q ∈ r ∨ q = p := by
  unfold addPath
  split
  · rename_i h
    rw [List.any_eq_true] at h
    obtain ⟨q, hq, hpq⟩ := h
    rw [pathEq_eq hinj p q hp (hr.2 q hq)] at hpq
    subst hpq
    exact ⟨hr, fun q => ⟨.inl, fun h => h.elim id (fun h => h ▸ hq)⟩⟩
  · rename_i h
    rw [List.any_eq_true] at h
    refine ⟨⟨List.nodup_append.mpr ⟨hr.1, by simp, ?_⟩, ?_⟩, by simp⟩
    · intro a ha b hb hab
      simp only [List.mem_singleton] at hb
      subst hb; subst hab
      exact h ⟨a, ha, (pathEq_eq hinj a a hp hp).mpr rfl⟩
    · intro q hq
      rcases List.mem_append.mp hq with hq | hq
      · exact hr.2 q hq
      · simp only [List.mem_singleton] at hq; subst hq; exact hp

theorem addFold_spec {s : List Link} (hinj : ∀ x ∈ s, ∀ y ∈ s, x.eq y = true → x = y) (l : Link) (hl : l ∈ s)
    (src : List (List Link)) : ∀ r, Clean s r → (∀ p ∈ src, ∀ l ∈ p, l ∈ s) →
    Clean s (src.foldl (fun r s => addPath r (s ++ [l])) r) ∧
      ∀ q, q ∈ src.foldl (fun r s => addPath r (s ++ [l])) r ↔ q ∈ r ∨ ∃ p ∈ src, q = p ++ [l] := by
  induction src with
  | nil => intro r hr _; exact ⟨hr, by simp⟩
  | cons p src ih =>
    intro r hr hs
    have hp : ∀ l' ∈ p ++ [l], l' ∈ s := by
      intro l' h'
      rcases List.mem_append.mp h' with h' | h'
      · exact hs p (by simp) l' h'
      · simp only [List.mem_singleton] at h'; subst h'; exact hl
    obtain ⟨h1, h2⟩ := addPath_spec hinj hr hp
    obtain ⟨h3, h4⟩ := ih _ h1 (fun p hp => hs p (by simp [hp]))
    refine ⟨h3, fun q => ?_⟩
    simp only [List.foldl_cons]
    rw [h4, h2]
    simp only [List.mem_cons, exists_eq_or_imp]
    grind

theorem addPaths_spec {s : List Link} (hinj : ∀ x ∈ s, ∀ y ∈ s, x.eq y = true → x = y) (l : Link) (hl : l ∈ s)
    (src r : List (List Link)) (hr : Clean s r) (hs : ∀ p ∈ src, ∀ l ∈ p, l ∈ s) :
    Clean s (addPaths r l src) ∧
      ∀ q, q ∈ addPaths r l src ↔ q ∈ r ∨ (∃ p ∈ src, q = p ++ [l]) ∨ (src = [] ∧ q = [l]) := by
  obtain ⟨h1, h2⟩ := addFold_spec hinj l hl src r hr hs
  simp only [addPaths]
  split
  · rename_i he
    rw [List.isEmpty_iff] at he
    obtain ⟨h3, h4⟩ := addPath_spec hinj h1 (p := [l]) (by simp [hl])
    refine ⟨h3, fun q => ?_⟩
    rw [h4, h2]
    simp [he]
  · rename_i he
    rw [List.isEmpty_iff] at he
    refine ⟨h1, fun q => ?_⟩
    rw [h2]
    simp [he]

/-- The paths from the initial node. -/
def IsPath (s : List Link) (f : Field) (p : List Link) : Prop := p ≠ [] ∧ Path s INITIAL p f

theorem isPath_step {s : List Link} {f : Field} (q : List Link) :
    IsPath s f q ↔ ∃ l ∈ s, l.target = f ∧ ((∃ p, IsPath s l.source p ∧ q = p ++ [l]) ∨ (l.source = INITIAL ∧ q = [l])) := by
  constructor
  · rintro ⟨h1, h2⟩
    cases h2 with
    | nil => exact absurd rfl h1
    | @snoc p l hp hl =>
      refine ⟨l, hl, rfl, ?_⟩
      by_cases hpe : p = []
      · subst hpe
        right
        rcases hp.cons_inv with ⟨_, h⟩ | ⟨_, _, h, _⟩
        · exact ⟨h.symm, rfl⟩
        · cases h
      · exact .inl ⟨p, ⟨hpe, hp⟩, rfl⟩
  · rintro ⟨l, hl, rfl, ⟨p, ⟨_, h2⟩, rfl⟩ | ⟨h2, rfl⟩⟩
    · exact ⟨by simp, h2.snoc hl⟩
    · refine ⟨by simp, ?_⟩
      rw [← h2]
      exact Path.single hl

theorem paths_loop {s : List Link} (hinj : ∀ x ∈ s, ∀ y ∈ s, x.eq y = true → x = y)
    (g : Field → List (List Link)) (k : Nat) (ls : List Link) :
    ∀ r, Clean s r → (∀ l ∈ ls, l ∈ s ∧ paths s k l.source = .ok (g l.source) ∧ ∀ p ∈ g l.source, ∀ l ∈ p, l ∈ s) →
    ∃ r', ls.foldlM (fun r l => do return addPaths r l (← paths s k l.source)) r = (.ok r' : Py _) ∧ Clean s r' ∧
      ∀ q, q ∈ r' ↔ q ∈ r ∨ ∃ l ∈ ls, (∃ p ∈ g l.source, q = p ++ [l]) ∨ (g l.source = [] ∧ q = [l]) := by
  induction ls with
  | nil => intro r hr _; exact ⟨r, rfl, hr, by simp⟩
  | cons l ls ih =>
    intro r hr h
    obtain ⟨h1, h2, h3⟩ := h l (by simp)
    obtain ⟨h4, h5⟩ := addPaths_spec hinj l h1 (g l.source) r hr h3
    obtain ⟨r', h6, h7, h8⟩ := ih _ h4 (fun l hl => h l (by simp [hl]))
    refine ⟨r', ?_, h7, ?_⟩
    · rw [List.foldlM_cons, h2]
      exact h6
    · intro q
      rw [h8, h5]
      simp only [List.mem_cons, exists_eq_or_imp]
      grind

theorem paths_ok {s : List Link} {R : List Field} (h : Sorted s R) (n : Nat) :
    ∀ xs f ys, xs.length = n → R = xs ++ f :: ys → ∀ k, n < k →
      ∃ ps, paths s k f = .ok ps ∧ Clean s ps ∧ ∀ p, p ∈ ps ↔ IsPath s f p := by
  induction n using Nat.strongRecOn with
  | ind n ih =>
    intro xs f ys hn hR k hk
    obtain ⟨k, rfl⟩ : ∃ j, k = j + 1 := ⟨k - 1, by omega⟩
    simp only [paths]
    split
    · rename_i hf
      refine ⟨[], rfl, ⟨by simp, by simp⟩, ?_⟩
      intro p
      simp only [List.not_mem_nil, false_iff]
      rintro ⟨h1, h2⟩
      rw [hf] at h2
      exact h.acyclic INITIAL ⟨p, h1, h2⟩
    · rename_i hf
      have hsrc : ∀ l ∈ incoming s f, ∃ ps, paths s k l.source = .ok ps ∧ Clean s ps ∧ ∀ p, p ∈ ps ↔ IsPath s l.source p := by
        intro l hl
        rw [mem_incoming] at hl
        have hm := h.earlier hR hl.1 hl.2
        obtain ⟨us, ws, hw⟩ := List.append_of_mem hm
        refine ih us.length ?_ us l.source (ws ++ f :: ys) rfl (by rw [hR, hw]; simp) k ?_
        · rw [← hn, hw]; simp
        · have : us.length < n := by rw [← hn, hw]; simp
          omega
      let g : Field → List (List Link) := fun a => match paths s k a with | .ok ps => ps | .error _ => []
      have hg : ∀ l ∈ incoming s f, paths s k l.source = .ok (g l.source) ∧ Clean s (g l.source) ∧
          ∀ p, p ∈ g l.source ↔ IsPath s l.source p := by
        intro l hl
        obtain ⟨ps, h1, h2, h3⟩ := hsrc l hl
        have : g l.source = ps := by simp only [g, h1]
        rw [this]
        exact ⟨h1, h2, h3⟩
      obtain ⟨r, h1, h2, h3⟩ := paths_loop h.inj g k (incoming s f) [] ⟨by simp, by simp⟩
        (fun l hl => ⟨(mem_incoming.mp hl).1, (hg l hl).1, (hg l hl).2.1.2⟩)
      refine ⟨r, h1, h2, fun q => ?_⟩
      rw [h3, isPath_step]
      simp only [List.not_mem_nil, false_or]
      constructor
      · rintro ⟨l, hl, hq⟩
        have hg' := hg l hl
        rw [mem_incoming] at hl
        refine ⟨l, hl.1, hl.2, ?_⟩
        rcases hq with ⟨p, hp, rfl⟩ | ⟨he, rfl⟩
        · exact .inl ⟨p, (hg'.2.2 p).mp hp, rfl⟩
        · right
          refine ⟨?_, rfl⟩
          obtain ⟨p, hp⟩ := h.reach l.source (h.links l hl.1).1
          by_cases hpe : p = []
          · subst hpe
            rcases hp.cons_inv with ⟨_, h⟩ | ⟨_, _, h, _⟩
            · exact h.symm
            · cases h
          · have := (hg'.2.2 p).mpr ⟨hpe, hp⟩
            rw [he] at this
            simp at this
      · rintro ⟨l, hl, ht, hq⟩
        have hm : l ∈ incoming s f := mem_incoming.mpr ⟨hl, ht⟩
        have hg' := hg l hm
        refine ⟨l, hm, ?_⟩
        rcases hq with ⟨p, hp, rfl⟩ | ⟨he, rfl⟩
        · exact .inl ⟨p, (hg'.2.2 p).mpr hp, rfl⟩
        · right
          refine ⟨?_, rfl⟩
          rcases hgl : g l.source with _ | ⟨p, ps⟩
          · rfl
          · exfalso
            have := (hg'.2.2 p).mp (by rw [hgl]; simp)
            rw [he] at this
            exact h.acyclic INITIAL ⟨p, this.1, this.2⟩

theorem paths_unmentioned {s : List Link} {R : List Field} (h : Sorted s R) {f : Field} (hf : f ∉ R) :
    incoming s f = [] ∧ f ≠ INITIAL := by
  constructor
  · rw [List.eq_nil_iff_forall_not_mem]
    intro l hl
    rw [mem_incoming] at hl
    exact hf (hl.2 ▸ (h.links l hl.1).2)
  · intro he
    exact hf (he ▸ h.initial)

theorem foldlM_mono {α β : Type} (g g' : β → α → Py β) (ls : List α) (h : ∀ r l x, g r l = .ok x → g' r l = .ok x) :
    ∀ r x, ls.foldlM g r = .ok x → ls.foldlM g' r = .ok x := by
  induction ls with
  | nil => intro r x hx; exact hx
  | cons l ls ih =>
    intro r x hx
    rw [List.foldlM_cons] at hx ⊢
    cases hgl : g r l with
    | error e => rw [hgl] at hx; cases hx
    | ok y =>
      rw [hgl] at hx
      rw [h r l y hgl]
      exact ih y x hx

theorem paths_mono (s : List Link) (k : Nat) : ∀ k' f ps, k ≤ k' → paths s k f = .ok ps → paths s k' f = .ok ps := by
  induction k with
  | zero => intro k' f ps _ h; simp [paths] at h
  | succ k ih =>
    intro k' f ps hk h
    obtain ⟨k', rfl⟩ : ∃ j, k' = j + 1 := ⟨k' - 1, by omega⟩
    simp only [paths] at h ⊢
    split
    · rename_i hf; rw [if_pos hf] at h; exact h
    · rename_i hf
      rw [if_neg hf] at h
      refine foldlM_mono _ _ _ ?_ _ _ h
      intro r l x hx
      cases hp : paths s k l.source with
      | error e => rw [hp] at hx; cases hx
      | ok y =>
        rw [hp] at hx
        rw [ih k' l.source y (by omega) hp]
        exact hx

/-! ## C15 -/

/-- `message.paths(f)` is the set of all link sequences from the initial node to `f`. -/
theorem C15_paths_partial (m : Def) (hr : m.Regular) (fields : List Field) (h : m.Accepted fields) (f : Field) :
    ∃ ps, (∃ K, ∀ k, K ≤ k → paths m.links k f = .ok ps) ∧ ps.Nodup ∧
      ∀ p, p ∈ ps ↔ p ≠ [] ∧ Path m.links INITIAL p f := by
  obtain ⟨R, hs, _⟩ := accepted_sorted hr h
  by_cases hf : f ∈ R
  · obtain ⟨xs, ys, hR⟩ := List.append_of_mem hf
    obtain ⟨ps, h1, h2, h3⟩ := paths_ok hs xs.length xs f ys rfl hR (xs.length + 1) (by omega)
    refine ⟨ps, ⟨xs.length + 1, ?_⟩, h2.1, h3⟩
    exact fun k hk => paths_mono _ _ k f ps hk h1
  · obtain ⟨h1, h2⟩ := paths_unmentioned hs hf
    refine ⟨[], ⟨1, ?_⟩, by simp, ?_⟩
    · intro k hk
      obtain ⟨k, rfl⟩ : ∃ j, k = j + 1 := ⟨k - 1, by omega⟩
      simp [paths, h1, h2, pure, Except.pure]
    · intro p
      simp only [List.not_mem_nil, false_iff]
      intro hp
      obtain ⟨l, hl, ht, _⟩ := (isPath_step p).mp hp
      have : l ∈ incoming m.links f := mem_incoming.mpr ⟨hl, ht⟩
      rw [h1] at this
      simp at this


/-! ## C16 -/

theorem eval_bool_list (D : Division) (ρ : Env) (ts : List Expr) (h : ∀ t ∈ ts, ∃ b, eval D ρ t = some (.bool b)) :
    ∃ bs, (evalL D ρ ts).bind (allSome Val.bool?) = some bs ∧ bs = ts.map (fun t => decide (eval D ρ t = some (.bool true))) := by
  induction ts with
  | nil => exact ⟨[], rfl, rfl⟩
  | cons t ts ih =>
    obtain ⟨b, hb⟩ := h t (by simp)
    obtain ⟨bs, h1, h2⟩ := ih (fun t ht => h t (by simp [ht]))
    cases he : evalL D ρ ts with
    | none => rw [he] at h1; cases h1
    | some vs =>
      rw [he] at h1
      refine ⟨b :: bs, ?_, ?_⟩
      · simp only [evalL, hb, he, Option.bind_some] at h1 ⊢
        simp [allSome, Val.bool?, h1]
      · simp [hb, h2]

theorem eval_or {D : Division} {ρ : Env} {ts : List Expr} (h : ∀ t ∈ ts, ∃ b, eval D ρ t = some (.bool b)) :
    ∃ b, eval D ρ (.bool .or ts) = some (.bool b) ∧ (b = true ↔ ∃ t ∈ ts, eval D ρ t = some (.bool true)) := by
  obtain ⟨bs, h1, h2⟩ := eval_bool_list D ρ ts h
  refine ⟨bs.any id, by simp only [eval, h1]; rfl, ?_⟩
  subst h2
  simp

theorem eval_and {D : Division} {ρ : Env} {ts : List Expr} (h : ∀ t ∈ ts, ∃ b, eval D ρ t = some (.bool b)) :
    ∃ b, eval D ρ (.bool .and ts) = some (.bool b) ∧ (b = true ↔ ∀ t ∈ ts, eval D ρ t = some (.bool true)) := by
  obtain ⟨bs, h1, h2⟩ := eval_bool_list D ρ ts h
  refine ⟨bs.all id, by simp only [eval, h1]; rfl, ?_⟩
  subst h2
  simp

theorem mapM_ok {α β : Type} {g : α → Py β} {h : α → β} (ls : List α) (hg : ∀ l ∈ ls, g l = .ok (h l)) :
    ls.mapM g = .ok (ls.map h) := by
  induction ls with
  | nil => rfl
  | cons l ls ih =>
    rw [List.mapM_cons, hg l (by simp), ih (fun l hl => hg l (by simp [hl]))]
    rfl

theorem mapM_mono {α β : Type} (g g' : α → Py β) (h : ∀ l x, g l = .ok x → g' l = .ok x) (ls : List α) :
    ∀ x, ls.mapM g = .ok x → ls.mapM g' = .ok x := by
  induction ls with
  | nil => intro x hx; exact hx
  | cons l ls ih =>
    intro x hx
    rw [List.mapM_cons] at hx ⊢
    cases hgl : g l with
    | error e => rw [hgl] at hx; cases hx
    | ok y =>
      rw [hgl] at hx
      rw [h l y hgl]
      cases hm : ls.mapM g with
      | error e => rw [hm] at hx; cases hx
      | ok z => rw [hm] at hx; rw [ih z hm]; exact hx

theorem condition_mono (s : List Link) (k : Nat) :
    ∀ k' f e, k ≤ k' → computeFieldCondition s k f = .ok e → computeFieldCondition s k' f = .ok e := by
  induction k with
  | zero => intro k' f ps _ h; simp [computeFieldCondition] at h
  | succ k ih =>
    intro k' f e hk h
    obtain ⟨k', rfl⟩ : ∃ j, k' = j + 1 := ⟨k' - 1, by omega⟩
    simp only [computeFieldCondition] at h ⊢
    split
    · rename_i hf; rw [if_pos hf] at h; exact h
    · rename_i hf
      rw [if_neg hf] at h
      cases hm : (incoming s f).mapM (fun l => do return Expr.bool .and [← computeFieldCondition s k l.source, l.condition]) with
      | error e => rw [hm] at h; cases h
      | ok ts =>
        rw [hm] at h
        rw [mapM_mono _ _ ?_ _ _ hm]
        · exact h
        · intro l x hx
          cases hp : computeFieldCondition s k l.source with
          | error e => rw [hp] at hx; cases hx
          | ok y =>
            rw [hp] at hx
            rw [ih k' l.source y (by omega) hp]
            exact hx

/-- A path whose conditions are all true. -/
def TruePath (D : Division) (ρ : Env) (s : List Link) (f : Field) (p : List Link) : Prop :=
  Path s INITIAL p f ∧ ∀ l ∈ p, eval D ρ l.condition = some (.bool true)

theorem truePath_step {D : Division} {ρ : Env} {s : List Link} {f : Field} (hf : f ≠ INITIAL) :
    (∃ p, TruePath D ρ s f p) ↔
      ∃ l ∈ incoming s f, (∃ p, TruePath D ρ s l.source p) ∧ eval D ρ l.condition = some (.bool true) := by
  constructor
  · rintro ⟨p, h1, h2⟩
    cases h1 with
    | nil => exact absurd rfl hf
    | @snoc p l hp hl =>
      exact ⟨l, mem_incoming.mpr ⟨hl, rfl⟩, ⟨p, hp, fun l hl => h2 l (by simp [hl])⟩, h2 l (by simp)⟩
  · rintro ⟨l, hl, ⟨p, h1, h2⟩, h3⟩
    rw [mem_incoming] at hl
    obtain ⟨hl, rfl⟩ := hl
    refine ⟨p ++ [l], h1.snoc hl, ?_⟩
    intro l' hl'
    rcases List.mem_append.mp hl' with h | h
    · exact h2 l' h
    · simp only [List.mem_singleton] at h; subst h; exact h3

/-- The properties of conditions that make the condition of a field well-behaved under simplification. -/
def Plain (D : Division) (e : Expr) : Prop := e.Good D.Odd false ∧ e.WF ∧ ¬ e.HQ

theorem condition_ok (D : Division) {s : List Link} {R : List Field} (h : Sorted s R) (n : Nat) :
    ∀ xs f ys, xs.length = n → R = xs ++ f :: ys →
      ∃ e, computeFieldCondition s (n + 1) f = .ok e ∧
        (∀ ρ, (∀ l ∈ s, ∃ b, eval D ρ l.condition = some (.bool b)) →
          ∃ b, eval D ρ e = some (.bool b) ∧ (b = true ↔ ∃ p, TruePath D ρ s f p)) ∧
        ((∀ l ∈ s, Plain D l.condition) → Plain D e) := by
  induction n using Nat.strongRecOn with
  | ind n ih =>
    intro xs f ys hn hR
    simp only [computeFieldCondition]
    split
    · rename_i hf
      subst hf
      refine ⟨.tru, rfl, fun ρ _ => ⟨true, rfl, by simp; exact ⟨[], .nil, by simp⟩⟩, fun _ => ?_⟩
      simp [Plain, Expr.Good, Expr.WF, Expr.HQ]
    · rename_i hf
      have hsrc : ∀ l ∈ incoming s f, ∃ e, computeFieldCondition s n l.source = .ok e ∧
        (∀ ρ, (∀ l ∈ s, ∃ b, eval D ρ l.condition = some (.bool b)) →
          ∃ b, eval D ρ e = some (.bool b) ∧ (b = true ↔ ∃ p, TruePath D ρ s l.source p)) ∧
        ((∀ l ∈ s, Plain D l.condition) → Plain D e) := by
        intro l hl
        rw [mem_incoming] at hl
        have hm := h.earlier hR hl.1 hl.2
        obtain ⟨us, ws, hw⟩ := List.append_of_mem hm
        have hlt : us.length < n := by rw [← hn, hw]; simp
        obtain ⟨e, h1, h2⟩ := ih us.length hlt us l.source (ws ++ f :: ys) rfl (by rw [hR, hw]; simp)
        exact ⟨e, condition_mono _ _ _ _ _ (by omega) h1, h2⟩
      let g : Field → Expr := fun a => match computeFieldCondition s n a with | .ok e => e | .error _ => .undefined
      have hg : ∀ l ∈ incoming s f, computeFieldCondition s n l.source = .ok (g l.source) ∧
        (∀ ρ, (∀ l ∈ s, ∃ b, eval D ρ l.condition = some (.bool b)) →
          ∃ b, eval D ρ (g l.source) = some (.bool b) ∧ (b = true ↔ ∃ p, TruePath D ρ s l.source p)) ∧
        ((∀ l ∈ s, Plain D l.condition) → Plain D (g l.source)) := by
        intro l hl
        obtain ⟨e, h1, h2⟩ := hsrc l hl
        have : g l.source = e := by simp only [g, h1]
        rw [this]
        exact ⟨h1, h2⟩
      have hm : (incoming s f).mapM (fun l => do return Expr.bool .and [← computeFieldCondition s n l.source, l.condition])
          = .ok ((incoming s f).map fun l => Expr.bool .and [g l.source, l.condition]) := by
        apply mapM_ok
        intro l hl
        rw [(hg l hl).1]
        rfl
      rw [hm]
      refine ⟨_, rfl, ?_, ?_⟩
      · intro ρ hρ
        have hand : ∀ l ∈ incoming s f, ∃ b, eval D ρ (.bool .and [g l.source, l.condition]) = some (.bool b) ∧
            (b = true ↔ (∃ p, TruePath D ρ s l.source p) ∧ eval D ρ l.condition = some (.bool true)) := by
          intro l hl
          obtain ⟨b1, h1, h2⟩ := (hg l hl).2.1 ρ hρ
          obtain ⟨b2, h3⟩ := hρ l (mem_incoming.mp hl).1
          obtain ⟨b, h4, h5⟩ := eval_and (D := D) (ρ := ρ) (ts := [g l.source, l.condition])
            (by simp [h1, h3])
          refine ⟨b, h4, ?_⟩
          rw [h5, ← h2]
          simp [h1, h3]
        obtain ⟨b, h1, h2⟩ := eval_or (D := D) (ρ := ρ) (ts := (incoming s f).map fun l => Expr.bool .and [g l.source, l.condition])
          (by
            intro t ht
            rw [List.mem_map] at ht
            obtain ⟨l, hl, rfl⟩ := ht
            obtain ⟨b, h1, _⟩ := hand l hl
            exact ⟨b, h1⟩)
        refine ⟨b, h1, ?_⟩
        rw [h2, truePath_step hf]
        constructor
        · rintro ⟨t, ht, h3⟩
          rw [List.mem_map] at ht
          obtain ⟨l, hl, rfl⟩ := ht
          obtain ⟨b', h4, h5⟩ := hand l hl
          rw [h4] at h3
          simp only [Option.some.injEq, Val.bool.injEq] at h3
          exact ⟨l, hl, h5.mp h3⟩
        · rintro ⟨l, hl, h3⟩
          obtain ⟨b', h4, h5⟩ := hand l hl
          refine ⟨_, List.mem_map.mpr ⟨l, hl, rfl⟩, ?_⟩
          rw [h4, h5.mpr h3]
      · intro hp
        have hne : incoming s f ≠ [] := by
          obtain ⟨p, hpath⟩ := h.reach f (by rw [hR]; simp)
          cases hpath with
          | nil => exact absurd rfl hf
          | @snoc p l _ hl =>
            intro he
            have : l ∈ incoming s l.target := mem_incoming.mpr ⟨hl, rfl⟩
            rw [he] at this
            simp at this
        have hall : ∀ l ∈ incoming s f, Plain D (Expr.bool .and [g l.source, l.condition]) := by
          intro l hl
          have h1 := (hg l hl).2.2 hp
          have h2 := hp l (mem_incoming.mp hl).1
          simp only [Plain, Expr.Good, Expr.GoodL, Expr.WF, Expr.WFL, Expr.HQ, Expr.HQL] at h1 h2 ⊢
          simp [h1, h2]
        have hlist : ∀ ls : List Link, (∀ l ∈ ls, Plain D (Expr.bool .and [g l.source, l.condition])) →
            Expr.GoodL D.Odd false (ls.map fun l => Expr.bool .and [g l.source, l.condition]) ∧
            Expr.WFL (ls.map fun l => Expr.bool .and [g l.source, l.condition]) ∧
            ¬ Expr.HQL (ls.map fun l => Expr.bool .and [g l.source, l.condition]) := by
          intro ls
          induction ls with
          | nil => intro _; simp [Expr.GoodL, Expr.WFL, Expr.HQL]
          | cons l ls ih =>
            intro hl
            have h1 := hl l (by simp)
            have h2 := ih (fun l h => hl l (by simp [h]))
            simp only [List.map_cons, Expr.GoodL, Expr.WFL, Expr.HQL]
            exact ⟨⟨h1.1, h2.1⟩, ⟨h1.2.1, h2.2.1⟩, fun h => h.elim h1.2.2 h2.2.2⟩
        obtain ⟨h1, h2, h3⟩ := hlist _ hall
        exact ⟨⟨rfl, h1⟩, ⟨h2, fun he => absurd (List.map_eq_nil_iff.mp he) hne⟩, h3⟩

/-- The condition of a field before simplification is true exactly if all conditions on some path to the field are
true. -/
theorem C16_condition_partial (D : Division) (m : Def) (hr : m.Regular) (fields : List Field) (h : m.Accepted fields)
    (f : Field) (hf : f = INITIAL ∨ ∃ l ∈ m.links, l.target = f) :
    ∃ e K, (∀ k, K ≤ k → computeFieldCondition m.links k f = .ok e) ∧
      ∀ ρ, (∀ l ∈ m.links, ∃ b, eval D ρ l.condition = some (.bool b)) →
        ∃ b, eval D ρ e = some (.bool b) ∧
          (b = true ↔ ∃ p, Path m.links INITIAL p f ∧ ∀ l ∈ p, eval D ρ l.condition = some (.bool true)) := by
  obtain ⟨R, hs, _⟩ := accepted_sorted hr h
  have hfR : f ∈ R := by
    rcases hf with rfl | ⟨l, hl, rfl⟩
    · exact hs.initial
    · exact (hs.links l hl).2
  obtain ⟨xs, ys, hR⟩ := List.append_of_mem hfR
  obtain ⟨e, h1, h2, _⟩ := condition_ok D hs xs.length xs f ys rfl hR
  exact ⟨e, _, fun k hk => condition_mono _ _ _ _ _ hk h1, h2⟩

/-- `message.field_condition(f)`, the simplified condition, has the same meaning, provided that simplification is
right for the conditions of the links (`Good`, `WF`, no quantifiers, see C08 and C09). Missing: other conditions. -/
theorem C16_field_condition_partial (D : Division) (m : Def) (hr : m.Regular) (fields : List Field)
    (h : m.Accepted fields) (f : Field) (hf : f = INITIAL ∨ ∃ l ∈ m.links, l.target = f)
    (hc : ∀ l ∈ m.links, l.condition.Good D.Odd false ∧ l.condition.WF ∧ ¬ l.condition.HQ)
    (ρ₀ : Env) (h₀ : ∀ l ∈ m.links, ∃ b, eval D ρ₀ l.condition = some (.bool b)) :
    ∃ e K, (∀ k, K ≤ k → fieldCondition m.links k f = .ok e) ∧
      ∀ ρ, (∀ l ∈ m.links, ∃ b, eval D ρ l.condition = some (.bool b)) →
        ∃ b, eval D ρ e = some (.bool b) ∧
          (b = true ↔ ∃ p, Path m.links INITIAL p f ∧ ∀ l ∈ p, eval D ρ l.condition = some (.bool true)) := by
  obtain ⟨R, hs, _⟩ := accepted_sorted hr h
  have hfR : f ∈ R := by
    rcases hf with rfl | ⟨l, hl, rfl⟩
    · exact hs.initial
    · exact (hs.links l hl).2
  obtain ⟨xs, ys, hR⟩ := List.append_of_mem hfR
  obtain ⟨e, h1, h2, h3⟩ := condition_ok D hs xs.length xs f ys rfl hR
  obtain ⟨hg, hw, hq⟩ := h3 hc
  obtain ⟨b₀, hb₀, _⟩ := h2 ρ₀ h₀
  obtain ⟨e', he'⟩ := C08_C09_simplified_returns_partial e hg hw hq ρ₀ _ hb₀
  refine ⟨e', xs.length + 1, ?_, ?_⟩
  · intro k hk
    simp only [fieldCondition, condition_mono _ _ _ _ _ hk h1]
    exact he'
  · intro ρ hρ
    obtain ⟨b, hb, hb'⟩ := h2 ρ hρ
    exact ⟨b, C08_C09_simplified_value_partial e e' hg hw he' ρ _ hb, hb'⟩

/-! ## C17 -/

/-- `message.definite_predecessors(f)` are, in the order of `message.fields`, the fields that occur as source of a link
on every path to `f`. Missing: the initial node, see the counterexample. -/
theorem C17_definite_predecessors_partial (m : Def) (hr : m.Regular) (fields : List Field) (h : m.Accepted fields)
    (f : Field) (hf : f ≠ INITIAL) :
    ∃ ds K, (∀ k, K ≤ k → definitePredecessors m.links k fields f = .ok ds) ∧ ds.Sublist fields ∧
      ∀ g, g ∈ ds ↔ g ∈ fields ∧ ∀ p, Path m.links INITIAL p f → ∃ l ∈ p, l.source = g := by
  obtain ⟨ps, ⟨K, hK⟩, _, h2⟩ := C15_paths_partial m hr fields h f
  refine ⟨_, K, fun k hk => by rw [definitePredecessors, hK k hk]; rfl, List.filter_sublist, ?_⟩
  intro g
  simp only [List.mem_filter, List.all_eq_true, List.any_eq_true, beq_iff_eq]
  refine and_congr_right fun _ => ?_
  constructor
  · intro h3 p hp
    have : p ≠ [] := by
      rintro rfl
      rcases hp.cons_inv with ⟨_, h'⟩ | ⟨_, _, h', _⟩
      · exact hf h'.symm
      · cases h'
    obtain ⟨l, hl, he⟩ := h3 p ((h2 p).mpr ⟨this, hp⟩)
    exact ⟨l, hl, he.symm⟩
  · intro h3 p hp
    obtain ⟨l, hl, he⟩ := h3 p ((h2 p).mp hp).2
    exact ⟨l, hl, he.symm⟩

theorem Order.follows {s : List Link} {R : List Field} (h : Order s R) {xs ys : List Field} {g : Field}
    (hR : R = xs ++ g :: ys) {p : List Link} {t : Field} (hp : Path s g p t) : p ≠ [] → t ∈ ys := by
  induction hp with
  | nil => intro h; exact absurd rfl h
  | @snoc p l hp hl ih =>
    intro _
    by_cases hpe : p = []
    · subst hpe
      rcases hp.cons_inv with ⟨_, h'⟩ | ⟨_, _, h', _⟩
      · exact h.later xs g ys hR l hl h'.symm
      · cases h'
    · obtain ⟨us, ws, hw⟩ := List.append_of_mem (ih hpe)
      have := h.later (xs ++ g :: us) l.source ws (by rw [hR, hw]; simp) l hl rfl
      rw [hw]
      simp [this]

theorem split_unique {as : List Field} : ∀ {as' bs bs' : List Field} {f : Field}, (as ++ f :: bs).Nodup →
    as ++ f :: bs = as' ++ f :: bs' → as = as' ∧ bs = bs' := by
  induction as with
  | nil =>
    intro as' bs bs' f hn h
    cases as' with
    | nil => simpa using h
    | cons a as' =>
      simp only [List.nil_append, List.cons_append, List.cons.injEq] at h
      obtain ⟨rfl, rfl⟩ := h
      simp at hn
  | cons a as ih =>
    intro as' bs bs' f hn h
    cases as' with
    | nil =>
      simp only [List.nil_append, List.cons_append, List.cons.injEq] at h
      obtain ⟨rfl, rfl⟩ := h
      simp at hn
    | cons a' as' =>
      simp only [List.cons_append, List.cons.injEq] at h
      obtain ⟨rfl, h⟩ := h
      obtain ⟨rfl, rfl⟩ := ih (List.nodup_cons.mp hn).2 h
      exact ⟨rfl, rfl⟩

theorem before_split {fields as bs : List Field} {f g : Field} (hn : fields.Nodup) (h : fields = as ++ f :: bs) :
    (Before fields g f → g ∈ as) ∧ (Before fields f g → g ∈ bs) := by
  rw [h] at hn
  constructor
  · rintro ⟨xs, ys, zs, hb⟩
    rw [h] at hb
    rw [(split_unique hn hb).1]
    simp
  · rintro ⟨xs, ys, zs, hb⟩
    rw [h, List.append_assoc, List.cons_append] at hb
    rw [(split_unique hn hb).2]
    simp

/-- `predecessors` and `successors` split the fields at `f`; a field from which `f` can be reached is a predecessor, a
field that can be reached from `f` is a successor. Missing: the converse, see the counterexample. -/
theorem C17_predecessors_partial (m : Def) (hr : m.Regular) (fields : List Field) (h : m.Accepted fields)
    (f : Field) (hf : f ∈ fields) :
    ∃ ps ss, predecessors fields f = .ok ps ∧ successors fields f = .ok ss ∧ fields = ps ++ f :: ss ∧
      ∀ g ∈ fields, (Reaches m.links g f → g ∈ ps) ∧ (Reaches m.links f g → g ∈ ss) := by
  obtain ⟨R, hs, hfields⟩ := accepted_sorted hr h
  have hq : ∀ g ∈ fields, (g != INITIAL && g != FINAL) = true := by
    intro g hg
    rw [hfields] at hg
    exact (List.mem_filter.mp hg).2
  have hn : fields.Nodup := (C14_order_partial m hr fields h).1
  have hbefore : ∀ a ∈ fields, ∀ b ∈ fields, Reaches m.links a b → Before fields a b := by
    rintro a ha b hb ⟨p, hp, hpath⟩
    have haR : a ∈ R := by rw [hfields] at ha; exact (List.mem_filter.mp ha).1
    obtain ⟨xs, ys, hR⟩ := List.append_of_mem haR
    obtain ⟨us, ws, hw⟩ := List.append_of_mem (hs.follows hR hpath hp)
    have : Before R a b := ⟨xs, us, ws, by rw [hR, hw]; simp⟩
    have := before_filter (fun f => f != INITIAL && f != FINAL) this (hq a ha) (hq b hb)
    rwa [← hfields] at this
  have hfne := hq f hf
  simp only [Bool.and_eq_true, bne_iff_ne, ne_eq] at hfne
  refine ⟨fields.take (fields.idxOf f), fields.drop (fields.idxOf f + 1), ?_, ?_, ?_, ?_⟩
  · simp [predecessors, hfne, hf]
  · simp [successors, hfne, hf]
  · have hlt := List.idxOf_lt_length_of_mem hf
    have := List.drop_eq_getElem_cons hlt
    rw [List.getElem_idxOf] at this
    rw [← this, List.take_append_drop]
  · have hlt := List.idxOf_lt_length_of_mem hf
    have h1 := List.drop_eq_getElem_cons hlt
    rw [List.getElem_idxOf] at h1
    have h2 : fields = fields.take (fields.idxOf f) ++ f :: fields.drop (fields.idxOf f + 1) := by
      rw [← h1, List.take_append_drop]
    intro g hg
    obtain ⟨h3, h4⟩ := before_split (g := g) hn h2
    exact ⟨fun h => h3 (hbefore g hg f hf h), fun h => h4 (hbefore f hf g hg h)⟩

/-- The initial node: all fields are successors, each of them can be reached from it, and none is a predecessor; the
final node: all fields are predecessors, none is a successor. -/
theorem C17_ends (m : Def) (fields : List Field) (h : m.Accepted fields) :
    predecessors fields INITIAL = .ok [] ∧ successors fields INITIAL = .ok fields ∧
      (∀ g ∈ fields, Reaches m.links INITIAL g ∧ ¬ Reaches m.links g INITIAL) ∧
      predecessors fields FINAL = .ok fields ∧ successors fields FINAL = .ok [] := by
  obtain ⟨h1, h2⟩ := C14_reachable m fields h
  refine ⟨rfl, rfl, fun g hg => ⟨?_, ?_⟩, rfl, rfl⟩
  · obtain ⟨p, hp⟩ := h1 g hg
    refine ⟨p, ?_, hp⟩
    rintro rfl
    rcases hp.cons_inv with ⟨_, h'⟩ | ⟨_, _, h', _⟩
    · rcases accepted_checked h with ⟨_, rfl⟩ | ⟨R, V, hc⟩
      · simp at hg
      · rw [hc.fields, List.mem_filter] at hg
        rw [← h'] at hg
        simp at hg
    · cases h'
  · rintro ⟨p, hp, hpath⟩
    generalize hi : INITIAL = i at hpath
    cases hpath with
    | nil => exact hp rfl
    | snoc _ hl => exact h2 _ hl hi.symm

theorem mem_dedup (fs : List Field) (f : Field) : f ∈ dedup fs ↔ f ∈ fs := by
  induction fs with
  | nil => simp [dedup]
  | cons a fs ih =>
    simp only [dedup, List.mem_cons, List.mem_filter, ih, bne_iff_ne, ne_eq]
    by_cases h : f = a <;> simp [h]

theorem nodup_dedup (fs : List Field) : (dedup fs).Nodup := by
  induction fs with
  | nil => simp [dedup]
  | cons a fs ih =>
    simp only [dedup, List.nodup_cons, List.mem_filter, bne_self_eq_false]
    exact ⟨by simp, ih.filter _⟩

/-- `direct_predecessors` and `direct_successors` are the other ends of the links into and out of `f`, without
repetition. -/
theorem C17_direct (s : List Link) (f : Field) :
    (directPredecessors s f).Nodup ∧ (∀ g, g ∈ directPredecessors s f ↔ ∃ l ∈ s, l.source = g ∧ l.target = f) ∧
    (directSuccessors s f).Nodup ∧ (∀ g, g ∈ directSuccessors s f ↔ ∃ l ∈ s, l.source = f ∧ l.target = g) := by
  refine ⟨nodup_dedup _, ?_, nodup_dedup _, ?_⟩
  · intro g
    simp only [directPredecessors, mem_dedup, List.mem_map, mem_incoming]
    constructor
    · rintro ⟨l, ⟨h1, h2⟩, h3⟩; exact ⟨l, h1, h3, h2⟩
    · rintro ⟨l, h1, h3, h2⟩; exact ⟨l, ⟨h1, h2⟩, h3⟩
  · intro g
    simp only [directSuccessors, mem_dedup, List.mem_map, mem_outgoing]
    constructor
    · rintro ⟨l, ⟨h1, h2⟩, h3⟩; exact ⟨l, h1, h2, h3⟩
    · rintro ⟨l, h1, h3, h2⟩; exact ⟨l, ⟨h1, h3⟩, h2⟩

/-! ## Examples -/

/-- `T` is followed by `L` or by `V`, each followed by the end. -/
def exFork : Def :=
  ⟨[lnk INITIAL (fld 't'), lnk (fld 't') (fld 'l') (tagIs 1), lnk (fld 't') (fld 'v') (tagIs 2),
    lnk (fld 'l') FINAL, lnk (fld 'v') FINAL], [fld 't', fld 'l', fld 'v'], []⟩

theorem exFork_accepted : exFork.Accepted [fld 't', fld 'l', fld 'v'] := ⟨7, rfl⟩

/-- The hypotheses of the theorems hold for the type-length-value message. -/
example : exTLV.Regular ∧ exTLV.Accepted [fld 't', fld 'l', fld 'v'] ∧
    paths exTLV.links 5 FINAL = .ok
      [[lnk INITIAL (fld 't'), lnk (fld 't') FINAL (tagIs 3)],
       [lnk INITIAL (fld 't'), lnk (fld 't') (fld 'l') (tagIs 1),
        ⟨fld 'l', fld 'v', .tru, .mul [.var false false ⟨[['L']]⟩, .n 8], .undefined⟩, lnk (fld 'v') FINAL]] ∧
    definitePredecessors exTLV.links 5 [fld 't', fld 'l', fld 'v'] FINAL = .ok [fld 't'] :=
  ⟨exTLV_regular, exTLV_accepted, rfl, rfl⟩

example (D : Division) : (∃ l ∈ exTLV.links, l.target = FINAL) ∧
    (∀ l ∈ exTLV.links, l.condition.Good D.Odd false ∧ l.condition.WF ∧ ¬ l.condition.HQ) ∧
    (∀ l ∈ exTLV.links, ∃ b, eval D ⟨fun _ => .int 1, fun _ _ => .int 0, fun _ _ => .int 0, fun _ _ => .int 0⟩ l.condition = some (.bool b)) ∧
    fieldCondition exTLV.links 5 (fld 'v') = .ok (tagIs 1) := by
  refine ⟨⟨_, List.mem_cons_of_mem _ (List.mem_cons_of_mem _ (List.mem_cons_self ..)), rfl⟩, ?_, ?_, ?_⟩
  · simp [exTLV, lnk, tagIs, Expr.Good, Expr.WF, Expr.HQ, Expr.n]
    decide
  · simp [exTLV, lnk, tagIs, eval, Expr.n, Val.negIf, RelOp.eval]
  · rfl

/-- `definite_predecessors(INITIAL)` are all fields. -/
theorem C17_definite_initial_counterexample :
    ∃ (m : Def) (fields : List Field), m.Regular ∧ m.Accepted fields ∧ fields ≠ [] ∧
      ∀ k, definitePredecessors m.links (k + 1) fields INITIAL = .ok fields := by
  refine ⟨exTLV, _, exTLV_regular, exTLV_accepted, by simp, fun k => ?_⟩
  simp [definitePredecessors, paths, Bind.bind, Except.bind, pure, Except.pure]

/-- A field is reported as a predecessor although no path leads from it to the other field. -/
theorem C17_predecessors_counterexample :
    ∃ (m : Def) (fields : List Field) (f g : Field) (ps : List Field), m.Accepted fields ∧ f ∈ fields ∧ g ∈ fields ∧ predecessors fields f = .ok ps ∧ g ∈ ps ∧
      ¬ Reaches m.links g f := by
  refine ⟨exFork, _, fld 'v', fld 'l', [fld 't', fld 'l'], exFork_accepted, by simp, by simp, rfl, by simp, ?_⟩
  rintro ⟨p, hp, h⟩
  rcases h.cons_inv with ⟨h1, _⟩ | ⟨l, q, rfl, hl, h1, h2⟩
  · exact hp h1
  · simp only [exFork, lnk, List.mem_cons, List.not_mem_nil, or_false] at hl
    rcases hl with rfl | rfl | rfl | rfl | rfl <;> try (simp [fld, INITIAL] at h1; done)
    rcases h2.cons_inv with ⟨_, h3⟩ | ⟨l, q, rfl, hl, h1, h2⟩
    · simp [fld, FINAL] at h3
    · simp only [exFork, lnk, List.mem_cons, List.not_mem_nil, or_false] at hl
      rcases hl with rfl | rfl | rfl | rfl | rfl <;> simp [fld, INITIAL, FINAL] at h1

end Verif.Graph
