import Verif.Ctx.Values

/-! # The condition of `Field_Condition` before the last substitution -/

namespace Verif.Ctx
open Verif Verif.Graph Verif.Verify Verif.Types Verif.Gen Verif.Spark Verif.Merge

/-! ## Replacement of leaves -/

mutual
/-- Replacement of the leaves of an expression. -/
def mapLeaf (h : Expr → Expr) : Expr → Expr
  | .tru => .tru
  | .fls => .fls
  | .num v b => .num v b
  | .bool op ts => .bool op (mapLeafL h ts)
  | .add ts => .add (mapLeafL h ts)
  | .mul ts => .mul (mapLeafL h ts)
  | .bin op l r => .bin op (mapLeaf h l) (mapLeaf h r)
  | .rel op l r => .rel op (mapLeaf h l) (mapLeaf h r)
  | .undefined => h .undefined
  | .var ng im id => h (.var ng im id)
  | .attr ng a p => h (.attr ng a p)
  | .sel ng p s => h (.sel ng p s)
  | .call ng id as => h (.call ng id as)
  | .not e => h (.not e)
  | .agg es => h (.agg es)
  | .quant q p i b => h (.quant q p i b)
def mapLeafL (h : Expr → Expr) : List Expr → List Expr
  | [] => []
  | e :: es => mapLeaf h e :: mapLeafL h es
end

theorem mapLeafL_eq (h : Expr → Expr) (ts : List Expr) : mapLeafL h ts = ts.map (mapLeaf h) := by
  induction ts with
  | nil => rfl
  | cons t ts ih => simp [mapLeafL, ih]

theorem mapM_ok {g : Expr → Py Expr} {h : Expr → Expr} : ∀ {ts : List Expr}, (∀ t ∈ ts, g t = .ok (h t)) → ts.mapM g = .ok (ts.map h) := by
  intro ts
  induction ts with
  | nil => intro _; rfl
  | cons t ts ih =>
    intro hg
    rw [List.mapM_cons, hg t List.mem_cons_self, ih fun t ht => hg t (List.mem_cons_of_mem _ ht)]
    rfl

theorem subst_mapLeaf {f h : Expr → Expr} {L : Expr → Prop} {N : RelOp → Expr → Expr → Prop}
    (hf : ∀ e, e.isName = false → f e = e) (hr : ∀ op l r, ¬ L (.rel op l r))
    (hl : ∀ e, L e → ∀ k, depth e + 1 ≤ k → subst k f e = .ok (h e)) (e : Expr) :
    Cov L N e → ∀ k, depth e + 1 ≤ k → subst k f e = .ok (mapLeaf h e) := by
  have leaf : ∀ e, L e → mapLeaf h e = h e → ∀ k, depth e + 1 ≤ k → subst k f e = .ok (mapLeaf h e) := by
    intro e he hm k hk
    rw [hm]
    exact hl e he k hk
  induction e using Expr.ind with
  | tru => intro _ k hk; obtain ⟨k, rfl⟩ : ∃ k', k = k' + 1 := ⟨k - 1, by omega⟩; simp [subst, hf .tru rfl, mapLeaf]
  | fls => intro _ k hk; obtain ⟨k, rfl⟩ : ∃ k', k = k' + 1 := ⟨k - 1, by omega⟩; simp [subst, hf .fls rfl, mapLeaf]
  | num v b => intro _ k hk; obtain ⟨k, rfl⟩ : ∃ k', k = k' + 1 := ⟨k - 1, by omega⟩; simp [subst, hf (.num v b) rfl, mapLeaf]
  | bool op ts ih =>
    intro h1 k hk
    simp only [Cov, covL_iff] at h1
    simp only [depth] at hk
    obtain ⟨k, rfl⟩ : ∃ k', k = k' + 1 := ⟨k - 1, by omega⟩
    simp only [subst, hf (.bool op ts) rfl, mapLeaf, mapLeafL_eq]
    rw [mapM_ok (h := mapLeaf h) fun t ht => ih t ht (h1 t ht) k (by have := depthL_le ht; omega)]
    rfl
  | add ts ih =>
    intro h1 k hk
    simp only [Cov, covL_iff] at h1
    simp only [depth] at hk
    obtain ⟨k, rfl⟩ : ∃ k', k = k' + 1 := ⟨k - 1, by omega⟩
    simp only [subst, hf (.add ts) rfl, mapLeaf, mapLeafL_eq]
    rw [mapM_ok (h := mapLeaf h) fun t ht => ih t ht (h1 t ht) k (by have := depthL_le ht; omega)]
    rfl
  | mul ts ih =>
    intro h1 k hk
    simp only [Cov, covL_iff] at h1
    simp only [depth] at hk
    obtain ⟨k, rfl⟩ : ∃ k', k = k' + 1 := ⟨k - 1, by omega⟩
    simp only [subst, hf (.mul ts) rfl, mapLeaf, mapLeafL_eq]
    rw [mapM_ok (h := mapLeaf h) fun t ht => ih t ht (h1 t ht) k (by have := depthL_le ht; omega)]
    rfl
  | bin op l r ihl ihr =>
    intro h1 k hk
    simp only [Cov] at h1
    simp only [depth] at hk
    obtain ⟨k, rfl⟩ : ∃ k', k = k' + 1 := ⟨k - 1, by omega⟩
    simp only [subst, hf (.bin op l r) rfl, mapLeaf]
    rw [ihl h1.1 k (by omega), ihr h1.2 k (by omega)]
    rfl
  | rel op l r ihl ihr =>
    intro h1 k hk
    simp only [Cov] at h1
    rcases h1 with h1 | ⟨_, h1, h2⟩
    · exact (hr _ _ _ h1).elim
    simp only [depth] at hk
    obtain ⟨k, rfl⟩ : ∃ k', k = k' + 1 := ⟨k - 1, by omega⟩
    simp only [subst, hf (.rel op l r) rfl, mapLeaf]
    rw [ihl h1 k (by omega), ihr h2 k (by omega)]
    rfl
  | undefined => intro h1; exact leaf _ h1 rfl
  | var => intro h1; exact leaf _ h1 rfl
  | attr => intro h1; exact leaf _ h1 rfl
  | sel => intro h1; exact leaf _ h1 rfl
  | call => intro h1; exact leaf _ h1 rfl
  | not => intro h1; exact leaf _ h1 rfl
  | agg => intro h1; exact leaf _ h1 rfl
  | quant => intro h1; exact leaf _ h1 rfl

theorem cov_mapLeaf {h : Expr → Expr} {L L' : Expr → Prop} {N N' : RelOp → Expr → Expr → Prop} (hr : ∀ op l r, ¬ L (.rel op l r))
    (hl : ∀ e, L e → Cov L' N' (h e))
    (hrel : ∀ op l r, N op l r → Cov L N l → Cov L N r → Cov L' N' (mapLeaf h l) → Cov L' N' (mapLeaf h r) →
      Cov L' N' (.rel op (mapLeaf h l) (mapLeaf h r))) (e : Expr) : Cov L N e → Cov L' N' (mapLeaf h e) := by
  induction e using Expr.ind with
  | tru => intro _; simp [Cov, mapLeaf]
  | fls => intro _; simp [Cov, mapLeaf]
  | num v b => intro _; simp [Cov, mapLeaf]
  | bool op ts ih =>
    intro h1
    simp only [Cov, covL_iff, mapLeaf, mapLeafL_eq, List.mem_map] at h1 ⊢
    rintro _ ⟨t, ht, rfl⟩
    exact ih t ht (h1 t ht)
  | add ts ih =>
    intro h1
    simp only [Cov, covL_iff, mapLeaf, mapLeafL_eq, List.mem_map] at h1 ⊢
    rintro _ ⟨t, ht, rfl⟩
    exact ih t ht (h1 t ht)
  | mul ts ih =>
    intro h1
    simp only [Cov, covL_iff, mapLeaf, mapLeafL_eq, List.mem_map] at h1 ⊢
    rintro _ ⟨t, ht, rfl⟩
    exact ih t ht (h1 t ht)
  | bin op l r ihl ihr =>
    intro h1
    simp only [Cov, mapLeaf] at h1 ⊢
    exact ⟨ihl h1.1, ihr h1.2⟩
  | rel op l r ihl ihr =>
    intro h1
    simp only [Cov] at h1
    rcases h1 with h1 | ⟨h1, h2, h3⟩
    · exact (hr _ _ _ h1).elim
    · exact hrel op l r h1 h2 h3 (ihl h2) (ihr h3)
  | undefined => intro h1; exact hl _ h1
  | var => intro h1; exact hl _ h1
  | attr => intro h1; exact hl _ h1
  | sel => intro h1; exact hl _ h1
  | call => intro h1; exact hl _ h1
  | not => intro h1; exact hl _ h1
  | agg => intro h1; exact hl _ h1
  | quant => intro h1; exact hl _ h1

/-- Leaves with the same values. -/
theorem eval_cov {D : Division} {σ ρ : Env} {L : Expr → Prop} {N : RelOp → Expr → Expr → Prop} (hr : ∀ op l r, ¬ L (.rel op l r))
    (hl : ∀ e, L e → eval D σ e = eval D ρ e) (e : Expr) : Cov L N e → eval D σ e = eval D ρ e := by
  have list : ∀ ts : List Expr, (∀ t ∈ ts, eval D σ t = eval D ρ t) → evalL D σ ts = evalL D ρ ts := by
    intro ts
    induction ts with
    | nil => intro _; rfl
    | cons t ts ih =>
      intro h
      rw [evalL, evalL, h t List.mem_cons_self, ih fun t ht => h t (List.mem_cons_of_mem _ ht)]
  induction e using Expr.ind with
  | tru => intro _; rfl
  | fls => intro _; rfl
  | num => intro _; rfl
  | bool op ts ih => intro h; simp only [Cov, covL_iff] at h; rw [eval, eval, list ts fun t ht => ih t ht (h t ht)]
  | add ts ih => intro h; simp only [Cov, covL_iff] at h; rw [eval, eval, list ts fun t ht => ih t ht (h t ht)]
  | mul ts ih => intro h; simp only [Cov, covL_iff] at h; rw [eval, eval, list ts fun t ht => ih t ht (h t ht)]
  | bin op l r ihl ihr => intro h; simp only [Cov] at h; rw [eval, eval, ihl h.1, ihr h.2]
  | rel op l r ihl ihr =>
    intro h
    simp only [Cov] at h
    rcases h with h | ⟨_, h1, h2⟩
    · exact (hr _ _ _ h).elim
    · rw [eval, eval, ihl h1, ihr h2]
  | undefined => intro h1; exact hl _ h1
  | var => intro h1; exact hl _ h1
  | attr => intro h1; exact hl _ h1
  | sel => intro h1; exact hl _ h1
  | call => intro h1; exact hl _ h1
  | not => intro h1; exact hl _ h1
  | agg => intro h1; exact hl _ h1
  | quant => intro h1; exact hl _ h1

theorem cov_mono {L L' : Expr → Prop} {N N' : RelOp → Expr → Expr → Prop} (hl : ∀ e, L e → L' e) (hn : ∀ op l r, N op l r → N' op l r)
    (e : Expr) : Cov L N e → Cov L' N' e := by
  induction e using Expr.ind with
  | tru => intro _; simp [Cov]
  | fls => intro _; simp [Cov]
  | num => intro _; simp [Cov]
  | bool op ts ih => intro h; simp only [Cov, covL_iff] at h ⊢; exact fun t ht => ih t ht (h t ht)
  | add ts ih => intro h; simp only [Cov, covL_iff] at h ⊢; exact fun t ht => ih t ht (h t ht)
  | mul ts ih => intro h; simp only [Cov, covL_iff] at h ⊢; exact fun t ht => ih t ht (h t ht)
  | bin op l r ihl ihr => intro h; simp only [Cov] at h ⊢; exact ⟨ihl h.1, ihr h.2⟩
  | rel op l r ihl ihr =>
    intro h
    simp only [Cov] at h ⊢
    rcases h with h | ⟨h1, h2, h3⟩
    · exact .inl (hl _ h)
    · exact .inr ⟨hn _ _ _ h1, ihl h2, ihr h3⟩
  | undefined => intro h1; exact hl _ h1
  | var => intro h1; exact hl _ h1
  | attr => intro h1; exact hl _ h1
  | sel => intro h1; exact hl _ h1
  | call => intro h1; exact hl _ h1
  | not => intro h1; exact hl _ h1
  | agg => intro h1; exact hl _ h1
  | quant => intro h1; exact hl _ h1

theorem cov_and {L L' : Expr → Prop} {N N' : RelOp → Expr → Expr → Prop} (hr : ∀ op l r, ¬ L (.rel op l r)) (hr' : ∀ op l r, ¬ L' (.rel op l r))
    (e : Expr) : Cov L N e → Cov L' N' e → Cov (fun e => L e ∧ L' e) N e := by
  induction e using Expr.ind with
  | tru => intro _ _; simp [Cov]
  | fls => intro _ _; simp [Cov]
  | num => intro _ _; simp [Cov]
  | bool op ts ih => intro h h'; simp only [Cov, covL_iff] at h h' ⊢; exact fun t ht => ih t ht (h t ht) (h' t ht)
  | add ts ih => intro h h'; simp only [Cov, covL_iff] at h h' ⊢; exact fun t ht => ih t ht (h t ht) (h' t ht)
  | mul ts ih => intro h h'; simp only [Cov, covL_iff] at h h' ⊢; exact fun t ht => ih t ht (h t ht) (h' t ht)
  | bin op l r ihl ihr => intro h h'; simp only [Cov] at h h' ⊢; exact ⟨ihl h.1 h'.1, ihr h.2 h'.2⟩
  | rel op l r ihl ihr =>
    intro h h'
    simp only [Cov] at h h' ⊢
    rcases h with h | ⟨h1, h2, h3⟩
    · exact (hr _ _ _ h).elim
    rcases h' with h' | ⟨_, h2', h3'⟩
    · exact (hr' _ _ _ h').elim
    exact .inr ⟨h1, ihl h2 h2', ihr h3 h3'⟩
  | undefined => intro h1 h2; exact ⟨h1, h2⟩
  | var => intro h1 h2; exact ⟨h1, h2⟩
  | attr => intro h1 h2; exact ⟨h1, h2⟩
  | sel => intro h1 h2; exact ⟨h1, h2⟩
  | call => intro h1 h2; exact ⟨h1, h2⟩
  | not => intro h1 h2; exact ⟨h1, h2⟩
  | agg => intro h1 h2; exact ⟨h1, h2⟩
  | quant => intro h1 h2; exact ⟨h1, h2⟩

/-! ## Leaves of conditions -/

/-- A known field of a composite type. -/
def CompositeField (m : GMsg) (S : Field → Prop) (id : ID) : Prop := S ⟨id.key⟩ ∧ ∃ t, (⟨id.key⟩, t) ∈ m.msg.types ∧ ¬ Scalar t

/-- Names and aggregates of conditions. -/
def NameLeaf (m : GMsg) (o : Opts) (S : Field → Prop) : Expr → Prop
  | .var ng imm id => (imm = false ∧ (ScalarField m S id ∨ LitName m id)) ∨ (ng = false ∧ CompositeField m S id)
  | .attr ng a pre =>
    match pre with
    | .var ng' imm id => ng' = false ∧ imm = false ∧ Attribute m o S ng a id
    | _ => False
  | .agg es => ∀ e ∈ es, ∃ v b, e = .num v b
  | _ => False

theorem nameLeaf_rel {m : GMsg} {o : Opts} {S : Field → Prop} (op : RelOp) (l r : Expr) : ¬ NameLeaf m o S (.rel op l r) := by
  simp [NameLeaf]

theorem cond_leaf {m : GMsg} {o : Opts} {S : Field → Prop} (e : Expr) : Cond m o S e →
    Cov (NameLeaf m o S) (fun op l r => Cond m o S (.rel op l r)) e := by
  induction e using Expr.ind with
  | tru => intro _; simp [Cov]
  | fls => intro _; simp [Cov]
  | num => intro _; simp [Cov]
  | var ng imm id => intro h; simp only [Cond] at h; exact .inl h
  | attr ng a pre ih =>
    intro h
    cases pre <;> simp only [Cond] at h
    exact h
  | bool op ts ih => intro h; simp only [Cond, condL_iff, Cov, covL_iff] at h ⊢; exact fun t ht => ih t ht (h t ht)
  | add ts ih => intro h; simp only [Cond, condL_iff, Cov, covL_iff] at h ⊢; exact fun t ht => ih t ht (h t ht)
  | mul ts ih => intro h; simp only [Cond, condL_iff, Cov, covL_iff] at h ⊢; exact fun t ht => ih t ht (h t ht)
  | bin op l r ihl ihr => intro h; simp only [Cond] at h; exact ⟨ihl h.1, ihr h.2⟩
  | rel op l r ihl ihr =>
    intro h
    refine .inr ⟨h, ?_⟩
    unfold Cond at h
    split at h
    · exact ⟨.inr ⟨h.1, h.2.1⟩, h.2.2.1⟩
    · exact ⟨h.2.2.1, .inr ⟨h.1, h.2.1⟩⟩
    · refine ⟨.inl ⟨h.1, ?_⟩, by simp [Cov]⟩
      rcases h.2 with h | h
      · exact .inl h.2
      · exact .inr h
    · refine ⟨by simp [Cov], .inl ⟨h.1, ?_⟩⟩
      rcases h.2 with h | h
      · exact .inl h.2
      · exact .inr h
    · exact ⟨ihl h.1, ihr h.2⟩
  | _ => intro h; simp [Cond] at h

theorem attribute_mono {m : GMsg} {o : Opts} {S S' : Field → Prop} (h : ∀ f, S f → S' f) {ng : Bool} {a : AttrKind} {id : ID}
    (ha : Attribute m o S ng a id) : Attribute m o S' ng a id := by
  obtain ⟨h1, h2 | ⟨f, hf, hS, h3⟩⟩ := ha
  · exact ⟨h1, .inl h2⟩
  · exact ⟨h1, .inr ⟨f, hf, h f hS, h3⟩⟩

theorem cond_mono {m : GMsg} {o : Opts} {S S' : Field → Prop} (hS : ∀ f, S f → S' f) (e : Expr) : Cond m o S e → Cond m o S' e := by
  induction e using Expr.ind with
  | tru => intro _; simp [Cond]
  | fls => intro _; simp [Cond]
  | num => intro _; simp [Cond]
  | var ng imm id =>
    intro h
    simp only [Cond] at h ⊢
    exact ⟨h.1, h.2.imp (fun h => ⟨hS _ h.1, h.2⟩) (fun h => h)⟩
  | attr ng a pre ih =>
    intro h
    cases pre <;> simp only [Cond] at h ⊢
    exact ⟨h.1, h.2.1, attribute_mono hS h.2.2⟩
  | bool op ts ih => intro h; simp only [Cond, condL_iff] at h ⊢; exact fun t ht => ih t ht (h t ht)
  | add ts ih => intro h; simp only [Cond, condL_iff] at h ⊢; exact fun t ht => ih t ht (h t ht)
  | mul ts ih => intro h; simp only [Cond, condL_iff] at h ⊢; exact fun t ht => ih t ht (h t ht)
  | bin op l r ihl ihr => intro h; simp only [Cond] at h ⊢; exact ⟨ihl h.1, ihr h.2⟩
  | rel op l r ihl ihr =>
    intro h
    unfold Cond at h ⊢
    have hc : ∀ ng id es, Comparison m o S op ng id es → Comparison m o S' op ng id es :=
      fun ng id es h => ⟨h.1, ⟨hS _ h.2.1.1, h.2.1.2⟩, h.2.2⟩
    have hs : ∀ ng id, ng = false ∧ ScalarField m S id ∨ LitName m id → ng = false ∧ ScalarField m S' id ∨ LitName m id :=
      fun ng id h => h.imp (fun h => ⟨h.1, hS _ h.2.1, h.2.2⟩) (fun h => h)
    split at h
    · exact hc _ _ _ h
    · exact hc _ _ _ h
    · exact ⟨h.1, hs _ _ h.2⟩
    · exact ⟨h.1, hs _ _ h.2⟩
    · exact ⟨ihl h.1, ihr h.2⟩
  | _ => intro h; simp [Cond] at h

end Verif.Ctx
