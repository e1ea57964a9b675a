import Verif.Expr.Props
import Verif.Expr.Subst

/-! # Lemmas: evaluation of closed conditions by `substituted` and `simplified` -/

namespace Verif.PyRFLX

open Verif

theorem simp_of {k : Nat} {e x : Expr} (h : simplify k e = .ok x) : e.simplified = .ok x := by
  rw [← C08_fuel_irrelevant e k (by rw [h]; simp), h]

theorem simp_ge {e x : Expr} (h : e.simplified = .ok x) {k : Nat} (hk : 4 * weight e ≤ k) : simplify k e = .ok x := by
  rcases simplify_mono hk e with h1 | h1
  · exact absurd h1 (C08_terminates e)
  · rw [← h1]; exact h

/-- The literal of a truth value. -/
def lit (b : Bool) : Expr := if b then .tru else .fls

theorem lit_isTru (b : Bool) : (lit b).isTru = b := by cases b <;> rfl

theorem intOp_refl {op : RelOp} (h : op.isReflexive = true) (a : Int) : op.intOp a a = true := by
  cases op <;> simp_all [RelOp.isReflexive, RelOp.intOp]

theorem num_eq' (a b : Int) (x y : NBase) : (Expr.num a x).eq (.num b y) = true ↔ a = b := by
  simp [Expr.eq, Expr.cls, Expr.Cls.sub]

/-- A comparison of operands that simplify to numbers. -/
theorem simp_rel {op : RelOp} (hop : op.isCmp = true) {l r : Expr} {a b : Int} {x y : NBase}
    (hl : l.simplified = .ok (.num a x)) (hr : r.simplified = .ok (.num b y)) :
    (Expr.rel op l r).simplified = .ok (lit (op.intOp a b)) := by
  apply simp_of (k := max (4 * weight l) (4 * weight r) + 1)
  simp only [simplify, simp_ge hl (Nat.le_max_left _ _), simp_ge hr (Nat.le_max_right _ _), bind, Except.bind, hop,
    if_true, Expr.num?, pure, Except.pure]
  split
  · rename_i h
    rw [Bool.and_eq_true, num_eq'] at h
    obtain ⟨h1, rfl⟩ := h
    rw [intOp_refl h1]
    rfl
  · rfl

/-- The loop over terms that simplify to truth values. -/
theorem loop_lits {o : BoolOp} {ts : List Expr} {f : Expr → Bool} (h : ∀ t ∈ ts, t.simplified = .ok (lit (f t))) :
    ∃ K, ∀ k, K ≤ k → ∀ b : Bool, assLoop k (.bool o) ts [] (if b then 1 else 0) =
      .ok ([], if (if o.isAnd then b && ts.all f else b || ts.any f) then 1 else 0) := by
  induction ts with
  | nil => refine ⟨0, fun k _ b => ?_⟩; cases o <;> cases b <;> simp [assLoop, BoolOp.isAnd]
  | cons t ts ih =>
    obtain ⟨K, hK⟩ := ih (fun t ht => h t (by simp [ht]))
    have ht := h t (by simp)
    refine ⟨max K (4 * weight t) + 1, fun k hk b => ?_⟩
    obtain ⟨k, rfl⟩ : ∃ j, k = j + 1 := ⟨k - 1, by omega⟩
    simp only [assLoop, simp_ge ht (k := k) (by omega), bind, Except.bind]
    have hK' := hK k (by omega)
    cases hf : f t
    · simp only [lit, Bool.false_eq_true, if_false, AssOp.op]
      cases ho : o.isAnd
      · simp only [ho, Bool.false_eq_true, if_false] at hK' ⊢
        have := hK' b
        cases b <;> simpa [hf] using this
      · simp only [ho, if_true] at hK' ⊢
        have := hK' false
        cases b <;> simpa [hf] using this
    · simp only [lit, if_true, AssOp.op]
      cases ho : o.isAnd
      · simp only [ho, Bool.false_eq_true, if_false] at hK' ⊢
        have := hK' true
        cases b <;> simpa [hf] using this
      · simp only [ho, if_true] at hK' ⊢
        have := hK' b
        cases b <;> simpa [hf] using this

/-- Conjunctions and disjunctions of terms that simplify to truth values. -/
theorem simp_bool {o : BoolOp} {ts : List Expr} {f : Expr → Bool} (h : ∀ t ∈ ts, t.simplified = .ok (lit (f t))) :
    (Expr.bool o ts).simplified = .ok (lit (if o.isAnd then ts.all f else ts.any f)) := by
  obtain ⟨K, hK⟩ := loop_lits (o := o) h
  apply simp_of (k := K + 1)
  have := hK K (Nat.le_refl _) o.isAnd
  have hn : (AssOp.bool o).neutral = if o.isAnd = true then 1 else 0 := by cases o <;> rfl
  simp only [simplify, hn, this, bind, Except.bind, pure, Except.pure]
  cases ho : o.isAnd
  · simp only [Bool.false_eq_true, if_false, Bool.false_or]
    cases ts.any f <;> simp [AssOp.finish, AssOp.const, absorb, lit]
  · simp only [if_true, Bool.true_and]
    cases ts.all f <;> simp [AssOp.finish, AssOp.const, absorb, lit]

/-! ## Substitution -/

theorem subst_num {k : Nat} {m : List (Expr × Expr)} (v : Int) (b : NBase) :
    subst (k + 1) (substitution m) (.num v b) = .ok (.num v b) := by
  simp [subst, substitution, Expr.isName]

theorem subst_rel {k : Nat} {m : List (Expr × Expr)} {op : RelOp} {l r l' r' : Expr}
    (hl : subst k (substitution m) l = .ok l') (hr : subst k (substitution m) r = .ok r') :
    subst (k + 1) (substitution m) (.rel op l r) = .ok (.rel op l' r') := by
  simp [subst, substitution, Expr.isName, hl, hr, bind, Except.bind, pure, Except.pure]

theorem mapM_ok {f : Expr → Py Expr} {ts : List Expr} {g : Expr → Expr} (h : ∀ t ∈ ts, f t = .ok (g t)) :
    ts.mapM f = .ok (ts.map g) := by
  induction ts with
  | nil => rfl
  | cons t ts ih =>
    rw [List.mapM_cons, h t (by simp), ih (fun t ht => h t (by simp [ht]))]
    rfl

theorem subst_bool {k : Nat} {m : List (Expr × Expr)} {op : BoolOp} {ts : List Expr} {g : Expr → Expr}
    (h : ∀ t ∈ ts, subst k (substitution m) t = .ok (g t)) :
    subst (k + 1) (substitution m) (.bool op ts) = .ok (.bool op (ts.map g)) := by
  simp [subst, substitution, Expr.isName, mapM_ok h, bind, Except.bind, pure, Except.pure]

theorem subst_var {k : Nat} {m : List (Expr × Expr)} (id : ID) :
    subst (k + 1) (substitution m) (.var false false id) = .ok (substitution m (.var false false id)) := by
  simp [subst]

mutual
/-- Constant arithmetic is not changed. -/
theorem subst_const (m : List (Expr × Expr)) : ∀ (e : Expr) (k : Nat), e.Const → depth e ≤ k →
    subst k (substitution m) e = .ok e
  | .num v b, k, _, hk => by
    obtain ⟨k, rfl⟩ : ∃ j, k = j + 1 := ⟨k - 1, by simp [depth] at hk; omega⟩
    exact subst_num v b
  | .add ts, k, hc, hk => by
    simp only [depth] at hk
    obtain ⟨k, rfl⟩ : ∃ j, k = j + 1 := ⟨k - 1, by omega⟩
    simp only [Expr.Const] at hc
    simp [subst, substitution, Expr.isName, subst_constL m ts k hc (by omega), bind, Except.bind, pure, Except.pure]
  | .mul ts, k, hc, hk => by
    simp only [depth] at hk
    obtain ⟨k, rfl⟩ : ∃ j, k = j + 1 := ⟨k - 1, by omega⟩
    simp only [Expr.Const] at hc
    simp [subst, substitution, Expr.isName, subst_constL m ts k hc (by omega), bind, Except.bind, pure, Except.pure]
  | .bin op l r, k, hc, hk => by
    simp only [depth] at hk
    obtain ⟨k, rfl⟩ : ∃ j, k = j + 1 := ⟨k - 1, by omega⟩
    simp only [Expr.Const] at hc
    simp [subst, substitution, Expr.isName, subst_const m l k hc.2.1 (by omega), subst_const m r k hc.2.2 (by omega),
      bind, Except.bind, pure, Except.pure]
  | .tru, _, hc, _ => by simp [Expr.Const] at hc
  | .fls, _, hc, _ => by simp [Expr.Const] at hc
  | .undefined, _, hc, _ => by simp [Expr.Const] at hc
  | .var .., _, hc, _ => by simp [Expr.Const] at hc
  | .attr .., _, hc, _ => by simp [Expr.Const] at hc
  | .sel .., _, hc, _ => by simp [Expr.Const] at hc
  | .call .., _, hc, _ => by simp [Expr.Const] at hc
  | .not .., _, hc, _ => by simp [Expr.Const] at hc
  | .bool .., _, hc, _ => by simp [Expr.Const] at hc
  | .rel .., _, hc, _ => by simp [Expr.Const] at hc
  | .agg .., _, hc, _ => by simp [Expr.Const] at hc
  | .quant .., _, hc, _ => by simp [Expr.Const] at hc
theorem subst_constL (m : List (Expr × Expr)) : ∀ (ts : List Expr) (k : Nat), Expr.ConstL ts → depthL ts ≤ k →
    ts.mapM (subst k (substitution m)) = .ok ts
  | [], _, _, _ => rfl
  | t :: ts, k, hc, hk => by
    simp only [Expr.ConstL] at hc
    simp only [depthL] at hk
    rw [List.mapM_cons, subst_const m t k hc.1 (by omega), subst_constL m ts k hc.2 (by omega)]
    rfl
end

end Verif.PyRFLX
