import Verif.Gen.Subst
import Verif.Merge.Names

/-! # Substitution by a function -/

namespace Verif.Gen
open Verif Verif.Merge

/-- The result of a substitution, with its meaning. -/
structure Mapped (D : Division) (ρ σ : Env) (e r : Expr) : Prop where
  good : ∀ s, e.Good D.Odd s → r.Good D.Odd s
  wf : e.WF → r.WF
  const : e.Const → r.Const
  head : ∀ ts, Expr.headOK (e :: ts) → Expr.headOK (r :: ts)
  quant : ¬ r.HQ
  value : ∀ v, eval D σ e = some v → eval D ρ r = some v

mutual
/-- Expressions built from numbers, truth values and expressions that satisfy `P`, by `and`, `or`, arithmetic and relations
that satisfy `N`. -/
def Cov (P : Expr → Prop) (N : RelOp → Expr → Expr → Prop) : Expr → Prop
  | .tru | .fls | .num .. => True
  | .bool _ ts => CovL P N ts
  | .add ts => CovL P N ts
  | .mul ts => CovL P N ts
  | .bin _ l r => Cov P N l ∧ Cov P N r
  | .rel op l r => P (.rel op l r) ∨ (N op l r ∧ Cov P N l ∧ Cov P N r)
  | .undefined => P .undefined
  | .var ng im id => P (.var ng im id)
  | .attr ng a p => P (.attr ng a p)
  | .sel ng p s => P (.sel ng p s)
  | .call ng id as => P (.call ng id as)
  | .not e => P (.not e)
  | .agg es => P (.agg es)
  | .quant q p i b => P (.quant q p i b)
def CovL (P : Expr → Prop) (N : RelOp → Expr → Expr → Prop) : List Expr → Prop
  | [] => True
  | e :: es => Cov P N e ∧ CovL P N es
end

theorem covL_iff {P : Expr → Prop} {N : RelOp → Expr → Expr → Prop} {ts : List Expr} : CovL P N ts ↔ ∀ t ∈ ts, Cov P N t := by
  induction ts with
  | nil => simp [CovL]
  | cons t ts ih => simp [CovL, ih]

theorem mapped_list {D : Division} {ρ σ : Env} {g : Expr → Py Expr} : ∀ {ts : List Expr},
    (∀ t ∈ ts, ∃ r, g t = .ok r ∧ Mapped D ρ σ t r) → ∃ rs, ts.mapM g = .ok rs ∧
      (∀ s, Expr.GoodL D.Odd s ts → Expr.GoodL D.Odd s rs) ∧ (Expr.WFL ts → Expr.WFL rs) ∧ (Expr.ConstL ts → Expr.ConstL rs) ∧
      (Expr.headOK ts → Expr.headOK rs) ∧ ¬ Expr.HQL rs ∧ (rs = [] → ts = []) ∧
      ∀ vs, evalL D σ ts = some vs → evalL D ρ rs = some vs := by
  intro ts
  induction ts with
  | nil => intro _; exact ⟨[], rfl, by simp [Expr.HQL, evalL]⟩
  | cons t ts ih =>
    intro h
    obtain ⟨r, hr, R⟩ := h t List.mem_cons_self
    obtain ⟨rs, hrs, h1, h2, h3, h4, h5, h6, h7⟩ := ih fun t ht => h t (List.mem_cons_of_mem _ ht)
    refine ⟨r :: rs, by rw [List.mapM_cons, hr, hrs]; rfl, ?_, ?_, ?_, ?_, ?_, by simp, ?_⟩
    · intro s hs; exact ⟨R.good s hs.1, h1 s hs.2⟩
    · intro hw; exact ⟨R.wf hw.1, h2 hw.2⟩
    · intro hc; exact ⟨R.const hc.1, h3 hc.2⟩
    · intro hh
      have := R.head rs (by cases t <;> simp [Expr.headOK] at hh ⊢)
      exact this
    · rintro (h | h)
      · exact R.quant h
      · exact h5 h
    · intro vs hv
      simp only [evalL] at hv ⊢
      split at hv
      · rename_i w ws e1 e2
        rw [R.value w e1, h7 _ e2]
        exact hv
      · cases hv

/-- A function that does the right thing on `P` and leaves the rest alone. -/
structure Maps (D : Division) (ρ σ : Env) (f : Expr → Expr) (P : Expr → Prop) (N : RelOp → Expr → Expr → Prop) : Prop where
  leaf : ∀ e, P e → ∀ k, depth e + 4 ≤ k → ∃ r, subst k f e = .ok r ∧ Mapped D ρ σ e r
  rel : ∀ op l r, N op l r → f (.rel op l r) = .rel op l r
  other : ∀ e, e.isName = false → (∀ op l r, e ≠ .rel op l r) → f e = e

theorem maps_ok {D : Division} {ρ σ : Env} {f : Expr → Expr} {P : Expr → Prop} {N : RelOp → Expr → Expr → Prop}
    (F : Maps D ρ σ f P N) (e : Expr) : Cov P N e → ∀ k, depth e + 4 ≤ k → ∃ r, subst k f e = .ok r ∧ Mapped D ρ σ e r := by
  have self : ∀ e : Expr, e.isName = false → (∀ op l r, e ≠ .rel op l r) → (∀ k, subst (k + 1) f e = .ok (f e)) → ¬ e.HQ →
      (∀ v, eval D σ e = some v → eval D ρ e = some v) → ∀ k, depth e + 4 ≤ k → ∃ r, subst k f e = .ok r ∧ Mapped D ρ σ e r := by
    intro e hn hr hs hq hv k hk
    obtain ⟨k, rfl⟩ : ∃ k', k = k' + 1 := ⟨k - 1, by omega⟩
    refine ⟨e, by rw [hs, F.other e hn hr], fun _ h => h, fun h => h, fun h => h, fun _ h => h, hq, hv⟩
  induction e using Expr.ind with
  | tru => intro _; exact self _ rfl (by simp) (fun _ => rfl) (by simp [Expr.HQ]) fun _ h => h
  | fls => intro _; exact self _ rfl (by simp) (fun _ => rfl) (by simp [Expr.HQ]) fun _ h => h
  | num v b => intro _; exact self _ rfl (by simp) (fun _ => rfl) (by simp [Expr.HQ]) fun _ h => h
  | bool op ts ih =>
    intro h k hk
    simp only [Cov, covL_iff] at h
    simp only [depth] at hk
    obtain ⟨k, rfl⟩ : ∃ k', k = k' + 1 := ⟨k - 1, by omega⟩
    obtain ⟨rs, hrs, h1, h2, h3, h4, h5, h6, h7⟩ := mapped_list (g := subst k f) (D := D) (ρ := ρ) (σ := σ) (ts := ts)
      fun t ht => ih t ht (h t ht) k (by have := depthL_le ht; omega)
    refine ⟨.bool op rs, by simp [subst, F.other (.bool op ts) rfl (by simp), hrs]; rfl, ?_, ?_, ?_, ?_, ?_, ?_⟩
    · intro s hs; exact ⟨hs.1, h1 _ hs.2⟩
    · intro hw; simp only [Expr.WF] at hw ⊢; exact ⟨h2 hw.1, fun he => hw.2 (h6 he)⟩
    · intro hc; simp [Expr.Const] at hc
    · intro _ hh; simp [Expr.headOK] at hh
    · simpa [Expr.HQ] using h5
    · intro v hv
      simp only [eval] at hv ⊢
      cases hvs : evalL D σ ts with
      | none => rw [hvs] at hv; cases hv
      | some vs => rw [hvs] at hv; rw [h7 vs hvs]; exact hv
  | add ts ih =>
    intro h k hk
    simp only [Cov, covL_iff] at h
    simp only [depth] at hk
    obtain ⟨k, rfl⟩ : ∃ k', k = k' + 1 := ⟨k - 1, by omega⟩
    obtain ⟨rs, hrs, h1, h2, h3, h4, h5, h6, h7⟩ := mapped_list (g := subst k f) (D := D) (ρ := ρ) (σ := σ) (ts := ts)
      fun t ht => ih t ht (h t ht) k (by have := depthL_le ht; omega)
    refine ⟨.add rs, by simp [subst, F.other (.add ts) rfl (by simp), hrs]; rfl, ?_, ?_, ?_, ?_, ?_, ?_⟩
    · intro s hs; exact h1 _ hs
    · intro hw; simp only [Expr.WF] at hw ⊢; exact ⟨h2 hw.1, h4 hw.2⟩
    · intro hc; exact h3 hc
    · intro _ _; simp [Expr.headOK]
    · simpa [Expr.HQ] using h5
    · intro v hv
      simp only [eval] at hv ⊢
      cases hvs : evalL D σ ts with
      | none => rw [hvs] at hv; cases hv
      | some vs => rw [hvs] at hv; rw [h7 vs hvs]; exact hv
  | mul ts ih =>
    intro h k hk
    simp only [Cov, covL_iff] at h
    simp only [depth] at hk
    obtain ⟨k, rfl⟩ : ∃ k', k = k' + 1 := ⟨k - 1, by omega⟩
    obtain ⟨rs, hrs, h1, h2, h3, h4, h5, h6, h7⟩ := mapped_list (g := subst k f) (D := D) (ρ := ρ) (σ := σ) (ts := ts)
      fun t ht => ih t ht (h t ht) k (by have := depthL_le ht; omega)
    refine ⟨.mul rs, by simp [subst, F.other (.mul ts) rfl (by simp), hrs]; rfl, ?_, ?_, ?_, ?_, ?_, ?_⟩
    · intro s hs; exact h1 _ hs
    · intro hw; simp only [Expr.WF] at hw ⊢; exact h2 hw
    · intro hc; exact h3 hc
    · intro _ _; simp [Expr.headOK]
    · simpa [Expr.HQ] using h5
    · intro v hv
      simp only [eval] at hv ⊢
      cases hvs : evalL D σ ts with
      | none => rw [hvs] at hv; cases hv
      | some vs => rw [hvs] at hv; rw [h7 vs hvs]; exact hv
  | bin op l r ihl ihr =>
    intro h k hk
    simp only [Cov] at h
    simp only [depth] at hk
    obtain ⟨k, rfl⟩ : ∃ k', k = k' + 1 := ⟨k - 1, by omega⟩
    obtain ⟨l', hl, L⟩ := ihl h.1 k (by omega)
    obtain ⟨r', hr, R⟩ := ihr h.2 k (by omega)
    refine ⟨.bin op l' r', by simp [subst, F.other (.bin op l r) rfl (by simp), hl, hr]; rfl, ?_, ?_, ?_, ?_, ?_, ?_⟩
    · intro s hs
      cases op <;> simp only [Expr.Good] at hs ⊢
      · exact ⟨L.good _ hs.1, R.good _ hs.2⟩
      · exact ⟨hs.1, L.good _ hs.2.1, R.good _ hs.2.2⟩
      · exact ⟨fun h => ⟨L.const (hs.1 h).1, R.const (hs.1 h).2⟩, L.good _ hs.2.1, R.good _ hs.2.2⟩
      · exact ⟨fun h => ⟨L.const (hs.1 h).1, R.const (hs.1 h).2⟩, L.good _ hs.2.1, R.good _ hs.2.2⟩
    · intro hw; exact ⟨L.wf hw.1, R.wf hw.2⟩
    · intro hc; exact ⟨hc.1, L.const hc.2.1, R.const hc.2.2⟩
    · intro _ _; simp [Expr.headOK]
    · rintro (h | h)
      · exact L.quant h
      · exact R.quant h
    · intro v hv
      simp only [eval] at hv ⊢
      split at hv
      · rename_i a b e1 e2
        rw [L.value _ e1, R.value _ e2]
        exact hv
      · cases hv
  | rel op l r ihl ihr =>
    intro h k hk
    simp only [Cov] at h
    rcases h with h | ⟨hN, hcl, hcr⟩
    · exact F.leaf _ h k hk
    simp only [depth] at hk
    obtain ⟨k, rfl⟩ : ∃ k', k = k' + 1 := ⟨k - 1, by omega⟩
    obtain ⟨l', hl, L⟩ := ihl hcl k (by omega)
    obtain ⟨r', hr, R⟩ := ihr hcr k (by omega)
    refine ⟨.rel op l' r', by simp [subst, F.rel op l r hN, hl, hr]; rfl, ?_, ?_, ?_, ?_, ?_, ?_⟩
    · intro s hs; exact ⟨hs.1, L.good _ hs.2.1, R.good _ hs.2.2⟩
    · intro hw; exact ⟨L.wf hw.1, R.wf hw.2⟩
    · intro hc; simp [Expr.Const] at hc
    · intro _ hh; simp [Expr.headOK] at hh
    · rintro (h | h)
      · exact L.quant h
      · exact R.quant h
    · intro v hv
      simp only [eval] at hv ⊢
      split at hv
      · rename_i a b e1 e2
        rw [L.value _ e1, R.value _ e2]
        exact hv
      · cases hv
  | undefined => intro h; exact F.leaf _ h
  | var => intro h; exact F.leaf _ h
  | attr => intro h; exact F.leaf _ h
  | sel => intro h; exact F.leaf _ h
  | call => intro h; exact F.leaf _ h
  | not => intro h; exact F.leaf _ h
  | agg => intro h; exact F.leaf _ h
  | quant => intro h; exact F.leaf _ h

/-- A name without minus sign replaced by an expression with the same value. -/
structure Leaf (D : Division) (ρ : Env) (x : Expr) (i : Int) : Prop where
  wf : x.WF
  good : x.Good D.Odd true
  head : ∀ ts, Expr.headOK (x :: ts)
  quant : ¬ x.HQ
  value : eval D ρ x = some (.int i)

theorem Leaf.mapped {D : Division} {ρ σ : Env} {x e : Expr} {i : Int} (h : Leaf D ρ x i) (hc : ¬ e.Const)
    (hv : ∀ v, eval D σ e = some v → v = .int i) : Mapped D ρ σ e x where
  good s _ := by
    cases s with
    | false => exact Good.weaken x true h.good
    | true => exact h.good
  wf _ := h.wf
  const hc' := (hc hc').elim
  head _ _ := h.head _
  quant := h.quant
  value v he := by rw [hv v he, h.value]

/-- The negation. -/
theorem Leaf.negated {D : Division} {ρ : Env} {x : Expr} {i : Int} (h : Leaf D ρ x i) (hn : x.Neg D.Odd) :
    ∃ y, x.negated = .ok y ∧ Leaf D ρ y (-i) := by
  have hs := (soundOK (eqSound D) (4 * weight x + 5)).ng x hn h.wf
  have ht := C13_terminates x
  rw [Expr.negated] at ht ⊢
  cases hy : neg (4 * weight x + 5) x with
  | ok y =>
    rw [hy] at hs
    obtain ⟨h1, h2, h3, h4⟩ := hs
    refine ⟨y, rfl, h2, Neg.good _ h1, ?_, fun hq => h.quant (h3 hq), h4 ρ i h.value⟩
    intro ts
    cases y <;> simp [Expr.headOK, Expr.Neg] at h1 ⊢
  | error er =>
    rw [hy] at hs
    rcases hs with rfl | hn | hn
    · exact absurd hy ht
    · exact absurd hn h.quant
    · have := h.value; rw [hn ρ] at this; cases this

end Verif.Gen
