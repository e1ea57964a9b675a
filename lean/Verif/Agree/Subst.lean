import Verif.Gen.Generic
import Verif.PyRFLX.MessageFrame

/-! # Substitution by a function: steps, and the form of the result -/

namespace Verif.Agree
open Verif Verif.Gen

theorem bind_ok' {α β : Type} {x : Py α} {g : α → Py β} {r : β} (h : x.bind g = .ok r) : ∃ a, x = .ok a ∧ g a = .ok r := by
  cases x with
  | error e => cases h
  | ok a => exact ⟨a, rfl, h⟩

theorem mapM_mono {α β : Type} {f g : α → Py β} (h : ∀ a r, f a = .ok r → g a = .ok r) : ∀ {l : List α} {rs : List β},
    l.mapM f = .ok rs → l.mapM g = .ok rs
  | [], _, hl => hl
  | a :: l, rs, hl => by
    rw [List.mapM_cons] at hl ⊢
    obtain ⟨r, hr, hl⟩ := bind_ok' (hl : (f a).bind _ = _)
    obtain ⟨rs', hrs, hl⟩ := bind_ok' (hl : (l.mapM f).bind _ = _)
    simp only [h a r hr, mapM_mono h hrs, bind, Except.bind]
    exact hl

theorem subst_step {f : Expr → Expr} {k K : Nat} (ih : ∀ {e r : Expr}, subst k f e = .ok r → subst K f e = .ok r) {e r : Expr}
    (h : subst (k + 1) f e = .ok r) : subst (K + 1) f e = .ok r := by
    have ihm : ∀ {l rs : List Expr}, l.mapM (subst k f) = .ok rs → l.mapM (subst K f) = .ok rs :=
      fun h => mapM_mono (fun _ _ h => ih h) h
    have one : ∀ {x : Expr} {g : Expr → Py Expr} {r : Expr}, (subst k f x).bind g = .ok r → (subst K f x).bind g = .ok r := by
      intro x g r h
      obtain ⟨a, ha, h⟩ := bind_ok' h
      rw [ih ha]
      exact h
    have many : ∀ {l : List Expr} {g : List Expr → Py Expr} {r : Expr}, (l.mapM (subst k f)).bind g = .ok r →
        (l.mapM (subst K f)).bind g = .ok r := by
      intro l g r h
      obtain ⟨a, ha, h⟩ := bind_ok' h
      rw [ihm ha]
      exact h
    have two : ∀ {x y : Expr} {g : Expr → Expr → Py Expr} {r : Expr}, ((subst k f x).bind fun a => (subst k f y).bind fun b => g a b) = .ok r →
        ((subst K f x).bind fun a => (subst K f y).bind fun b => g a b) = .ok r := by
      intro x y g r h
      obtain ⟨a, ha, h⟩ := bind_ok' h
      obtain ⟨b, hb, h⟩ := bind_ok' h
      rw [ih ha, ih hb]
      exact h
    cases e with
    | attr ng a pre =>
      simp only [subst] at h ⊢
      cases hf : f (.attr false a pre) <;> simp only [hf] at h ⊢
      case attr ng' a' pre' =>
        obtain ⟨x, hx, h⟩ := bind_ok' h
        obtain ⟨y, hy, rfl⟩ := PyRFLX.map_ok hx
        simp only [ih hy, Except.map, Except.bind]
        exact h
      all_goals exact h
    | sel ng pre s =>
      simp only [subst] at h ⊢
      split at h
      · exact one h
      · exact h
    | call ng id args =>
      simp only [subst] at h ⊢
      split at h
      · exact many h
      · exact h
    | bool op ts =>
      simp only [subst] at h ⊢
      split at h
      · exact many h
      · exact many h
      · exact many h
      · exact h
    | add ts =>
      simp only [subst] at h ⊢
      split at h
      · exact many h
      · exact many h
      · exact many h
      · exact h
    | mul ts =>
      simp only [subst] at h ⊢
      split at h
      · exact many h
      · exact many h
      · exact many h
      · exact h
    | bin op l r =>
      simp only [subst] at h ⊢
      split at h
      · exact two h
      · exact two h
      · exact h
    | rel op l r =>
      simp only [subst] at h ⊢
      split at h
      · exact two h
      · exact two h
      · exact h
    | agg es =>
      simp only [subst] at h ⊢
      split at h
      · exact many h
      · exact h
    | quant q p it pr =>
      simp only [subst] at h ⊢
      split at h
      · exact two h
      · exact h
    | _ => exact h

/-- More steps do not change the result. -/
theorem subst_succ {f : Expr → Expr} : ∀ {k : Nat} {e r : Expr}, subst k f e = .ok r → subst (k + 1) f e = .ok r
  | 0, _, _, h => by cases h
  | _ + 1, _, _, h => subst_step subst_succ h

theorem subst_mono {f : Expr → Expr} {e r : Expr} {k k' : Nat} (hk : k ≤ k') (h : subst k f e = .ok r) : subst k' f e = .ok r := by
  induction hk with
  | refl => exact h
  | step _ ih => exact subst_succ ih

/-- All relations. -/
def AnyRel : RelOp → Expr → Expr → Prop := fun _ _ _ => True

theorem mapM_cov {P Q : Expr → Prop} {f : Expr → Py Expr} : ∀ {ts rs : List Expr},
    (∀ t ∈ ts, ∀ r, f t = .ok r → Cov Q AnyRel r) → ts.mapM f = .ok rs → ∀ r ∈ rs, Cov Q AnyRel r
  | [], rs, _, h => by
    cases h
    simp
  | t :: ts, rs, hc, h => by
    rw [List.mapM_cons] at h
    obtain ⟨r, hr, h⟩ := bind_ok' (h : (f t).bind _ = _)
    obtain ⟨rs', hrs, h⟩ := bind_ok' (h : (ts.mapM f).bind _ = _)
    cases h
    intro x hx
    rcases List.mem_cons.mp hx with rfl | hx
    · exact hc t List.mem_cons_self _ hr
    · exact mapM_cov (P := P) (fun t ht => hc t (List.mem_cons_of_mem _ ht)) hrs x hx

/-- The form of the result of a substitution is determined by the results for the names. -/
theorem cov_subst {f : Expr → Expr} {P Q : Expr → Prop} (other : ∀ e, e.isName = false → f e = e)
    (leaf : ∀ e, P e → ∀ k r, subst k f e = .ok r → Cov Q AnyRel r) (e : Expr) :
    Cov P AnyRel e → ∀ k r, subst k f e = .ok r → Cov Q AnyRel r := by
  induction e using Expr.ind with
  | tru => intro _ k r h; cases k <;> simp [subst, other .tru rfl] at h; subst h; trivial
  | fls => intro _ k r h; cases k <;> simp [subst, other .fls rfl] at h; subst h; trivial
  | num v b => intro _ k r h; cases k <;> simp [subst, other (.num v b) rfl] at h; subst h; trivial
  | bool op ts ih =>
    intro hc k r h
    simp only [Cov, covL_iff] at hc
    cases k with
    | zero => cases h
    | succ k =>
      simp only [subst, other (.bool op ts) rfl] at h
      obtain ⟨rs, hrs, h⟩ := bind_ok' h
      cases h
      simp only [Cov, covL_iff]
      exact mapM_cov (P := P) (fun t ht r hr => ih t ht (hc t ht) k r hr) hrs
  | add ts ih =>
    intro hc k r h
    simp only [Cov, covL_iff] at hc
    cases k with
    | zero => cases h
    | succ k =>
      simp only [subst, other (.add ts) rfl] at h
      obtain ⟨rs, hrs, h⟩ := bind_ok' h
      cases h
      simp only [Cov, covL_iff]
      exact mapM_cov (P := P) (fun t ht r hr => ih t ht (hc t ht) k r hr) hrs
  | mul ts ih =>
    intro hc k r h
    simp only [Cov, covL_iff] at hc
    cases k with
    | zero => cases h
    | succ k =>
      simp only [subst, other (.mul ts) rfl] at h
      obtain ⟨rs, hrs, h⟩ := bind_ok' h
      cases h
      simp only [Cov, covL_iff]
      exact mapM_cov (P := P) (fun t ht r hr => ih t ht (hc t ht) k r hr) hrs
  | bin op l r ihl ihr =>
    intro hc k x h
    cases k with
    | zero => cases h
    | succ k =>
      simp only [subst, other (.bin op l r) rfl] at h
      obtain ⟨a, ha, h⟩ := bind_ok' h
      obtain ⟨b, hb, h⟩ := bind_ok' h
      cases h
      exact ⟨ihl hc.1 k a ha, ihr hc.2 k b hb⟩
  | rel op l r ihl ihr =>
    intro hc k x h
    rcases hc with hc | ⟨_, hl, hr⟩
    · exact leaf _ hc k x h
    cases k with
    | zero => cases h
    | succ k =>
      simp only [subst, other (.rel op l r) rfl] at h
      obtain ⟨a, ha, h⟩ := bind_ok' h
      obtain ⟨b, hb, h⟩ := bind_ok' h
      cases h
      exact .inr ⟨trivial, ihl hl k a ha, ihr hr k b hb⟩
  | undefined => intro h; exact leaf _ h
  | var => intro h; exact leaf _ h
  | attr => intro h; exact leaf _ h
  | sel => intro h; exact leaf _ h
  | call => intro h; exact leaf _ h
  | not => intro h; exact leaf _ h
  | agg => intro h; exact leaf _ h
  | quant => intro h; exact leaf _ h

end Verif.Agree
