import Verif.Expr.Fuel

/-! # More fuel does not change results; `simplified` and `-` without fuel -/

namespace Verif

/-- Proof device: `y` is what `x` is, unless `x` ran out of fuel. -/
def Le {α : Type} (x y : Py α) : Prop := x = .error .fuel ∨ x = y

theorem Le.refl {α : Type} (x : Py α) : Le x x := .inr rfl

theorem Le.bind {α β : Type} {x y : Py α} {f g : α → Py β} (h : Le x y) (hf : ∀ a, Le (f a) (g a)) :
    Le (x >>= f) (y >>= g) := by
  rcases h with rfl | rfl
  · exact .inl rfl
  · cases x with
    | error e => exact .inr rfl
    | ok a => exact hf a

theorem Le.mapM {f g : Expr → Py Expr} (h : ∀ a, Le (f a) (g a)) (ts : List Expr) :
    Le (ts.mapM f) (ts.mapM g) := by
  induction ts with
  | nil => exact Le.refl _
  | cons t ts ih =>
    rw [List.mapM_cons, List.mapM_cons]
    exact (h t).bind fun a => ih.bind fun b => Le.refl _

structure MonoOK (k : Nat) : Prop where
  ng : ∀ e, Le (neg k e) (neg (k + 1) e)
  simp : ∀ e, Le (simplify k e) (simplify (k + 1) e)
  loop : ∀ o w t n, Le (assLoop k o w t n) (assLoop (k + 1) o w t n)
  canc : ∀ r t, Le (cancel k r t) (cancel (k + 1) r t)

theorem monoOK (k : Nat) : MonoOK k := by
  induction k with
  | zero =>
    refine ⟨fun e => .inl rfl, fun e => .inl rfl, fun o w t n => ?_, fun r t => ?_⟩
    · cases w with
      | nil => exact .inr (by simp only [assLoop])
      | cons => exact .inl (by simp only [assLoop])
    · cases r with
      | nil => exact .inr (by simp only [cancel])
      | cons => exact .inl (by simp only [cancel])
  | succ k ih =>
    obtain ⟨hn, hs, hl, hc⟩ := ih
    refine ⟨fun e => ?_, fun e => ?_, fun o w t n => ?_, fun r t => ?_⟩
    · cases e <;> simp only [neg] <;> first
        | exact Le.refl _
        | exact hs _
        | exact (Le.mapM hn _).bind fun _ => Le.refl _
        | exact (hn _).bind fun _ => Le.refl _
    · cases e with
      | tru | fls | undefined | num | var | sel | call => exact Le.refl _
      | attr => simp only [simplify]; exact (hs _).bind fun _ => Le.refl _
      | not e =>
        cases e with
        | rel op l r =>
          simp only [simplify]
          split
          · exact (hs _).bind fun _ => (hs _).bind fun _ => Le.refl _
          · rename_i h
            have h2 := hs (.rel op l r)
            simp only [simplify, if_neg h] at h2
            exact h2.bind fun _ => Le.refl _
        | _ => simp only [simplify]; exact (hs _).bind fun _ => Le.refl _
      | bool => simp only [simplify]; exact (hl _ _ _ _).bind fun _ => Le.refl _
      | add ts =>
        simp only [simplify]
        refine (hl _ _ _ _).bind fun a => ?_
        split
        · exact (hc _ _).bind fun _ => Le.refl _
        · exact Le.refl _
      | mul => simp only [simplify]; exact (hl _ _ _ _).bind fun _ => Le.refl _
      | bin op l r =>
        simp only [simplify]
        refine (hs _).bind fun l' => (hs _).bind fun r' => ?_
        split
        · exact Le.refl _
        · split
          · exact (hn _).bind fun _ => Le.refl _
          · exact Le.refl _
      | rel => simp only [simplify]; exact (hs _).bind fun _ => (hs _).bind fun _ => Le.refl _
      | agg => simp only [simplify]; exact (Le.mapM hs _).bind fun _ => Le.refl _
      | quant => simp only [simplify]; exact (hs _).bind fun _ => (hs _).bind fun _ => Le.refl _
    · cases w with
      | nil => exact .inr (by simp only [assLoop])
      | cons w ws =>
        simp only [assLoop]
        refine (hs w).bind fun a => ?_
        split
        · exact hl _ _ _ _
        · exact hl _ _ _ _
        · exact hl _ _ _ _
        · split
          · exact hl _ _ _ _
          · exact hl _ _ _ _
    · cases r with
      | nil => exact .inr (by simp only [cancel])
      | cons r rs =>
        simp only [cancel]
        split
        · exact hc _ _
        · refine (hn r).bind fun a => ?_
          split
          · exact hc _ _
          · exact hc _ _

/-- `self.simplified()` (see `simplify` for the lines), with an amount of fuel that suffices. -/
def Expr.simplified (e : Expr) : Py Expr := simplify (4 * weight e) e

/-- `-self` (see `neg` for the lines), with an amount of fuel that suffices. -/
def Expr.negated (e : Expr) : Py Expr := neg (4 * weight e + 5) e

theorem simplify_mono {k m : Nat} (h : k ≤ m) (e : Expr) : Le (simplify k e) (simplify m e) := by
  induction m with
  | zero => obtain rfl : k = 0 := by omega
            exact Le.refl _
  | succ m ih =>
    by_cases hk : k = m + 1
    · subst hk; exact Le.refl _
    · rcases ih (by omega) with h1 | h1
      · exact .inl h1
      · rw [h1]; exact (monoOK m).simp e

theorem neg_mono {k m : Nat} (h : k ≤ m) (e : Expr) : Le (neg k e) (neg m e) := by
  induction m with
  | zero => obtain rfl : k = 0 := by omega
            exact Le.refl _
  | succ m ih =>
    by_cases hk : k = m + 1
    · subst hk; exact Le.refl _
    · rcases ih (by omega) with h1 | h1
      · exact .inl h1
      · rw [h1]; exact (monoOK m).ng e

end Verif
