import Verif.Typing.CheckLemmas

/-! # Lists of numbers as values of byte arrays (C48) -/

namespace Verif.Typing
open Verif

variable {M : Type} [DecidableEq M]

/-- The number literals of a list. -/
def literals (ns : List (Int × NBase)) : List Expr := ns.map fun n => .num n.1 n.2

theorem fold_universal (ns : List (Int × NBase)) (l u : Int) : ∃ l' u', (ns.map fun n => (Ty.universal ⟨some n.1, some n.1⟩ : Ty M)).foldl Ty.common
      (.universal ⟨some l, some u⟩) = .universal ⟨some l', some u'⟩ ∧
    ∀ c d : Int, (c ≤ l' ∧ u' ≤ d) ↔ (c ≤ l ∧ u ≤ d ∧ ∀ n ∈ ns, c ≤ n.1 ∧ n.1 ≤ d) := by
  induction ns generalizing l u with
  | nil => exact ⟨l, u, rfl, fun c d => by simp⟩
  | cons n ns ih =>
    have h : (Ty.universal ⟨some l, some u⟩ : Ty M).common (.universal ⟨some n.1, some n.1⟩) =
        .universal ⟨some (min l n.1), some (max u n.1)⟩ := by
      simp only [Ty.common]
      split
      · rfl
      · next hn =>
        have hn : (⟨some l, some u⟩ : Bounds) = ⟨some n.1, some n.1⟩ := by simpa using hn
        injection hn with h1 h2
        injection h1 with h1
        injection h2 with h2
        subst h1
        rw [h2]; simp
    obtain ⟨l', u', h1, h2⟩ := ih (min l n.1) (max u n.1)
    refine ⟨l', u', by rw [List.map_cons, List.foldl_cons, h, h1], fun c d => ?_⟩
    rw [h2]
    simp only [List.mem_cons, forall_eq_or_imp]
    constructor
    · rintro ⟨a, b, e⟩
      exact ⟨by omega, by omega, ⟨by omega, by omega⟩, e⟩
    · rintro ⟨a, b, ⟨x, y⟩, e⟩
      exact ⟨by omega, by omega, e⟩

theorem ctorTyL_literals (Γ : Ctx M) (ns : List (Int × NBase)) :
    ctorTyL Γ (literals ns) = ns.map fun n => (Ty.universal ⟨some n.1, some n.1⟩ : Ty M) := by
  induction ns with
  | nil => rfl
  | cons n ns ih =>
    simp only [literals, List.map_cons, ctorTyL, ctorTy] at ih ⊢
    rw [ih]

theorem allOk_literals (Γ : Ctx M) (ns : List (Int × NBase)) : allOk Γ (.cls .any) (literals ns) = .ok true := by
  induction ns with
  | nil => rfl
  | cons n ns ih =>
    simp only [literals, List.map_cons, allOk, subOk, afterTy, ctorTy, meets] at ih ⊢
    rw [ih]
    simp [checkInstance, Ty.isInstance, bind, Except.bind, pure, Except.pure]

/-- **C48**: a list of number literals is accepted as opaque data exactly if all its numbers are bytes. -/
theorem C48_bytes (Γ : Ctx M) (ns : List (Int × NBase)) :
    check Γ (.agg (literals ns)) (.ty OPAQUE) = .ok (ns.all fun n => decide (0 ≤ n.1 ∧ n.1 ≤ 255)) := by
  have hm : meets (Ty.aggregate (commonType (ctorTyL Γ (literals ns)))) (.ty OPAQUE) = .ok (ns.all fun n => decide (0 ≤ n.1 ∧ n.1 ≤ 255)) := by
    rw [ctorTyL_literals]
    cases ns with
    | nil => simp [commonType, meets, checkType, OPAQUE, Ty.isCompatible, Ty.isCompatibleStrong]
    | cons n ns =>
      obtain ⟨l, u, h1, h2⟩ := fold_universal (M := M) ns n.1 n.1
      have hc : commonType ((n :: ns).map fun n => (Ty.universal ⟨some n.1, some n.1⟩ : Ty M)) = .universal ⟨some l, some u⟩ := by
        rw [← h1]; rfl
      rw [hc]
      have hb : (decide (0 ≤ l ∧ u ≤ 255)) = ((n :: ns).all fun n => decide (0 ≤ n.1 ∧ n.1 ≤ 255)) := by
        rw [Bool.eq_iff_iff, decide_eq_true_eq, h2]
        simp [and_assoc]
      have hs : (Ty.aggregate (.universal ⟨some l, some u⟩) : Ty M).isCompatible OPAQUE = decide (0 ≤ l ∧ u ≤ 255) := by
        simp [OPAQUE, Ty.isCompatible, Ty.isCompatibleStrong, Bounds.contains, Bounds.defined]
      have hu : (Ty.aggregate (.universal ⟨some l, some u⟩) : Ty M) ≠ .undefined := nofun
      have ho : (OPAQUE : Ty M) ≠ .undefined := nofun
      rw [← hb]
      unfold meets checkType
      simp only [hu, ho, hs, if_false, ne_eq, not_false_eq_true, true_and]
      cases decide (0 ≤ l ∧ u ≤ 255) <;> rfl
  simp only [check, subOk, afterTy, ctorTy, allOk_literals, hm, bind, Except.bind, pure, Except.pure, Bool.true_and]

/-- Two lists, of which one has a number that is no byte. -/
example (Γ : Ctx M) : check Γ (.agg (literals [(1, .b0), (255, .b0), (0, .b16)])) (.ty OPAQUE) = .ok true ∧
    check Γ (.agg (literals [(1, .b0), (256, .b0), (0, .b16)])) (.ty OPAQUE) = .ok false := by
  constructor
  · rw [C48_bytes]; rfl
  · rw [C48_bytes]; rfl

end Verif.Typing
