import Verif.Session.DeclProps
import Verif.Session.DeclExample

/-! # Names of types and of the built-in function in sessions (C49), spelled out -/

namespace Verif.Session
open Verif Verif.Typing

variable {M : Type} [DecidableEq M]

/-- Whether the parts of an identifier are the given texts up to case. -/
def Spelled (id : ID) (parts : List String) : Prop := id.key = parts.map fun s => PyStr.lower s.toList

/-- **C49**: the names by which types are known. `Boolean` is the built-in type, `Opaque` the internal type, with or without the name of
their package, any other simple name is a type of the package of the session, and names with several parts are left as they are. -/
theorem C49_type_names (id package : ID) :
    (Spelled id ["Boolean"] ∨ Spelled id ["__BUILTINS__", "Boolean"] →
      Spelled (qualified id package) ["__BUILTINS__", "Boolean"]) ∧
    (Spelled id ["Opaque"] ∨ Spelled id ["__INTERNAL__", "Opaque"] →
      Spelled (qualified id package) ["__INTERNAL__", "Opaque"]) ∧
    (∀ x, id.parts = [x] → ¬ Spelled id ["Boolean"] → ¬ Spelled id ["Opaque"] →
      (qualified id package).parts = package.parts ++ [x]) ∧
    (2 ≤ id.parts.length → ¬ Spelled id ["__BUILTINS__", "Boolean"] → ¬ Spelled id ["__INTERNAL__", "Opaque"] →
      qualified id package = id) := by
  have e1 : ∀ i : ID, i.eq booleanName = true ↔ Spelled i ["Boolean"] := fun i => (ID.eq_iff_key i booleanName)
  have e2 : ∀ i : ID, i.eq booleanId = true ↔ Spelled i ["__BUILTINS__", "Boolean"] := fun i => (ID.eq_iff_key i booleanId)
  have e3 : ∀ i : ID, i.eq opaqueName = true ↔ Spelled i ["Opaque"] := fun i => (ID.eq_iff_key i opaqueName)
  have e4 : ∀ i : ID, i.eq opaqueId = true ↔ Spelled i ["__INTERNAL__", "Opaque"] := fun i => (ID.eq_iff_key i opaqueId)
  have one : ∀ {i : ID} {l : List String}, Spelled i l → i.parts.length = l.length := by
    intro i l h
    have := congrArg List.length h
    simpa [ID.key] using this
  refine ⟨?_, ?_, ?_, ?_⟩
  · intro h
    have : (id.eq booleanId || id.eq booleanName) = true := by
      rw [Bool.or_eq_true, e1, e2]; exact h.symm
    unfold qualified
    rw [if_pos this]
    exact rfl
  · intro h
    have n : ¬ (id.eq booleanId || id.eq booleanName) = true := by
      rw [Bool.or_eq_true, e1, e2]
      rintro (h' | h') <;> rcases h with h | h <;> (unfold Spelled at h h'; rw [h] at h'; revert h'; decide)
    have : (id.eq opaqueId || id.eq opaqueName) = true := by
      rw [Bool.or_eq_true, e3, e4]; exact h.symm
    unfold qualified
    rw [if_neg n, if_pos this]
    exact rfl
  · intro x hx h1 h2
    have l1 : id.parts.length = 1 := by rw [hx]; rfl
    have n1 : ¬ (id.eq booleanId || id.eq booleanName) = true := by
      rw [Bool.or_eq_true, e1, e2]
      rintro (h | h)
      · have := one h; simp [l1] at this
      · exact h1 h
    have n2 : ¬ (id.eq opaqueId || id.eq opaqueName) = true := by
      rw [Bool.or_eq_true, e3, e4]
      rintro (h | h)
      · have := one h; simp [l1] at this
      · exact h2 h
    unfold qualified
    rw [if_neg n1, if_neg n2, if_pos (by rw [l1]; rfl), hx]
  · intro hl h1 h2
    have n1 : ¬ (id.eq booleanId || id.eq booleanName) = true := by
      rw [Bool.or_eq_true, e1, e2]
      rintro (h | h)
      · exact h1 h
      · have := one h; simp at this; omega
    have n2 : ¬ (id.eq opaqueId || id.eq opaqueName) = true := by
      rw [Bool.or_eq_true, e3, e4]
      rintro (h | h)
      · exact h2 h
      · have := one h; simp at this; omega
    unfold qualified
    rw [if_neg n1, if_neg n2, if_neg (by simp; omega)]

/-- A type in upper case, and a type of a package. -/
example : Spelled ⟨[['B', 'O', 'O', 'L', 'E', 'A', 'N']]⟩ ["Boolean"] ∧ ¬ Spelled ⟨[['T']]⟩ ["Boolean"] ∧ ¬ Spelled ⟨[['T']]⟩ ["Opaque"] ∧
    (qualified ⟨[['T']]⟩ ⟨[['P']]⟩).parts = [['P'], ['T']] := by
  refine ⟨by unfold Spelled; decide, by unfold Spelled; decide, by unfold Spelled; decide, by decide⟩

/-- **C49**: in an accepted session nothing is called `Data_Available`, the name of the built-in function. -/
theorem C49_data_available (B : Body M) (literals : Dict (Ty M)) (h : List PyStr → Int) (s : FullSession M) (hs : s.Accepted B literals h)
    (d : Decl M) (hd : d ∈ s.everything) : ¬ Spelled d.id ["Data_Available"] :=
  C49_builtin B literals h s hs d hd

/-- An accepted session with declarations. -/
example : exFull.Accepted exBody [] (fun _ => 0) ∧ exFull.everything ≠ [] := ⟨exFull_accepted, by simp [exFull, FullSession.everything]⟩

end Verif.Session
