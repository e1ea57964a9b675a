import Verif.Types.Props

/-! # C06: names of literals given as texts -/

namespace Verif.Types
open Verif

theorem fill_bad {l : List (StrID × Int)} {d d' : List (ID × Int)} {b' : Bool} (h : fillLiterals l d true = .ok (d', b')) : b' = true := by
  induction l generalizing d with
  | nil => simp only [fillLiterals, Except.ok.injEq, Prod.mk.injEq] at h; exact h.2.symm
  | cons a l ih =>
    obtain ⟨k, v⟩ := a
    simp only [fillLiterals] at h
    split at h
    · exact ih h
    · cases hk : k.toID with
      | error e => simp [hk, bind, Except.bind] at h
      | ok i =>
        simp only [hk, bind, Except.bind] at h
        exact ih h

theorem fill_text {l : List (StrID × Int)} {d d' : List (ID × Int)} {b : Bool} (h : fillLiterals l d b = .ok (d', false)) :
    ∀ s v, (StrID.str s, v) ∈ l → ' ' ∉ s ∧ '.' ∉ s ∧ ∃ i, ID.ofStr s = .ok i := by
  induction l generalizing d b with
  | nil => intro s v hm; simp at hm
  | cons a l ih =>
    obtain ⟨k, w⟩ := a
    simp only [fillLiterals] at h
    split at h
    · exact absurd (fill_bad h) (by simp)
    · rename_i hc
      cases hk : k.toID with
      | error e => simp [hk, bind, Except.bind] at h
      | ok i =>
        simp only [hk, bind, Except.bind] at h
        intro s v hm
        rcases List.mem_cons.1 hm with e | hm
        · cases e
          simp only [StrID.text, Bool.or_eq_true, List.contains_iff_mem, not_or] at hc
          exact ⟨hc.1, hc.2, i, hk⟩
        · exact ih h s v hm

/-- An enumeration is only accepted if no name given as a text has a space or a dot, and each such name is the text of an identifier. -/
theorem C06_text_names (id : ID) (l : List (StrID × Int)) (size : Expr) (av : Bool) (t : Enum) (h : Enum.new id l size av = .ok t) :
    ∀ s v, (StrID.str s, v) ∈ l → ' ' ∉ s ∧ '.' ∉ s ∧ ∃ i, ID.ofStr s = .ok i := by
  obtain ⟨_, _, lits, hf, _⟩ := (new_iff id l size av t).mp h
  exact fill_text hf

example : (∃ t, Enum.new ⟨[['P'], ['E']]⟩ [(.str ['A'], 1), (.str ['B'], 2)] (.n 2) false = .ok t) ∧
    ¬ ∃ t, Enum.new ⟨[['P'], ['E']]⟩ [(.str ['A', '.'], 1), (.str ['B'], 2)] (.n 2) false = .ok t := by
  refine ⟨⟨_, rfl⟩, ?_⟩
  rintro ⟨t, h⟩
  exact (C06_text_names _ _ _ _ t h ['A', '.'] 1 (by simp)).2.1 (by decide)

end Verif.Types
