import Verif.Ident.Model

namespace Verif

theorem splitSep_ne_nil (s : PyStr) : splitSep s ≠ [] := by
  fun_induction splitSep s <;> simp_all

/-- Text without a colon is not split. -/
theorem splitSep_noColon (p : PyStr) (hp : ':' ∉ p) : splitSep p = [p] := by
  induction p with
  | nil => rfl
  | cons c s ih =>
    have hc : c ≠ ':' := by intro h; apply hp; simp [h]
    have hs : ':' ∉ s := by intro h; apply hp; simp [h]
    rw [splitSep]
    · simp [ih hs]
    · intro s' h; exact absurd h hc

theorem splitSep_append (p s : PyStr) (hp : ':' ∉ p) :
    splitSep (p ++ ':' :: ':' :: s) = p :: splitSep s := by
  induction p with
  | nil => rw [List.nil_append, splitSep]
  | cons c q ih =>
    have hc : c ≠ ':' := by intro h; apply hp; simp [h]
    have hs : ':' ∉ q := by intro h; apply hp; simp [h]
    rw [List.cons_append, splitSep]
    · simp [ih hs]
    · intro s' h; exact absurd h hc

theorem split_join (ps : List PyStr) (hne : ps ≠ []) (h : ∀ p ∈ ps, ':' ∉ p) :
    splitSep (joinSep ps) = ps := by
  induction ps with
  | nil => exact absurd rfl hne
  | cons p ps ih =>
    cases ps with
    | nil => simp only [joinSep]; exact splitSep_noColon p (h p (by simp))
    | cons q qs =>
      rw [joinSep, splitSep_append _ _ (h p (by simp)), ih (by simp) (fun p hp => h p (by simp [hp]))]

theorem joinSep_append (ps qs : List PyStr) (hp : ps ≠ []) (hq : qs ≠ []) :
    joinSep ps ++ [':', ':'] ++ joinSep qs = joinSep (ps ++ qs) := by
  induction ps with
  | nil => exact absurd rfl hp
  | cons p ps ih =>
    cases ps with
    | nil =>
      cases qs with
      | nil => exact absurd rfl hq
      | cons q qs => simp [joinSep]
    | cons p' ps' =>
      have := ih (by simp)
      simp only [joinSep, List.cons_append, List.append_assoc] at this ⊢
      rw [this]

namespace ID

/-- The identifiers that the constructor can produce. -/
def Valid (a : ID) : Prop :=
  a.parts ≠ [] ∧ ∀ p ∈ a.parts, p ≠ [] ∧ ' ' ∉ p ∧ '.' ∉ p ∧ ':' ∉ p

theorem checked_ok_iff (ps : List PyStr) (a : ID) :
    checked ps = .ok a ↔ a = ⟨ps⟩ ∧ Valid ⟨ps⟩ := by
  simp only [checked, Valid]
  constructor
  · intro h
    split at h
    · cases h
    · split at h
      · cases h
      · split at h
        · cases h
        · rename_i h1 h2 h3
          cases h
          refine ⟨rfl, ?_, ?_⟩
          · simpa using h1
          · intro p hp
            simp only [List.any_cons, List.any_nil, Bool.or_false, Bool.or_eq_true, List.any_eq_true,
              List.contains_iff_mem, not_or, not_exists, not_and] at h3
            refine ⟨?_, h3.1 p hp, h3.2.1 p hp, h3.2.2 p hp⟩
            rintro rfl
            simp at h2
            exact h2 hp
  · rintro ⟨rfl, h1, h2⟩
    rw [if_neg (by simpa using h1), if_neg, if_neg]
    · simp only [List.any_cons, List.any_nil, Bool.or_false, Bool.or_eq_true, List.any_eq_true,
              List.contains_iff_mem, not_or, not_exists, not_and]
      exact ⟨fun p hp => (h2 p hp).2.1, fun p hp => (h2 p hp).2.2.1, fun p hp => (h2 p hp).2.2.2⟩
    · simp only [List.contains_iff_mem]
      intro h
      exact (h2 _ h).1 rfl

theorem checked_ok (a : ID) (h : Valid a) : checked a.parts = .ok a :=
  (checked_ok_iff _ _).2 ⟨rfl, h⟩

theorem str_ne_nil (a : ID) (h : Valid a) : a.str ≠ [] := by
  obtain ⟨ps⟩ := a
  obtain ⟨h1, h2⟩ := h
  cases ps with
  | nil => exact absurd rfl h1
  | cons p ps =>
    have := (h2 p (by simp)).1
    cases ps <;> simp [str, joinSep, this]

end ID
end Verif
