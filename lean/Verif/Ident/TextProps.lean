import Verif.Ident.Props

/-! # C38: identifiers and texts -/

namespace Verif.ID
open Verif

/-- A text that may be part of a name. -/
def Spec.Plain (s : PyStr) : Prop := ' ' ∉ s ∧ '.' ∉ s ∧ ':' ∉ s

theorem join_split (s : PyStr) : joinSep (splitSep s) = s := by
  induction s using splitSep.induct with
  | case1 => rfl
  | case2 s ih =>
    rw [splitSep]
    have := splitSep_ne_nil s
    cases h : splitSep s with
    | nil => exact absurd h this
    | cons p ps => rw [h] at ih; simp [joinSep, ih]
  | case3 c s hc h ih => exact absurd h (splitSep_ne_nil s)
  | case4 c s hc p ps h ih =>
    rw [splitSep]
    · rw [h] at ih ⊢
      simp only
      cases ps with
      | nil => simpa [joinSep] using ih
      | cons q ps => simp only [joinSep, List.cons_append] at ih ⊢; rw [ih]
    · exact hc

theorem joinSep_last (ps : List PyStr) (p s : PyStr) : joinSep (ps ++ [p]) ++ s = joinSep (ps ++ [p ++ s]) := by
  induction ps with
  | nil => rfl
  | cons q ps ih =>
    cases ps with
    | nil => simp [joinSep]
    | cons r ps =>
      simp only [List.cons_append, joinSep, List.append_assoc] at ih ⊢
      rw [ih]

theorem joinSep_first (p s : PyStr) (ps : List PyStr) : s ++ joinSep (p :: ps) = joinSep ((s ++ p) :: ps) := by
  cases ps with
  | nil => rfl
  | cons q ps => simp [joinSep]

theorem plain_append {p s : PyStr} (hp : p ≠ [] ∧ ' ' ∉ p ∧ '.' ∉ p ∧ ':' ∉ p) (hs : Spec.Plain s) :
    (p ++ s ≠ [] ∧ ' ' ∉ p ++ s ∧ '.' ∉ p ++ s ∧ ':' ∉ p ++ s) ∧ (s ++ p ≠ [] ∧ ' ' ∉ s ++ p ∧ '.' ∉ s ++ p ∧ ':' ∉ s ++ p) := by
  obtain ⟨h0, h1, h2, h3⟩ := hp
  obtain ⟨g1, g2, g3⟩ := hs
  simp [h0, h1, h2, h3, g1, g2, g3]

/-- `identifier + text` appends the text to the last part. -/
theorem C38_add (ps : List PyStr) (p s : PyStr) (ha : Valid ⟨ps ++ [p]⟩) (hs : Spec.Plain s) : addStr ⟨ps ++ [p]⟩ s = .ok ⟨ps ++ [p ++ s]⟩ := by
  have hv : Valid ⟨ps ++ [p ++ s]⟩ := by
    refine ⟨by simp, ?_⟩
    intro q hq
    rcases List.mem_append.1 hq with h | h
    · exact ha.2 q (List.mem_append_left _ h)
    · rw [List.mem_singleton.1 h]
      exact (plain_append (ha.2 p (by simp)) hs).1
  rw [addStr, str, joinSep_last]
  exact C38_str_roundtrip _ hv

/-- `text + identifier` prepends the text to the first part. -/
theorem C38_radd (p s : PyStr) (ps : List PyStr) (ha : Valid ⟨p :: ps⟩) (hs : Spec.Plain s) : raddStr s ⟨p :: ps⟩ = .ok ⟨(s ++ p) :: ps⟩ := by
  have hv : Valid ⟨(s ++ p) :: ps⟩ := by
    refine ⟨by simp, ?_⟩
    intro q hq
    rcases List.mem_cons.1 hq with h | h
    · rw [h]
      exact (plain_append (ha.2 p (by simp)) hs).2
    · exact ha.2 q (List.mem_cons_of_mem _ h)
  rw [raddStr, str, joinSep_first]
  exact C38_str_roundtrip _ hv

/-- `text * identifier` and `identifier * text` are the products with the identifier that the text denotes. -/
theorem C38_mul_text (a b : ID) (s : PyStr) (ha : Valid a) (hs : ofStr s = .ok b) :
    rmulStr s a = .ok ⟨b.parts ++ a.parts⟩ ∧ mulStr a s = .ok ⟨a.parts ++ b.parts⟩ := by
  have hb : Valid b := C38_closed a b s b (.inl hs)
  have hs' : s = b.str := by
    have h := ((checked_ok_iff _ _).1 hs).1
    subst h
    exact (join_split s).symm
  subst hs'
  obtain ⟨c, hc, _, hp⟩ := C38_mul a b ha hb
  obtain ⟨d, hd, _, hq⟩ := C38_mul b a hb ha
  have he : ∀ x : ID, Valid x → x.str.isEmpty = false := by
    intro x hx
    have := str_ne_nil x hx
    simpa using this
  refine ⟨?_, ?_⟩
  · have : rmulStr b.str a = b.mul a := by
      rw [rmulStr, mul, mulStr, he a ha, he b hb]
      rfl
    rw [this, hd, ← hq]
  · have : mulStr a b.str = a.mul b := rfl
    rw [this, hc, ← hp]

example : addStr ⟨[['P'], ['T']]⟩ ['_', 'B'] = .ok ⟨[['P'], ['T', '_', 'B']]⟩ ∧ raddStr ['G', '_'] ⟨[['P'], ['T']]⟩ = .ok ⟨[['G', '_', 'P'], ['T']]⟩ ∧
    rmulStr ['A', ':', ':', 'B'] ⟨[['P'], ['T']]⟩ = .ok ⟨[['A'], ['B'], ['P'], ['T']]⟩ :=
  ⟨C38_add [['P']] ['T'] ['_', 'B'] ⟨by decide, by decide⟩ ⟨by decide, by decide, by decide⟩,
    C38_radd ['P'] ['G', '_'] [['T']] ⟨by decide, by decide⟩ ⟨by decide, by decide, by decide⟩,
    (C38_mul_text ⟨[['P'], ['T']]⟩ ⟨[['A'], ['B']]⟩ ['A', ':', ':', 'B'] ⟨by decide, by decide⟩ rfl).1⟩

end Verif.ID
