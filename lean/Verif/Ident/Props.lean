import Verif.Ident.Lemmas

/-! # Property C38: identifiers are case-insensitive names -/

namespace Verif.ID

/-- Two identifiers are the same name: same number of parts, and part by part the same letters up
to case. -/
def Spec.sameName (a b : ID) : Prop :=
  a.parts.length = b.parts.length ∧
  ∀ i (h : i < a.parts.length) (h' : i < b.parts.length),
    a.parts[i].map Char.toLower = b.parts[i].map Char.toLower

/-- **C38**: `==` is equality of names up to letter case. -/
theorem C38_eq_iff (a b : ID) : a.eq b = true ↔ Spec.sameName a b := by
  simp only [eq, Spec.sameName]
  by_cases hl : a.parts.length = b.parts.length
  · simp only [hl, bne_self_eq_false, Bool.false_eq_true, if_false, true_and]
    rw [List.all_eq_true]
    constructor
    · intro h i hi hi'
      have := h (a.parts[i], b.parts[i]) (by
        rw [List.mem_iff_getElem]
        exact ⟨i, by simp [hi', hl], by simp⟩)
      simpa [PyStr.lower] using this
    · rintro h ⟨s, o⟩ hx
      rw [List.mem_iff_getElem] at hx
      obtain ⟨i, hi, hx⟩ := hx
      simp only [List.getElem_zip, Prod.mk.injEq] at hx
      have hi' : i < b.parts.length := by simp at hi; omega
      have := h i hi' hi'
      simp only [beq_iff_eq, PyStr.lower]
      rw [← hx.1, ← hx.2]
      exact this
  · simp [hl]

theorem eq_iff_key (a b : ID) : a.eq b = true ↔ a.key = b.key := by
  rw [C38_eq_iff, Spec.sameName]
  constructor
  · rintro ⟨hl, h⟩
    apply List.ext_getElem
    · simp [key, hl]
    · intro i h1 h2
      simp only [key, List.getElem_map, PyStr.lower]
      exact h i (by simpa [key] using h1) (by simpa [key] using h2)
  · intro h
    have hl : a.parts.length = b.parts.length := by
      have := congrArg List.length h
      simpa [key] using this
    refine ⟨hl, ?_⟩
    intro i h1 h2
    have h3 : i < (key a).length := by simpa [key] using h1
    have h4 : i < (key b).length := by simpa [key] using h2
    have : (key a)[i] = (key b)[i] := by simp only [h]
    simpa [key, PyStr.lower] using this

/-- **C38**: identifier equality is an equivalence relation. -/
theorem C38_equivalence : Equivalence (fun a b : ID => a.eq b = true) where
  refl a := (eq_iff_key a a).2 rfl
  symm h := (eq_iff_key _ _).2 ((eq_iff_key _ _).1 h).symm
  trans h1 h2 := (eq_iff_key _ _).2 (((eq_iff_key _ _).1 h1).trans ((eq_iff_key _ _).1 h2))

/-- **C38**: equal identifiers have equal hashes, whatever the hash function of tuples is. -/
theorem C38_hash (h : List PyStr → Int) (a b : ID) (hab : a.eq b = true) : a.hash h = b.hash h := by
  simp only [hash, (eq_iff_key a b).1 hab]

example : (⟨["Ab".toList, "c".toList]⟩ : ID).eq ⟨["aB".toList, "C".toList]⟩ = true := by decide

/-- **C38**: a string is accepted exactly if its `::`-separated parts are non-empty and free of
blanks, dots and colons; a list likewise; nothing else is ever produced. -/
theorem C38_accepts (ps : List PyStr) :
    ((∃ a, ofList ps = .ok a) ↔
      ps ≠ [] ∧ ∀ p ∈ ps, p ≠ [] ∧ ' ' ∉ p ∧ '.' ∉ p ∧ ':' ∉ p) ∧
    (∀ a, ofList ps = .ok a → a.parts = ps) := by
  constructor
  · constructor
    · rintro ⟨a, h⟩; exact ((checked_ok_iff _ _).1 h).2
    · intro h; exact ⟨⟨ps⟩, (checked_ok_iff _ _).2 ⟨rfl, h⟩⟩
  · intro a h
    rw [((checked_ok_iff _ _).1 h).1]

/-- **C38**: reading back the printed form gives the identifier, with the same spelling. -/
theorem C38_str_roundtrip (a : ID) (ha : Valid a) : ofStr a.str = .ok a := by
  rw [ofStr, str, split_join _ ha.1 (fun p hp => (ha.2 p hp).2.2.2)]
  exact checked_ok a ha

example : ofStr (str ⟨["A".toList, "B".toList]⟩) = .ok ⟨["A".toList, "B".toList]⟩ :=
  C38_str_roundtrip _ ⟨by decide, by decide⟩

/-- **C38**: `package * name` has the parts of both; so its parent is the package, its name the
name. -/
theorem C38_mul (a b : ID) (ha : Valid a) (hb : Valid b) :
    ∃ c, a.mul b = .ok c ∧ Valid c ∧ c.parts = a.parts ++ b.parts := by
  have hv : Valid ⟨a.parts ++ b.parts⟩ := by
    refine ⟨by simp [ha.1], ?_⟩
    intro p hp
    rcases List.mem_append.1 hp with h | h
    · exact ha.2 p h
    · exact hb.2 p h
  refine ⟨⟨a.parts ++ b.parts⟩, ?_, hv, rfl⟩
  have : b.str.isEmpty = false := by
    have := str_ne_nil b hb
    simpa using this
  rw [mul, mulStr, this]
  simp only [Bool.false_eq_true, if_false]
  rw [str, str, joinSep_append _ _ ha.1 hb.1]
  exact C38_str_roundtrip ⟨a.parts ++ b.parts⟩ hv

/-- **C38**: the parent and name of `package * name`. -/
theorem C38_parent_name (pkg n : ID) (hp : Valid pkg) (hn : Valid n) (h1 : n.parts.length = 1) :
    ∃ c, pkg.mul n = .ok c ∧ c.parent = .ok pkg ∧ c.name = .ok n := by
  obtain ⟨c, hc, hv, hparts⟩ := C38_mul pkg n hp hn
  obtain ⟨x, hx⟩ := List.length_eq_one_iff.1 h1
  refine ⟨c, hc, ?_, ?_⟩
  · rw [parent, hparts, hx, List.dropLast_concat]
    exact checked_ok pkg hp
  · rw [name, hparts, hx, List.getLast?_concat]
    have : n.str = x := by simp [str, hx, joinSep]
    simp only
    rw [← this]
    exact C38_str_roundtrip n hn

example : ∃ c, mul ⟨["Pkg".toList]⟩ ⟨["T".toList]⟩ = .ok c ∧ c.parent = .ok ⟨["Pkg".toList]⟩ ∧
    c.name = .ok ⟨["T".toList]⟩ :=
  C38_parent_name _ _ ⟨by decide, by decide⟩ ⟨by decide, by decide⟩ rfl

/-- **C38**: `*` is associative. -/
theorem C38_mul_assoc (a b c : ID) (ha : Valid a) (hb : Valid b) (hc : Valid c) :
    ∃ ab bc abc, a.mul b = .ok ab ∧ b.mul c = .ok bc ∧ ab.mul c = .ok abc ∧ a.mul bc = .ok abc := by
  obtain ⟨ab, h1, v1, p1⟩ := C38_mul a b ha hb
  obtain ⟨bc, h2, v2, p2⟩ := C38_mul b c hb hc
  obtain ⟨x, h3, v3, p3⟩ := C38_mul ab c v1 hc
  obtain ⟨y, h4, v4, p4⟩ := C38_mul a bc ha v2
  refine ⟨ab, bc, x, h1, h2, h3, ?_⟩
  rw [h4]
  congr 1
  cases x; cases y
  simp_all

/-- **C38**: `*` with the empty string on either side changes nothing. -/
theorem C38_mul_empty (a : ID) (ha : Valid a) : a.mulStr [] = .ok a ∧ rmulStr [] a = .ok a :=
  ⟨checked_ok a ha, checked_ok a ha⟩

/-- **C38**: every operation of the class yields valid identifiers only. -/
theorem C38_closed (a b : ID) (s : PyStr) (r : ID)
    (h : ofStr s = .ok r ∨ a.addStr s = .ok r ∨ raddStr s a = .ok r ∨ a.mulStr s = .ok r ∨
      rmulStr s a = .ok r ∨ a.mul b = .ok r ∨ a.name = .ok r ∨ a.parent = .ok r) : Valid r := by
  have key : ∀ ps (r : ID), checked ps = .ok r → Valid r := by
    intro ps r h
    obtain ⟨rfl, hv⟩ := (checked_ok_iff _ _).1 h
    exact hv
  rcases h with h | h | h | h | h | h | h | h
  · exact key _ _ h
  · exact key _ _ h
  · exact key _ _ h
  · simp only [mulStr] at h; split at h <;> exact key _ _ h
  · simp only [rmulStr] at h; split at h <;> exact key _ _ h
  · simp only [mul, mulStr] at h; split at h <;> exact key _ _ h
  · simp only [name] at h
    split at h
    · exact key _ _ h
    · cases h
  · exact key _ _ h

/-- **C38**, an observation: `<` is case-sensitive while `==` is not, so two identifiers can be equal
and ordered at the same time. -/
theorem C38_lt_counterexample :
    ∃ a b : ID, Valid a ∧ Valid b ∧ a.eq b = true ∧ a.lt b = true :=
  ⟨⟨[['A']]⟩, ⟨[['a']]⟩, ⟨by decide, by decide⟩, ⟨by decide, by decide⟩, by decide, by decide⟩

end Verif.ID
