import Verif.PyRFLX.MessageCongr

/-! # The mapping of a PyRFLX message -/

namespace Verif.PyRFLX

open Verif Verif.Types Verif.Bits Verif.Graph

/-- The identifier `Message`. -/
def messageID : ID := ⟨[['M', 'e', 's', 's', 'a', 'g', 'e']]⟩

/-- Specification: the keys of the mapping that belong to the identifier `f`. -/
def KeyOf (f : ID) (k : Expr) : Prop :=
  k = .var false false f ∨ ∃ a, (a = .size ∨ a = .first ∨ a = .last) ∧ k = .attr false a (.var false false f)

/-- Specification: identifiers that do not look like numbers. -/
def Proper (ids : List ID) : Prop := ∀ f ∈ ids, ∀ v b, f.str ≠ intStr v b

theorem append_quote_inj {a b c : PyStr} (h : a ++ '\'' :: c = b ++ '\'' :: c) : a = b := by
  exact List.append_cancel_right h

theorem key_free {bad : List ID} (hp : Proper bad) {f : ID} (hf : f ∈ bad) {k n : Expr} (hk : KeyOf f k) (hn : Free bad n) :
    k.eq n = false := by
  rcases hk with rfl | ⟨a, -, rfl⟩
  · cases n <;> simp_all [Expr.eq, Expr.cls, Expr.Cls.sub, Free]
    rename_i ng imm id
    cases ng <;> simp
    exact (hn f hf).1
  · cases n with
    | attr ng k pre =>
      cases ng with
      | true => cases pre <;> simp [Free] at hn
      | false =>
        by_cases hak : a = k
        · subst hak
          simp only [Expr.eq, Bool.and_eq_false_imp]
          intro _
          simp only [Expr.str, Expr.strF, Bool.xor_self, wrapNeg]
          cases pre with
          | var ng' imm' id =>
            cases ng' with
            | true => simp [Free] at hn
            | false =>
              have := (hn f hf).2
              simp only [Expr.strF, Bool.xor_self, wrapNeg, Bool.false_eq_true, if_false, beq_eq_false_iff_ne, ne_eq]
              intro h
              exact this (append_quote_inj h)
          | num v b =>
            have := hp f hf v b
            simp only [Expr.strF, Bool.xor_self, wrapNeg, Bool.false_eq_true, if_false, beq_eq_false_iff_ne, ne_eq]
            intro h
            exact this (append_quote_inj h)
          | _ => simp [Free] at hn
        · simp [Expr.eq, Expr.cls, Expr.Cls.sub, hak, Ne.symm hak]
    | _ => simp [Expr.eq, Expr.cls, Expr.Cls.sub]

/-! ## Entries -/

/-- Specification: what the mapping says about a field. -/
def EntryOf (t : FType) (v : FV) (f : Field) (kv : Expr × Expr) : Prop :=
  (∃ s imp x, t = .scalar s imp ∧ v.value = some (.scalar x) ∧ kv.1 = .var false false f ∧ x.expr = .ok kv.2) ∨
  (∃ a n, (a = .size ∨ a = .first ∨ a = .last) ∧ kv = (.attr false a (.var false false f), Num.expr n))

theorem entries_spec {t : FType} {v : FV} {f : Field} {es : List (Expr × Expr)} (h : entries t v f = .ok es) :
    ∀ kv ∈ es, EntryOf t v f kv := by
  obtain ⟨a, ha, h⟩ := bind_ok (h : (valueEntry t v f).bind _ = _)
  obtain ⟨b, hb, h⟩ := bind_ok (h : (sizeEntry t v f).bind _ = _)
  obtain ⟨d, hd, rfl⟩ := map_ok h
  intro kv hkv
  simp only [List.mem_append] at hkv
  rcases hkv with ((hkv | hkv) | hkv) | hkv
  · unfold valueEntry at ha
    split at ha
    · rename_i s imp x _ _ _
      obtain ⟨b, _, ha⟩ := bind_ok ha
      cases b with
      | false =>
        simp only [Bool.false_eq_true, if_false, Except.ok.injEq] at ha
        subst ha
        simp at hkv
      | true =>
        simp only [if_true] at ha
        obtain ⟨e, he, rfl⟩ := map_ok ha
        simp only [List.mem_singleton] at hkv
        subst hkv
        exact .inl ⟨s, imp, x, rfl, by assumption, rfl, he⟩
    · simp only [Except.ok.injEq] at ha
      subst ha
      simp at hkv
  · unfold sizeEntry at hb
    obtain ⟨c, _, hb⟩ := bind_ok hb
    cases c with
    | false =>
      simp only [Bool.false_eq_true, if_false, Except.ok.injEq] at hb
      subst hb
      simp at hkv
    | true =>
      simp only [if_true] at hb
      obtain ⟨n, _, rfl⟩ := map_ok hb
      cases n with
      | none => simp at hkv
      | some n =>
        simp only [List.mem_singleton] at hkv
        exact .inr ⟨.size, n, .inl rfl, hkv⟩
  · unfold firstEntry at hkv
    split at hkv
    · rename_i n _
      simp only [List.mem_singleton] at hkv
      exact .inr ⟨.first, n, .inr (.inl rfl), hkv⟩
    · simp at hkv
  · unfold lastEntry at hd
    obtain ⟨n, _, rfl⟩ := map_ok hd
    cases n with
    | none => simp at hkv
    | some n =>
      simp only [List.mem_singleton] at hkv
      exact .inr ⟨.last, n, .inr (.inr rfl), hkv⟩

theorem EntryOf.key {t : FType} {v : FV} {f : Field} {kv : Expr × Expr} (h : EntryOf t v f kv) : KeyOf f kv.1 := by
  rcases h with ⟨s, imp, x, _, _, h, _⟩ | ⟨a, n, ha, rfl⟩
  · exact .inl h
  · exact .inr ⟨a, ha, rfl⟩

variable {m : Msg}

theorem fieldMapping_mem {fv : Field → FV} {fs : List Field} {M : List (Expr × Expr)} (h : m.fieldMapping fv fs = .ok M) :
    ∀ kv ∈ M, (∃ f ∈ fs, EntryOf (m.typeOf f) (fv f) f kv) ∨ kv = (.attr false .first messageVar, .n 0) := by
  induction fs generalizing M with
  | nil =>
    simp only [Msg.fieldMapping, Except.ok.injEq] at h
    subst h
    simp
  | cons f fs ih =>
    obtain ⟨es, hes, h⟩ := bind_ok (h : (entries _ _ _).bind _ = _)
    obtain ⟨r, hr, rfl⟩ := map_ok h
    intro kv hkv
    rcases List.mem_append.mp hkv with hkv | hkv
    · exact .inl ⟨f, by simp, entries_spec hes kv hkv⟩
    · rcases ih hr kv hkv with ⟨g, hg, h⟩ | h
      · exact .inl ⟨g, List.mem_cons_of_mem _ hg, h⟩
      · exact .inr h

theorem newMapping_form {fv : Field → FV} {M : List (Expr × Expr)} (h : m.newMapping fv = .ok M) :
    ∃ M0 last nxt, m.fieldMapping fv (INITIAL :: m.fields) = .ok M0 ∧ m.nextField M0 INITIAL = .ok nxt ∧
      m.messageLast fv M0 m.fuel nxt = .ok last ∧
      M = withMessage M0 last := by
  obtain ⟨M0, hM0, h⟩ := bind_ok (h : (Msg.fieldMapping _ _ _).bind _ = _)
  obtain ⟨nxt, hn, h⟩ := bind_ok h
  obtain ⟨last, hl, rfl⟩ := map_ok h
  exact ⟨M0, last, nxt, hM0, hn, hl, rfl⟩

/-- Specification: what a mapping may say, given the values `fv` of the fields. -/
def MappingOf (m : Msg) (fv : Field → FV) (M : List (Expr × Expr)) : Prop :=
  ∀ kv ∈ M, (∃ f ∈ INITIAL :: m.fields, EntryOf (m.typeOf f) (fv f) f kv) ∨
    ∃ a n, (a = .size ∨ a = .first ∨ a = .last) ∧ kv = (.attr false a messageVar, Num.expr n)

theorem newMapping_mem {fv : Field → FV} {M : List (Expr × Expr)} (h : m.newMapping fv = .ok M) : MappingOf m fv M := by
  obtain ⟨M0, last, nxt, hM0, _, _, rfl⟩ := newMapping_form h
  have h0 : MappingOf m fv M0 := by
    intro kv hkv
    rcases fieldMapping_mem hM0 kv hkv with h | h
    · exact .inl h
    · exact .inr ⟨.first, ⟨0, .b0⟩, by simp, h⟩
  cases last with
  | none => exact h0
  | some n =>
    intro kv hkv
    simp only [withMessage, List.mem_cons] at hkv
    rcases hkv with rfl | rfl | hkv
    · exact .inr ⟨.last, n, by simp, rfl⟩
    · exact .inr ⟨.size, ⟨n.v + 1, .b0⟩, by simp, rfl⟩
    · exact h0 kv hkv

theorem fieldMapping_find {fv fv' : Field → FV} {p : Expr → Bool} {fs : List Field} {M M' : List (Expr × Expr)}
    (h : m.fieldMapping fv fs = .ok M) (h' : m.fieldMapping fv' fs = .ok M')
    (heq : ∀ f ∈ fs, fv f = fv' f ∨ ∀ k, KeyOf f k → p k = false) :
    M.find? (fun kv => p kv.1) = M'.find? (fun kv => p kv.1) := by
  induction fs generalizing M M' with
  | nil =>
    simp only [Msg.fieldMapping, Except.ok.injEq] at h h'
    rw [← h, ← h']
  | cons f fs ih =>
    obtain ⟨es, hes, h⟩ := bind_ok (h : (entries _ _ _).bind _ = _)
    obtain ⟨r, hr, rfl⟩ := map_ok h
    obtain ⟨es', hes', h'⟩ := bind_ok (h' : (entries _ _ _).bind _ = _)
    obtain ⟨r', hr', rfl⟩ := map_ok h'
    rw [List.find?_append, List.find?_append, ih hr hr' fun g hg => heq g (List.mem_cons_of_mem _ hg)]
    rcases heq f (by simp) with he | he
    · rw [he, hes'] at hes
      simp only [Except.ok.injEq] at hes
      rw [hes]
    · have none : ∀ {v : FV} {l : List (Expr × Expr)}, entries (m.typeOf f) v f = .ok l →
          l.find? (fun kv => p kv.1) = none := by
        intro v l hl
        rw [List.find?_eq_none]
        intro kv hkv
        simp [he kv.1 (entries_spec hl kv hkv).key]
      rw [none hes, none hes']

/-- Two mappings computed from values that agree on the fields outside of `bad` agree on the names outside of `bad`. -/
theorem newMapping_agree {fv fv' : Field → FV} {M M' : List (Expr × Expr)} {bad : List ID} (hp : Proper bad)
    (hm : messageID ∈ bad) (h : m.newMapping fv = .ok M) (h' : m.newMapping fv' = .ok M')
    (heq : ∀ f ∈ INITIAL :: m.fields, fv f = fv' f ∨ f ∈ bad) {n : Expr} (hn : Free bad n) :
    substitution (M ++ m.lits) n = substitution (M' ++ m.lits) n := by
  obtain ⟨M0, last, nxt, hM0, _, _, rfl⟩ := newMapping_form h
  obtain ⟨M0', last', nxt', hM0', _, _, rfl⟩ := newMapping_form h'
  have key := fieldMapping_find (p := fun k => k.eq n) hM0 hM0' fun f hf => by
    rcases heq f hf with h | h
    · exact .inl h
    · exact .inr fun k hk => key_free hp h hk hn
  have drop : ∀ (last : Option Num) (M0 : List (Expr × Expr)),
      (withMessage M0 last).find? (fun kv => kv.1.eq n) = M0.find? (fun kv => kv.1.eq n) := by
    intro last M0
    cases last with
    | none => rfl
    | some x =>
      have h1 : (Expr.attr false .last messageVar).eq n = false := key_free hp hm (.inr ⟨.last, by simp, rfl⟩) hn
      have h2 : (Expr.attr false .size messageVar).eq n = false := key_free hp hm (.inr ⟨.size, by simp, rfl⟩) hn
      simp [withMessage, List.find?, h1, h2]
  unfold substitution
  rw [List.find?_append, List.find?_append, drop, drop, key]

end Verif.PyRFLX
