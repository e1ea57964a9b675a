import Verif.Merge.Paths
import Verif.Ident.Props
import Verif.Graph.PathProps

/-! # Lemmas about merging -/

namespace Verif.Merge
open Verif Verif.Graph Verif.Verify

/-- The message was built by the constructor. -/
def UMsg.Created (m : UMsg) : Prop := ∃ k id links types, create k id links types = .ok m

/-! ## Messages -/

theorem reorder_ok {types : List (Field × UTy)} : ∀ {fs : List Field} {r : List (Field × UTy)}, reorder types fs = .ok r →
    r.map (·.1) = fs ∧ ∀ e ∈ r, e ∈ types := by
  intro fs
  induction fs with
  | nil => intro r h; cases h; exact ⟨rfl, by simp⟩
  | cons f fs ih =>
    intro r h
    simp only [reorder] at h
    split at h
    · rename_i e he
      simp only [bind, Except.bind, pure, Except.pure] at h
      split at h
      · cases h
      · rename_i r' hr'
        cases h
        obtain ⟨h1, h2⟩ := ih hr'
        have h3 := List.find?_some he
        have h4 := List.mem_of_find?_eq_some he
        simp only [beq_iff_eq] at h3
        refine ⟨by simp [h1, h3], ?_⟩
        intro x hx
        rcases List.mem_cons.mp hx with rfl | hx
        · exact h4
        · exact h2 x hx
    · cases h

theorem create_ok {k : Nat} {id : ID} {links : List Link} {types : List (Field × UTy)} {m : UMsg}
    (h : create k id links types = .ok m) : m.id = id ∧ m.links = links ∧ (∀ e ∈ m.types, e ∈ types) ∧
      ∃ literals fields, m.types.map (·.1) = dedup fields ∧ (⟨links, types.map (·.1), literals⟩ : Def).Accepted fields := by
  simp only [create, bind, Except.bind, pure, Except.pure] at h
  repeat (split at h; · cases h)
  rename_i ls _ _ fs hfs _ ts hts
  cases h
  obtain ⟨h1, h2⟩ := reorder_ok hts
  exact ⟨rfl, rfl, h2, ls, fs, h1, ⟨k, hfs⟩⟩

/-- What the constructor has checked. -/
structure Facts (m : UMsg) (typed : List Field) : Prop where
  ends : ∀ l ∈ m.links, (l.source = INITIAL ∨ l.source = FINAL ∨ l.source ∈ m.types.map (·.1)) ∧
    (l.target = INITIAL ∨ l.target = FINAL ∨ l.target ∈ m.types.map (·.1))
  names : ∀ f ∈ m.types.map (·.1), f ≠ INITIAL ∧ f ≠ FINAL
  start : m.links ≠ [] → ∃ i, outgoing m.links INITIAL = [i]
  acyclic : ∀ f, ¬ Reaches m.links f f
  noInitial : ∀ l ∈ m.links, l.target ≠ INITIAL
  reach : ∀ l ∈ m.links, (∃ p, Path m.links INITIAL p l.source) ∧ ∃ p, Path m.links INITIAL p l.target
  used : ∀ f ∈ typed, f ≠ FINAL → ∃ l ∈ m.links, l.source = f ∨ l.target = f
  missing : ∀ l ∈ m.links, (l.source ∈ typed ∨ l.source = INITIAL ∨ l.source = FINAL) ∧
    (l.target ∈ typed ∨ l.target = INITIAL ∨ l.target = FINAL)

theorem validate1_ok {m : Def} (h : m.validate1 = .ok false) :
    (∃ i, outgoing m.links INITIAL = [i]) ∧ (∀ f ∈ m.typed, f ≠ FINAL → f ∈ structureFields m.links) ∧
      ∀ f ∈ structureFields m.links, f ∈ m.typed ∨ f = INITIAL ∨ f = FINAL := by
  simp only [Def.validate1] at h
  split at h
  · cases h
  · rename_i l ls ho
    simp only [Except.ok.injEq, Bool.or_eq_false_iff, Bool.not_eq_false'] at h
    obtain ⟨⟨⟨⟨h1, h2⟩, h3⟩, _⟩, _⟩ := h
    rw [List.isEmpty_iff] at h3
    subst h3
    refine ⟨⟨l, ho⟩, ?_, ?_⟩
    · intro f hf hff
      rw [List.any_eq_false] at h2
      have := h2 f (by simp [Def.typeFields, hf])
      simpa [hff] using this
    · intro f hf
      rw [List.any_eq_false] at h1
      have := h1 f hf
      simp [Def.typeFields] at this
      by_cases e1 : f ∈ m.typed <;> by_cases e2 : f = INITIAL <;> simp_all

theorem create_facts {k : Nat} {id : ID} {links : List Link} {types : List (Field × UTy)} {m : UMsg}
    (h : create k id links types = .ok m) (ht : types ≠ [] ∨ links ≠ []) : Facts m (types.map (·.1)) := by
  have h' := h
  obtain ⟨_, h2, h3, lits, fields, hkeys, hacc⟩ := create_ok h
  subst h2
  rcases accepted_checked hacc with ⟨h4, h5⟩ | ⟨R, V, hc⟩
  · -- no links
    obtain ⟨k', hk⟩ := hacc
    have h6 : types ≠ [] := by
      rcases ht with ht | ht
      · exact ht
      · exact absurd h4 ht
    simp only [] at h4
    have : types.isEmpty = false := by simpa using h6
    simp [Def.construct, h4, Def.validate1, outgoing, this, bind, Except.bind] at hk
  · have ho := hc.order
    obtain ⟨g1, g2, g3⟩ := validate1_ok hc.valid
    simp only at ho g1 g2 g3
    have hR : ∀ f ∈ R, f = INITIAL ∨ f = FINAL ∨ f ∈ m.types.map (·.1) := by
      intro f hf
      by_cases h1 : f = INITIAL
      · exact .inl h1
      · by_cases h2 : f = FINAL
        · exact .inr (.inl h2)
        · right; right
          rw [hkeys, mem_dedup, hc.fields, List.mem_filter]
          exact ⟨hf, by simp [h1, h2]⟩
    have hs : ∀ l ∈ m.links, l.source ∈ structureFields m.links ∧ l.target ∈ structureFields m.links := by
      intro l hl
      simp only [structureFields, List.mem_append, List.mem_map]
      exact ⟨.inl ⟨l, hl, rfl⟩, .inr ⟨l, hl, rfl⟩⟩
    refine ⟨fun l hl => ⟨hR _ (ho.links l hl).1, hR _ (ho.links l hl).2⟩, ?_, fun _ => g1, ho.acyclic, ho.no_initial,
      fun l hl => ⟨ho.reach _ (ho.links l hl).1, ho.reach _ (ho.links l hl).2⟩, ?_, fun l hl => ⟨g3 _ (hs l hl).1, g3 _ (hs l hl).2⟩⟩
    · intro f hf
      rw [hkeys, mem_dedup, hc.fields, List.mem_filter] at hf
      simpa using hf.2
    · intro f hf hff
      have := g2 f hf hff
      simp only [structureFields, List.mem_append, List.mem_map] at this
      rcases this with ⟨l, hl, rfl⟩ | ⟨l, hl, rfl⟩
      · exact ⟨l, hl, .inl rfl⟩
      · exact ⟨l, hl, .inr rfl⟩

theorem Created.facts {m : UMsg} (h : m.Created) (hm : m.types ≠ []) : ∃ typed, Facts m typed := by
  obtain ⟨k, id, links, types, h⟩ := h
  refine ⟨_, create_facts h (.inl ?_)⟩
  intro he
  obtain ⟨_, _, h3, _⟩ := create_ok h
  obtain ⟨e, he'⟩ := List.exists_mem_of_ne_nil _ hm
  have := h3 e he'
  rw [he] at this
  cases this

/-! ## Names -/

theorem join_split (s : PyStr) : joinSep (splitSep s) = s := by
  fun_induction splitSep s with
  | case1 => rfl
  | case2 s ih =>
    cases h : splitSep s with
    | nil => exact absurd h (splitSep_ne_nil s)
    | cons p ps => rw [h] at ih; simp only [joinSep, ih, List.nil_append]
  | case3 c s _ h ih => exact absurd h (splitSep_ne_nil s)
  | case4 c s _ p ps h ih =>
    rw [h] at ih
    cases ps with
    | nil => simp only [joinSep] at ih ⊢; rw [ih]
    | cons q ps => simp only [joinSep, List.cons_append] at ih ⊢; rw [ih]

theorem ofStr_str {s : PyStr} {r : ID} (h : ID.ofStr s = .ok r) : r.str = s := by
  have : r.parts = splitSep s := by
    simp only [ID.ofStr, ID.checked] at h
    repeat (split at h; · cases h)
    cases h; rfl
  rw [ID.str, this, join_split]

theorem prefixField_ne {f g : Field} {r : Field} (h : prefixField (fieldPrefix f) g = .ok r) : r ≠ INITIAL ∧ r ≠ FINAL := by
  have := ofStr_str h
  have hm : '_' ∈ r.str := by rw [this]; simp [fieldPrefix]
  constructor
  · rintro rfl; revert hm; decide
  · rintro rfl; revert hm; decide

theorem prefixField_inj {pre : PyStr} {a b r : Field} (ha : ID.Valid a) (hb : ID.Valid b) (h1 : prefixField pre a = .ok r)
    (h2 : prefixField pre b = .ok r) : a = b := by
  have h3 := ofStr_str h1
  have h4 := ofStr_str h2
  have h5 : a.str = b.str := List.append_cancel_left (h3.symm.trans h4)
  have h6 := ID.C38_str_roundtrip a ha
  rw [h5, ID.C38_str_roundtrip b hb] at h6
  exact (Except.ok.inj h6).symm

/-! ## Lists of results -/

theorem mem_concatMap {α : Type} {f : α → Py (List Link)} : ∀ {as : List α} {r : List Link}, concatMap f as = .ok r →
    (∀ a ∈ as, ∃ x, f a = .ok x) ∧ ∀ l, l ∈ r ↔ ∃ a ∈ as, ∃ x, f a = .ok x ∧ l ∈ x := by
  intro as
  induction as with
  | nil => intro r h; cases h; simp
  | cons a as ih =>
    intro r h
    simp only [concatMap, bind, Except.bind, pure, Except.pure] at h
    split at h
    · cases h
    · rename_i x hx
      split at h
      · cases h
      · rename_i y hy
        cases h
        obtain ⟨h1, h2⟩ := ih hy
        refine ⟨?_, ?_⟩
        · intro b hb
          rcases List.mem_cons.mp hb with rfl | hb
          · exact ⟨x, hx⟩
          · exact h1 b hb
        · intro l
          simp only [List.mem_append, h2, List.mem_cons]
          constructor
          · rintro (h | ⟨b, hb, z, hz, h⟩)
            · exact ⟨a, .inl rfl, x, hx, h⟩
            · exact ⟨b, .inr hb, z, hz, h⟩
          · rintro ⟨b, rfl | hb, z, hz, h⟩
            · rw [hx] at hz; cases hz; exact .inl h
            · exact .inr ⟨b, hb, z, hz, h⟩

theorem mapM_mem {α β : Type} {f : α → Py β} : ∀ {as : List α} {bs : List β}, as.mapM f = .ok bs →
    (∀ a ∈ as, ∃ b ∈ bs, f a = .ok b) ∧ ∀ b ∈ bs, ∃ a ∈ as, f a = .ok b := by
  intro as
  induction as with
  | nil => intro bs h; rw [List.mapM_nil] at h; cases h; simp
  | cons a as ih =>
    intro bs h
    rw [List.mapM_cons] at h
    simp only [bind, Except.bind, pure, Except.pure] at h
    split at h
    · cases h
    · rename_i x hx
      split at h
      · cases h
      · rename_i y hy
        cases h
        obtain ⟨h1, h2⟩ := ih hy
        refine ⟨?_, ?_⟩
        · intro b hb
          rcases List.mem_cons.mp hb with rfl | hb
          · exact ⟨x, List.mem_cons_self, hx⟩
          · obtain ⟨c, hc, e⟩ := h1 b hb
            exact ⟨c, List.mem_cons_of_mem _ hc, e⟩
        · intro b hb
          rcases List.mem_cons.mp hb with rfl | hb
          · exact ⟨a, List.mem_cons_self, hx⟩
          · obtain ⟨c, hc, e⟩ := h2 b hb
            exact ⟨c, List.mem_cons_of_mem _ hc, e⟩

end Verif.Merge
