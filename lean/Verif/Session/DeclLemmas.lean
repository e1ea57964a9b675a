import Verif.Session.DeclSpec

/-! # Lemmas for property C49 -/

namespace Verif.Session
open Verif Verif.Typing

variable {M : Type} [DecidableEq M]

/-! ## Dictionaries -/

theorem get_eq {α : Type} (d : Dict α) (k : ID) : d.get k = d.getKey k.key := by
  unfold Dict.get Dict.getKey
  congr 1
  congr 1
  funext e
  rw [Bool.eq_iff_iff, ID.eq_iff_key, beq_iff_eq]

theorem getKey_cons {α : Type} (e : ID × α) (d : Dict α) (x : List PyStr) :
    Dict.getKey (e :: d) x = if e.1.key = x then some e.2 else Dict.getKey d x := by
  unfold Dict.getKey
  rw [List.find?_cons]
  by_cases h : e.1.key = x
  · simp [h]
  · rw [beq_eq_false_iff_ne.mpr h, if_neg h]

theorem getKey_set {α : Type} (d : Dict α) (k : ID) (v : α) (x : List PyStr) :
    (Dict.set k v d).getKey x = if k.key = x then some v else d.getKey x := by
  induction d with
  | nil => simp [Dict.set, getKey_cons]
  | cons e d ih =>
    unfold Dict.set
    split
    · rename_i h
      rw [ID.eq_iff_key] at h
      rw [getKey_cons, getKey_cons, h]
      split <;> rfl
    · rename_i h
      rw [ID.eq_iff_key] at h
      rw [getKey_cons, getKey_cons, ih]
      by_cases h1 : e.1.key = x
      · simp only [h1, if_true]
        rw [if_neg (fun h2 => h (h1.trans h2.symm))]
      · simp only [h1, if_false]

theorem getKey_mem {α : Type} {d : Dict α} {x : List PyStr} {v : α} (h : d.getKey x = some v) : ∃ e ∈ d, e.1.key = x ∧ e.2 = v := by
  unfold Dict.getKey at h
  rw [Option.map_eq_some_iff] at h
  obtain ⟨e, he, rfl⟩ := h
  exact ⟨e, List.mem_of_find?_eq_some he, by simpa using List.find?_some he, rfl⟩

theorem mem_set {α : Type} {d : Dict α} {k : ID} {v : α} {e : ID × α} (h : e ∈ Dict.set k v d) :
    e ∈ d ∨ (e.1.key = k.key ∧ e.2 = v) := by
  induction d with
  | nil =>
    simp only [Dict.set, List.mem_singleton] at h
    subst h; exact .inr ⟨rfl, rfl⟩
  | cons a d ih =>
    unfold Dict.set at h
    split at h
    · rename_i hk
      rw [ID.eq_iff_key] at hk
      rcases List.mem_cons.mp h with rfl | h
      · exact .inr ⟨hk, rfl⟩
      · exact .inl (by simp [h])
    · rcases List.mem_cons.mp h with rfl | h
      · exact .inl (by simp)
      · rcases ih h with h | h
        · exact .inl (by simp [h])
        · exact .inr h

/-- The keys of a dictionary that are kept. -/
theorem set_keys {α : Type} (d : Dict α) (k : ID) (v : α) (x : List PyStr) :
    (∃ e ∈ Dict.set k v d, e.1.key = x) ↔ x = k.key ∨ ∃ e ∈ d, e.1.key = x := by
  induction d with
  | nil =>
    simp only [Dict.set, List.mem_singleton, exists_eq_left, List.not_mem_nil, false_and, exists_false, or_false]
    exact ⟨fun h => h.symm, fun h => h.symm⟩
  | cons a d ih =>
    unfold Dict.set
    split
    · rename_i h
      rw [ID.eq_iff_key] at h
      simp only [List.mem_cons, exists_eq_or_imp, h]
      constructor
      · rintro (h | h)
        · exact .inl h.symm
        · exact .inr (.inr h)
      · rintro (h | h | h)
        · exact .inl h.symm
        · exact .inl h
        · exact .inr h
    · simp only [List.mem_cons, exists_eq_or_imp]
      constructor
      · rintro (h | h)
        · exact .inr (.inl h)
        · rcases ih.mp h with h | h
          · exact .inl h
          · exact .inr (.inr h)
      · rintro (h | h | h)
        · exact .inr (ih.mpr (.inl h))
        · exact .inl h
        · exact .inr (ih.mpr (.inr h))

/-- Setting a new key appends. -/
theorem set_fresh {α : Type} (d : Dict α) (k : ID) (v : α) (h : ∀ e ∈ d, e.1.key ≠ k.key) : Dict.set k v d = d ++ [(k, v)] := by
  induction d with
  | nil => rfl
  | cons a d ih =>
    have h1 := h a (by simp)
    unfold Dict.set
    rw [if_neg (fun h2 => h1 ((ID.eq_iff_key _ _).mp h2)), ih (fun e he => h e (by simp [he]))]
    rfl

theorem merge_mem {α : Type} {d e : Dict α} {x : ID × α} (h : x ∈ d.merge e) :
    x ∈ d ∨ ∃ y ∈ e, x.1.key = y.1.key ∧ x.2 = y.2 := by
  unfold Dict.merge at h
  induction e generalizing d with
  | nil => exact .inl h
  | cons a e ih =>
    rcases ih h with h | ⟨y, hy, h⟩
    · rcases mem_set h with h | h
      · exact .inl h
      · exact .inr ⟨a, by simp, h⟩
    · exact .inr ⟨y, by simp [hy], h⟩

theorem merge_keys {α : Type} (d e : Dict α) (x : List PyStr) :
    (∃ y ∈ d.merge e, y.1.key = x) ↔ (∃ y ∈ d, y.1.key = x) ∨ ∃ y ∈ e, y.1.key = x := by
  unfold Dict.merge
  induction e generalizing d with
  | nil => simp
  | cons a e ih =>
    rw [List.foldl_cons, ih, set_keys]
    simp only [List.mem_cons, exists_eq_or_imp]
    constructor
    · rintro ((h | h) | h)
      · exact .inr (.inl h.symm)
      · exact .inl h
      · exact .inr (.inr h)
    · rintro (h | h | h)
      · exact .inl (.inr h)
      · exact .inl (.inl h.symm)
      · exact .inr h

theorem merge_fresh {α : Type} (d e : Dict α) (h : (d ++ e).Pairwise fun a b => a.1.key ≠ b.1.key) : d.merge e = d ++ e := by
  unfold Dict.merge
  induction e generalizing d with
  | nil => simp
  | cons a e ih =>
    rw [List.foldl_cons, set_fresh _ _ _ (fun b hb => (List.pairwise_append.mp h).2.2 b hb a (by simp)), ih]
    · simp
    · simpa using h

theorem declDict_mem {ds : List (Decl M)} {e : ID × Decl M} (h : e ∈ declDict ds) : e.2 ∈ ds ∧ e.1.key = e.2.id.key := by
  rcases merge_mem h with h | ⟨y, hy, h1, h2⟩
  · cases h
  · obtain ⟨d, hd, rfl⟩ := List.mem_map.mp hy
    simp only at h1 h2
    rw [h1, h2]
    exact ⟨hd, rfl⟩

theorem declDict_keys (ds : List (Decl M)) (x : List PyStr) : (∃ e ∈ declDict ds, e.1.key = x) ↔ ∃ d ∈ ds, d.id.key = x := by
  unfold declDict
  rw [merge_keys]
  constructor
  · rintro (⟨e, he, _⟩ | ⟨e, he, hx⟩)
    · cases he
    · obtain ⟨d, hd, rfl⟩ := List.mem_map.mp he
      exact ⟨d, hd, hx⟩
  · rintro ⟨d, hd, hx⟩
    exact .inr ⟨_, List.mem_map.mpr ⟨d, hd, rfl⟩, hx⟩

theorem declDict_distinct {ds : List (Decl M)} (h : DistinctNames ds) : declDict ds = ds.map fun d => (d.id, d) := by
  unfold declDict
  rw [merge_fresh]
  · rfl
  · rw [List.nil_append, List.pairwise_map]
    exact h

theorem declDict_decls {ds : List (Decl M)} (h : DistinctNames ds) : (declDict ds).map (·.2) = ds := by
  rw [declDict_distinct h, List.map_map]
  exact List.map_id ds

theorem globals_mem {s : FullSession M} {e : ID × Decl M} (h : e ∈ s.globals) : e.2 ∈ s.all ∧ e.1.key = e.2.id.key := by
  unfold FullSession.all
  rcases merge_mem h with h | ⟨y, hy, h1, h2⟩
  · obtain ⟨h1, h2⟩ := declDict_mem h
    exact ⟨by simp [h1], h2⟩
  · obtain ⟨h3, h4⟩ := declDict_mem hy
    rw [h1, h2]
    exact ⟨by simp [h3], h4⟩

theorem globals_keys (s : FullSession M) (x : List PyStr) : (∃ e ∈ s.globals, e.1.key = x) ↔ ∃ d ∈ s.all, d.id.key = x := by
  unfold FullSession.globals FullSession.all
  rw [merge_keys, declDict_keys, declDict_keys]
  simp only [List.mem_append]
  constructor
  · rintro (⟨d, h, h'⟩ | ⟨d, h, h'⟩)
    · exact ⟨d, .inl h, h'⟩
    · exact ⟨d, .inr h, h'⟩
  · rintro ⟨d, h | h, h'⟩
    · exact .inl ⟨d, h, h'⟩
    · exact .inr ⟨d, h, h'⟩

theorem globals_decls {s : FullSession M} (h : DistinctNames s.all) : s.globals.map (·.2) = s.all := by
  unfold FullSession.globals
  unfold FullSession.all at h ⊢
  have h1 := List.pairwise_append.mp h
  rw [declDict_distinct h1.1, declDict_distinct h1.2.1, merge_fresh]
  · rw [List.map_append, List.map_map, List.map_map]
    exact congr (congrArg _ (List.map_id _)) (List.map_id _)
  · rw [← List.map_append, List.pairwise_map]
    exact h

/-! ## Names in expressions -/

theorem variables_used (h : List PyStr → Int) (e : Expr) : ∀ x ∈ reported h e, Free x e ∨ Called x e := by
  induction e using Expr.ind with
  | tru => simp [reported, Verif.variables]
  | fls => simp [reported, Verif.variables]
  | undefined => simp [reported, Verif.variables]
  | num v b => simp [reported, Verif.variables]
  | agg ts ih => simp [reported, Verif.variables]
  | var ng imm id =>
    intro x hx
    simp only [reported, Verif.variables, List.map_cons, List.map_nil, List.mem_singleton] at hx
    exact .inl (.var hx)
  | attr ng a pre ih => intro x hx; exact (ih x hx).imp .attr .attr
  | sel ng pre s ih => intro x hx; exact (ih x hx).imp .sel .sel
  | call ng id args ih =>
    intro x hx
    rw [mem_reported, Verif.variables] at hx
    simp only [List.mem_cons, exists_eq_or_imp] at hx
    rcases hx with hx | hx
    · exact .inr (.here hx.symm)
    · obtain ⟨t, ht, hx⟩ := (names_list h _ x).mp hx
      exact (ih t ht x hx).imp (.call ht) (.call ht)
  | not e ih => intro x hx; exact (ih x hx).imp .not .not
  | bool op ts ih =>
    intro x hx
    rw [mem_reported, Verif.variables, names_unique] at hx
    obtain ⟨t, ht, hx⟩ := (names_list h _ x).mp hx
    exact (ih t ht x hx).imp (.bool ht) (.bool ht)
  | add ts ih =>
    intro x hx
    rw [mem_reported, Verif.variables, names_unique] at hx
    obtain ⟨t, ht, hx⟩ := (names_list h _ x).mp hx
    exact (ih t ht x hx).imp (.add ht) (.add ht)
  | mul ts ih =>
    intro x hx
    rw [mem_reported, Verif.variables, names_unique] at hx
    obtain ⟨t, ht, hx⟩ := (names_list h _ x).mp hx
    exact (ih t ht x hx).imp (.mul ht) (.mul ht)
  | bin op l r ihl ihr =>
    intro x hx
    rw [mem_reported, Verif.variables, names_unique, names_append] at hx
    rcases hx with hx | hx
    · exact (ihl x hx).imp .binLeft .binLeft
    · exact (ihr x hx).imp .binRight .binRight
  | rel op l r ihl ihr =>
    intro x hx
    rw [mem_reported, Verif.variables, names_unique, names_append] at hx
    rcases hx with hx | hx
    · exact (ihl x hx).imp .relLeft .relLeft
    · exact (ihr x hx).imp .relRight .relRight
  | quant q p it pr ih1 ih2 =>
    intro x hx
    rw [names_quant] at hx
    rcases hx.2 with hx' | hx'
    · exact (ih1 x hx').imp .iterable .iterable
    · exact (ih2 x hx').imp (.predicate hx.1) .predicate

theorem var_used (h : List PyStr → Int) {e : Expr} {v : PyVar} (hv : v ∈ Verif.variables h e) :
    Free v.id.key e ∨ Called v.id.key e := variables_used h e _ ((mem_reported h e _).mpr ⟨v, hv, rfl⟩)

theorem svar_used (h : List PyStr → Int) {e : SExpr} {v : PyVar} (hv : v ∈ e.variables h) :
    SFree v.id.key e ∨ SCalled v.id.key e := by
  cases e with
  | plain e => exact (var_used h hv).imp .plain .plain
  | comprehension i a s c =>
    obtain ⟨hv, hi⟩ := List.mem_filter.mp hv
    rw [Bool.not_eq_true', ← Bool.not_eq_true, ID.eq_iff_key] at hi
    simp only [List.mem_append] at hv
    rcases hv with (hv | hv) | hv
    · exact (var_used h hv).imp .array .array
    · exact (var_used h hv).imp (.selector hi) .selector
    · exact (var_used h hv).imp (.condition hi) .condition
  | aggregate id vs =>
    obtain ⟨a, ha, hv⟩ := List.mem_flatMap.mp hv
    exact (var_used h hv).imp (.value ha) (.value ha)
  | conversion id e => exact (var_used h hv).imp .argument .argument

theorem declVar_used (h : List PyStr → Int) {d : Decl M} {v : PyVar} (hv : v ∈ d.variables h) : d.Uses v.id.key := by
  cases d with
  | «variable» i t e =>
    cases e with
    | none => cases hv
    | some e => exact ⟨e, .initial, svar_used h hv⟩
  | «renaming» i t ng p s =>
    exact ⟨.plain p, .renamed, svar_used h (e := .plain p) hv⟩
  | function => cases hv
  | channel => cases hv
  | type => cases hv

/-! ## The scope of accepted expressions -/

theorem scope_call {f : List PyStr} {e : Expr} (hx : Called f e) :
    ∀ Γ : Ctx M, (subOk Γ e = .ok true → afterTy Γ e ≠ .undefined → (Γ.call f).1 ≠ .undefined) ∧
      (∀ n p s, e = .sel n p s → subOk Γ p = .ok true → afterTy Γ p ≠ .undefined → (Γ.call f).1 ≠ .undefined) := by
  induction hx with
  | @here ng id args hx =>
    intro Γ
    refine ⟨fun _ h => ?_, fun _ _ _ h => by cases h⟩
    simp only [afterTy, ctorTy] at h
    subst hx
    exact h
  | attr _ ih =>
    intro Γ
    refine ⟨fun h _ => ?_, fun _ _ _ h => by cases h⟩
    rcases subOk_attr h with ⟨n, p, s, rfl, h1, h2⟩ | ⟨h1, h2⟩
    · exact (ih Γ).2 n p s rfl h1 h2
    · exact (ih Γ).1 h1 h2
  | sel _ ih =>
    intro Γ
    refine ⟨fun h _ => ?_, fun n p s h h1 h2 => by cases h; exact (ih Γ).1 h1 h2⟩
    rw [subOk] at h
    obtain ⟨a, ha, h⟩ := bind_true h
    obtain ⟨b, hb, h⟩ := bind_true h
    have h := Except.ok.inj h
    simp only [Bool.and_eq_true] at h
    rw [h.1.2] at ha
    rw [h.2] at hb
    exact (ih Γ).1 ha (meets_defined hb)
  | call ha _ ih =>
    intro Γ
    refine ⟨fun h _ => ?_, fun _ _ _ h => by cases h⟩
    rw [subOk] at h
    obtain ⟨a, hok, h2⟩ := bind_true h
    have h2 := Except.ok.inj h2
    simp only [Bool.and_eq_true] at h2
    rw [h2.1] at hok
    obtain ⟨h3, h4⟩ := argsOk_mem hok _ ha
    exact (ih Γ).1 h3 h4
  | not _ ih =>
    intro Γ
    refine ⟨fun h _ => ?_, fun _ _ _ h => by cases h⟩
    rw [subOk] at h
    obtain ⟨h1, h2⟩ := and_true h
    exact absurd rfl ((ih Γ.blind).1 h1 (meets_defined h2))
  | bool ht _ ih =>
    intro Γ
    refine ⟨fun h _ => ?_, fun _ _ _ h => by cases h⟩
    rw [subOk] at h
    obtain ⟨h1, h2⟩ := allOk_mem h _ ht
    exact (ih Γ).1 h1 (meets_defined h2)
  | add ht _ ih =>
    intro Γ
    refine ⟨fun h _ => ?_, fun _ _ _ h => by cases h⟩
    rw [subOk] at h
    obtain ⟨h1, h2⟩ := allOk_mem h _ ht
    exact (ih Γ).1 h1 (meets_defined h2)
  | mul ht _ ih =>
    intro Γ
    refine ⟨fun h _ => ?_, fun _ _ _ h => by cases h⟩
    rw [subOk] at h
    obtain ⟨h1, h2⟩ := allOk_mem h _ ht
    exact (ih Γ).1 h1 (meets_defined h2)
  | agg ht _ ih =>
    intro Γ
    refine ⟨fun h _ => ?_, fun _ _ _ h => by cases h⟩
    rw [subOk] at h
    obtain ⟨h1, h2⟩ := allOk_mem h _ ht
    exact (ih Γ).1 h1 (meets_defined h2)
  | binLeft _ ih =>
    intro Γ
    refine ⟨fun h _ => ?_, fun _ _ _ h => by cases h⟩
    rw [subOk] at h
    obtain ⟨h1, h2, h3, h4⟩ := and4_true h
    exact (ih Γ).1 h1 (meets_defined h2)
  | binRight _ ih =>
    intro Γ
    refine ⟨fun h _ => ?_, fun _ _ _ h => by cases h⟩
    rw [subOk] at h
    obtain ⟨h1, h2, h3, h4⟩ := and4_true h
    exact (ih Γ).1 h3 (meets_defined h4)
  | relLeft _ ih =>
    intro Γ
    refine ⟨fun h _ => ?_, fun _ _ _ h => by cases h⟩
    rw [subOk] at h
    obtain ⟨h1, h2, h3, h4⟩ := and4_true h
    exact (ih Γ).1 h1 (meets_defined h2)
  | relRight _ ih =>
    intro Γ
    refine ⟨fun h _ => ?_, fun _ _ _ h => by cases h⟩
    rw [subOk] at h
    obtain ⟨h1, h2, h3, h4⟩ := and4_true h
    exact (ih Γ).1 h3 (meets_defined h4)
  | iterable _ ih =>
    intro Γ
    refine ⟨fun h _ => ?_, fun _ _ _ h => by cases h⟩
    rw [subOk] at h
    obtain ⟨h1, h2, h3, h4⟩ := and4_true h
    exact (ih Γ).1 h1 (meets_defined h2)
  | predicate _ ih =>
    intro Γ
    refine ⟨fun h _ => ?_, fun _ _ _ h => by cases h⟩
    rw [subOk] at h
    obtain ⟨h1, h2, h3, h4⟩ := and4_true h
    have := (ih (Γ.bind _ _)).1 h3 (meets_defined h4)
    exact this

theorem touchedL_mem {es : List Expr} {e : Expr} {x : Bool × ID} (he : e ∈ es) (hx : x ∈ touched e) : x ∈ touchedL es := by
  induction es with
  | nil => cases he
  | cons a es ih =>
    rw [touchedL]
    rcases List.mem_cons.mp he with rfl | he
    · exact List.mem_append_left _ hx
    · exact List.mem_append_right _ (ih he)

theorem scope_touched {f : List PyStr} {e : Expr} (hx : Called f e) :
    ∀ Γ : Ctx M, (subOk Γ e = .ok true → afterTy Γ e ≠ .undefined → ∃ i : ID, i.key = f ∧ (true, i) ∈ touched e) ∧
      (∀ n p s, e = .sel n p s → subOk Γ p = .ok true → afterTy Γ p ≠ .undefined → ∃ i : ID, i.key = f ∧ (true, i) ∈ touched e) := by
  induction hx with
  | @here ng id args hx =>
    intro Γ
    refine ⟨fun _ h => ?_, fun _ _ _ h => by cases h⟩
    exact ⟨id, hx.symm, by simp [touched]⟩
  | attr _ ih =>
    intro Γ
    refine ⟨fun h _ => ?_, fun _ _ _ h => by cases h⟩
    rcases subOk_attr h with ⟨n, p, s, rfl, h1, h2⟩ | ⟨h1, h2⟩
    · exact (ih Γ).2 n p s rfl h1 h2
    · exact (ih Γ).1 h1 h2
  | sel _ ih =>
    intro Γ
    refine ⟨fun h _ => ?_, fun n p s h h1 h2 => by cases h; exact (ih Γ).1 h1 h2⟩
    rw [subOk] at h
    obtain ⟨a, ha, h⟩ := bind_true h
    obtain ⟨b, hb, h⟩ := bind_true h
    have h := Except.ok.inj h
    simp only [Bool.and_eq_true] at h
    rw [h.1.2] at ha
    rw [h.2] at hb
    exact (ih Γ).1 ha (meets_defined hb)
  | call ha _ ih =>
    intro Γ
    refine ⟨fun h _ => ?_, fun _ _ _ h => by cases h⟩
    rw [subOk] at h
    obtain ⟨a, hok, h2⟩ := bind_true h
    have h2 := Except.ok.inj h2
    simp only [Bool.and_eq_true] at h2
    rw [h2.1] at hok
    obtain ⟨h3, h4⟩ := argsOk_mem hok _ ha
    obtain ⟨i, hi, hm⟩ := (ih Γ).1 h3 h4
    exact ⟨i, hi, List.mem_cons_of_mem _ (touchedL_mem ha hm)⟩
  | not hc ih =>
    intro Γ
    refine ⟨fun h _ => ?_, fun _ _ _ h => by cases h⟩
    rw [subOk] at h
    obtain ⟨h1, h2⟩ := and_true h
    exact absurd rfl ((scope_call hc Γ.blind).1 h1 (meets_defined h2))
  | bool ht _ ih =>
    intro Γ
    refine ⟨fun h _ => ?_, fun _ _ _ h => by cases h⟩
    rw [subOk] at h
    obtain ⟨h1, h2⟩ := allOk_mem h _ ht
    obtain ⟨i, hi, hm⟩ := (ih Γ).1 h1 (meets_defined h2)
    exact ⟨i, hi, touchedL_mem ht hm⟩
  | add ht _ ih =>
    intro Γ
    refine ⟨fun h _ => ?_, fun _ _ _ h => by cases h⟩
    rw [subOk] at h
    obtain ⟨h1, h2⟩ := allOk_mem h _ ht
    obtain ⟨i, hi, hm⟩ := (ih Γ).1 h1 (meets_defined h2)
    exact ⟨i, hi, touchedL_mem ht hm⟩
  | mul ht _ ih =>
    intro Γ
    refine ⟨fun h _ => ?_, fun _ _ _ h => by cases h⟩
    rw [subOk] at h
    obtain ⟨h1, h2⟩ := allOk_mem h _ ht
    obtain ⟨i, hi, hm⟩ := (ih Γ).1 h1 (meets_defined h2)
    exact ⟨i, hi, touchedL_mem ht hm⟩
  | agg ht _ ih =>
    intro Γ
    refine ⟨fun h _ => ?_, fun _ _ _ h => by cases h⟩
    rw [subOk] at h
    obtain ⟨h1, h2⟩ := allOk_mem h _ ht
    obtain ⟨i, hi, hm⟩ := (ih Γ).1 h1 (meets_defined h2)
    exact ⟨i, hi, touchedL_mem ht hm⟩
  | binLeft _ ih =>
    intro Γ
    refine ⟨fun h _ => ?_, fun _ _ _ h => by cases h⟩
    rw [subOk] at h
    obtain ⟨h1, h2, h3, h4⟩ := and4_true h
    obtain ⟨i, hi, hm⟩ := (ih Γ).1 h1 (meets_defined h2)
    exact ⟨i, hi, by simp [touched, hm]⟩
  | binRight _ ih =>
    intro Γ
    refine ⟨fun h _ => ?_, fun _ _ _ h => by cases h⟩
    rw [subOk] at h
    obtain ⟨h1, h2, h3, h4⟩ := and4_true h
    obtain ⟨i, hi, hm⟩ := (ih Γ).1 h3 (meets_defined h4)
    exact ⟨i, hi, by simp [touched, hm]⟩
  | relLeft _ ih =>
    intro Γ
    refine ⟨fun h _ => ?_, fun _ _ _ h => by cases h⟩
    rw [subOk] at h
    obtain ⟨h1, h2, h3, h4⟩ := and4_true h
    obtain ⟨i, hi, hm⟩ := (ih Γ).1 h1 (meets_defined h2)
    exact ⟨i, hi, by simp [touched, hm]⟩
  | relRight _ ih =>
    intro Γ
    refine ⟨fun h _ => ?_, fun _ _ _ h => by cases h⟩
    rw [subOk] at h
    obtain ⟨h1, h2, h3, h4⟩ := and4_true h
    obtain ⟨i, hi, hm⟩ := (ih Γ).1 h3 (meets_defined h4)
    exact ⟨i, hi, by simp [touched, hm]⟩
  | iterable _ ih =>
    intro Γ
    refine ⟨fun h _ => ?_, fun _ _ _ h => by cases h⟩
    rw [subOk] at h
    obtain ⟨h1, h2, h3, h4⟩ := and4_true h
    obtain ⟨i, hi, hm⟩ := (ih Γ).1 h1 (meets_defined h2)
    exact ⟨i, hi, by simp [touched, hm]⟩
  | predicate _ ih =>
    intro Γ
    refine ⟨fun h _ => ?_, fun _ _ _ h => by cases h⟩
    rw [subOk] at h
    obtain ⟨h1, h2, h3, h4⟩ := and4_true h
    obtain ⟨i, hi, hm⟩ := (ih (Γ.bind _ _)).1 h3 (meets_defined h4)
    exact ⟨i, hi, by simp [touched, hm]⟩

/-- In an accepted expression, names and functions are defined, and all functions are found. -/
def Closed (Γ : Ctx M) (e : Expr) : Prop :=
  (∀ x, Free x e → Γ.var x ≠ .undefined) ∧ ∀ f, Called f e → (Γ.call f).1 ≠ .undefined ∧ ∃ i : ID, i.key = f ∧ (true, i) ∈ touched e

/-- The same for expressions of sessions. -/
def SClosed (Γ : Ctx M) (e : SExpr) : Prop :=
  (∀ x, SFree x e → Γ.var x ≠ .undefined) ∧ ∀ f, SCalled f e → (Γ.call f).1 ≠ .undefined ∧ ∃ i : ID, i.key = f ∧ (true, i) ∈ e.touched

theorem check_closed {Γ : Ctx M} {e : Expr} {w : Want M} (h : check Γ e w = .ok true) : Closed Γ e := by
  obtain ⟨h1, h2⟩ := and_true h
  exact ⟨fun x hx => (scope hx Γ).1 h1 (meets_defined h2), fun f hf => ⟨(scope_call hf Γ).1 h1 (meets_defined h2),
    (scope_touched hf Γ).1 h1 (meets_defined h2)⟩⟩

theorem closed_bind {Γ : Ctx M} {i : ID} {t : Ty M} {e : Expr} (h : Closed (Γ.bind i.key t) e) :
    (∀ x, x ≠ i.key → Free x e → Γ.var x ≠ .undefined) ∧
      ∀ f, Called f e → (Γ.call f).1 ≠ .undefined ∧ ∃ i : ID, i.key = f ∧ (true, i) ∈ touched e :=
  ⟨fun x hx hf => by simpa [Ctx.bind, hx] using h.1 x hf, fun f hf => h.2 f hf⟩

theorem bind_ok' {α β : Type} {x : Py α} {f : α → Py β} {b : β} (h : (x >>= f) = .ok b) : ∃ a, x = .ok a ∧ f a = .ok b := by
  cases x with
  | error e => cases h
  | ok a => exact ⟨a, rfl, h⟩

/-- Values that are not checked have no undefined names. -/
theorem direct_closed {Γ : Ctx M} {B : Body M} (hB : B.Proper) {m : M} {f : PyStr} {e : Expr} (hd : Direct e)
    (h : valueCompatible Γ B m f e = true) : Closed Γ e := by
  unfold valueCompatible at h
  obtain ⟨r, hr, h⟩ := List.any_eq_true.mp h
  obtain ⟨n, b, hm⟩ := hB m r hr
  rw [Bool.and_eq_true, hm] at h
  have h := h.2
  cases e with
  | var ng imm id =>
    refine ⟨fun x hx => ?_, fun f hf => by cases hf⟩
    cases hx with
    | var hx =>
      subst hx
      intro hu
      simp only [ctorTy, hu] at h
      cases imm <;> simp [Ty.isCompatible] at h
  | call => exact hd.elim
  | add => exact hd.elim
  | mul => exact hd.elim
  | bin => exact hd.elim
  | _ => simp [ctorTy, Ty.isCompatible, BOOLEAN, Ty.isInteger] at h

theorem checkValues_true {Γ : Ctx M} {B : Body M} {m : M} {i : Nat} {vs : List (ID × Expr)} {cs : List (List PyStr)}
    {r : List (List PyStr)} (h : checkValues Γ B m i vs cs = .ok (r, true)) :
    ∀ v ∈ vs, ∃ t, B.field m v.1.str = some t ∧ checkValue Γ B m v.1.str t v.2 = .ok true := by
  induction vs generalizing i cs r with
  | nil => intro v hv; cases hv
  | cons a vs ih =>
    obtain ⟨f, e⟩ := a
    rw [checkValues] at h
    split at h
    · obtain ⟨r', h1, h2⟩ := bind_ok' h
      simp only [pure, Except.pure, Except.ok.injEq, Prod.mk.injEq, Bool.false_eq_true, and_false] at h2
    · rename_i t ht
      obtain ⟨ok, h1, h2⟩ := bind_ok' h
      simp only at h2
      split at h2
      · simp [pure, Except.pure] at h2
      · obtain ⟨r', h3, h4⟩ := bind_ok' h2
        have h4 := Except.ok.inj h4
        simp only [Prod.mk.injEq, Bool.and_eq_true] at h4
        intro v hv
        rcases List.mem_cons.mp hv with rfl | hv
        · exact ⟨t, ht, by rw [h1, h4.2.1]⟩
        · obtain ⟨r1, r2⟩ := r'
          simp only at h4
          rw [h4.2.2] at h3
          exact ih h3 v hv

theorem scheck_closed {B : Body M} (hB : B.Proper) {types : Dict (MType M)} {Γ : Ctx M} {e : SExpr} {w : Want M}
    (hd : SDirect e) (h : scheck B types Γ e w = .ok true) : SClosed Γ e := by
  cases e with
  | plain e =>
    have := check_closed h
    exact ⟨fun x hx => by cases hx with | plain hx => exact this.1 x hx,
      fun x hx => by cases hx with | plain hx => exact this.2 x hx⟩
  | comprehension i a s c =>
    obtain ⟨r, h1, h2⟩ := bind_ok' h
    obtain ⟨b, h3, h4⟩ := bind_ok' h2
    have h4 := Except.ok.inj h4
    rw [Bool.and_eq_true] at h4
    obtain ⟨x1, k1, h1⟩ := bind_ok' h1
    simp only at h1
    obtain ⟨x2, k2, h1⟩ := bind_ok' h1
    obtain ⟨x3, k3, h1⟩ := bind_ok' h1
    have h1 := Except.ok.inj h1
    subst h1
    simp only [Bool.and_eq_true] at h4
    rw [h4.1.1.1] at k1
    rw [h4.1.1.2] at k2
    rw [h4.1.2] at k3
    have c1 := check_closed k1
    have c2 := closed_bind (check_closed k2)
    have c3 := closed_bind (check_closed k3)
    refine ⟨fun x hx => ?_, fun x hx => ?_⟩
    · cases hx with
      | array hx => exact c1.1 x hx
      | selector hi hx => exact c2.1 x hi hx
      | condition hi hx => exact c3.1 x hi hx
    · cases hx with
      | array hx =>
        obtain ⟨k, i, hi, hm⟩ := c1.2 x hx
        exact ⟨k, i, hi, by simp [SExpr.touched, hm]⟩
      | selector hx =>
        obtain ⟨k, i, hi, hm⟩ := c2.2 x hx
        exact ⟨k, i, hi, by simp [SExpr.touched, hm]⟩
      | condition hx =>
        obtain ⟨k, i, hi, hm⟩ := c3.2 x hx
        exact ⟨k, i, hi, by simp [SExpr.touched, hm]⟩
  | aggregate id vs =>
    obtain ⟨t, h1, h2⟩ := bind_ok' h
    obtain ⟨ok, h3, h4⟩ := bind_ok' h2
    obtain ⟨b, h5, h6⟩ := bind_ok' h4
    have h6 := Except.ok.inj h6
    rw [Bool.and_eq_true] at h6
    rw [h6.1] at h3
    have hv : ∀ v ∈ vs, Closed Γ v.2 := by
      intro v hv
      unfold checkAggregate at h3
      split at h3
      · obtain ⟨r, k1, k2⟩ := bind_ok' h3
        have k2 := Except.ok.inj k2
        rw [Bool.and_eq_true] at k2
        obtain ⟨r1, r2⟩ := r
        simp only at k2
        rw [k2.1] at k1
        obtain ⟨t', _, ht⟩ := checkValues_true k1 v hv
        unfold checkValue at ht
        split at ht
        · rename_i hc
          exact direct_closed hB (hd v hv) hc.2
        · exact check_closed ht
      · obtain ⟨k1, k2⟩ := allOk_mem h3 v.2 (List.mem_map.mpr ⟨v, hv, rfl⟩)
        exact check_closed (w := .cls .any) (by rw [check, k1, k2]; rfl)
    refine ⟨fun x hx => ?_, fun x hx => ?_⟩
    · cases hx with
      | value hm hx => exact (hv _ hm).1 x hx
    · cases hx with
      | value hm hx =>
        obtain ⟨k, i, hi, ht⟩ := (hv _ hm).2 x hx
        exact ⟨k, i, hi, List.mem_flatMap.mpr ⟨_, hm, ht⟩⟩
  | conversion id e =>
    obtain ⟨ok, h1, h2⟩ := bind_ok' h
    obtain ⟨b, h3, h4⟩ := bind_ok' h2
    have h4 := Except.ok.inj h4
    rw [Bool.and_eq_true] at h4
    rw [h4.1] at h1
    have hc : Closed Γ e := by
      unfold checkConversion at h1
      split at h1
      · exact check_closed (and_true h1).1
      · obtain ⟨b, k1, k2⟩ := bind_ok' h1
        cases k2
    refine ⟨fun x hx => ?_, fun x hx => ?_⟩
    · cases hx with
      | argument hx => exact hc.1 x hx
    · cases hx with
      | argument hx => exact hc.2 x hx

end Verif.Session
