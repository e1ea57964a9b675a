import Verif.SpecParser.Imports

/-! # Lemmas about reading and ordering specification files -/

namespace Verif.SpecParser
open Verif

/-! ## The dictionary -/

theorem mem_keys {d : Specs} {k : PyStr} : k ∈ d.keys ↔ ∃ n, (k, n) ∈ d := by
  simp [Specs.keys]

theorem get_mem {d : Specs} {k : PyStr} {n : Node} (h : d.get? k = some n) : (k, n) ∈ d := by
  simp only [Specs.get?, Option.map_eq_some_iff] at h
  obtain ⟨e, he, rfl⟩ := h
  have h1 := List.mem_of_find?_eq_some he
  have h2 := List.find?_some he
  simp at h2
  subst h2
  exact h1

theorem get_of_mem {d : Specs} (hn : d.keys.Nodup) {k : PyStr} {n : Node} (h : (k, n) ∈ d) : d.get? k = some n := by
  induction d with
  | nil => simp at h
  | cons e d ih =>
    simp only [Specs.keys, List.map_cons, List.nodup_cons] at hn
    simp only [Specs.get?, List.find?_cons]
    rcases List.mem_cons.mp h with rfl | h
    · simp
    · have hne : e.1 ≠ k := by
        intro he
        exact hn.1 (he ▸ List.mem_map.mpr ⟨(k, n), h, rfl⟩)
      simp only [beq_eq_false_iff_ne.mpr hne]
      exact ih hn.2 h

theorem get_isSome {d : Specs} {k : PyStr} : (∃ n, d.get? k = some n) ↔ k ∈ d.keys := by
  constructor
  · rintro ⟨n, h⟩; exact mem_keys.mpr ⟨n, get_mem h⟩
  · intro h
    obtain ⟨n, h⟩ := mem_keys.mp h
    cases hg : d.get? k with
    | some n => exact ⟨n, rfl⟩
    | none =>
      simp only [Specs.get?, Option.map_eq_none_iff, List.find?_eq_none] at hg
      exact absurd (beq_self_eq_true k) (hg _ h)

theorem keys_set {d : Specs} {k : PyStr} {n : Node} :
    (d.set k n).keys = if k ∈ d.keys then d.keys else d.keys ++ [k] := by
  induction d with
  | nil => simp [Specs.set, Specs.keys]
  | cons e d ih =>
    simp only [Specs.set]
    split
    · rename_i h
      simp at h
      simp [Specs.keys, h]
    · rename_i h
      simp at h
      have : Specs.keys (e :: Specs.set d k n) = e.1 :: Specs.keys (Specs.set d k n) := rfl
      rw [this, ih]
      have h2 : Specs.keys (e :: d) = e.1 :: Specs.keys d := rfl
      rw [h2]
      by_cases hk : k ∈ Specs.keys d
      · simp [hk]
      · have : ¬ k = e.1 := fun h' => h h'.symm
        simp [hk, this]

theorem mem_set {d : Specs} {k : PyStr} {n : Node} {e : PyStr × Node} (h : e ∈ d.set k n) : e ∈ d ∨ e = (k, n) := by
  induction d with
  | nil => simpa [Specs.set] using h
  | cons x d ih =>
    simp only [Specs.set] at h
    split at h
    · rcases List.mem_cons.mp h with h | h
      · exact .inr h
      · exact .inl (by simp [h])
    · rcases List.mem_cons.mp h with h | h
      · exact .inl (by simp [h])
      · rcases ih h with h | h
        · exact .inl (by simp [h])
        · exact .inr h

/-! ## Reading -/

/-- The withed files of a specification that is accepted without errors. -/
def withedOf (s : Spec) : List PyStr := s.context.map fun i => rflx i.str

/-- A dictionary built without errors: every entry belongs to the file of that name and comes after its withed files. -/
structure Good (fs : Files) (d : Specs) : Prop where
  nodup : d.keys.Nodup
  entry : ∀ k n, (k, n) ∈ d → fs n.filename = .spec n.spec ∧ n.filename.name = k ∧ n.withed = withedOf n.spec
  order : ∀ xs k n ys, d = xs ++ (k, n) :: ys → ∀ w ∈ n.withed, w ∈ Specs.keys xs
  named : ∀ k n, (k, n) ∈ d → n.spec.naming = false ∧ n.filename.name = rflx n.spec.package

/-- `d'` has the keys of `d` first, in the same order, and the same files for them. -/
def Extends (d d' : Specs) : Prop :=
  (∃ ys, d'.keys = d.keys ++ ys) ∧ ∀ k n, (k, n) ∈ d → (k, n) ∈ d'

theorem Extends.refl (d : Specs) : Extends d d := ⟨⟨[], by simp⟩, fun _ _ h => h⟩

theorem Extends.trans {a b c : Specs} (h : Extends a b) (h' : Extends b c) : Extends a c := by
  obtain ⟨⟨x, h1⟩, h2⟩ := h
  obtain ⟨⟨y, h3⟩, h4⟩ := h'
  exact ⟨⟨x ++ y, by rw [h3, h1]; simp⟩, fun k n h => h4 k n (h2 k n h)⟩

theorem Extends.keys {a b : Specs} (h : Extends a b) {k : PyStr} (hk : k ∈ a.keys) : k ∈ b.keys := by
  obtain ⟨⟨x, h1⟩, _⟩ := h
  rw [h1]; simp [hk]

theorem set_same {d : Specs} {k : PyStr} {n : Node} (hn : d.keys.Nodup) (h : (k, n) ∈ d) : d.set k n = d := by
  induction d with
  | nil => simp at h
  | cons e d ih =>
    simp only [Specs.keys, List.map_cons, List.nodup_cons] at hn
    simp only [Specs.set]
    split
    · rename_i he
      simp at he
      rcases List.mem_cons.mp h with h | h
      · rw [h]
      · exact absurd (List.mem_map.mpr ⟨(k, n), h, rfl⟩) (he ▸ hn.1)
    · rename_i he
      simp at he
      rcases List.mem_cons.mp h with rfl | h
      · simp at he
      · rw [ih hn.2 h]

theorem set_new {d : Specs} {k : PyStr} {n : Node} (h : k ∉ d.keys) : d.set k n = d ++ [(k, n)] := by
  induction d with
  | nil => rfl
  | cons e d ih =>
    have h2 : Specs.keys (e :: d) = e.1 :: Specs.keys d := rfl
    rw [h2, List.mem_cons, not_or] at h
    simp only [Specs.set]
    rw [if_neg (by simpa using fun h' => h.1 h'.symm), ih h.2]
    rfl

/-- What a call of `__parse_specfile` without errors achieves. -/
def CallOK (fs : Files) (rec : Path → List ID → Specs → Py (List Err × Specs)) : Prop :=
  ∀ f tr d es d', rec f tr d = .ok (es, d') → es = [] → Good fs d → Good fs d' ∧ Extends d d' ∧ f.name ∈ d'.keys

theorem contextLoop_errs {rec : Path → List ID → Specs → Py (List Err × Specs)} {dir : PyStr} {tr : List ID}
    (items : List ID) : ∀ errs withed d es w d', contextLoop rec dir tr items errs withed d = .ok (es, w, d') →
      ∃ es', es = errs ++ es' := by
  induction items with
  | nil => intro errs withed d es w d' h; simp [contextLoop] at h; exact ⟨[], by simp [h.1]⟩
  | cons i items ih =>
    intro errs withed d es w d' h
    simp only [contextLoop] at h
    split at h
    · obtain ⟨es', rfl⟩ := ih _ _ _ _ _ _ h
      exact ⟨_, by rw [List.append_assoc]⟩
    · split at h
      · exact ih _ _ _ _ _ _ h
      · cases hr : rec ⟨dir, rflx i.str⟩ (tr ++ [i]) d with
        | error e => rw [hr] at h; cases h
        | ok r =>
          rw [hr] at h
          obtain ⟨es', rfl⟩ := ih _ _ _ _ _ _ h
          exact ⟨_, by rw [List.append_assoc]⟩

theorem contextLoop_ok {fs : Files} {rec : Path → List ID → Specs → Py (List Err × Specs)} (hrec : CallOK fs rec)
    {dir : PyStr} {tr : List ID} (items : List ID) : ∀ errs withed d w d',
    contextLoop rec dir tr items errs withed d = .ok ([], w, d') → Good fs d → (∀ x ∈ withed, x ∈ d.keys) →
      Good fs d' ∧ Extends d d' ∧ w = withed ++ items.map (fun i => rflx i.str) ∧ ∀ x ∈ w, x ∈ d'.keys := by
  induction items with
  | nil =>
    intro errs withed d w d' h hg hw
    simp only [contextLoop, Except.ok.injEq, Prod.mk.injEq] at h
    obtain ⟨_, rfl, rfl⟩ := h
    exact ⟨hg, Extends.refl _, by simp, hw⟩
  | cons i items ih =>
    intro errs withed d w d' h hg hw
    simp only [contextLoop] at h
    split at h
    · obtain ⟨es', he⟩ := contextLoop_errs _ _ _ _ _ _ _ h
      simp at he
    · split at h
      · rename_i hk
        obtain ⟨h1, h2, h3, h4⟩ := ih _ _ _ _ _ h hg (by
          intro x hx
          rcases List.mem_append.mp hx with hx | hx
          · exact hw x hx
          · simp at hx; subst hx; exact hk)
        exact ⟨h1, h2, by rw [h3]; simp, h4⟩
      · cases hr : rec ⟨dir, rflx i.str⟩ (tr ++ [i]) d with
        | error e => rw [hr] at h; cases h
        | ok r =>
          obtain ⟨es, d1⟩ := r
          rw [hr] at h
          have h' : contextLoop rec dir tr items (errs ++ es) (withed ++ [rflx i.str]) d1 = .ok ([], w, d') := h
          have hes : es = [] := by
            obtain ⟨es', he⟩ := contextLoop_errs _ _ _ _ _ _ _ h'
            simp at he
            exact he.2.1
          obtain ⟨h5, h6, h7⟩ := hrec _ _ _ _ _ hr hes hg
          obtain ⟨h1, h2, h3, h4⟩ := ih _ _ _ _ _ h' h5 (by
            intro x hx
            rcases List.mem_append.mp hx with hx | hx
            · exact h6.keys (hw x hx)
            · simp at hx; subst hx; exact h7)
          exact ⟨h1, h6.trans h2, by rw [h3]; simp, h4⟩

theorem parseFile_ok (fs : Files) (hne : ∀ f, fs f ≠ .empty) (k : Nat) : CallOK fs (parseFile fs k) := by
  induction k with
  | zero => intro f tr d es d' h; simp [parseFile] at h
  | succ k ih =>
    intro f tr d es d' h hes hg
    subst hes
    simp only [parseFile] at h
    split at h
    · simp at h
    · rename_i he; exact absurd he (hne f)
    · rename_i s hs
      cases hc : contextLoop (parseFile fs k) f.dir tr s.context (checkNaming s f) [] d with
      | error e => rw [hc] at h; cases h
      | ok r =>
        obtain ⟨es, w, d1⟩ := r
        rw [hc] at h
        have h' : (.ok (es ++ (match Specs.get? d1 (rflx s.package) with
            | some n => if f ≠ n.filename then [Err.duplicate s.package] else []
            | none => []), d1.set (rflx s.package) ⟨f, s, w⟩) : Py (List Err × Specs)) = .ok ([], d') := h
        simp only [Except.ok.injEq, Prod.mk.injEq, List.append_eq_nil_iff] at h'
        obtain ⟨⟨rfl, hdup⟩, rfl⟩ := h'
        obtain ⟨h1, h2, h3, h4⟩ := contextLoop_ok ih _ _ _ _ _ _ hc hg (by simp)
        have hname : f.name = rflx s.package ∧ s.naming = false := by
          obtain ⟨es', he⟩ := contextLoop_errs _ _ _ _ _ _ _ hc
          have : checkNaming s f = [] := by
            cases hcn : checkNaming s f with
            | nil => rfl
            | cons a l => rw [hcn] at he; simp at he
          simp only [checkNaming, List.append_eq_nil_iff] at this
          have h5 := this.2
          refine ⟨?_, ?_⟩
          · split at h5
            · simp at h5
            · rename_i h6; simpa using h6
          · have h6 := this.1
            cases hn : s.naming with
            | false => rfl
            | true => rw [hn] at h6; simp at h6
        obtain ⟨hname, hnaming⟩ := hname
        simp only [List.nil_append] at h3
        by_cases hk : rflx s.package ∈ d1.keys
        · obtain ⟨n, hn⟩ := mem_keys.mp hk
          have hget := get_of_mem h1.nodup hn
          rw [hget] at hdup
          simp only [ite_eq_right_iff, List.cons_ne_nil, imp_false, ne_eq, Classical.not_not] at hdup
          obtain ⟨e1, e2, e3⟩ := h1.entry _ _ hn
          rw [← hdup, hs] at e1
          have hns : s = n.spec := by injection e1
          have : (⟨f, s, w⟩ : Node) = n := by
            cases n with
            | mk a b c =>
              simp only [Node.mk.injEq]
              exact ⟨hdup, hns, by rw [h3]; simp only at e3 hns; rw [e3, withedOf, ← hns]⟩
          rw [this, set_same h1.nodup hn]
          exact ⟨h1, h2, by rw [hname]; exact hk⟩
        · rw [set_new hk]
          refine ⟨⟨?_, ?_, ?_, ?_⟩, h2.trans ⟨⟨[rflx s.package], by simp [Specs.keys]⟩, by simp_all⟩, ?_⟩
          · have : Specs.keys (d1 ++ [(rflx s.package, ⟨f, s, w⟩)]) = d1.keys ++ [rflx s.package] := by simp [Specs.keys]
            rw [this, List.nodup_append]
            refine ⟨h1.nodup, by simp, ?_⟩
            intro a ha b hb hab
            simp at hb
            subst hab hb
            exact hk ha
          · intro k' n' hm
            rcases List.mem_append.mp hm with hm | hm
            · exact h1.entry k' n' hm
            · simp only [List.mem_singleton, Prod.mk.injEq] at hm
              obtain ⟨rfl, rfl⟩ := hm
              exact ⟨hs, hname, h3⟩
          · intro xs k' n' ys he x hx
            rcases List.eq_nil_or_concat ys with rfl | ⟨ys', y, rfl⟩
            · have he' : d1 ++ [(rflx s.package, ⟨f, s, w⟩)] = xs ++ [(k', n')] := he
              obtain ⟨e1, e2⟩ := List.append_inj' he' rfl
              simp only [List.cons.injEq, Prod.mk.injEq, and_true] at e2
              obtain ⟨_, rfl⟩ := e2
              rw [← e1]
              exact h4 x hx
            · have he' : d1 ++ [(rflx s.package, ⟨f, s, w⟩)] = (xs ++ (k', n') :: ys') ++ [y] := by rw [he]; simp
              obtain ⟨e1, _⟩ := List.append_inj' he' rfl
              exact h1.order xs k' n' ys' e1 x hx
          · intro k' n' hm
            rcases List.mem_append.mp hm with hm | hm
            · exact h1.named k' n' hm
            · simp only [List.mem_singleton, Prod.mk.injEq] at hm
              obtain ⟨rfl, rfl⟩ := hm
              exact ⟨hnaming, hname⟩
          · rw [hname]; simp [Specs.keys]

theorem parseFiles_errs {fs : Files} {k : Nat} (files : List Path) : ∀ errs d es d',
    parseFiles fs k files errs d = .ok (es, d') → ∃ es', es = errs ++ es' := by
  induction files with
  | nil => intro errs d es d' h; simp [parseFiles] at h; exact ⟨[], by simp [h.1]⟩
  | cons f files ih =>
    intro errs d es d' h
    simp only [parseFiles] at h
    cases hr : parseFile fs k f [] d with
    | error e => rw [hr] at h; cases h
    | ok r =>
      rw [hr] at h
      obtain ⟨es', rfl⟩ := ih _ _ _ _ h
      exact ⟨_, by rw [List.append_assoc]⟩

theorem parseFiles_ok {fs : Files} (hne : ∀ f, fs f ≠ .empty) {k : Nat} (files : List Path) : ∀ errs d d',
    parseFiles fs k files errs d = .ok ([], d') → Good fs d →
      Good fs d' ∧ Extends d d' ∧ ∀ f ∈ files, f.name ∈ d'.keys := by
  induction files with
  | nil =>
    intro errs d d' h hg
    simp [parseFiles] at h
    obtain ⟨_, rfl⟩ := h
    exact ⟨hg, Extends.refl _, by simp⟩
  | cons f files ih =>
    intro errs d d' h hg
    simp only [parseFiles] at h
    cases hr : parseFile fs k f [] d with
    | error e => rw [hr] at h; cases h
    | ok r =>
      obtain ⟨es, d1⟩ := r
      rw [hr] at h
      have h' : parseFiles fs k files (errs ++ es) d1 = .ok ([], d') := h
      have hes : es = [] := by
        obtain ⟨es', he⟩ := parseFiles_errs _ _ _ _ _ h'
        simp at he
        exact he.2.1
      obtain ⟨h5, h6, h7⟩ := parseFile_ok fs hne k _ _ _ _ _ hr hes hg
      obtain ⟨h1, h2, h3⟩ := ih _ _ _ h' h5
      refine ⟨h1, h6.trans h2, ?_⟩
      intro g hgm
      rcases List.mem_cons.mp hgm with rfl | hgm
      · exact h2.keys h7
      · exact h3 g hgm

end Verif.SpecParser
