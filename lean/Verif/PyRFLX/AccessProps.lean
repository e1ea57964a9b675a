import Verif.PyRFLX.Access

/-! # C78: messages of a model by names -/

namespace Verif.PyRFLX.Access
open Verif

variable {α M : Type}

/-! ## Specification -/

/-- The package of a message, as written. -/
def packageOf (m : ID × M) : PyStr := (m.1.parts[0]?).getD []

/-- The name of a message, as written. -/
def nameOf (m : ID × M) : PyStr := (m.1.parts[1]?).getD []

/-- Every name once, at its first position. -/
def firsts (l : List PyStr) : List PyStr := l.foldl (fun seen x => if x ∈ seen then seen else seen ++ [x]) []

/-- What models ensure (C44): identifiers consist of the names of a package and a type, and differ in more than letter case. -/
structure Proper (ms : List (ID × M)) : Prop where
  valid : ∀ m ∈ ms, m.1.Valid ∧ m.1.parts.length = 2
  distinct : ms.Pairwise fun a b => a.1.eq b.1 = false

/-! ## Lemmas -/

theorem firsts_snoc (l : List PyStr) (x : PyStr) :
    firsts (l ++ [x]) = if x ∈ firsts l then firsts l else firsts l ++ [x] := by
  unfold firsts
  rw [List.foldl_append]
  rfl

theorem snoc_induction {β : Type} {P : List β → Prop} (l : List β) (h0 : P []) (h1 : ∀ l x, P l → P (l ++ [x])) : P l := by
  have : ∀ n, ∀ l : List β, l.length = n → P l := by
    intro n
    induction n with
    | zero => intro l h; rw [List.length_eq_zero_iff.1 h]; exact h0
    | succ n ih =>
      intro l h
      rcases List.eq_nil_or_concat l with rfl | ⟨l', x, rfl⟩
      · exact h0
      · rw [List.concat_eq_append] at h ⊢
        exact h1 _ _ (ih _ (by simpa using h))
  exact this _ l rfl

theorem mem_firsts (l : List PyStr) (x : PyStr) : x ∈ firsts l ↔ x ∈ l := by
  induction l using snoc_induction with
  | h0 => simp [firsts]
  | h1 l y ih =>
    rw [firsts_snoc]
    split
    · rename_i hy
      simp only [ih, List.mem_append, List.mem_singleton]
      constructor
      · exact .inl
      · rintro (h | rfl)
        · exact h
        · exact ih.1 hy
    · simp [ih]

theorem nodup_firsts (l : List PyStr) : (firsts l).Nodup := by
  induction l using snoc_induction with
  | h0 => simp [firsts]
  | h1 l y ih =>
    rw [firsts_snoc]
    split
    · exact ih
    · rename_i hy
      rw [List.nodup_append]
      exact ⟨ih, by simp, fun a ha b hb hab => by rw [List.mem_singleton] at hb; exact hy (hb ▸ hab ▸ ha)⟩

theorem dget_map (l : List PyStr) (g : PyStr → α) (k : PyStr) :
    dget (l.map fun p => (p, g p)) k = if k ∈ l then some (g k) else none := by
  induction l with
  | nil => rfl
  | cons x l ih =>
    unfold dget at ih ⊢
    simp only [List.map_cons, List.find?_cons]
    by_cases h : x = k
    · subst h; simp
    · have h' : ¬ k = x := fun e => h e.symm
      simp only [beq_eq_false_iff_ne.2 h, ih, List.mem_cons, h', false_or]

theorem dset_map {l : List PyStr} (hn : l.Nodup) (g : PyStr → α) {k : PyStr} (hk : k ∈ l) (v : α) :
    dset (l.map fun p => (p, g p)) k v = l.map fun p => (p, if p = k then v else g p) := by
  induction l with
  | nil => simp at hk
  | cons x l ih =>
    rw [List.nodup_cons] at hn
    simp only [List.map_cons, dset]
    by_cases h : x = k
    · subst h
      simp only [beq_self_eq_true, if_true, List.cons.injEq, true_and]
      apply List.map_congr_left
      intro p hp
      rw [if_neg fun e : p = x => hn.1 (e ▸ hp)]
    · rw [if_neg (by simpa using h), if_neg h, ih hn.2 ((List.mem_cons.1 hk).resolve_left fun e => h e.symm)]

theorem dset_new {d : Dict α} {k : PyStr} (h : ∀ e ∈ d, e.1 ≠ k) (v : α) : dset d k v = d ++ [(k, v)] := by
  induction d with
  | nil => rfl
  | cons e d ih =>
    rw [dset, if_neg (by simpa using h e List.mem_cons_self), ih fun x hx => h x (List.mem_cons_of_mem _ hx)]
    rfl

theorem dget_dset_ne (d : Dict α) {k n : PyStr} (v : α) (hk : k ≠ n) : dget (dset d k v) n = dget d n := by
  induction d with
  | nil => simp [dset, dget, hk]
  | cons e d ih =>
    unfold dget at ih ⊢
    rw [dset]
    split
    · rename_i he
      have he : e.1 = k := by simpa using he
      simp [beq_eq_false_iff_ne.2 hk, he]
    · simp only [List.find?_cons]
      split
      · rfl
      · exact ih

theorem dget_dset_self (d : Dict α) (k : PyStr) (v : α) : dget (dset d k v) k = some v := by
  induction d with
  | nil => simp [dset, dget]
  | cons e d ih =>
    unfold dget at ih ⊢
    rw [dset]
    split
    · simp
    · rename_i he
      simp only [List.find?_cons]
      rw [show (e.1 == k) = false by simpa using he]
      exact ih

/-- The messages of a package, with their names. -/
def contents (ms : List (ID × M)) (p : PyStr) : Dict (ID × M) := (ms.filter fun m => packageOf m = p).map fun m => (nameOf m, m)

/-- All packages with their messages. -/
def expected (ms : List (ID × M)) : Packages M := (firsts (ms.map packageOf)).map fun p => (p, contents ms p)

theorem parts_of {m : ID × M} (h : m.1.parts.length = 2) : m.1.parts = [packageOf m, nameOf m] := by
  unfold packageOf nameOf
  match hm : m.1.parts, h with
  | [a, b], _ => rfl

theorem parent_str {m : ID × M} (hv : m.1.Valid) (h : m.1.parts.length = 2) :
    m.1.parent = .ok ⟨[packageOf m]⟩ ∧ m.1.name = .ok ⟨[nameOf m]⟩ := by
  have hp := parts_of h
  have hv1 : ID.Valid ⟨[packageOf m]⟩ := ⟨by simp, fun x hx => hv.2 x (by rw [hp]; simp_all)⟩
  have hv2 : ID.Valid ⟨[nameOf m]⟩ := ⟨by simp, fun x hx => hv.2 x (by rw [hp]; simp_all)⟩
  constructor
  · unfold ID.parent
    rw [hp]
    exact (ID.checked_ok_iff _ _).2 ⟨rfl, hv1⟩
  · unfold ID.name
    rw [hp]
    exact ID.C38_str_roundtrip _ hv2

theorem addMessage_expected {ms : List (ID × M)} {m : ID × M} (h : Proper (ms ++ [m])) :
    addMessage (expected ms) m = .ok (expected (ms ++ [m])) := by
  obtain ⟨hv, hl⟩ := h.valid m (by simp)
  obtain ⟨h1, h2⟩ := parent_str hv hl
  have hnew : ∀ e ∈ contents ms (packageOf m), e.1 ≠ nameOf m := by
    intro e he hn
    simp only [contents, List.mem_map, List.mem_filter, decide_eq_true_eq] at he
    obtain ⟨x, ⟨hx, hp⟩, rfl⟩ := he
    have hne := (List.pairwise_append.1 h.distinct).2.2 x hx m (by simp)
    have hn : nameOf x = nameOf m := hn
    have hxl := (h.valid x (by simp [hx])).2
    have hk : x.1.key = m.1.key := by
      unfold ID.key
      rw [parts_of hxl, parts_of hl, hp, hn]
    rw [(ID.eq_iff_key _ _).2 hk] at hne
    exact nomatch hne
  have hcont : ∀ p, contents (ms ++ [m]) p = if p = packageOf m then contents ms p ++ [(nameOf m, m)] else contents ms p := by
    intro p
    unfold contents
    rw [List.filter_append, List.map_append]
    by_cases hp : p = packageOf m
    · subst hp; simp
    · have : ¬ packageOf m = p := fun e => hp e.symm
      simp [hp, this]
  have step : ∀ l : List PyStr, l.Nodup → packageOf m ∈ l →
      dset (l.map fun p => (p, contents ms p)) (packageOf m) (dset (contents ms (packageOf m)) (nameOf m) m) =
        l.map fun p => (p, contents (ms ++ [m]) p) := by
    intro l hn hm
    rw [dset_map hn _ hm, dset_new hnew]
    apply List.map_congr_left
    intro p _
    rw [hcont]
    split
    · rename_i e; rw [e]
    · rfl
  have hdef : addMessage (expected ms) m =
      (let d := if (dget (expected ms) (packageOf m)).isSome then expected ms else dset (expected ms) (packageOf m) []
       match dget d (packageOf m) with
        | some msgs => .ok (dset d (packageOf m) (dset msgs (nameOf m) m))
        | none => .error .keyError) := by
    unfold addMessage
    rw [h1, h2]
    rfl
  rw [hdef]
  have hget := dget_map (firsts (ms.map packageOf)) (contents ms) (packageOf m)
  have hf := firsts_snoc (ms.map packageOf) (packageOf m)
  by_cases hm : packageOf m ∈ firsts (ms.map packageOf)
  · rw [if_pos hm] at hget hf
    have hg : dget (expected ms) (packageOf m) = some (contents ms (packageOf m)) := hget
    simp only [hg, Option.isSome_some, if_true]
    unfold expected
    rw [step _ (nodup_firsts _) hm, List.map_append, List.map_cons, List.map_nil, hf]
  · rw [if_neg hm] at hget hf
    have hg : dget (expected ms) (packageOf m) = none := hget
    have hempty : contents ms (packageOf m) = [] := by
      unfold contents
      rw [List.map_eq_nil_iff, List.filter_eq_nil_iff]
      intro x hx e
      exact hm ((mem_firsts _ _).2 (List.mem_map.2 ⟨x, hx, by simpa using e⟩))
    have hd : dset (expected ms) (packageOf m) [] =
        (firsts (ms.map packageOf) ++ [packageOf m]).map fun p => (p, contents ms p) := by
      rw [dset_new]
      · simp [expected, hempty]
      · intro e he hp
        simp only [expected, List.mem_map] at he
        obtain ⟨p, hp', rfl⟩ := he
        exact hm (hp ▸ hp')
    simp only [hg, Option.isSome_none, Bool.false_eq_true, if_false, hd]
    rw [dget_map, if_pos (by simp)]
    simp only
    have hnd : (firsts (ms.map packageOf) ++ [packageOf m]).Nodup := by
      have := nodup_firsts (ms.map packageOf ++ [packageOf m])
      rwa [hf] at this
    rw [step _ hnd (by simp), ← hf]
    unfold expected
    simp only [List.map_append (l₁ := ms), List.map_cons, List.map_nil]

theorem addMessages_append (d : Packages M) (a b : List (ID × M)) :
    addMessages d (a ++ b) = (addMessages d a).bind fun d' => addMessages d' b := by
  induction a generalizing d with
  | nil => rfl
  | cons m a ih =>
    simp only [List.cons_append, addMessages]
    cases addMessage d m with
    | error e => rfl
    | ok d' => exact ih d'

theorem addMessages_expected (ms : List (ID × M)) (h : Proper ms) : addMessages [] ms = .ok (expected ms) := by
  induction ms using snoc_induction with
  | h0 => rfl
  | h1 ms m ih =>
    have h' : Proper ms := ⟨fun x hx => h.valid x (by simp [hx]), (List.pairwise_append.1 h.distinct).1⟩
    rw [addMessages_append, ih h']
    show addMessages (expected ms) [m] = _
    rw [addMessages, addMessage_expected h]
    rfl

theorem addRefinements_ok (ms : List (ID × M)) (rs : List (ID × ID)) :
    addRefinements ms rs = .ok () ∨ addRefinements ms rs = .error .keyError := by
  induction rs with
  | nil => exact .inl rfl
  | cons r rs ih =>
    rw [addRefinements]
    split
    · exact ih
    · exact .inr rfl

theorem addRefinements_iff (ms : List (ID × M)) (rs : List (ID × ID)) :
    addRefinements ms rs = .ok () ↔ ∀ r ∈ rs, known ms r.1 = true ∧ known ms r.2 = true := by
  induction rs with
  | nil => simp [addRefinements]
  | cons r rs ih =>
    rw [addRefinements]
    by_cases h : (known ms r.1 && known ms r.2) = true
    · rw [if_pos h, ih]
      simp only [Bool.and_eq_true] at h
      simp [h]
    · rw [if_neg h]
      simp only [Bool.and_eq_true] at h
      constructor
      · intro e; exact nomatch e
      · intro e; exact absurd (e r List.mem_cons_self) h

/-! ## C78 -/

/-- The packages can be created exactly if the messages of all refinements are among the messages of the model; otherwise a `KeyError` is raised. -/
theorem C78_exists (ms : List (ID × M)) (rs : List (ID × ID)) (h : Proper ms) :
    ((∃ d, init ms rs = .ok d) ↔
      ∀ r ∈ rs, (∃ m ∈ ms, m.1.parts.map PyStr.lower = r.1.parts.map PyStr.lower) ∧
        ∃ m ∈ ms, m.1.parts.map PyStr.lower = r.2.parts.map PyStr.lower) ∧
    ((∃ d, init ms rs = .ok d) ∨ init ms rs = .error .keyError) := by
  have hk : ∀ i, known ms i = true ↔ ∃ m ∈ ms, m.1.parts.map PyStr.lower = i.parts.map PyStr.lower := by
    intro i
    simp only [known, List.any_eq_true, ID.eq_iff_key, ID.key]
  have hi : init ms rs = (addRefinements ms rs).bind fun _ => .ok (expected ms) := by
    unfold init
    rw [addMessages_expected ms h]
    rfl
  have hr := addRefinements_iff ms rs
  simp only [hk] at hr
  rw [← hr, hi]
  rcases addRefinements_ok ms rs with e | e <;> rw [e]
  · exact ⟨⟨fun _ => rfl, fun _ => ⟨_, rfl⟩⟩, .inl ⟨_, rfl⟩⟩
  · exact ⟨⟨fun ⟨_, h⟩ => (nomatch h), fun h => (nomatch h)⟩, .inr rfl⟩

theorem init_expected {ms : List (ID × M)} {rs : List (ID × ID)} (h : Proper ms) {d : Packages M} (hd : init ms rs = .ok d) :
    d = expected ms := by
  have hi : init ms rs = (addRefinements ms rs).bind fun _ => .ok (expected ms) := by
    unfold init
    rw [addMessages_expected ms h]
    rfl
  rw [hi] at hd
  rcases addRefinements_ok ms rs with e | e <;> rw [e] at hd
  · exact (Except.ok.inj hd).symm
  · exact nomatch hd

/-- `pyrflx[p][n]` is the message `p::n` of the model, spelled like this; if there is none, a `KeyError` is raised. -/
theorem C78_found (ms : List (ID × M)) (rs : List (ID × ID)) (h : Proper ms) (d : Packages M) (hd : init ms rs = .ok d) (p n : PyStr) :
    (∀ m, getMessage d p n = .ok m ↔ m ∈ ms ∧ m.1.parts = [p, n]) ∧
    ((∀ m ∈ ms, m.1.parts ≠ [p, n]) → getMessage d p n = .error .keyError) := by
  rw [init_expected h hd]
  have hmem : ∀ {m}, m ∈ ms → m.1.parts = [p, n] → packageOf m = p ∧ nameOf m = n := by
    intro m _ hm
    simp [packageOf, nameOf, hm]
  have hget : getMessage (expected ms) p n =
      match dget (contents ms p) n with
      | none => .error .keyError
      | some m => .ok m := by
    unfold getMessage expected
    rw [dget_map]
    split
    · rename_i hx
      split at hx
      · exact nomatch hx
      · rename_i hn
        have : contents ms p = [] := by
          unfold contents
          rw [List.map_eq_nil_iff, List.filter_eq_nil_iff]
          intro x hx e
          exact hn ((mem_firsts _ _).2 (List.mem_map.2 ⟨x, hx, by simpa using e⟩))
        rw [this]; rfl
    · rename_i l hx
      split at hx
      · obtain rfl := Option.some.inj hx; rfl
      · exact nomatch hx
  have hfind : ∀ m, dget (contents ms p) n = some m → m ∈ ms ∧ m.1.parts = [p, n] := by
    intro m hm
    unfold dget at hm
    rw [Option.map_eq_some_iff] at hm
    obtain ⟨e, he, rfl⟩ := hm
    have h1 := List.find?_some he
    have h2 := List.mem_of_find?_eq_some he
    simp only [contents, List.mem_map, List.mem_filter, decide_eq_true_eq] at h2
    obtain ⟨x, ⟨hx, hp⟩, rfl⟩ := h2
    simp only [beq_iff_eq] at h1
    exact ⟨hx, by rw [parts_of (h.valid x hx).2, hp, h1]⟩
  have hsome : ∀ m, m ∈ ms → m.1.parts = [p, n] → ∃ m', dget (contents ms p) n = some m' := by
    intro m hm hp
    obtain ⟨e1, e2⟩ := hmem hm hp
    unfold dget
    have : ((contents ms p).find? fun e => e.1 == n).isSome = true := by
      rw [List.find?_isSome]
      refine ⟨(nameOf m, m), ?_, by simp [e2]⟩
      simp only [contents, List.mem_map, List.mem_filter, decide_eq_true_eq]
      exact ⟨m, ⟨hm, e1⟩, rfl⟩
    obtain ⟨e, he⟩ := Option.isSome_iff_exists.1 this
    exact ⟨e.2, by rw [he]; rfl⟩
  have huniq : ∀ m m', m ∈ ms → m' ∈ ms → m.1.parts = m'.1.parts → m = m' := by
    have : ∀ l : List (ID × M), l.Pairwise (fun a b => a.1.eq b.1 = false) → ∀ m m', m ∈ l → m' ∈ l → m.1.parts = m'.1.parts → m = m' := by
      intro l hl
      have hne : ∀ a b : ID × M, a.1.eq b.1 = false → a.1.parts ≠ b.1.parts := by
        intro a b hab e
        have : a.1.key = b.1.key := by unfold ID.key; rw [e]
        rw [(ID.eq_iff_key _ _).2 this] at hab
        exact nomatch hab
      induction l with
      | nil => intro m m' hm; simp at hm
      | cons a l ih =>
        rw [List.pairwise_cons] at hl
        intro m m' hm hm' e
        rcases List.mem_cons.1 hm with h1 | h1 <;> rcases List.mem_cons.1 hm' with h2 | h2
        · rw [h1, h2]
        · exact absurd (h1 ▸ e) (hne _ _ (hl.1 m' h2))
        · exact absurd (h2 ▸ e.symm) (hne _ _ (hl.1 m h1))
        · exact ih hl.2 m m' h1 h2 e
    exact this ms h.distinct
  rw [hget]
  refine ⟨fun m => ?_, fun hnone => ?_⟩
  · constructor
    · intro hm
      cases hx : dget (contents ms p) n with
      | none => rw [hx] at hm; exact nomatch hm
      | some x =>
        rw [hx] at hm
        obtain rfl := Except.ok.inj hm
        exact hfind _ hx
    · rintro ⟨hm, hp⟩
      obtain ⟨m', hm'⟩ := hsome m hm hp
      obtain ⟨h1, h2⟩ := hfind _ hm'
      rw [hm', huniq m m' hm h1 (hp.trans h2.symm)]
  · cases hx : dget (contents ms p) n with
    | none => rfl
    | some x =>
      obtain ⟨h1, h2⟩ := hfind _ hx
      exact absurd h2 (hnone x h1)

/-- Iteration yields each package once, in the order of the model, with its messages in the order of the model; none is missing. -/
theorem C78_iterate (ms : List (ID × M)) (rs : List (ID × ID)) (h : Proper ms) (d : Packages M) (hd : init ms rs = .ok d) :
    iterate d = (firsts (ms.map packageOf)).map fun p => (p, ms.filter fun m => packageOf m = p) := by
  rw [init_expected h hd]
  simp [iterate, expected, contents, Function.comp_def]

/-- Setting checksum functions changes only the named messages: a message with another name is as before. -/
theorem C78_checksum_functions {F : Type} (set : ID × M → F → Py (ID × M)) (fs : List (PyStr × F)) (ms ms' : Dict (ID × M))
    (h : setChecksumFunctions set ms fs = .ok ms') (n : PyStr) (hn : ∀ f ∈ fs, f.1 ≠ n) : dget ms' n = dget ms n := by
  induction fs generalizing ms with
  | nil => rw [setChecksumFunctions] at h; rw [Except.ok.inj h]
  | cons f fs ih =>
    rw [setChecksumFunctions] at h
    cases hg : dget ms f.1 with
    | none => rw [hg] at h; exact nomatch h
    | some m =>
      rw [hg] at h
      simp only at h
      cases hs : set m f.2 with
      | error e => rw [hs] at h; exact nomatch h
      | ok m1 =>
        rw [hs] at h
        rw [ih _ h fun g hg => hn g (List.mem_cons_of_mem _ hg), dget_dset_ne _ _ (hn f List.mem_cons_self)]

/-- The named messages get the given functions (the keys of a dictionary differ); a name without message is an error. -/
theorem C78_checksum_named {F : Type} (set : ID × M → F → Py (ID × M)) (fs : List (PyStr × F)) (hf : (fs.map Prod.fst).Nodup)
    (ms ms' : Dict (ID × M)) (h : setChecksumFunctions set ms fs = .ok ms') :
    ∀ f ∈ fs, ∃ m m', dget ms f.1 = some m ∧ set m f.2 = .ok m' ∧ dget ms' f.1 = some m' := by
  induction fs generalizing ms with
  | nil => intro f hm; simp at hm
  | cons f fs ih =>
    rw [List.map_cons, List.nodup_cons] at hf
    have hne : ∀ g ∈ fs, g.1 ≠ f.1 := fun g hg e => hf.1 (List.mem_map.2 ⟨g, hg, e⟩)
    rw [setChecksumFunctions] at h
    cases hg : dget ms f.1 with
    | none => rw [hg] at h; exact nomatch h
    | some m =>
      rw [hg] at h
      simp only at h
      cases hs : set m f.2 with
      | error e => rw [hs] at h; exact nomatch h
      | ok m1 =>
        rw [hs] at h
        intro g hgm
        rcases List.mem_cons.1 hgm with rfl | hgm
        · refine ⟨m, m1, hg, hs, ?_⟩
          rw [C78_checksum_functions set fs _ _ h _ hne, dget_dset_self]
        · obtain ⟨x, x', h1, h2, h3⟩ := ih hf.2 _ h g hgm
          rw [dget_dset_ne _ _ (hne g hgm).symm] at h1
          exact ⟨x, x', h1, h2, h3⟩

/-- Three messages in two packages. -/
def accMessages : List (ID × Nat) :=
  [(⟨[['I', 'p'], ['V', '4']]⟩, 1), (⟨[['U', 'd', 'p'], ['D']]⟩, 2), (⟨[['I', 'p'], ['V', '6']]⟩, 3)]

theorem acc_proper : Proper accMessages := by
  refine ⟨?_, by decide +kernel⟩
  intro m hm
  simp only [accMessages, List.mem_cons, List.not_mem_nil, or_false] at hm
  rcases hm with rfl | rfl | rfl <;> refine ⟨⟨by simp, by simp⟩, rfl⟩

example : ∃ d, init accMessages [(⟨[['I', 'p'], ['V', '4']]⟩, ⟨[['u', 'd', 'p'], ['D']]⟩)] = .ok d ∧
    getMessage d ['I', 'p'] ['V', '6'] = .ok (⟨[['I', 'p'], ['V', '6']]⟩, 3) ∧
    iterate d = [(['I', 'p'], [(⟨[['I', 'p'], ['V', '4']]⟩, 1), (⟨[['I', 'p'], ['V', '6']]⟩, 3)]),
      (['U', 'd', 'p'], [(⟨[['U', 'd', 'p'], ['D']]⟩, 2)])] := ⟨_, rfl, rfl, rfl⟩

example : ∃ ms', setChecksumFunctions (fun m (f : Nat) => .ok (m.1, m.2 + f)) [(['A'], (⟨[['P'], ['M']]⟩, 1)), (['B'], (⟨[['P'], ['M']]⟩, 1))]
    [(['A'], 5)] = .ok ms' ∧ (∀ f ∈ [(['A'], 5)], f.1 ≠ (['B'] : PyStr)) ∧ (dget ms' ['A']).map (·.2) = some 6 :=
  ⟨_, rfl, by decide, rfl⟩

/-- Identifiers do not depend on letter case, but the keys do: `Ip::V4` and `ip::v4` are the same identifier, but only the former gives the message. -/
theorem C78_letter_case :
    (⟨[['I', 'p'], ['V', '4']]⟩ : ID).eq ⟨[['i', 'p'], ['v', '4']]⟩ = true ∧
    ∃ d, init accMessages [] = .ok d ∧ getMessage d ['I', 'p'] ['V', '4'] = .ok (⟨[['I', 'p'], ['V', '4']]⟩, 1) ∧
      getMessage d ['i', 'p'] ['v', '4'] = .error .keyError := ⟨by decide, _, rfl, rfl, rfl⟩

end Verif.PyRFLX.Access
