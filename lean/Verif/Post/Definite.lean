import Verif.Post.Read

/-! # Definite predecessors are on every path -/

namespace Verif.Ctx
open Verif Verif.Graph Verif.Verify Verif.Types Verif.Gen Verif.Spark

section
variable {P : Pkg} {f : Field} {l : Link}

theorem addPath_mono {rs : List (List Link)} {p r : List Link} (h : r ∈ rs) : r ∈ addPath rs p := by
  unfold addPath
  split
  · exact h
  · exact List.mem_append_left _ h

theorem pathEq_sources : ∀ {p r : List Link}, pathEq p r = true → r.map Link.source = p.map Link.source
  | [], [], _ => rfl
  | [], _ :: _, h => by simp [pathEq] at h
  | _ :: _, [], h => by simp [pathEq] at h
  | a :: as, b :: bs, h => by
    simp only [pathEq, Bool.and_eq_true] at h
    have := h.1
    simp only [Link.eq, Bool.and_eq_true, beq_iff_eq] at this
    simp only [List.map_cons, pathEq_sources h.2, this]

theorem addPath_has {rs : List (List Link)} {p : List Link} : ∃ r ∈ addPath rs p, r.map Link.source = p.map Link.source := by
  unfold addPath
  split
  · rename_i h
    rw [List.any_eq_true] at h
    obtain ⟨r, hr, he⟩ := h
    exact ⟨r, hr, pathEq_sources he⟩
  · exact ⟨p, by simp, rfl⟩

theorem foldl_addPath_mono {ps : List (List Link)} : ∀ {rs : List (List Link)} {r : List Link}, r ∈ rs →
    r ∈ ps.foldl (fun r s => addPath r (s ++ [l])) rs := by
  induction ps with
  | nil => intro rs r h; exact h
  | cons p ps ih => intro rs r h; exact ih (addPath_mono h)

theorem foldl_addPath_has {ps : List (List Link)} : ∀ {rs : List (List Link)} {p : List Link}, p ∈ ps →
    ∃ r ∈ ps.foldl (fun r s => addPath r (s ++ [l])) rs, r.map Link.source = (p ++ [l]).map Link.source := by
  induction ps with
  | nil => intro rs p h; cases h
  | cons q ps ih =>
    intro rs p h
    rcases List.mem_cons.mp h with rfl | h
    · obtain ⟨r, hr, he⟩ := addPath_has (rs := rs) (p := p ++ [l])
      exact ⟨r, by rw [List.foldl_cons]; exact foldl_addPath_mono hr, he⟩
    · exact ih h

theorem addPaths_mono {rs ps : List (List Link)} {r : List Link} (h : r ∈ rs) : r ∈ addPaths rs l ps := by
  unfold addPaths
  simp only
  split
  · exact addPath_mono (foldl_addPath_mono h)
  · exact foldl_addPath_mono h

theorem addPaths_has {rs ps : List (List Link)} {p : List Link} (h : p ∈ ps) :
    ∃ r ∈ addPaths rs l ps, r.map Link.source = (p ++ [l]).map Link.source := by
  unfold addPaths
  simp only
  obtain ⟨r, hr, he⟩ := foldl_addPath_has (l := l) (rs := rs) h
  split
  · exact ⟨r, addPath_mono hr, he⟩
  · exact ⟨r, hr, he⟩

theorem addPaths_nil {rs : List (List Link)} : ∃ r ∈ addPaths rs l [], r.map Link.source = [l.source] := by
  simpa [addPaths] using addPath_has (rs := rs) (p := [l])

theorem foldlM_total {F : Field → Py (List (List Link))} : ∀ {ls : List Link} {rs}, (∀ l ∈ ls, ∃ ps, F l.source = .ok ps) →
    ∃ out, ls.foldlM (fun r l => do return addPaths r l (← F l.source)) rs = .ok out
  | [], rs, _ => ⟨rs, rfl⟩
  | l :: ls, rs, h => by
    obtain ⟨ps, hp⟩ := h l List.mem_cons_self
    obtain ⟨out, ho⟩ := foldlM_total (ls := ls) (rs := addPaths rs l ps) fun k hk => h k (List.mem_cons_of_mem _ hk)
    refine ⟨out, ?_⟩
    rw [List.foldlM_cons, hp]
    exact ho

theorem foldlM_mono {F : Field → Py (List (List Link))} : ∀ {ls : List Link} {rs out},
    ls.foldlM (fun r l => do return addPaths r l (← F l.source)) rs = .ok out → ∀ r ∈ rs, r ∈ out
  | [], rs, out, h, r, hr => by cases h; exact hr
  | l :: ls, rs, out, h, r, hr => by
    rw [List.foldlM_cons] at h
    cases hp : F l.source with
    | error e => rw [hp] at h; cases h
    | ok ps =>
      rw [hp] at h
      exact foldlM_mono (rs := addPaths rs l ps) h r (addPaths_mono hr)

theorem foldlM_has {F : Field → Py (List (List Link))} : ∀ {ls : List Link} {rs out},
    ls.foldlM (fun r l => do return addPaths r l (← F l.source)) rs = .ok out → ∀ l ∈ ls, ∃ ps, F l.source = .ok ps ∧
      (∀ p ∈ ps, ∃ r ∈ out, r.map Link.source = (p ++ [l]).map Link.source) ∧ (ps = [] → ∃ r ∈ out, r.map Link.source = [l.source])
  | [], _, _, _, l, hl => by cases hl
  | k :: ls, rs, out, h, l, hl => by
    rw [List.foldlM_cons] at h
    cases hp : F k.source with
    | error e => rw [hp] at h; cases h
    | ok ps =>
      rw [hp] at h
      have h : ls.foldlM (fun r l => do return addPaths r l (← F l.source)) (addPaths rs k ps) = .ok out := h
      rcases List.mem_cons.mp hl with rfl | hl
      · refine ⟨ps, hp, ?_, ?_⟩
        · intro p hpp
          obtain ⟨r, hr, he⟩ := addPaths_has (l := l) (rs := rs) hpp
          exact ⟨r, foldlM_mono h r hr, he⟩
        · rintro rfl
          obtain ⟨r, hr, he⟩ := addPaths_nil (l := l) (rs := rs)
          exact ⟨r, foldlM_mono h r hr, he⟩
      · exact foldlM_has h l hl

theorem mem_incoming {ls : List Link} : l ∈ incoming ls f ↔ l ∈ ls ∧ l.target = f := by simp [incoming]

/-- The recursion ends. -/
theorem paths_total (W : WellFormed P) : ∀ (k : Nat) (f : Field), (f = INITIAL ∧ 1 ≤ k ∨ f ∈ P.m.msg.fields ∧ P.m.msg.fields.idxOf f + 2 ≤ k) →
    ∃ ps, paths P.m.msg.links k f = .ok ps
  | 0, f, h => by omega
  | k + 1, f, h => by
    unfold paths
    split
    · exact ⟨_, rfl⟩
    · rename_i hne
      obtain ⟨hf, hk⟩ := (h.resolve_left fun h => hne h.1)
      refine foldlM_total fun l hl => paths_total W k l.source ?_
      obtain ⟨hl, ht⟩ := mem_incoming.mp hl
      rcases (W.links l hl).1 with hs | hs
      · exact .inl ⟨hs, by omega⟩
      · right
        have := W.order l hl hs (ht ▸ hf)
        rw [ht] at this
        exact ⟨hs, by omega⟩

/-- The sources on one of the paths are fields of a given path. -/
theorem paths_sources (W : WellFormed P) {fs : List Field} {q : Field} (h : Path P.m.msg fs q) : ∀ {l : Link}, l ∈ P.m.msg.links → l.source = q →
    l.target ≠ FINAL → ∀ {k ps}, paths P.m.msg.links k l.target = .ok ps → ∃ r ∈ ps, ∀ a ∈ r, a.source = INITIAL ∨ a.source ∈ fs := by
  have ne : ∀ {l : Link}, l ∈ P.m.msg.links → l.target ≠ FINAL → l.target ≠ INITIAL := by
    intro l hl hf h
    rcases (W.links l hl).2 with h' | h'
    · exact hf h'
    · exact W.initial (h ▸ h')
  have src : ∀ {r rs : List Link} {a : Link}, r.map Link.source = rs.map Link.source → a ∈ r → ∃ b ∈ rs, b.source = a.source := by
    intro r rs a h ha
    have : a.source ∈ rs.map Link.source := h ▸ List.mem_map_of_mem ha
    exact List.mem_map.mp this
  induction h with
  | start =>
    intro l hl hs hf k ps hp
    cases k with
    | zero => cases hp
    | succ k =>
      unfold paths at hp
      rw [if_neg (ne hl hf)] at hp
      obtain ⟨ps', h1, _, h3⟩ := foldlM_has hp l (mem_incoming.mpr ⟨hl, rfl⟩)
      have : ps' = [] := by
        rw [hs] at h1
        cases k with
        | zero => cases h1
        | succ k =>
          unfold paths at h1
          rw [if_pos rfl] at h1
          exact (Except.ok.inj h1).symm
      obtain ⟨r, hr, he⟩ := h3 this
      refine ⟨r, hr, fun a ha => .inl ?_⟩
      obtain ⟨b, hb, e⟩ := src (rs := [l]) he ha
      rw [List.mem_singleton] at hb
      rw [← e, hb, hs]
  | @step fs p l0 hpath h0 hs0 hf0 ih =>
    intro l hl hs hf k ps hp
    cases k with
    | zero => cases hp
    | succ k =>
      unfold paths at hp
      rw [if_neg (ne hl hf)] at hp
      obtain ⟨ps', h1, h2, _⟩ := foldlM_has hp l (mem_incoming.mpr ⟨hl, rfl⟩)
      rw [hs] at h1
      obtain ⟨r0, hr0, hsrc⟩ := ih h0 hs0 hf0 h1
      obtain ⟨r, hr, he⟩ := h2 r0 hr0
      refine ⟨r, hr, fun a ha => ?_⟩
      obtain ⟨b, hb, e⟩ := src he ha
      rw [← e]
      rcases List.mem_append.mp hb with hb | hb
      · exact (hsrc b hb).imp id (List.mem_cons_of_mem _)
      · rw [List.mem_singleton] at hb
        rw [hb, hs]
        exact .inr List.mem_cons_self

/-- A definite predecessor is on every path to the field. -/
theorem definite_ok (W : WellFormed P) {fs : List Field} (h : Path P.m.msg fs l.source) (hl : l ∈ P.m.msg.links) (ht : l.target = f)
    (hf : f ∈ P.m.msg.fields) : ∃ ds, P.definite f = .ok ds ∧ ∀ g ∈ ds, g ∈ fs := by
  have hlt := List.idxOf_lt_length_of_mem hf
  obtain ⟨ps, hp⟩ := paths_total W (P.m.msg.fields.length + 2) f (.inr ⟨hf, by omega⟩)
  refine ⟨P.m.msg.fields.filter fun g => ps.all fun p => p.any fun l => g == l.source, ?_, ?_⟩
  · simp only [Pkg.definite, definitePredecessors, hp, bind, Except.bind]
    rfl
  · intro g hg
    rw [List.mem_filter, List.all_eq_true] at hg
    obtain ⟨r, hr, hsrc⟩ := paths_sources W h hl rfl (ht ▸ fun h => W.final (h ▸ hf)) (ht ▸ hp)
    obtain ⟨a, ha, e⟩ := List.any_eq_true.mp (hg.2 r hr)
    have e : g = a.source := by simpa using e
    rcases hsrc a ha with h | h
    · exact absurd (e.trans h ▸ hg.1) W.initial
    · exact e ▸ h

end

end Verif.Ctx
