import Verif.SpecParser.ImportSort

/-! # Property C41: specification files are read completely, cycles are reported, the order respects dependencies -/

namespace Verif.SpecParser
open Verif

/-! ## Specification -/

/-- The specification in `f` has a `with` clause for the package in `g` (files are looked up in the same directory). -/
def Withs (fs : Files) (f g : Path) : Prop := ∃ s i, fs f = .spec s ∧ i ∈ s.context ∧ g = ⟨f.dir, rflx i.str⟩

/-- `g` is included by `f` directly or indirectly (or is `f`). -/
inductive Includes (fs : Files) (f : Path) : Path → Prop
  | refl : Includes fs f f
  | step {g h : Path} : Includes fs f g → Withs fs g h → Includes fs f h

/-- `parse` returns without raising an exception and the specifications are then `d`, in this order. -/
def Parses (fs : Files) (files : List Path) (d : Specs) : Prop := ∃ k, parse fs k files = .ok d

/-- `parse` does not return. -/
def Hangs (fs : Files) (files : List Path) : Prop := ∀ k, parse fs k files = .error .fuel

/-! ## Lemmas -/

theorem Good.ordered {fs : Files} {d : Specs} (h : Good fs d) : Ordered d := ⟨h.nodup, h.order⟩

theorem good_nil (fs : Files) : Good fs [] := ⟨by simp [Specs.keys], by simp, by simp, by simp⟩

theorem Good.closed {fs : Files} {d : Specs} (h : Good fs d) {k : PyStr} {n : Node} (hm : (k, n) ∈ d) :
    ∀ w ∈ n.withed, w ∈ d.keys := by
  obtain ⟨xs, ys, he⟩ := List.append_of_mem hm
  intro w hw
  have := h.order xs k n ys he w hw
  rw [he]
  simp only [Specs.keys, List.map_append, List.mem_append] at this ⊢
  exact .inl this

theorem parse_ok {fs : Files} {k : Nat} {files : List Path} {d : Specs} (h : parse fs k files = .ok d) :
    ∃ d0, parseFiles fs k files [] [] = .ok ([], d0) ∧ sortSpecs d0 k = .ok d := by
  simp only [parse] at h
  cases hp : parseFiles fs k files [] [] with
  | error e => rw [hp] at h; cases h
  | ok r =>
    obtain ⟨es, d0⟩ := r
    rw [hp] at h
    have h' : (do let specs ← sortSpecs d0 k; if es.isEmpty then return specs else .error .recordFlux : Py Specs) = .ok d := h
    cases hs : sortSpecs d0 k with
    | error e => rw [hs] at h'; cases h'
    | ok d1 =>
      rw [hs] at h'
      have h'' : (if es.isEmpty then .ok d1 else .error .recordFlux : Py Specs) = .ok d := h'
      split at h''
      · rename_i he
        rw [List.isEmpty_iff] at he
        subst he
        exact ⟨d0, rfl, by rw [hs]; exact h''⟩
      · cases h''

theorem sortLoop_mono {d : Specs} (k : Nat) : ∀ k' q r v x, k ≤ k' → sortLoop d k q r v = .ok x → sortLoop d k' q r v = .ok x := by
  induction k with
  | zero =>
    intro k' q r v x _ h
    cases q with
    | nil => cases k' <;> exact h
    | cons a q => simp [sortLoop] at h
  | succ k ih =>
    intro k' q r v x hk h
    obtain ⟨k', rfl⟩ : ∃ j, k' = j + 1 := ⟨k' - 1, by omega⟩
    cases q with
    | nil => exact h
    | cons a q =>
      simp only [sortLoop] at h ⊢
      cases hg : d.get? a with
      | none => rw [hg] at h; cases h
      | some n =>
        rw [hg] at h
        exact ih _ _ _ _ _ (by omega) h

theorem sortSpecs_mono {d d' : Specs} {k k' : Nat} (hk : k ≤ k') (h : sortSpecs d k = .ok d') : sortSpecs d k' = .ok d' := by
  simp only [sortSpecs] at h ⊢
  cases hs : sortLoop d k (d.keys.filter fun f => (incoming d f).isEmpty) [] (d.keys.filter fun f => (incoming d f).isEmpty) with
  | error e => rw [hs] at h; cases h
  | ok x =>
    rw [hs] at h
    rw [sortLoop_mono k k' _ _ _ _ hk hs]
    exact h

/-- All specifications are in a directory. -/
def AllDir (dir : PyStr) (d : Specs) : Prop := ∀ k n, (k, n) ∈ d → n.filename.dir = dir

theorem contextLoop_dir {rec : Path → List ID → Specs → Py (List Err × Specs)} {dir : PyStr}
    (hrec : ∀ f tr d es d', rec f tr d = .ok (es, d') → f.dir = dir → AllDir dir d → AllDir dir d') {tr : List ID}
    (items : List ID) : ∀ errs withed d es w d', contextLoop rec dir tr items errs withed d = .ok (es, w, d') →
      AllDir dir d → AllDir dir d' := by
  induction items with
  | nil =>
    intro errs withed d es w d' h hd
    simp only [contextLoop, Except.ok.injEq, Prod.mk.injEq] at h
    rw [← h.2.2]; exact hd
  | cons i items ih =>
    intro errs withed d es w d' h hd
    simp only [contextLoop] at h
    split at h
    · exact ih _ _ _ _ _ _ h hd
    · split at h
      · exact ih _ _ _ _ _ _ h hd
      · cases hr : rec ⟨dir, rflx i.str⟩ (tr ++ [i]) d with
        | error e => rw [hr] at h; cases h
        | ok r =>
          obtain ⟨es1, d1⟩ := r
          rw [hr] at h
          exact ih _ _ _ _ _ _ h (hrec _ _ _ _ _ hr rfl hd)

theorem parseFile_dir {fs : Files} {dir : PyStr} (k : Nat) : ∀ f tr d es d', parseFile fs k f tr d = .ok (es, d') →
    f.dir = dir → AllDir dir d → AllDir dir d' := by
  induction k with
  | zero => intro f tr d es d' h; simp [parseFile] at h
  | succ k ih =>
    intro f tr d es d' h hf hd
    simp only [parseFile] at h
    split at h
    · simp only [Except.ok.injEq, Prod.mk.injEq] at h; rw [← h.2]; exact hd
    · simp only [Except.ok.injEq, Prod.mk.injEq] at h; rw [← h.2]; exact hd
    · rename_i s hs
      cases hc : contextLoop (parseFile fs k) f.dir tr s.context (checkNaming s f) [] d with
      | error e => rw [hc] at h; cases h
      | ok r =>
        obtain ⟨es1, w, d1⟩ := r
        rw [hc] at h
        have h' : (.ok (es1 ++ (match Specs.get? d1 (rflx s.package) with
            | some n => if f ≠ n.filename then [Err.duplicate s.package] else []
            | none => []), d1.set (rflx s.package) ⟨f, s, w⟩) : Py (List Err × Specs)) = .ok (es, d') := h
        simp only [Except.ok.injEq, Prod.mk.injEq] at h'
        obtain ⟨_, rfl⟩ := h'
        subst hf
        have h1 := contextLoop_dir ih _ _ _ _ _ _ _ hc hd
        intro k' n' hm
        rcases mem_set hm with hm | hm
        · exact h1 _ _ hm
        · simp only [Prod.mk.injEq] at hm
          rw [hm.2]

theorem parseFiles_dir {fs : Files} {dir : PyStr} {k : Nat} (files : List Path) : ∀ errs d es d',
    parseFiles fs k files errs d = .ok (es, d') → (∀ f ∈ files, f.dir = dir) → AllDir dir d → AllDir dir d' := by
  induction files with
  | nil =>
    intro errs d es d' h _ hd
    simp only [parseFiles, Except.ok.injEq, Prod.mk.injEq] at h
    rw [← h.2]; exact hd
  | cons f files ih =>
    intro errs d es d' h hf hd
    simp only [parseFiles] at h
    cases hr : parseFile fs k f [] d with
    | error e => rw [hr] at h; cases h
    | ok r =>
      obtain ⟨es1, d1⟩ := r
      rw [hr] at h
      exact ih _ _ _ _ h (fun g hg => hf g (by simp [hg])) (parseFile_dir k _ _ _ _ _ hr (hf f (by simp)) hd)

theorem parses_spec {fs : Files} (hne : ∀ f, fs f ≠ .empty) {files : List Path} {d : Specs} (h : Parses fs files d) :
    ∃ d0, Good fs d0 ∧ (∀ f ∈ files, f.name ∈ d0.keys) ∧ d.keys.Nodup ∧ (∀ e, e ∈ d ↔ e ∈ d0) ∧
      (∀ s n, (s, n) ∈ d0 → ∀ e ∈ n.withed, Before d.keys e s) ∧
      ∀ dir, (∀ f ∈ files, f.dir = dir) → AllDir dir d0 := by
  obtain ⟨k, h⟩ := h
  obtain ⟨d0, h1, h2⟩ := parse_ok h
  obtain ⟨hg, _, hf⟩ := parseFiles_ok hne _ _ _ _ h1 (good_nil fs)
  obtain ⟨d', K, h3, h4, h5, h6⟩ := sortSpecs_ok hg.ordered
  have : d' = d := by
    have e1 := h3 (max k K) (by omega)
    rw [sortSpecs_mono (by omega) h2] at e1
    simpa using e1.symm
  subst this
  exact ⟨d0, hg, hf, h4, h5, fun s n hs e he => h6 s n hs e he (hg.closed hs e he),
    fun dir hd => parseFiles_dir _ _ _ _ _ h1 hd (fun _ _ h => nomatch h)⟩

/-! ## C41 -/

/-- If `parse` succeeds, every given file and every withed package is among the specifications, once, and every package
comes after the packages it depends on. -/
theorem C41_order (fs : Files) (hne : ∀ f, fs f ≠ .empty) (files : List Path) (d : Specs) (h : Parses fs files d) :
    d.keys.Nodup ∧ (∀ f ∈ files, f.name ∈ d.keys) ∧
    ∀ k n, (k, n) ∈ d → fs n.filename = .spec n.spec ∧ n.filename.name = k ∧
      ∀ i ∈ n.spec.context, Before d.keys (rflx i.str) k := by
  obtain ⟨d0, hg, hf, h1, h2, h3, _⟩ := parses_spec hne h
  refine ⟨h1, ?_, ?_⟩
  · intro f hfm
    obtain ⟨n, hn⟩ := mem_keys.mp (hf f hfm)
    exact mem_keys.mpr ⟨n, (h2 _).mpr hn⟩
  · intro k n hm
    have hm0 := (h2 _).mp hm
    obtain ⟨e1, e2, e3⟩ := hg.entry k n hm0
    refine ⟨e1, e2, ?_⟩
    intro i hi
    exact h3 k n hm0 _ (by rw [e3]; exact List.mem_map.mpr ⟨i, hi, rfl⟩)

/-- A dependency cycle among the files that belong to the given ones (all in one directory) makes `parse` fail. -/
theorem C41_cycle_reported (fs : Files) (hne : ∀ f, fs f ≠ .empty) (dir : PyStr) (files : List Path)
    (hdir : ∀ f ∈ files, f.dir = dir) (f g h : Path) (hf : f ∈ files) (h1 : Includes fs f g) (h2 : Withs fs g h)
    (h3 : Includes fs h g) (d : Specs) : ¬ Parses fs files d := by
  intro hp
  obtain ⟨d0, hg, hfk, _, _, _, hd⟩ := parses_spec hne hp
  have hd := hd dir hdir
  have hstep : ∀ a b, Withs fs a b → a.dir = dir → a.name ∈ d0.keys →
      b.dir = dir ∧ b.name ∈ d0.keys ∧ rank d0 b.name < rank d0 a.name := by
    rintro a b ⟨s, i, h4, h5, rfl⟩ ha hk
    obtain ⟨n, hn⟩ := mem_keys.mp hk
    obtain ⟨e1, e2, e3⟩ := hg.entry _ _ hn
    have : n.filename = a := by
      have e4 := hd _ _ hn
      cases hnf : n.filename
      cases a
      simp_all
    rw [this, h4] at e1
    have e5 : s = n.spec := by injection e1
    have hw : rflx i.str ∈ n.withed := by rw [e3, ← e5]; exact List.mem_map.mpr ⟨i, h5, rfl⟩
    exact ⟨ha, hg.closed hn _ hw, rank_lt hg.ordered hn hw⟩
  have hinc : ∀ a b, Includes fs a b → a.dir = dir → a.name ∈ d0.keys →
      b.dir = dir ∧ b.name ∈ d0.keys ∧ rank d0 b.name ≤ rank d0 a.name := by
    intro a b hi ha hk
    induction hi with
    | refl => exact ⟨ha, hk, Nat.le_refl _⟩
    | step _ hw ih =>
      obtain ⟨i1, i2, i3⟩ := ih
      obtain ⟨j1, j2, j3⟩ := hstep _ _ hw i1 i2
      exact ⟨j1, j2, by omega⟩
  obtain ⟨a1, a2, _⟩ := hinc _ _ h1 (hdir f hf) (hfk f hf)
  obtain ⟨b1, b2, b3⟩ := hstep _ _ h2 a1 a2
  obtain ⟨_, _, c3⟩ := hinc _ _ h3 b1 b2
  omega

/-- Reading files ends, and if no error was found, so does `parse`, successfully. Missing: `parse` may not return if
errors were found, see the counterexample. -/
theorem C41_terminates_partial (fs : Files) (hne : ∀ f, fs f ≠ .empty) (items : List ID)
    (hfin : ∀ f s, fs f = .spec s → ∀ i ∈ s.context, ∃ j ∈ items, i.eq j = true) (files : List Path) :
    ∃ errs d0 K, (∀ k, K ≤ k → parseFiles fs k files [] [] = .ok (errs, d0)) ∧
      (errs = [] → ∃ d, Parses fs files d) := by
  obtain ⟨⟨errs, d0⟩, h1⟩ := parseFiles_returns (fs := fs) (items := items) hfin files [] []
  refine ⟨errs, d0, items.length + 1, fun k hk => h1 k (by omega), ?_⟩
  rintro rfl
  have h2 := h1 (items.length + 1) (by omega)
  obtain ⟨hg, _, hf⟩ := parseFiles_ok hne _ _ _ _ h2 (good_nil fs)
  obtain ⟨d', K, h3, _⟩ := sortSpecs_ok hg.ordered
  refine ⟨d', max (items.length + 1) K, ?_⟩
  simp only [parse, h1 (max (items.length + 1) K) (by omega)]
  show (do let specs ← sortSpecs d0 (max (items.length + 1) K); _) = _
  rw [h3 _ (by omega)]
  rfl

/-! ## Examples -/

/-- A package of one letter. -/
def pk (c : Char) : ID := ⟨[[c]]⟩

/-- The file of a package of one letter. -/
def file (c : Char) : Path := ⟨[], rflx [c]⟩

/-- `A` and `B` depend on `C`, `S` depends on `A` and `B`. -/
def exDiamond : Files := fun f =>
  if f = file 'A' then .spec ⟨['A'], [pk 'C'], false⟩
  else if f = file 'B' then .spec ⟨['B'], [pk 'C'], false⟩
  else if f = file 'C' then .spec ⟨['C'], [], false⟩
  else if f = file 'S' then .spec ⟨['S'], [pk 'A', pk 'B'], false⟩
  else .bad

example : (∀ f, exDiamond f ≠ .empty) ∧ (∃ d, Parses exDiamond [file 'S', file 'B'] d ∧
      d.keys = [rflx ['C'], rflx ['B'], rflx ['A'], rflx ['S']]) ∧
    (∀ f s, exDiamond f = .spec s → ∀ i ∈ s.context, ∃ j ∈ [pk 'A', pk 'B', pk 'C'], i.eq j = true) := by
  refine ⟨?_, ⟨_, ⟨9, rfl⟩, rfl⟩, ?_⟩
  · intro f
    unfold exDiamond
    repeat (first | split | simp)
  · intro f s
    unfold exDiamond
    repeat (first | split | (intro h; cases h <;> decide))

/-- `A` and `B` depend on each other, `S` depends on both. -/
def exCycle : Files := fun f =>
  if f = file 'A' then .spec ⟨['A'], [pk 'B'], false⟩
  else if f = file 'B' then .spec ⟨['B'], [pk 'A'], false⟩
  else if f = file 'S' then .spec ⟨['S'], [pk 'A', pk 'B'], false⟩
  else .bad

example : (∀ f, exCycle f ≠ .empty) ∧ Includes exCycle (file 'S') (file 'A') ∧ Withs exCycle (file 'A') (file 'B') ∧
    Includes exCycle (file 'B') (file 'A') ∧ parse exCycle 9 [file 'S'] = .error .recordFlux := by
  have h1 : Withs exCycle (file 'S') (file 'A') := ⟨⟨['S'], [pk 'A', pk 'B'], false⟩, pk 'A', rfl, by simp, rfl⟩
  have h2 : Withs exCycle (file 'A') (file 'B') := ⟨⟨['A'], [pk 'B'], false⟩, pk 'B', rfl, by simp, rfl⟩
  have h3 : Withs exCycle (file 'B') (file 'A') := ⟨⟨['B'], [pk 'A'], false⟩, pk 'A', rfl, by simp, rfl⟩
  refine ⟨?_, .step .refl h1, h2, .step .refl h3, rfl⟩
  intro f
  unfold exCycle
  repeat (first | split | simp)

/-- The dictionary after reading `A` and `S`. -/
def exStored : Specs :=
  [(rflx ['A'], ⟨file 'A', ⟨['A'], [pk 'B'], false⟩, [rflx ['B']]⟩),
   (rflx ['B'], ⟨file 'B', ⟨['B'], [pk 'A'], false⟩, [rflx ['A']]⟩),
   (rflx ['S'], ⟨file 'S', ⟨['S'], [pk 'A', pk 'B'], false⟩, [rflx ['A'], rflx ['B']]⟩)]

theorem exStored_loop (k : Nat) : ∀ r v, (∀ x ∈ [rflx ['A'], rflx ['B'], rflx ['S']], x ∈ v) →
    sortLoop exStored k [rflx ['A']] r v = .error .fuel ∧ sortLoop exStored k [rflx ['B']] r v = .error .fuel := by
  induction k with
  | zero => intro r v _; exact ⟨rfl, rfl⟩
  | succ k ih =>
    intro r v hv
    have ha : incoming exStored (rflx ['A']) = [rflx ['B'], rflx ['S']] := rfl
    have hb : incoming exStored (rflx ['B']) = [rflx ['A'], rflx ['S']] := rfl
    have hk : Specs.keys exStored = [rflx ['A'], rflx ['B'], rflx ['S']] := rfl
    have ga : Specs.get? exStored (rflx ['A']) = some ⟨file 'A', ⟨['A'], [pk 'B'], false⟩, [rflx ['B']]⟩ := rfl
    have gb : Specs.get? exStored (rflx ['B']) = some ⟨file 'B', ⟨['B'], [pk 'A'], false⟩, [rflx ['A']]⟩ := rfl
    simp only [List.mem_cons, List.not_mem_nil, or_false, forall_eq_or_imp, forall_eq] at hv
    obtain ⟨v1, v2, v3⟩ := hv
    simp only [sortLoop, ga, gb, visitAll, ha, hb, hk]
    constructor
    · rw [if_pos (by simp [v1, v3])]
      exact (ih _ _ (by simp [v1, v3])).2
    · rw [if_pos (by simp [v2, v3])]
      exact (ih _ _ (by simp [v2, v3])).1

theorem exStored_sort : ∀ k, sortSpecs exStored k = .error .fuel
  | 0 => rfl
  | k + 1 => by
    have : sortSpecs exStored (k + 1) = (sortLoop exStored k [rflx ['B']] [rflx ['S']]
        [rflx ['B'], rflx ['A'], rflx ['S']]).bind fun result => (firsts result).mapM fun f =>
          match Specs.get? exStored f with
          | some n => .ok (f, n)
          | none => .error .keyError := rfl
    rw [this, (exStored_loop k _ _ (by simp)).2]
    rfl

theorem exStored_read (k : Nat) : ∃ es, parseFiles exCycle (k + 3) [file 'A', file 'S'] [] [] = .ok (es, exStored) :=
  ⟨_, rfl⟩

/-- A cycle is not always reported: `parse` sorts before it raises the errors, and the sort does not end if a package
outside of the cycle depends on all packages in the cycle, and the given files start with one in the cycle. -/
theorem C41_hang_counterexample : Withs exCycle (file 'A') (file 'B') ∧ Withs exCycle (file 'B') (file 'A') ∧
    Hangs exCycle [file 'A', file 'S'] := by
  refine ⟨⟨⟨['A'], [pk 'B'], false⟩, pk 'B', rfl, by simp, rfl⟩, ⟨⟨['B'], [pk 'A'], false⟩, pk 'A', rfl, by simp, rfl⟩, ?_⟩
  intro k
  match k with
  | 0 => rfl
  | 1 => rfl
  | 2 => rfl
  | k + 3 =>
    obtain ⟨es, h⟩ := exStored_read k
    simp only [parse, h]
    show (sortSpecs exStored (k + 3)).bind _ = _
    rw [exStored_sort]
    rfl

/-- A file without a specification is skipped silently, and so is a dependency on it. -/
theorem C41_empty_file_counterexample :
    let fs : Files := fun f => if f = file 'S' then .spec ⟨['S'], [pk 'A'], false⟩ else .empty
    ∃ d, Parses fs [file 'S'] d ∧ d.keys = [rflx ['S']] ∧ Withs fs (file 'S') (file 'A') :=
  ⟨_, ⟨9, rfl⟩, rfl, ⟨['S'], [pk 'A'], false⟩, pk 'A', rfl, by simp, rfl⟩

end Verif.SpecParser
