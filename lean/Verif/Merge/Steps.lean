import Verif.Merge.Lemmas

/-! # Lemmas about replacing one field -/

namespace Verif.Merge
open Verif Verif.Graph Verif.Verify

/-! ## Names of the embedded message -/

/-- The link of the embedded message for a link of the message that is embedded. -/
structure Prefixed (pre : PyStr) (l l' : Link) : Prop where
  source : (l.source = INITIAL ∧ l'.source = INITIAL) ∨ (l.source ≠ INITIAL ∧ prefixField pre l.source = .ok l'.source)
  target : (l.target = FINAL ∧ l'.target = FINAL) ∨ (l.target ≠ FINAL ∧ prefixField pre l.target = .ok l'.target)

theorem prefixLink_ok {h : List PyStr → Int} {pre : PyStr} {pkg : ID} {fs : List Field} {l l' : Link}
    (hl : prefixLink h pre pkg fs l = .ok l') : Prefixed pre l l' ∧ prefixedExpr h pre pkg fs l.condition = .ok l'.condition ∧
      prefixedExpr h pre pkg fs l.size = .ok l'.size ∧ prefixedExpr h pre pkg fs l.first = .ok l'.first := by
  simp only [prefixLink, bind, Except.bind, pure, Except.pure] at hl
  split at hl
  · cases hl
  rename_i a ha
  split at hl
  · cases hl
  rename_i b hb
  split at hl
  · cases hl
  rename_i c hc
  split at hl
  · cases hl
  rename_i d hd
  split at hl
  · cases hl
  rename_i e he
  cases hl
  refine ⟨⟨?_, ?_⟩, hc, hd, he⟩
  · split at ha
    · rename_i h1; cases ha; exact .inl ⟨h1, rfl⟩
    · rename_i h1; exact .inr ⟨h1, ha⟩
  · split at hb
    · rename_i h1; cases hb; exact .inl ⟨h1, rfl⟩
    · rename_i h1; exact .inr ⟨h1, hb⟩

theorem prefixed_ok {h : List PyStr → Int} {k : Nat} {m inner : UMsg} {pre : PyStr} (hp : m.prefixed h k pre = .ok inner) :
    ∃ pkg links types, m.id.parent = .ok pkg ∧ m.links.mapM (prefixLink h pre pkg (m.types.map (·.1))) = .ok links ∧
      (m.types.mapM fun e => do return (← prefixField pre e.1, e.2)) = .ok types ∧ create k m.id links types = .ok inner := by
  simp only [UMsg.prefixed, bind, Except.bind] at hp
  split at hp
  · cases hp
  rename_i pkg hpkg
  split at hp
  · cases hp
  rename_i links hlinks
  split at hp
  · cases hp
  rename_i types htypes
  exact ⟨pkg, links, types, hpkg, hlinks, htypes, hp⟩

theorem typed_ok {pre : PyStr} {ts types : List (Field × UTy)}
    (h : (ts.mapM fun e => do return (← prefixField pre e.1, e.2)) = Except.ok (ε := PyErr) types) :
    (∀ e ∈ ts, ∃ e' ∈ types, prefixField pre e.1 = .ok e'.1 ∧ e'.2 = e.2) ∧
      ∀ e' ∈ types, ∃ e ∈ ts, prefixField pre e.1 = .ok e'.1 ∧ e'.2 = e.2 := by
  have hs : ∀ e e' : Field × UTy, (do return (← prefixField pre e.1, e.2) : Py (Field × UTy)) = .ok e' →
      prefixField pre e.1 = .ok e'.1 ∧ e'.2 = e.2 := by
    intro e e' h
    simp only [bind, Except.bind, pure, Except.pure] at h
    split at h
    · cases h
    · rename_i v hv; cases h; exact ⟨hv, rfl⟩
  obtain ⟨h1, h2⟩ := mapM_mem h
  refine ⟨fun e he => ?_, fun e' he' => ?_⟩
  · obtain ⟨e', he', g⟩ := h1 e he
    exact ⟨e', he', hs _ _ g⟩
  · obtain ⟨e, he, g⟩ := h2 e' he'
    exact ⟨e, he, hs _ _ g⟩

/-- What is known about the message with prefixed names. -/
structure Inner (f : Field) (m inner : UMsg) : Prop where
  facts : ∃ typed, Facts inner typed
  final : ∀ q ∈ inner.links, q.source ≠ FINAL
  start : ∃ i, outgoing inner.links INITIAL = [i] ∧ i.target ≠ FINAL

theorem prefixed_inner {h : List PyStr → Int} {k : Nat} {m inner : UMsg} {f : Field}
    (hp : m.prefixed h k (fieldPrefix f) = .ok inner) (hm : m.types ≠ []) : Inner f m inner := by
  obtain ⟨pkg, links, types, _, hl, ht, hc⟩ := prefixed_ok hp
  obtain ⟨t1, t2⟩ := typed_ok ht
  obtain ⟨l1, l2⟩ := mapM_mem hl
  obtain ⟨e, he⟩ := List.exists_mem_of_ne_nil _ hm
  obtain ⟨e', he', hn, _⟩ := t1 e he
  have hF := create_facts hc (.inl (List.ne_nil_of_mem he'))
  obtain ⟨_, hlinks, _, _⟩ := create_ok hc
  have hfinal : ∀ q ∈ inner.links, q.source ≠ FINAL := by
    intro q hq
    rw [hlinks] at hq
    obtain ⟨l, _, hl⟩ := l2 q hq
    rcases (prefixLink_ok hl).1.source with ⟨_, h⟩ | ⟨_, h⟩
    · rw [h]; decide
    · exact (prefixField_ne h).2
  obtain ⟨l, hl, hle⟩ := hF.used e'.1 (List.mem_map_of_mem he') (prefixField_ne hn).2
  obtain ⟨i, hi⟩ := hF.start (List.ne_nil_of_mem hl)
  refine ⟨⟨_, hF⟩, hfinal, i, hi, ?_⟩
  intro hif
  have hstuck : ∀ {p : List Link} {g : Field}, Path inner.links INITIAL p g → g = INITIAL ∨ g = FINAL := by
    intro p g hpath
    induction hpath with
    | nil => exact .inl rfl
    | @snoc p l _ hl ih =>
      rcases ih with ih | ih
      · have : l ∈ outgoing inner.links INITIAL := mem_outgoing.mpr ⟨hl, ih⟩
        rw [hi] at this
        rw [List.mem_singleton.mp this, hif]
        exact .inr rfl
      · exact absurd ih (hfinal l hl)
  have hne := prefixField_ne hn
  obtain ⟨⟨p1, r1⟩, ⟨p2, r2⟩⟩ := hF.reach l hl
  rcases hle with hle | hle
  · rcases hstuck r1 with h | h
    · exact hne.1 (hle ▸ h)
    · exact hne.2 (hle ▸ h)
  · rcases hstuck r2 with h | h
    · exact hne.1 (hle ▸ h)
    · exact hne.2 (hle ▸ h)

/-! ## One field -/

/-- The link out of the field and the last link of the embedded message are kept together. -/
def Kept (s : Solver) (k : Nat) (inner : UMsg) (o q : Link) : Prop :=
  ¬ ∃ fs, exitFacts k inner o q = .ok fs ∧ s.check (exitCondition o q :: fs) = .ok .unsat

theorem exitLink_ok {s : Solver} {k : Nat} {inner : UMsg} {o q : Link} {r : List Link} (h : exitLink s k inner o q = .ok r)
    (l' : Link) : l' ∈ r ↔ Kept s k inner o q ∧ ∃ c, (exitCondition o q).simplified = .ok c ∧
      l' = ⟨q.source, o.target, c, o.size, o.first⟩ := by
  simp only [exitLink, bind, Except.bind, pure, Except.pure] at h
  split at h
  · cases h
  rename_i fs hfs
  split at h
  · cases h
  rename_i r' hr'
  split at h
  · rename_i hu
    cases h
    simp only [beq_iff_eq] at hu
    simp only [List.not_mem_nil, false_iff, not_and]
    intro hk
    exact absurd ⟨fs, hfs, by rw [hr', hu]⟩ hk
  · rename_i hu
    split at h
    · cases h
    rename_i c hc
    cases h
    simp only [List.mem_singleton]
    constructor
    · rintro rfl
      refine ⟨?_, c, hc, rfl⟩
      rintro ⟨fs', h1, h2⟩
      rw [hfs] at h1; cases h1
      rw [hr'] at h2; cases h2
      exact hu rfl
    · rintro ⟨_, c', hc', rfl⟩
      rw [hc] at hc'; cases hc'; rfl

theorem linkImages_ok {s : Solver} {k : Nat} {f : Field} {inner : UMsg} {i l : Link} {r : List Link}
    (hi : outgoing inner.links INITIAL = [i]) (h : linkImages s k f inner l = .ok r) (l' : Link) : l' ∈ r ↔
    (l.target = f ∧ l' = enterLink l i) ∨
    (l.target ≠ f ∧ l.source = f ∧ ∃ q ∈ inner.links, q.target = FINAL ∧ Kept s k inner l q ∧
      ∃ c, (exitCondition l q).simplified = .ok c ∧ l' = ⟨q.source, l.target, c, l.size, l.first⟩) ∨
    (l' = l ∧ l.target ≠ f ∧ l.source ≠ f) := by
  simp only [linkImages] at h
  split at h
  · rename_i ht
    rw [hi] at h
    cases h
    simp [ht]
  · rename_i ht
    split at h
    · rename_i hs
      obtain ⟨h1, h2⟩ := mem_concatMap h
      rw [h2]
      constructor
      · rintro ⟨q, hq, x, hx, hl'⟩
        rw [mem_incoming] at hq
        obtain ⟨g1, g2⟩ := (exitLink_ok hx l').mp hl'
        exact .inr (.inl ⟨ht, hs, q, hq.1, hq.2, g1, g2⟩)
      · rintro (⟨g, _⟩ | ⟨_, _, q, hq, hqf, hk, hc⟩ | ⟨_, _, g⟩)
        · exact absurd g ht
        · have hq' := mem_incoming.mpr ⟨hq, hqf⟩
          obtain ⟨x, hx⟩ := h1 q hq'
          exact ⟨q, hq', x, hx, (exitLink_ok hx l').mpr ⟨hk, hc⟩⟩
        · exact absurd hs g
    · rename_i hs
      cases h
      simp [ht, hs]

theorem mergeField_ok {s : Solver} {h : List PyStr → Int} {k : Nat} {m im m' : UMsg} {f : Field}
    (hm : mergeField s h k m f im = .ok m') : ∃ inner outer links types, im.prefixed h k (fieldPrefix f) = .ok inner ∧
      (∀ e ∈ m.types, ∀ e' ∈ inner.types, e.1 ≠ e'.1) ∧ concatMap (linkImages s k f inner) m.links = .ok outer ∧
      prune (outer ++ inner.links.filter fun l => l.target != FINAL && l.source != INITIAL)
        (m.types.filter (fun e => e.1 != f) ++ inner.types) = .ok (links, types) ∧ links ≠ [] ∧
      create k m.id links types = .ok m' := by
  simp only [mergeField, bind, Except.bind] at hm
  split at hm
  · cases hm
  rename_i inner hinner
  split at hm
  · cases hm
  rename_i hconf
  split at hm
  · cases hm
  rename_i outer houter
  split at hm
  · cases hm
  rename_i r hr
  split at hm
  · cases hm
  rename_i he
  refine ⟨inner, outer, r.1, r.2, hinner, ?_, houter, hr, ?_, hm⟩
  · intro e he e' he' heq
    apply hconf
    simp only [List.any_eq_true, beq_iff_eq]
    exact ⟨e, he, e', he', heq⟩
  · intro hn
    simp [hn] at he

/-- The links of the message with one more field replaced. -/
theorem mergeField_insertion {s : Solver} {h : List PyStr → Int} {k : Nat} {m im m' : UMsg} {f : Field} (hm : m.Created)
    (hf : ∃ t, (f, t) ∈ m.types) (him : im.types ≠ []) (hmf : mergeField s h k m f im = .ok m') :
    f ≠ INITIAL ∧ ∃ inner i N, im.prefixed h k (fieldPrefix f) = .ok inner ∧
      Insertion m.links inner.links N f (Kept s k inner) i ∧
      ∀ a p, Walk m'.links a p FINAL ↔ Walk N a p FINAL := by
  obtain ⟨t, hf⟩ := hf
  obtain ⟨inner, outer, links, types, hinner, hdisj, houter, hprune, _, hcreate⟩ := mergeField_ok hmf
  obtain ⟨tm, Fm⟩ := Created.facts hm (List.ne_nil_of_mem hf)
  have I := prefixed_inner hinner him
  obtain ⟨ti, Fi⟩ := I.facts
  obtain ⟨i, hi, hif⟩ := I.start
  have himem : i ∈ inner.links ∧ i.source = INITIAL := mem_outgoing.mp (by rw [hi]; simp)
  obtain ⟨_, hlinks, _, _⟩ := create_ok hcreate
  obtain ⟨h1, h2⟩ := mem_concatMap houter
  -- a field of the inner message is no end of a link of the outer message
  have hsep : ∀ g ∈ inner.types.map (·.1), ∀ l ∈ m.links, l.source ≠ g ∧ l.target ≠ g := by
    intro g hg l hl
    have hne := Fi.names g hg
    obtain ⟨e', he', rfl⟩ := List.mem_map.mp hg
    have key : ∀ x : Field, (x = INITIAL ∨ x = FINAL ∨ x ∈ m.types.map (·.1)) → x ≠ e'.1 := by
      rintro x (rfl | rfl | hx)
      · exact Ne.symm hne.1
      · exact Ne.symm hne.2
      · obtain ⟨e, he, rfl⟩ := List.mem_map.mp hx
        exact hdisj e he e' he'
    exact ⟨key _ (Fm.ends l hl).1, key _ (Fm.ends l hl).2⟩
  refine ⟨(Fm.names f (List.mem_map.mpr ⟨_, hf, rfl⟩)).1, inner, i,
    outer ++ inner.links.filter fun l => l.target != FINAL && l.source != INITIAL, hinner, ?_, ?_⟩
  rotate_left
  · -- pruning
    simp only [prune, bind, Except.bind, pure, Except.pure] at hprune
    split at hprune
    · cases hprune
    rename_i r hr
    simp only [Except.ok.injEq, Prod.mk.injEq] at hprune
    obtain ⟨rfl, rfl⟩ := hprune
    obtain ⟨_, _, h3⟩ := pruneLoop_paths _ hr (by simp)
    rw [hlinks]
    exact h3
  · refine ⟨?_, ?_, ?_, ?_, I.final, Fi.noInitial, ⟨himem.1, himem.2, hif⟩, ?_⟩
    · intro l'
      simp only [List.mem_append, h2, List.mem_filter, Bool.and_eq_true, bne_iff_ne, ne_eq]
      constructor
      · rintro (⟨l, hl, x, hx, hl'⟩ | ⟨g1, g2, g3⟩)
        · rcases (linkImages_ok hi hx l').mp hl' with ⟨g1, g2⟩ | ⟨g1, g2, g3⟩ | ⟨rfl, g1, g2⟩
          · exact .inl ⟨l, hl, g1, g2⟩
          · exact .inr (.inl ⟨l, hl, g1, g2, g3⟩)
          · exact .inr (.inr (.inl ⟨hl, g1, g2⟩))
        · exact .inr (.inr (.inr ⟨g1, g2, g3⟩))
      · rintro (⟨l, hl, g1, g2⟩ | ⟨l, hl, g1, g2, g3⟩ | ⟨hl, g1, g2⟩ | g)
        · obtain ⟨x, hx⟩ := h1 l hl
          exact .inl ⟨l, hl, x, hx, (linkImages_ok hi hx l').mpr (.inl ⟨g1, g2⟩)⟩
        · obtain ⟨x, hx⟩ := h1 l hl
          exact .inl ⟨l, hl, x, hx, (linkImages_ok hi hx l').mpr (.inr (.inl ⟨g1, g2, g3⟩))⟩
        · obtain ⟨x, hx⟩ := h1 l' hl
          exact .inl ⟨l', hl, x, hx, (linkImages_ok hi hx l').mpr (.inr (.inr ⟨rfl, g1, g2⟩))⟩
        · exact .inr g
    · intro l hl hs ht
      have := Path.single hl
      rw [hs, ht] at this
      exact Fm.acyclic f ⟨_, by simp, this⟩
    · intro q hq hqi
      rcases (Fi.ends q hq).1 with h | h | h
      · exact absurd h hqi
      · exact absurd h (I.final q hq)
      · exact hsep _ h
    · intro q hq hqf
      rcases (Fi.ends q hq).2 with h | h | h
      · exact absurd h (Fi.noInitial q hq)
      · exact absurd h hqf
      · exact hsep _ h
    · intro q hq hqi
      have : q ∈ outgoing inner.links INITIAL := mem_outgoing.mpr ⟨hq, hqi⟩
      rw [hi] at this
      exact List.mem_singleton.mp this

theorem Expands.mono {f : Field} {inner : List Link} {K K' : Link → Link → Prop} (hK : ∀ o q, K o q → K' o q)
    {p p' : List Link} {qs : List (List Link)} (h : Expands f inner K p p' qs) : Expands f inner K' p p' qs := by
  induction h with
  | nil => exact .nil
  | keep h1 h2 _ ih => exact .keep h1 h2 ih
  | pass h1 h2 h3 h4 h5 h6 _ ih => exact .pass h1 h2 h3 h4 (hK _ _ h5) h6 ih

end Verif.Merge
