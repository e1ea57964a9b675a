import Verif.Merge.Steps
import Verif.Merge.Names

/-! # Property C21: merging of embedded messages -/

namespace Verif.Merge
open Verif Verif.Graph Verif.Verify

/-! ## Specification -/

/-- The condition of a link out of the field and the condition of a last link of the embedded message can be true together, as
far as the types and the conditions of the embedded message are concerned. -/
def Compatible (k : Nat) (inner : UMsg) (o q : Link) : Prop :=
  ∃ fs M, exitFacts k inner o q = .ok fs ∧ Holds M (exitCondition o q :: fs)

/-- The complete paths of `m'` are those of `m` with each pass through `f` replaced by a complete path of `inner`. Only
paths with combinations of conditions that can never be true may be missing. -/
structure Embedded (k : Nat) (m : UMsg) (f : Field) (inner m' : UMsg) : Prop where
  sound : ∀ p', Path m'.links INITIAL p' FINAL →
    ∃ p qs, Path m.links INITIAL p FINAL ∧ Expands f inner.links (fun _ _ => True) p p' qs
  complete : ∀ p p' qs, Path m.links INITIAL p FINAL → Expands f inner.links (Compatible k inner) p p' qs →
    Path m'.links INITIAL p' FINAL

/-- No field is of message type. -/
def UMsg.Plain (m : UMsg) : Prop := ∀ e ∈ m.types, e.2.asMsg = none

/-- The message is the result of replacing fields of message type until there is none. -/
inductive Merges (h : List PyStr → Int) (k : Nat) : UMsg → UMsg → Prop
  | done {m : UMsg} : m.Plain → Merges h k m m
  | step {m m1 m' im inner : UMsg} {f : Field} : (f, im.toTy) ∈ m.types → im.prefixed h k (fieldPrefix f) = .ok inner →
      Embedded k m f inner m1 → Merges h k m1 m' → Merges h k m m'

/-! ## One field -/

/-- The complete paths after the replacement of a field. Missing: messages without fields (see the counterexamples); the types,
sizes and positions of the fields. -/
theorem C21_field_partial (s : Solver) (h : List PyStr → Int) (k : Nat) (m im m' : UMsg) (f : Field) (hm : m.Created)
    (hf : (f, im.toTy) ∈ m.types) (him : im.types ≠ []) (hmf : mergeField s h k m f im = .ok m') :
    ∃ inner, im.prefixed h k (fieldPrefix f) = .ok inner ∧ Embedded k m f inner m' := by
  obtain ⟨hfi, inner, i, N, hinner, S, hN⟩ := mergeField_insertion hm ⟨_, hf⟩ him hmf
  have hiff : ∀ p', Path m'.links INITIAL p' FINAL ↔ Path N INITIAL p' FINAL := by
    intro p'
    rw [path_walk, path_walk]
    exact hN INITIAL p'
  refine ⟨inner, hinner, ?_, ?_⟩
  · intro p' hp'
    obtain ⟨p, qs, h1, h2⟩ := (S.iff hfi p').mp ((hiff p').mp hp')
    exact ⟨p, qs, h1, h2.mono fun _ _ _ => trivial⟩
  · intro p p' qs hp hE
    refine (hiff p').mpr ((S.iff hfi p').mpr ⟨p, qs, hp, hE.mono ?_⟩)
    rintro o q ⟨fs, M, h1, h2⟩ ⟨fs', h3, h4⟩
    rw [h1] at h3
    cases h3
    exact s.unsat _ h4 ⟨M, h2⟩

/-! ## The paths of the embedded message -/

theorem walk_prefixed {h : List PyStr → Int} {pre : PyStr} {pkg : ID} {fs : List Field} {links links' : List Link}
    (hl : links.mapM (prefixLink h pre pkg fs) = .ok links')
    (hv : ∀ l ∈ links, ID.Valid l.source ∧ ID.Valid l.target) (hi : ∀ l ∈ links, l.target ≠ INITIAL)
    (hpre : ∀ g r, prefixField pre g = .ok r → r ≠ INITIAL ∧ r ≠ FINAL) {a' : Field} {q' : List Link} (hw : Walk links' a' q' FINAL) :
    ∀ a, (a = INITIAL ∧ a' = INITIAL) ∨ (a = FINAL ∧ a' = FINAL) ∨ (a ≠ INITIAL ∧ ID.Valid a ∧ prefixField pre a = .ok a') →
      (∀ l ∈ links', l.source ≠ FINAL) → ∃ q, Walk links a q FINAL ∧ q.mapM (prefixLink h pre pkg fs) = .ok q' := by
  obtain ⟨_, m2⟩ := mapM_mem hl
  generalize hb : FINAL = b at hw
  induction hw with
  | nil =>
    intro a ha _
    subst hb
    rcases ha with ⟨_, ha⟩ | ⟨rfl, _⟩ | ⟨_, _, ha⟩
    · exact absurd ha (by decide)
    · exact ⟨[], .nil, rfl⟩
    · exact absurd rfl (hpre _ _ ha).2
  | @cons l' p b hl' hw ih =>
    intro a ha hno
    subst hb
    obtain ⟨l, hlm, hll⟩ := m2 l' hl'
    have P := (prefixLink_ok hll).1
    have hsrc : l.source = a := by
      rcases ha with ⟨rfl, ha⟩ | ⟨_, ha⟩ | ⟨_, hva, ha⟩
      · rcases P.source with ⟨h1, _⟩ | ⟨_, h1⟩
        · exact h1
        · exact absurd ha (hpre _ _ h1).1
      · exact absurd ha (hno l' hl')
      · rcases P.source with ⟨_, h1⟩ | ⟨_, h1⟩
        · exact absurd h1 (hpre _ _ ha).1
        · exact prefixField_inj (hv l hlm).1 hva h1 ha
    obtain ⟨q, h1, h2⟩ := ih rfl l.target (by
      rcases P.target with h | ⟨_, h⟩
      · exact .inr (.inl h)
      · exact .inr (.inr ⟨hi l hlm, (hv l hlm).2, h⟩)) hno
    subst hsrc
    refine ⟨l :: q, .cons hlm h1, ?_⟩
    rw [List.mapM_cons, hll, h2]
    rfl

/-- The complete paths of the embedded message are those of the message that is embedded, with prefixed names. -/
theorem C21_prefixed (h : List PyStr → Int) (k : Nat) (f : Field) (im inner : UMsg) (hc : im.Created) (hne : im.types ≠ [])
    (hv : ∀ e ∈ im.types, ID.Valid e.1) (hp : im.prefixed h k (fieldPrefix f) = .ok inner) (q' : List Link) :
    Path inner.links INITIAL q' FINAL ↔ ∃ q pkg, im.id.parent = .ok pkg ∧ Path im.links INITIAL q FINAL ∧
      q.mapM (prefixLink h (fieldPrefix f) pkg (im.types.map (·.1))) = .ok q' := by
  obtain ⟨typed, F⟩ := Created.facts hc hne
  have I := prefixed_inner hp hne
  obtain ⟨pkg, links, types, hpkg, hl, ht, hcr⟩ := prefixed_ok hp
  obtain ⟨t1, t2⟩ := typed_ok ht
  obtain ⟨e0, he0⟩ := List.exists_mem_of_ne_nil _ hne
  obtain ⟨e0', he0', _⟩ := t1 e0 he0
  have F' := create_facts hcr (.inl (List.ne_nil_of_mem he0'))
  obtain ⟨_, hlinks, _, _⟩ := create_ok hcr
  subst hlinks
  have hval : ∀ x : Field, (x = INITIAL ∨ x = FINAL ∨ x ∈ im.types.map (·.1)) → ID.Valid x := by
    rintro x (rfl | rfl | hx)
    · exact ⟨by decide, by decide⟩
    · exact ⟨by decide, by decide⟩
    · obtain ⟨e, he, rfl⟩ := List.mem_map.mp hx
      exact hv e he
  have hvl : ∀ l ∈ im.links, ID.Valid l.source ∧ ID.Valid l.target :=
    fun l hl => ⟨hval _ (F.ends l hl).1, hval _ (F.ends l hl).2⟩
  constructor
  · intro hq
    rw [path_walk] at hq
    obtain ⟨q, h1, h2⟩ := walk_prefixed hl hvl F.noInitial (fun g r => prefixField_ne) hq INITIAL (.inl ⟨rfl, rfl⟩) I.final
    exact ⟨q, pkg, hpkg, path_walk.mpr h1, h2⟩
  · rintro ⟨q, pkg', hpkg', hq, hm⟩
    rw [hpkg] at hpkg'
    cases hpkg'
    rw [path_walk] at hq ⊢
    obtain ⟨m1, m2⟩ := mapM_mem hl
    -- no link leaves FINAL
    have hfin : ∀ l ∈ im.links, l.source ≠ FINAL := by
      intro l hlm hlf
      obtain ⟨l', hl', hll⟩ := m1 l hlm
      rcases (prefixLink_ok hll).1.source with ⟨g, _⟩ | ⟨_, g⟩
      · rw [hlf] at g; exact absurd g (by decide)
      · have hne := prefixField_ne g
        rcases (F'.missing l' hl').1 with hm | hm | hm
        · obtain ⟨e', he', hee⟩ := List.mem_map.mp hm
          obtain ⟨e, he, hn, _⟩ := t2 e' he'
          rw [hee] at hn
          have := prefixField_inj (hv e he) (hvl l hlm).1 hn g
          exact (F.names e.1 (List.mem_map_of_mem he)).2 (by rw [this, hlf])
        · exact hne.1 hm
        · exact hne.2 hm
    have key : ∀ (q : List Link) (a a' : Field), Walk im.links a q FINAL →
        ((a = INITIAL ∧ a' = INITIAL) ∨ (a = FINAL ∧ a' = FINAL) ∨ (a ≠ INITIAL ∧ prefixField (fieldPrefix f) a = .ok a')) →
        ∀ q', q.mapM (prefixLink h (fieldPrefix f) pkg (im.types.map (·.1))) = .ok q' → (q = [] → a' = FINAL) → Walk inner.links a' q' FINAL := by
      intro q
      induction q with
      | nil =>
        intro a a' _ _ q' hm hn
        cases hm
        rw [hn rfl]
        exact .nil
      | cons l q ih =>
        intro a a' hw ha q' hm _
        rw [List.mapM_cons] at hm
        simp only [bind, Except.bind, pure, Except.pure] at hm
        split at hm
        · cases hm
        rename_i l' hll
        split at hm
        · cases hm
        rename_i q1 hq1
        cases hm
        cases hw with
        | cons hlm hw' =>
        have P := (prefixLink_ok hll).1
        have hlm' : l' ∈ inner.links := by
          obtain ⟨l2, h2, h3⟩ := m1 l hlm
          rw [hll] at h3; cases h3; exact h2
        have hsrc : l'.source = a' := by
          rcases ha with ⟨h1, h2⟩ | ⟨h1, _⟩ | ⟨h1, h2⟩
          · rcases P.source with ⟨_, h3⟩ | ⟨h3, _⟩
            · rw [h3, h2]
            · exact absurd h1 h3
          · exact absurd h1 (hfin l hlm)
          · rcases P.source with ⟨h3, _⟩ | ⟨_, h3⟩
            · exact absurd h3 h1
            · rw [h2] at h3; exact (Except.ok.inj h3).symm
        subst hsrc
        refine .cons hlm' (ih l.target l'.target hw' ?_ q1 hq1 ?_)
        · rcases P.target with h | ⟨_, h⟩
          · exact .inr (.inl h)
          · exact .inr (.inr ⟨F.noInitial l hlm, h⟩)
        · rintro rfl
          have hlf : l.target = FINAL := by
            generalize l.target = x at hw'
            generalize FINAL = y at hw'
            cases hw'; rfl
          rcases P.target with ⟨_, h⟩ | ⟨h, _⟩
          · exact h
          · exact absurd hlf h
    refine key q INITIAL INITIAL hq (.inl ⟨rfl, rfl⟩) q' hm ?_
    rintro rfl
    generalize h1 : INITIAL = x at hq
    generalize h2 : FINAL = y at hq
    cases hq
    first | rfl | exact h1.trans h2.symm | exact h2 | exact h1

/-! ## Conditions -/

/-- The conditions on a path of the merged message are all true exactly if the conditions on the path of the outer message are
all true and those on the paths of the embedded message, except their first links. Missing: the conditions of the first
links (see the counterexample), conditions outside the class on which simplification is right. -/
theorem C21_conditions_partial (D : Division) (f : Field) (inner : List Link) (K : Link → Link → Prop) (p p' : List Link)
    (qs : List (List Link)) (he : Expands f inner K p p' qs) (ρ : Env)
    (hp : ∀ l ∈ p, l.condition.Good D.Odd false ∧ l.condition.WF ∧ ∃ b, eval D ρ l.condition = some (.bool b))
    (hq : ∀ q ∈ qs, ∀ l ∈ q, l.condition.Good D.Odd false ∧ l.condition.WF ∧ ∃ b, eval D ρ l.condition = some (.bool b)) :
    (∀ l ∈ p', eval D ρ l.condition = some (.bool true)) ↔
      (∀ l ∈ p, eval D ρ l.condition = some (.bool true)) ∧ ∀ q ∈ qs, ∀ l ∈ q.tail, eval D ρ l.condition = some (.bool true) := by
  induction he with
  | nil => simp
  | @keep l p p' qs h1 h2 _ ih =>
    have := ih (fun x hx => hp x (List.mem_cons_of_mem _ hx)) hq
    simp only [List.mem_cons, forall_eq_or_imp, this, and_assoc]
  | @pass a o i q mid p p' c qs h1 h2 h3 h4 h5 h6 _ ih =>
    have IH := ih (fun x hx => hp x (List.mem_cons_of_mem _ (List.mem_cons_of_mem _ hx))) fun x hx => hq x (List.mem_cons_of_mem _ hx)
    obtain ⟨go, wo, bo, eo⟩ := hp o (by simp)
    obtain ⟨gq, wq, bq, eq⟩ := hq _ List.mem_cons_self q (by simp)
    have hev : eval D ρ (.bool .and [o.condition, q.condition]) = some (.bool (bo && bq)) := by
      simp [eval, evalL, eo, eq, allSome, Val.bool?, BoolOp.isAnd]
    have hc := C08_C09_simplified_value_partial (D := D) (.bool .and [o.condition, q.condition]) c ⟨rfl, go, gq, trivial⟩ ⟨⟨wo, wq, trivial⟩, by simp⟩ h6 ρ _ hev
    have hand : eval D ρ c = some (.bool true) ↔ eval D ρ o.condition = some (.bool true) ∧ eval D ρ q.condition = some (.bool true) := by
      rw [hc, eo, eq]
      simp
    constructor
    · intro g
      have ga := g _ List.mem_cons_self
      have gm : ∀ l ∈ mid, eval D ρ l.condition = some (.bool true) := fun l hl => g l (by simp [hl])
      have gc := hand.mp (g ⟨q.source, o.target, c, o.size, o.first⟩ (by simp))
      obtain ⟨g1, g2⟩ := IH.mp fun l hl => g l (by simp [hl])
      refine ⟨?_, ?_⟩
      · intro l hl
        simp only [List.mem_cons] at hl
        rcases hl with rfl | rfl | hl
        · exact ga
        · exact gc.1
        · exact g1 l hl
      · intro x hx l hl
        rcases List.mem_cons.mp hx with rfl | hx
        · simp only [List.tail_cons, List.mem_append, List.mem_singleton] at hl
          rcases hl with hl | rfl
          · exact gm l hl
          · exact gc.2
        · exact g2 x hx l hl
    · rintro ⟨g1, g2⟩ l hl
      have g3 := g2 _ List.mem_cons_self
      simp only [List.tail_cons, List.mem_append, List.mem_singleton] at g3
      simp only [List.mem_cons, List.mem_append] at hl
      rcases hl with rfl | hl | rfl | hl
      · exact g1 a (by simp)
      · exact g3 l (.inl hl)
      · exact hand.mpr ⟨g1 o (by simp), g3 q (.inr rfl)⟩
      · exact IH.mpr ⟨fun l hl => g1 l (by simp [hl]), fun x hx => g2 x (List.mem_cons_of_mem _ hx)⟩ l hl

/-- A condition of the embedded message has the value it had in the message that is embedded, for the values of the fields with
prefixed names. Missing: expressions with `not`, aggregates, minus signs (see the counterexample) or outside the class
on which simplification is right. -/
theorem C21_names_partial (D : Division) (h : List PyStr → Int) (w : PyStr) (pkg : ID) (fields : List Field) (e r : Expr)
    (hf : ID.Lex ⟨[w]⟩) (hpkg : pkg.Lex) (hfields : ∀ g ∈ fields, g.parts.length = 1)
    (hs : Simple (fun _ => True) e) (hw : e.WF) (hg : e.Good D.Odd false)
    (hr : prefixedExpr h (fieldPrefix ⟨[w]⟩) pkg fields e = .ok r) (ρ : Env) (v : Val)
    (hv : eval D (via (outerName (fields.map ID.key) (PyStr.lower (w ++ ['_'])) pkg.key) ρ) e = some v) :
    eval D ρ r = some v := by
  have hpre : fieldPrefix ⟨[w]⟩ = w ++ ['_'] := by simp [fieldPrefix, ID.str, joinSep]
  obtain ⟨⟨c, t, rfl, hc⟩, hch⟩ := hf.2.1 w (by simp)
  rw [hpre] at hr
  refine prefixedExpr_value (D := D) ⟨⟨c, t ++ ['_'], rfl, hc⟩, ?_⟩ (by simp) hpkg hfields hs hw hg hr ρ v hv
  intro x hx
  have hx' : x ∈ (c :: t) ++ ['_'] := hx
  rcases List.mem_append.mp hx' with hx | hx
  · exact hch x hx
  · rw [List.mem_singleton.mp hx]; decide

/-! ## All fields -/

theorem firstMessage_some {ts : List (Field × UTy)} {f : Field} {m : UMsg} (h : firstMessage ts = some (f, m)) : (f, m.toTy) ∈ ts := by
  induction ts with
  | nil => cases h
  | cons t ts ih =>
    obtain ⟨g, t⟩ := t
    simp only [firstMessage] at h
    cases t with
    | plain t => exact List.mem_cons_of_mem _ (ih h)
    | msg id links types =>
      simp only [UTy.asMsg, Option.some.injEq, Prod.mk.injEq] at h
      obtain ⟨rfl, rfl⟩ := h
      exact List.mem_cons_self

theorem firstMessage_none {ts : List (Field × UTy)} (h : firstMessage ts = none) : ∀ e ∈ ts, e.2.asMsg = none := by
  induction ts with
  | nil => simp
  | cons t ts ih =>
    obtain ⟨g, t⟩ := t
    simp only [firstMessage] at h
    cases ht : t.asMsg with
    | some m => rw [ht] at h; cases h
    | none =>
      rw [ht] at h
      intro e he
      rcases List.mem_cons.mp he with rfl | he
      · exact ht
      · exact ih h e he

mutual
/-- No embedded message, at any depth, is without fields. -/
def UTy.Filled : UTy → Prop
  | .plain _ => True
  | .msg _ _ types => types ≠ [] ∧ FilledL types
def FilledL : List (Field × UTy) → Prop
  | [] => True
  | (_, t) :: ts => t.Filled ∧ FilledL ts
end

theorem filledL_iff {ts : List (Field × UTy)} : FilledL ts ↔ ∀ e ∈ ts, e.2.Filled := by
  induction ts with
  | nil => simp [FilledL]
  | cons t ts ih => obtain ⟨f, t⟩ := t; simp [FilledL, ih]

theorem mergeField_types {s : Solver} {h : List PyStr → Int} {k : Nat} {m im m' : UMsg} {f : Field}
    (hmf : mergeField s h k m f im = .ok m') : m'.Created ∧
      ∀ e ∈ m'.types, (e ∈ m.types ∧ e.1 ≠ f) ∨ ∃ e' ∈ im.types, prefixField (fieldPrefix f) e'.1 = .ok e.1 ∧ e.2 = e'.2 := by
  obtain ⟨inner, outer, links, types, hinner, _, _, hprune, _, hcreate⟩ := mergeField_ok hmf
  refine ⟨⟨k, _, _, _, hcreate⟩, ?_⟩
  intro e he
  have h1 := (create_ok hcreate).2.2.1 e he
  simp only [prune, bind, Except.bind, pure, Except.pure] at hprune
  split at hprune
  · cases hprune
  simp only [Except.ok.injEq, Prod.mk.injEq] at hprune
  obtain ⟨_, rfl⟩ := hprune
  rcases List.mem_append.mp (List.mem_filter.mp h1).1 with h2 | h2
  · obtain ⟨h3, h4⟩ := List.mem_filter.mp h2
    exact .inl ⟨h3, by simpa using h4⟩
  · right
    obtain ⟨pkg, links, types, _, _, ht, hcr⟩ := prefixed_ok hinner
    exact (typed_ok ht).2 e ((create_ok hcr).2.2.1 e h2)

/-- The fields of the message after the replacement of a field are fields of the outer message, other than the replaced one, and
fields of the embedded message with prefixed names, all with their types. -/
theorem C21_types (s : Solver) (h : List PyStr → Int) (k : Nat) (m im m' : UMsg) (f : Field) (hmf : mergeField s h k m f im = .ok m') :
    ∀ e ∈ m'.types, (e ∈ m.types ∧ e.1 ≠ f) ∨ ∃ e' ∈ im.types, prefixField (fieldPrefix f) e'.1 = .ok e.1 ∧ e.2 = e'.2 :=
  (mergeField_types hmf).2

/-- The result of `merged` is the result of replacing fields of message type one after the other. Missing: what is missing from
`C21_field_partial`. -/
theorem C21_merged_partial (s : Solver) (h : List PyStr → Int) (k : Nat) (m m' : UMsg) (hm : m.Created) (hfill : FilledL m.types)
    (hmm : m.merged s h k = .ok m') : Merges h k m m' ∧ m'.Plain := by
  rw [UMsg.merged] at hmm
  generalize countL m.types + 1 = n at hmm
  induction n generalizing m with
  | zero => cases hmm
  | succ n ih =>
    rw [mergeLoop] at hmm
    split at hmm
    · rename_i hn
      cases hmm
      exact ⟨.done (firstMessage_none hn), firstMessage_none hn⟩
    · rename_i f im hs
      have hf := firstMessage_some hs
      simp only [bind, Except.bind] at hmm
      split at hmm
      · cases hmm
      rename_i m1 hm1
      have hfi := (filledL_iff.mp hfill) _ hf
      simp only [UMsg.toTy, UTy.Filled] at hfi
      obtain ⟨inner, h1, h2⟩ := C21_field_partial s h k m im m1 f hm hf hfi.1 hm1
      obtain ⟨hc, ht⟩ := mergeField_types hm1
      obtain ⟨h3, h4⟩ := ih m1 hc (by
        rw [filledL_iff]
        intro e he
        rcases ht e he with ⟨h, _⟩ | ⟨e', he', _, h⟩
        · exact filledL_iff.mp hfill e h
        · rw [h]; exact filledL_iff.mp hfi.2 e' he') hmm
      exact ⟨.step hf h1 h2 h3, h4⟩

end Verif.Merge
