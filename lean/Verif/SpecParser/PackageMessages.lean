import Verif.SpecParser.PackageTypes
import Verif.Expr.VarsProps

/-! # Helper lemmas: messages and refinements of declarations -/

namespace Verif.SpecParser
open Verif Verif.Types

variable {M S : Type}

/-- No two types have the same name. -/
def Distinct (types : List (MTy M)) : Prop := types.Pairwise fun a b => a.identifier.key ≠ b.identifier.key

theorem Distinct.unique {types : List (MTy M)} (h : Distinct types) {a b : MTy M} (ha : a ∈ types) (hb : b ∈ types)
    (hk : a.identifier.key = b.identifier.key) : a = b := by
  induction types with
  | nil => cases ha
  | cons c ts ih =>
    obtain ⟨h1, h2⟩ := List.pairwise_cons.1 h
    rcases List.mem_cons.1 ha with rfl | ha' <;> rcases List.mem_cons.1 hb with rfl | hb'
    · rfl
    · exact absurd hk (h1 b hb')
    · exact absurd hk.symm (h1 a ha')
    · exact ih h2 ha' hb'

/-! ## Types of fields -/

theorem setField_fresh {f : ID} {t : MTy M} : ∀ (d : List (ID × MTy M)), (∀ g ∈ d, g.1.key ≠ f.key) → setField d f t = d ++ [(f, t)]
  | [], _ => rfl
  | (g, u) :: d, h => by
    have h1 : g.eq f = false := by
      rw [Bool.eq_false_iff, ne_eq, key_eq]
      exact h (g, u) (by simp)
    simp only [setField, h1, Bool.false_eq_true, if_false, List.cons_append]
    rw [setField_fresh d fun g hg => h g (by simp [hg])]

theorem fieldTypes_spec {types : List (MTy M)} {pkg : PyStr} (hd : Distinct types) (hp : IsName pkg) :
    ∀ (cs : List ComponentTree) (d ts : List (ID × MTy M)), (∀ c ∈ cs, c.Lexical) →
      cs.Pairwise (fun a b => PyStr.lower a.name ≠ PyStr.lower b.name) → (∀ c ∈ cs, ∀ g ∈ d, g.1.key ≠ [PyStr.lower c.name]) →
      fieldTypes types ⟨[pkg]⟩ cs d = .ok ts → ∃ new, ts = d ++ new ∧ FieldTypesAre types pkg cs new
  | [], d, ts, _, _, _, h => by
    cases h
    exact ⟨[], by simp, by simp, by simp⟩
  | c :: cs, d, ts, hl, hn, hf, h => by
    obtain ⟨hn1, hn2⟩ := List.pairwise_cons.1 hn
    obtain ⟨l1, l2, _⟩ := hl c (by simp)
    unfold fieldTypes at h
    obtain ⟨i, hi, h⟩ := bind_ok' h
    obtain ⟨q, hq, h⟩ := bind_ok' h
    obtain ⟨_, hk⟩ := qualified_key l2 hp hi hq
    split at h
    · rename_i t ht
      obtain ⟨f, hfi, h⟩ := bind_ok' h
      have hfk : f.key = [PyStr.lower c.name] := by rw [createId_simple l1 hfi]; rfl
      have htm := List.mem_of_find?_eq_some ht
      have htk : t.identifier.key = q.key := by
        have := List.find?_some ht
        exact key_eq.1 this
      rw [setField_fresh d (fun g hg => by rw [hfk]; exact hf c (by simp) g hg)] at h
      obtain ⟨new, h1, h2, h3⟩ := fieldTypes_spec hd hp cs _ ts (fun c hc => hl c (by simp [hc])) hn2 (by
        intro c' hc' g hg
        rcases List.mem_append.1 hg with hg | hg
        · exact hf c' (by simp [hc']) g hg
        · rw [List.mem_singleton] at hg
          subst hg
          rw [hfk]
          intro he
          exact hn1 c' hc' (List.cons.inj he).1) h
      refine ⟨(f, t) :: new, by rw [h1]; simp, ?_, ?_⟩
      · intro c' hc' u hu hut
        rcases List.mem_cons.1 hc' with rfl | hc'
        · have : u = t := hd.unique hu htm (by rw [htk, hk]; exact hut)
          subst this
          exact ⟨f, hfk, by simp⟩
        · obtain ⟨g, hg1, hg2⟩ := h2 c' hc' u hu hut
          exact ⟨g, hg1, by simp [hg2]⟩
      · intro g u hgu
        rcases List.mem_cons.1 hgu with he | hgu
        · cases he
          exact ⟨htm, c, by simp, hfk, by rw [IsType, htk, hk]⟩
        · obtain ⟨g1, c', hc', g2⟩ := h3 g u hgu
          exact ⟨g1, c', by simp [hc'], g2⟩
    · rename_i hnone
      obtain ⟨new, h1, h2, h3⟩ := fieldTypes_spec hd hp cs _ ts (fun c hc => hl c (by simp [hc])) hn2
        (fun c' hc' => hf c' (by simp [hc'])) h
      refine ⟨new, h1, ?_, ?_⟩
      · intro c' hc' u hu hut
        rcases List.mem_cons.1 hc' with rfl | hc'
        · exfalso
          have := List.find?_eq_none.1 hnone u hu
          rw [key_eq] at this
          exact this (by rw [hk]; exact hut)
        · exact h2 c' hc' u hu hut
      · intro g u hgu
        obtain ⟨g1, c', hc', g2⟩ := h3 g u hgu
        exact ⟨g1, c', by simp [hc'], g2⟩

/-! ## Components -/

theorem createCondition_spec {c : Option Tree} {e : Option Expr} (hl : ∀ t, c = some t → Lexical t) (h : createCondition c = .ok e) : ConditionIs c e := by
  cases c with
  | none => cases h; trivial
  | some t =>
    unfold createCondition at h
    obtain ⟨x, hx, h⟩ := bind_ok' h
    cases h
    exact denotes (hl t rfl) hx

/-- An aspect is not `UNDEFINED`. -/
def Valued (as : List Structure.Aspect) : Prop := ∀ a ∈ as, a.value.eq .undefined = false

theorem createAspects_spec : ∀ (as : List AspectNode) (bs : List Structure.Aspect), (∀ a ∈ as, a.Lexical) → createAspects as = .ok bs →
    List.Forall₂ AspectIs as bs ∧ Valued bs
  | [], bs, _, h => by cases h; exact ⟨.nil, by simp [Valued]⟩
  | a :: as, bs, hl, h => by
    unfold createAspects at h
    obtain ⟨t, ht, h⟩ := bind_ok' h
    obtain ⟨e, he, h⟩ := bind_ok' h
    obtain ⟨bs', hb, h⟩ := bind_ok' h
    cases h
    have hv : a.value = some t := by
      unfold AspectNode.tree at ht
      cases hv : a.value with
      | none => rw [hv] at ht; cases ht
      | some u => rw [hv] at ht; cases ht; rfl
    have hlt := hl a (by simp) t hv
    obtain ⟨h1, h2⟩ := createAspects_spec as bs' (fun a ha => hl a (by simp [ha])) hb
    refine ⟨.cons ⟨rfl, t, hv, denotes hlt he⟩ h1, ?_⟩
    intro b hb
    rcases List.mem_cons.1 hb with rfl | hb
    · rw [Bool.eq_false_iff]
      exact fun hq => (create_shape t hlt he).1 (eq_undefined hq)
    · exact h2 b hb

theorem createThen_spec {t : ThenTree} {u : Structure.Then} (hl : t.Lexical) (h : createThen t = .ok u) : ThenIs t u ∧ Valued u.aspects := by
  obtain ⟨l1, l2, l3⟩ := hl
  unfold createThen at h
  obtain ⟨target, h1, h⟩ := bind_ok' h
  obtain ⟨c, h2, h⟩ := bind_ok' h
  obtain ⟨as, h3, h⟩ := bind_ok' h
  cases h
  obtain ⟨h4, h5⟩ := createAspects_spec _ _ l3 h3
  refine ⟨⟨?_, createCondition_spec l2 h2, h4⟩, h5⟩
  cases ht : t.target with
  | none => rw [ht] at h1; cases h1; trivial
  | some n =>
    rw [ht] at h1
    simp only at h1
    obtain ⟨i, hi, h1⟩ := bind_ok' h1
    cases h1
    show i.key = _
    rw [createId_simple (l1 n ht) hi]
    rfl

theorem createThens_spec : ∀ (ts : List ThenTree) (us : List Structure.Then), (∀ t ∈ ts, t.Lexical) → createThens ts = .ok us →
    List.Forall₂ ThenIs ts us ∧ ∀ u ∈ us, Valued u.aspects
  | [], us, _, h => by cases h; exact ⟨.nil, by simp⟩
  | t :: ts, us, hl, h => by
    unfold createThens at h
    obtain ⟨u, hu, h⟩ := bind_ok' h
    obtain ⟨us', hus, h⟩ := bind_ok' h
    cases h
    obtain ⟨h1, h2⟩ := createThen_spec (hl t (by simp)) hu
    obtain ⟨h3, h4⟩ := createThens_spec ts us' (fun t ht => hl t (by simp [ht])) hus
    refine ⟨.cons h1 h3, ?_⟩
    intro v hv
    rcases List.mem_cons.1 hv with rfl | hv
    · exact h2
    · exact h4 v hv

theorem createComponent_spec {c : ComponentTree} {d : Structure.Component} (hl : c.Lexical) (h : createComponent c = .ok d) :
    ComponentIs c d ∧ Valued d.aspects ∧ ∀ u ∈ d.thens, Valued u.aspects := by
  obtain ⟨l1, _, l2, l3, l4⟩ := hl
  unfold createComponent at h
  obtain ⟨n, h1, h⟩ := bind_ok' h
  obtain ⟨e, h2, h⟩ := bind_ok' h
  obtain ⟨as, h3, h⟩ := bind_ok' h
  obtain ⟨ts, h4, h⟩ := bind_ok' h
  cases h
  obtain ⟨h5, h6⟩ := createAspects_spec _ _ l3 h3
  obtain ⟨h7, h8⟩ := createThens_spec _ _ l4 h4
  refine ⟨⟨?_, createCondition_spec l2 h2, h5, h7⟩, h6, h8⟩
  show n.key = _
  rw [createId_simple l1 h1]
  rfl

theorem createComponents_spec : ∀ (cs : List ComponentTree) (ds : List Structure.Component), (∀ c ∈ cs, c.Lexical) →
    createComponents cs = .ok ds →
    List.Forall₂ ComponentIs cs ds ∧ ∀ d ∈ ds, Valued d.aspects ∧ ∀ u ∈ d.thens, Valued u.aspects
  | [], ds, _, h => by cases h; exact ⟨.nil, by simp⟩
  | c :: cs, ds, hl, h => by
    unfold createComponents at h
    obtain ⟨d, hd, h⟩ := bind_ok' h
    obtain ⟨ds', hds, h⟩ := bind_ok' h
    cases h
    obtain ⟨h1, h2⟩ := createComponent_spec (hl c (by simp)) hd
    obtain ⟨h3, h4⟩ := createComponents_spec cs ds' (fun t ht => hl t (by simp [ht])) hds
    refine ⟨.cons h1 h3, ?_⟩
    intro v hv
    rcases List.mem_cons.1 hv with rfl | hv
    · exact h2
    · exact h4 v hv

theorem forall₂_right {α β : Type} {R : α → β → Prop} {as : List α} {bs : List β} (h : List.Forall₂ R as bs) {b : β} (hb : b ∈ bs) :
    ∃ a ∈ as, R a b := by
  induction h with
  | nil => cases hb
  | cons h1 _ ih =>
    rcases List.mem_cons.1 hb with rfl | hb
    · exact ⟨_, by simp, h1⟩
    · obtain ⟨a, ha, hr⟩ := ih hb
      exact ⟨a, by simp [ha], hr⟩

/-- `Final` is a reserved word. -/
theorem createComponents_final : ∀ (cs : List ComponentTree) (ds : List Structure.Component), createComponents cs = .ok ds →
    ∀ c ∈ cs, PyStr.lower c.name ≠ ['f', 'i', 'n', 'a', 'l']
  | [], _, _ => by simp
  | c :: cs, ds, h => by
    unfold createComponents at h
    obtain ⟨d, hd, h⟩ := bind_ok' h
    obtain ⟨ds', hds, h⟩ := bind_ok' h
    intro c' hc'
    rcases List.mem_cons.1 hc' with rfl | hc'
    · unfold createComponent at hd
      obtain ⟨n, hn, _⟩ := bind_ok' hd
      simp only [createId] at hn
      split at hn
      · cases hn
      · rename_i hr
        intro he
        apply hr
        rw [he]
        decide
    · exact createComponents_final cs ds' hds c' hc'

theorem components_sane {cs : List ComponentTree} {ds : List Structure.Component} {start : Option Structure.Then}
    (h : List.Forall₂ ComponentIs cs ds) (hv : ∀ d ∈ ds, Valued d.aspects ∧ ∀ u ∈ d.thens, Valued u.aspects)
    (hs : ∀ u, start = some u → Valued u.aspects)
    (hn : cs.Pairwise fun a b => PyStr.lower a.name ≠ PyStr.lower b.name) (hf : ∀ c ∈ cs, PyStr.lower c.name ≠ ['f', 'i', 'n', 'a', 'l']) :
    Structure.Sane start ds := by
  refine ⟨?_, ?_, fun d hd => (hv d hd).1, fun d hd => (hv d hd).2, hs⟩
  · clear hv hf
    induction h with
    | nil => exact .nil
    | @cons c d cs ds h1 h2 ih =>
      obtain ⟨g1, g2⟩ := List.pairwise_cons.1 hn
      refine List.pairwise_cons.2 ⟨?_, ih g2⟩
      intro d' hd'
      obtain ⟨c', hc', hr⟩ := forall₂_right h2 hd'
      rw [Bool.eq_false_iff, ne_eq, key_eq, h1.1, hr.1]
      intro he
      exact g1 c' hc' (List.cons.inj he).1
  · intro d hd
    obtain ⟨c, hc, hr⟩ := forall₂_right h hd
    rw [Bool.eq_false_iff, ne_eq, key_eq, hr.1]
    intro he
    exact hf c hc (List.cons.inj (he.symm.trans (show Graph.FINAL.key = [['f', 'i', 'n', 'a', 'l']] from rfl))).1

theorem createMessage_spec {B : Backend M S} {types : List (MTy M)} {id : ID} {pkg : PyStr} {init : Option ThenTree} {cs : List ComponentTree}
    {t : MTy M} (hd : Distinct types) (hp : IsName pkg) (hid : id.parent = .ok ⟨[pkg]⟩) (hl : (TypeDef.message init cs).Lexical)
    (hs : (TypeDef.message init cs).Simple) (h : createMessage B types id init cs = .ok t) :
    t.identifier = id ∧ Declares B types pkg (.message init cs) t := by
  obtain ⟨l1, l2⟩ := hl
  have s1 : cs.Pairwise fun a b => PyStr.lower a.name ≠ PyStr.lower b.name := hs
  unfold createMessage at h
  rw [hid] at h
  obtain ⟨ts, h1, h⟩ := bind_ok' (show (fieldTypes types ⟨[pkg]⟩ cs [] >>= _) = _ from h)
  obtain ⟨new, g1, g2⟩ := fieldTypes_spec hd hp cs [] ts l2 s1 (by simp) h1
  rw [List.nil_append] at g1
  subst g1
  obtain ⟨start, h2, h⟩ := bind_ok' h
  obtain ⟨ds, h3, h⟩ := bind_ok' h
  obtain ⟨⟨links, errors⟩, h4, h⟩ := bind_ok' h
  obtain ⟨g3, g4⟩ := createComponents_spec cs ds l2 h3
  cases errors with
  | cons e es => cases h
  | nil =>
    simp only at h
    obtain ⟨m, hm, h⟩ := bind_ok' h
    cases h
    have hst : InitialIs init start ∧ ∀ u, start = some u → Valued u.aspects := by
      cases init with
      | none => cases h2; exact ⟨trivial, by simp⟩
      | some t =>
        simp only at h2
        obtain ⟨u, hu, h2⟩ := bind_ok' h2
        cases h2
        obtain ⟨k1, k2⟩ := createThen_spec (l1 t rfl) hu
        exact ⟨k1, by intro v hv; cases hv; exact k2⟩
    have hsane := components_sane g3 g4 hst.2 s1 (createComponents_final cs ds h3)
    have hlk := (Structure.C42_structure_partial start ds hsane links [] h4).2 rfl
    subst hlk
    exact ⟨rfl, .message hst.1 g3 g2 hm⟩

/-! ## Names in conditions -/

mutual

theorem create_names {h : List PyStr → Int} : ∀ (t : Tree) {m : Mode} {e : Expr}, Lexical t → create m t = .ok e → ∀ x ∈ t.names, x ∈ reported h e
  | .numeral s, m, e, hl, hc => by simp [Tree.names]
  | .paren t, m, e, hl, hc => by
    have := create_names (h := h) t (m := m) (e := e) (by simpa [Lexical] using hl) (by simpa [create] using hc)
    simpa [Tree.names] using this
  | .var id, m, e, hl, hc => by
    simp only [create] at hc
    obtain ⟨i, hi, rfl⟩ := map_ok' hc
    simp [Tree.names, reported, variables, createId_key (by simpa [Lexical] using hl) hi]
  | .attribute k t, m, e, hl, hc => by
    simp only [create] at hc
    obtain ⟨a, ha, hc⟩ := bind_ok' hc
    have ih := create_names (h := h) t (by simpa [Lexical] using hl) ha
    have : ∃ k', e = .attr false k' a := by
      cases m <;> cases k <;> first | (cases hc; done) | exact ⟨_, (Except.ok.inj hc).symm⟩
    obtain ⟨k', rfl⟩ := this
    simpa [Tree.names, reported, variables] using ih
  | .aggregate ts, m, e, hl, hc => by simp [Tree.names]
  | .string s, m, e, hl, hc => by simp [Tree.names]
  | .call id as, m, e, hl, hc => by
    simp only [create] at hc
    obtain ⟨i, hi, hc⟩ := bind_ok' hc
    obtain ⟨bs, hb, rfl⟩ := map_ok' hc
    have hl' : id.Lexical ∧ LexicalL as := by simpa [Lexical] using hl
    have ih := createL_names (h := h) as hl'.2 hb
    intro x hx
    rw [Tree.names] at hx
    rw [mem_reported, variables]
    rcases List.mem_cons.1 hx with rfl | hx
    · exact ⟨_, List.mem_cons_self, createId_key hl'.1 hi⟩
    · obtain ⟨v, hv, he⟩ := ih x hx
      exact ⟨v, List.mem_cons_of_mem _ hv, he⟩
  | .quantified ex p it pr, m, e, hl, hc => by
    simp only [create] at hc
    split at hc
    · cases hc
    · obtain ⟨i, hi, hc⟩ := bind_ok' hc
      obtain ⟨a, ha, hc⟩ := bind_ok' hc
      obtain ⟨b, hb, rfl⟩ := map_ok' hc
      have hl' : p.Lexical ∧ Lexical it ∧ Lexical pr := by simpa [Lexical] using hl
      have ih1 := create_names (h := h) it hl'.2.1 ha
      have ih2 := create_names (h := h) pr hl'.2.2 hb
      intro x hx
      rw [Tree.names] at hx
      obtain ⟨h1, h2⟩ := List.mem_filter.1 hx
      rw [names_quant, createId_key hl'.1 hi]
      refine ⟨by simpa using h2, ?_⟩
      rcases List.mem_append.1 h1 with h1 | h1
      · exact .inl (ih1 x h1)
      · exact .inr (ih2 x h1)
  | .negation t, m, e, hl, hc => by simp [Tree.names]
  | .concatenation l r, m, e, hl, hc => by simp [Tree.names]
  | .select t s, m, e, hl, hc => by
    simp only [create] at hc
    obtain ⟨a, ha, hc⟩ := bind_ok' hc
    obtain ⟨i, _, rfl⟩ := map_ok' hc
    have hl' : Lexical t ∧ s.Lexical := by simpa [Lexical] using hl
    have ih := create_names (h := h) t hl'.1 ha
    simpa [Tree.names, reported, variables] using ih
  | .binop op l r, m, e, hl, hc => by
    simp only [create] at hc
    obtain ⟨c, hb, hc⟩ := bind_ok' hc
    obtain ⟨a, ha, hc⟩ := bind_ok' hc
    obtain ⟨b, hb', rfl⟩ := map_ok' hc
    have hl' : Lexical l ∧ Lexical r := by simpa [Lexical] using hl
    have ih1 := create_names (h := h) l hl'.1 ha
    have ih2 := create_names (h := h) r hl'.2 hb'
    have hrep : ∀ x, x ∈ reported h a ∨ x ∈ reported h b → x ∈ reported h (c.1 a b) := by
      intro x hx
      have two : (∃ v ∈ variablesL h [a, b], v.id.key = x) := by
        rw [names_list]
        rcases hx with hx | hx
        · exact ⟨a, by simp, hx⟩
        · exact ⟨b, by simp, hx⟩
      rw [mem_reported]
      cases m <;> cases op <;> first
        | (cases hb; done)
        | (cases hb; rw [variables, names_unique]; exact two)
        | (cases hb; rw [variables, names_unique, names_append]; exact hx)
    intro x hx
    rw [Tree.names] at hx
    rcases List.mem_append.1 hx with hx | hx
    · exact hrep x (.inl (ih1 x hx))
    · exact hrep x (.inr (ih2 x hx))

theorem createL_names {h : List PyStr → Int} : ∀ (ts : List Tree) {m : Mode} {es : List Expr}, LexicalL ts → createL m ts = .ok es →
    ∀ x ∈ namesL ts, ∃ v ∈ variablesL h es, v.id.key = x
  | [], m, es, hl, hc => by simp [namesL]
  | t :: ts, m, es, hl, hc => by
    simp only [createL] at hc
    obtain ⟨a, ha, hc⟩ := bind_ok' hc
    obtain ⟨as, has, rfl⟩ := map_ok' hc
    have hl' : Lexical t ∧ LexicalL ts := by simpa [LexicalL] using hl
    have ih1 := create_names (h := h) t hl'.1 ha
    have ih2 := createL_names (h := h) ts hl'.2 has
    intro x hx
    rw [namesL] at hx
    rw [variablesL]
    rcases List.mem_append.1 hx with hx | hx
    · obtain ⟨v, hv, he⟩ := (mem_reported h a x).1 (ih1 x hx)
      exact ⟨v, List.mem_append_left _ hv, he⟩
    · obtain ⟨v, hv, he⟩ := ih2 x hx
      exact ⟨v, List.mem_append_right _ hv, he⟩

end

theorem mapM_mem {α β : Type} {f : α → Py β} : ∀ (l : List α) (r : List β), l.mapM f = .ok r → ∀ y ∈ r, ∃ x ∈ l, f x = .ok y
  | [], r, h => by cases h; simp
  | a :: l, r, h => by
    rw [List.mapM_cons] at h
    obtain ⟨b, hb, h⟩ := bind_ok' h
    obtain ⟨bs, hbs, h⟩ := bind_ok' h
    cases h
    intro y hy
    rcases List.mem_cons.1 hy with rfl | hy
    · exact ⟨a, by simp, hb⟩
    · obtain ⟨x, hx, he⟩ := mapM_mem l bs hbs y hy
      exact ⟨x, by simp [hx], he⟩

theorem enumLiterals_spec {pkg : PyStr} : ∀ (fs : List (ID × MTy M)) (ls : List ID), enumLiterals (fs.map (·.2)) ⟨[pkg]⟩ = .ok ls →
    ∀ l ∈ ls, IsLiteral fs pkg l.key
  | [], ls, h => by cases h; simp
  | (f, t) :: fs, ls, h => by
    have weaken : ∀ x, IsLiteral fs pkg x → IsLiteral ((f, t) :: fs) pkg x := by
      rintro x ⟨g, hg, r⟩
      exact ⟨g, by simp [hg], r⟩
    cases t with
    | enum t =>
      simp only [List.map_cons, enumLiterals] at h
      obtain ⟨p, hp, h⟩ := bind_ok' h
      obtain ⟨qs, hq, h⟩ := bind_ok' h
      obtain ⟨rest, hr, h⟩ := bind_ok' h
      cases h
      have hb : ∀ i : ID, i.eq ⟨[builtinsName]⟩ = true ↔ i.key = [['_', '_', 'b', 'u', 'i', 'l', 't', 'i', 'n', 's', '_', '_']] := by
        intro i; rw [key_eq]; rfl
      intro l hl
      rcases List.mem_append.1 hl with hl | hl
      · rcases List.mem_append.1 hl with hl | hl
        · split at hl
          · rename_i hc
            obtain ⟨l', hl', rfl⟩ := List.mem_map.1 hl
            refine ⟨(f, .enum t), by simp, t, p, rfl, hp, l', hl', .inl ⟨rfl, ?_⟩⟩
            rw [Bool.or_eq_true, hb, key_eq] at hc
            exact hc
          · cases hl
        · split at hl
          · cases hl
          · rename_i hc
            obtain ⟨l', hl', he⟩ := mapM_mem _ _ hq l hl
            rw [hb] at hc
            exact ⟨(f, .enum t), by simp, t, p, rfl, hp, l', hl', .inr ⟨l, he, rfl, hc⟩⟩
      · exact weaken _ (enumLiterals_spec fs rest hr l hl)
    | _ =>
      simp only [List.map_cons, enumLiterals] at h
      exact fun l hl => weaken _ (enumLiterals_spec fs ls h l hl)

/-! ## Derived messages and refinements -/

theorem message?_some {t : MTy M} {p : ID × M} (h : t.message? = some p) : t = .message p.1 p.2 := by
  cases t <;> cases h
  rfl

theorem createDerived_spec {B : Backend M S} {types : List (MTy M)} {id : ID} {pkg : PyStr} {b : IdNode} {t : MTy M} (hn : b.Lexical)
    (hp : IsName pkg) (hid : id.parent = .ok ⟨[pkg]⟩) (h : createDerived B types id b = .ok t) :
    t.identifier = id ∧ Declares B types pkg (.derived b) t := by
  unfold createDerived at h
  obtain ⟨i, hi, h⟩ := bind_ok' h
  rw [hid] at h
  obtain ⟨q, hq, h⟩ := bind_ok' (show (qualifiedType i ⟨[pkg]⟩ >>= _) = _ from h)
  obtain ⟨_, hk⟩ := qualified_key hn hp hi hq
  split at h
  · cases h
  · rename_i j m rest hm
    obtain ⟨m', hm', h⟩ := bind_ok' h
    cases h
    have : (j, m) ∈ (types.filter fun t => t.identifier.eq q).filterMap MTy.message? := by rw [hm]; simp
    obtain ⟨u, hu, huj⟩ := List.mem_filterMap.1 this
    obtain ⟨hu1, hu2⟩ := List.mem_filter.1 hu
    have := message?_some huj
    subst this
    exact ⟨rfl, .derived hu1 (by rw [IsType, ← hk]; exact key_eq.1 hu2) hm'⟩

theorem lookupMessage_spec {types : List (MTy M)} {i : ID} {p : ID × M} (h : lookupMessage types i = some p) :
    MTy.message p.1 p.2 ∈ types ∧ p.1.key = i.key := by
  have := List.mem_of_getLast? h
  obtain ⟨h1, h2⟩ := List.mem_filter.1 this
  obtain ⟨u, hu, huj⟩ := List.mem_filterMap.1 h1
  have := message?_some huj
  subst this
  exact ⟨hu, key_eq.1 h2⟩

theorem createRefinement_spec {B : Backend M S} {h : List PyStr → Int} {types : List (MTy M)} {pkg field : PyStr} {pdu sdu : IdNode}
    {c : Option Tree} {t : MTy M} (hp : IsName pkg) (hl : (DeclTree.refinement pdu field sdu c : DeclTree S).Lexical)
    (hr : createRefinement B h types ⟨[pkg]⟩ pdu field sdu c = .ok t) :
    DeclOf B types pkg (.refinement pdu field sdu c : DeclTree S) t := by
  obtain ⟨l1, l2, l3, l4⟩ := hl
  unfold createRefinement at hr
  obtain ⟨i, hi, hr⟩ := bind_ok' hr
  obtain ⟨p, hpq, hr⟩ := bind_ok' hr
  obtain ⟨j, hj, hr⟩ := bind_ok' hr
  obtain ⟨s, hsq, hr⟩ := bind_ok' hr
  obtain ⟨_, hk1⟩ := qualified_key l1 hp hi hpq
  obtain ⟨_, hk2⟩ := qualified_key l3 hp hj hsq
  split at hr
  · rename_i a b ha hb
    obtain ⟨e, he, hr⟩ := bind_ok' hr
    obtain ⟨f, hf, hr⟩ := bind_ok' hr
    obtain ⟨g1, g2⟩ := lookupMessage_spec ha
    obtain ⟨g3, g4⟩ := lookupMessage_spec hb
    unfold newRefinement at hr
    obtain ⟨id, hid, hr⟩ := bind_ok' hr
    obtain ⟨ls, hls, hr⟩ := bind_ok' hr
    simp only at hr
    split at hr
    · cases hr
    · rename_i g u hgu
      split at hr
      · cases hr
      · rename_i hno
        cases hr
        simp only [Bool.or_eq_true, not_or, Bool.not_eq_true', Bool.not_eq_false] at hno
        refine ⟨id, a.1, a.2, f, b.1, b.2, e.getD .tru, rfl, g1, g2.trans hk1, g3, g4.trans hk2, ?_, ⟨(g, u), List.mem_of_find?_eq_some hgu, ?_, ?_⟩, ?_⟩
        · show f.key = _
          rw [createId_simple l2 hf]
          rfl
        · have := List.find?_some hgu
          exact key_eq.1 this
        · have := hno.1.2
          cases u <;> first | rfl | cases this
        · have hc := createCondition_spec l4 he
          cases c with
          | none =>
            cases e with
            | none => rfl
            | some e => exact hc.elim
          | some c =>
            cases e with
            | none => exact hc.elim
            | some e =>
              refine ⟨hc, ?_⟩
              intro x hx
              unfold createCondition at he
              obtain ⟨e', he', h'⟩ := bind_ok' he
              cases h'
              obtain ⟨v, hv, hvx⟩ := (mem_reported h e x).1 (create_names c (l4 c rfl) he' x hx)
              have hun := hno.2
              rw [Bool.not_eq_true, List.any_eq_false] at hun
              have hun := hun v hv
              simp only [Bool.and_eq_true, Bool.not_eq_true', not_and, Bool.not_eq_false] at hun
              by_cases hf : (B.types a.2).any (fun f => f.1.eq v.id) = true
              · obtain ⟨g', hg', hge⟩ := List.any_eq_true.1 hf
                exact .inl ⟨g', hg', (key_eq.1 hge).trans hvx⟩
              · have := hun (by simpa using hf)
                obtain ⟨l, hl, hle⟩ := List.any_eq_true.1 this
                rw [← hvx, ← key_eq.1 hle]
                exact .inr (enumLiterals_spec _ _ hls l hl)
  · cases hr

end Verif.SpecParser
