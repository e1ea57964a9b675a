import Verif.SpecParser.Structure
import Verif.Ident.Props

/-! # Property C42: conditions and aspects of components reach the links -/

namespace Verif.SpecParser.Structure
open Verif Verif.Graph

/-! ## Specification -/

/-- The text `Size`. -/
def sizeName : PyStr := ['S', 'i', 'z', 'e']

/-- The text `First`. -/
def firstName : PyStr := ['F', 'i', 'r', 's', 't']

/-- The value that a list of aspects gives for a name. -/
def valueOf (n : PyStr) (as : List Aspect) : Option Expr := ((as.filter fun a => a.name == n).getLast?).map Aspect.value

/-- A declared transition: source, target, condition and aspects as written, and the components declared after its source. -/
structure Transition where
  source : ID
  target : ID
  condition : Option Expr
  aspects : List Aspect
  later : List Component

/-- The transitions declared at a component: its `then` clauses, or the transition to the next component or the end. -/
def ofComponent (c : Component) (rest : List Component) : List Transition :=
  match c.thens with
  | [] => [⟨c.name, (rest.head?.map Component.name).getD FINAL, none, [], rest⟩]
  | ts => ts.map fun t => ⟨c.name, t.target.getD FINAL, t.condition, t.aspects, rest⟩

/-- The transitions declared at the components. -/
def ofComponents : List Component → List Transition
  | [] => []
  | c :: cs => ofComponent c cs ++ ofComponents cs

/-- The transitions of a message: the initial one and those of the components. -/
def transitions (initial : Option Then) (cs : List Component) : List Transition :=
  (match initial with
    | some t => ⟨INITIAL, t.target.getD FINAL, t.condition, t.aspects, cs⟩
    | none => ⟨INITIAL, (cs.head?.map Component.name).getD FINAL, none, [], cs⟩) :: ofComponents cs

/-- The conjunction of two conditions, where `True` is left out. -/
def both (a b : Expr) : Expr := if a.eq .tru then b else if b.eq .tru then a else .bool .and [a, b]

/-- The link for a transition alone. -/
def Transition.alone (t : Transition) : Link :=
  ⟨t.source, t.target, t.condition.getD .tru, (valueOf sizeName t.aspects).getD .undefined,
    (valueOf firstName t.aspects).getD .undefined⟩

/-- The link for a transition together with what is declared at a component. -/
def Transition.with (t : Transition) (c : Component) : Link :=
  ⟨t.source, t.target, both (c.condition.getD .tru) (t.condition.getD .tru),
    ((valueOf sizeName c.aspects).or (valueOf sizeName t.aspects)).getD .undefined,
    ((valueOf firstName c.aspects).or (valueOf firstName t.aspects)).getD .undefined⟩

/-- The link for a transition: the declaration of its target counts if it comes after the declaration of the source. -/
def Transition.link (t : Transition) : Link :=
  match t.later.find? fun c => t.target.eq c.name with
  | some c => t.with c
  | none => t.alone

/-- Names of components are different from each other and from `Initial` and `Final`; aspects have values. -/
structure Sane (initial : Option Then) (cs : List Component) : Prop where
  distinct : cs.Pairwise fun a b => a.name.eq b.name = false
  final : ∀ c ∈ cs, FINAL.eq c.name = false
  component : ∀ c ∈ cs, ∀ a ∈ c.aspects, a.value.eq .undefined = false
  thens : ∀ c ∈ cs, ∀ t ∈ c.thens, ∀ a ∈ t.aspects, a.value.eq .undefined = false
  start : ∀ t, initial = some t → ∀ a ∈ t.aspects, a.value.eq .undefined = false

/-- Only `Size` and `First` are used as aspects. -/
def Known (as : List Aspect) : Prop := ∀ a ∈ as, a.name = sizeName ∨ a.name = firstName

/-- The declarations of a transition and of its target do not give an aspect twice. -/
def Transition.NoConflict (t : Transition) : Prop :=
  ∀ c ∈ t.later, t.target.eq c.name = true →
    ¬ ((valueOf sizeName c.aspects).isSome ∧ (valueOf sizeName t.aspects).isSome) ∧
    ¬ ((valueOf firstName c.aspects).isSome ∧ (valueOf firstName t.aspects).isSome)

/-- What is not reported as an error. -/
structure Clean (initial : Option Then) (cs : List Component) : Prop where
  names : ∀ c ∈ cs, c.name.str.lower ≠ ['m', 'e', 's', 's', 'a', 'g', 'e']
  component : ∀ c ∈ cs, Known c.aspects
  thens : ∀ c ∈ cs, ∀ t ∈ c.thens, Known t.aspects
  start : ∀ t, initial = some t → Known t.aspects
  targets : ∀ c ∈ cs, ∀ t ∈ c.thens, ∀ f, t.target = some f → ∃ d ∈ cs, d.name = f
  conflicts : ∀ t ∈ transitions initial cs, t.NoConflict

/-! ## Lemmas: aspects -/

theorem aspectLoop_spec (as : List Aspect) (size first : Expr) (errs : List Err) :
    (aspectLoop as (size, first, errs)).1 = (valueOf sizeName as).getD size ∧
    (aspectLoop as (size, first, errs)).2.1 = (valueOf firstName as).getD first ∧
    ((aspectLoop as (size, first, errs)).2.2 = [] ↔ errs = [] ∧ Known as) := by
  have last : ∀ (n : PyStr) (a : Aspect) (as : List Aspect) (x : Expr),
      (valueOf n (a :: as)).getD x = (valueOf n as).getD (if a.name = n then a.value else x) := by
    intro n a as x
    unfold valueOf
    by_cases h : a.name = n
    · simp only [List.filter_cons, h, beq_self_eq_true, if_true]
      cases hf : (as.filter fun a => a.name == n) with
      | nil => simp
      | cons b bs => simp [List.getLast?_cons_cons]; rw [List.getLast?_eq_some_getLast (by simp)]; simp
    · simp [List.filter_cons, h]
  induction as generalizing size first errs with
  | nil => simp [aspectLoop, valueOf, Known]
  | cons a as ih =>
    simp only [aspectLoop]
    rw [last, last]
    by_cases h1 : a.name = sizeName
    · have h1' : a.name = ['S', 'i', 'z', 'e'] := h1
      have h2 : a.name ≠ firstName := by rw [h1]; decide
      simp only [h1', if_true]
      obtain ⟨g1, g2, g3⟩ := ih a.value first errs
      refine ⟨by rw [g1]; simp [sizeName], by rw [g2, if_neg (by decide)], ?_⟩
      rw [g3]
      simp [Known, h1]
    · have h1' : a.name ≠ ['S', 'i', 'z', 'e'] := h1
      by_cases h2 : a.name = firstName
      · have h2' : a.name = ['F', 'i', 'r', 's', 't'] := h2
        rw [if_neg h1', if_pos h2']
        obtain ⟨g1, g2, g3⟩ := ih size a.value errs
        refine ⟨by rw [g1, if_neg h1], by rw [g2, if_pos h2], ?_⟩
        rw [g3]
        simp [Known, h2]
      · have h2' : a.name ≠ ['F', 'i', 'r', 's', 't'] := h2
        rw [if_neg h1', if_neg h2']
        obtain ⟨g1, g2, g3⟩ := ih size first (errs ++ [.invalidAspect a.name])
        refine ⟨by rw [g1, if_neg h1], by rw [g2, if_neg h2], ?_⟩
        rw [g3]
        simp [Known, h1, h2]

theorem extractAspect_spec (as : List Aspect) :
    (extractAspect as).1 = (valueOf sizeName as).getD .undefined ∧
    (extractAspect as).2.1 = (valueOf firstName as).getD .undefined ∧ ((extractAspect as).2.2 = [] ↔ Known as) := by
  have := aspectLoop_spec as .undefined .undefined []
  simpa [extractAspect] using this

theorem valueOf_proper {n : PyStr} {as : List Aspect} (h : ∀ a ∈ as, a.value.eq .undefined = false) :
    ((valueOf n as).getD .undefined).eq .undefined = !(valueOf n as).isSome := by
  cases hv : valueOf n as with
  | none => simp; decide
  | some e =>
    simp only [valueOf, Option.map_eq_some_iff] at hv
    obtain ⟨a, ha, rfl⟩ := hv
    have := List.mem_of_getLast? ha
    simpa using h a (List.mem_filter.mp this).1

/-! ## Lemmas: links -/

/-- Proof device: the effect of a component on a link. -/
def amendBy (c : Component) (l : Link) : Link × List Err :=
  if l.target.eq c.name then
    amendLink c.name c.cond ((valueOf sizeName c.aspects).getD .undefined) ((valueOf firstName c.aspects).getD .undefined) l
  else (l, [])

/-- Proof device: the effect of several components on a link. -/
def amendAll : List Component → Link → Link × List Err
  | [], l => (l, [])
  | c :: cs, l => ((amendAll cs (amendBy c l).1).1, (amendBy c l).2 ++ (amendAll cs (amendBy c l).1).2)

theorem amendLink_target (n : ID) (a b c : Expr) (l : Link) : (amendLink n a b c l).1.target = l.target := by
  simp only [amendLink]
  repeat' split
  all_goals rfl

theorem amendBy_target (c : Component) (l : Link) : (amendBy c l).1.target = l.target := by
  unfold amendBy
  split
  · exact amendLink_target ..
  · rfl

theorem amendAll_other {cs : List Component} {l : Link} (h : ∀ c ∈ cs, l.target.eq c.name = false) : amendAll cs l = (l, []) := by
  induction cs with
  | nil => rfl
  | cons c cs ih =>
    have h1 : amendBy c l = (l, []) := by simp [amendBy, h c (by simp)]
    simp [amendAll, h1, ih fun d hd => h d (List.mem_cons_of_mem _ hd)]

theorem amendLinks_spec (c : Component) (ls : List Link) :
    (amendLinks c.name c.cond ((valueOf sizeName c.aspects).getD .undefined) ((valueOf firstName c.aspects).getD .undefined) ls).1
      = ls.map (fun l => (amendBy c l).1) ∧
    ((amendLinks c.name c.cond ((valueOf sizeName c.aspects).getD .undefined) ((valueOf firstName c.aspects).getD .undefined) ls).2
      = [] ↔ ∀ l ∈ ls, (amendBy c l).2 = []) := by
  induction ls with
  | nil => simp [amendLinks]
  | cons l ls ih =>
    have h : (if l.target.eq c.name then
        amendLink c.name c.cond ((valueOf sizeName c.aspects).getD .undefined) ((valueOf firstName c.aspects).getD .undefined) l
      else (l, [])) = amendBy c l := rfl
    simp only [amendLinks, h, List.map_cons, ih.1, List.append_eq_nil_iff, ih.2, List.mem_cons, forall_eq_or_imp, and_self]

/-- The component amends nothing if it says nothing. -/
theorem amendBy_trivial {c : Component} (h : (!((valueOf firstName c.aspects).getD .undefined).eq .undefined ||
    !((valueOf sizeName c.aspects).getD .undefined).eq .undefined || !c.cond.eq .tru) = false) (l : Link) :
    amendBy c l = (l, []) := by
  simp only [Bool.or_eq_false_iff, Bool.not_eq_false'] at h
  unfold amendBy amendLink
  simp [h.1.1, h.1.2, h.2]

theorem amendBy_alone {c : Component} {t : Transition} (hc : ∀ a ∈ c.aspects, a.value.eq .undefined = false)
    (ht : ∀ a ∈ t.aspects, a.value.eq .undefined = false) (h : t.target.eq c.name = true) :
    ((amendBy c t.alone).2 = [] ↔
      ¬ ((valueOf sizeName c.aspects).isSome ∧ (valueOf sizeName t.aspects).isSome) ∧
      ¬ ((valueOf firstName c.aspects).isSome ∧ (valueOf firstName t.aspects).isSome)) ∧
    ((amendBy c t.alone).2 = [] → (amendBy c t.alone).1 = t.with c) := by
  have hs := valueOf_proper (n := sizeName) hc
  have hf := valueOf_proper (n := firstName) hc
  have hs' := valueOf_proper (n := sizeName) ht
  have hf' := valueOf_proper (n := firstName) ht
  unfold amendBy
  rw [if_pos (show t.alone.target.eq c.name = true from h)]
  unfold amendLink Transition.alone Transition.with both Component.cond
  simp only [hs, hf, hs', hf']
  generalize c.condition.getD Expr.tru = cc
  generalize t.condition.getD Expr.tru = tc
  have hu : Expr.undefined.eq .undefined = true := by decide
  clear hc ht
  generalize valueOf sizeName c.aspects = v1 at *
  generalize valueOf firstName c.aspects = v2 at *
  generalize valueOf sizeName t.aspects = v3 at *
  generalize valueOf firstName t.aspects = v4 at *
  cases v1 <;> cases v2 <;> cases v3 <;> cases v4 <;>
    simp only [Option.getD_some, Option.isSome_some, Option.isSome_none, Option.getD_none, Bool.not_true, Bool.not_false]
      at hs hf hs' hf' <;>
    cases h1 : cc.eq Expr.tru <;> cases h2 : tc.eq Expr.tru <;> simp [h1, h2, hu, hs, hf, hs', hf']

theorem amendAll_alone {later : List Component} {t : Transition} (hl : t.later = later)
    (hd : later.Pairwise fun a b => a.name.eq b.name = false)
    (hc : ∀ c ∈ later, ∀ a ∈ c.aspects, a.value.eq .undefined = false)
    (ht : ∀ a ∈ t.aspects, a.value.eq .undefined = false) :
    ((amendAll later t.alone).2 = [] ↔ t.NoConflict) ∧ ((amendAll later t.alone).2 = [] → (amendAll later t.alone).1 = t.link) := by
  unfold Transition.NoConflict Transition.link
  rw [hl]
  clear hl
  induction later with
  | nil => simp [amendAll]
  | cons c cs ih =>
    rw [List.pairwise_cons] at hd
    cases h : t.target.eq c.name with
    | false =>
      have h1 : amendBy c t.alone = (t.alone, []) := by simp [amendBy, Transition.alone, h]
      have := ih hd.2 fun d hd => hc d (List.mem_cons_of_mem _ hd)
      simp only [amendAll, h1, List.nil_append, List.find?_cons, h, List.mem_cons, forall_eq_or_imp]
      simpa using this
    | true =>
      have hno : ∀ d ∈ cs, (amendBy c t.alone).1.target.eq d.name = false := by
        intro d hdm
        rw [amendBy_target]
        have h1 := hd.1 d hdm
        cases h2 : t.target.eq d.name with
        | false => exact h2
        | true =>
          have := ID.C38_equivalence.trans (ID.C38_equivalence.symm h) h2
          rw [h1] at this
          cases this
      have key := amendBy_alone (hc c (by simp)) ht h
      simp only [amendAll, amendAll_other hno, List.append_nil, List.find?_cons, h]
      refine ⟨?_, key.2⟩
      rw [key.1]
      simp only [List.mem_cons, forall_eq_or_imp, h, true_implies]
      constructor
      · intro h1
        refine ⟨h1, ?_⟩
        intro d hdm hdt
        have := hno d hdm
        rw [amendBy_target] at this
        simp only [Transition.alone] at this
        rw [hdt] at this
        cases this
      · exact fun h1 => h1.1

theorem thenLoop_spec (names : List ID) (c : Component) (rest : List Component) (ts : List Then) :
    ((thenLoop names c.name ts).2 = [] ↔ ∀ t ∈ ts, Known t.aspects ∧ ∀ f, t.target = some f → f ∈ names) ∧
    ((thenLoop names c.name ts).2 = [] → (thenLoop names c.name ts).1 =
      ts.map fun t => Transition.alone ⟨c.name, t.target.getD FINAL, t.condition, t.aspects, rest⟩) := by
  induction ts with
  | nil => simp [thenLoop]
  | cons t ts ih =>
    have hex : (extractThen c.name t).1 = Transition.alone ⟨c.name, t.target.getD FINAL, t.condition, t.aspects, rest⟩ := by
      obtain ⟨h1, h2, _⟩ := extractAspect_spec t.aspects
      simp only [extractThen, Transition.alone, h1, h2]
    have her : (extractThen c.name t).2 = [] ↔ Known t.aspects := (extractAspect_spec t.aspects).2.2
    unfold thenLoop
    cases htg : t.target with
    | none =>
      simp only [List.append_eq_nil_iff, her, ih.1, List.mem_cons, forall_eq_or_imp, htg, reduceCtorEq, false_implies, implies_true,
        and_true, true_and]
      rintro ⟨_, h⟩
      rw [hex, ih.2 (ih.1.mpr h)]
      simp [htg]
    | some f =>
      by_cases hf : f ∈ names
      · simp only [hf, if_true, List.append_eq_nil_iff, her, ih.1, List.mem_cons, forall_eq_or_imp, htg, Option.some.injEq,
          forall_eq', and_true, true_and]
        rintro ⟨_, h⟩
        rw [hex, ih.2 (ih.1.mpr h)]
        simp [htg]
      · simp [hf, htg]

theorem loop_spec (names : List ID) (cs : List Component) (links : List Link)
    (hd : cs.Pairwise fun a b => a.name.eq b.name = false) (hf : ∀ c ∈ cs, FINAL.eq c.name = false) :
    ((componentLoop names cs links).2 = [] ↔
      (∀ c ∈ cs, isMessage c.name = false ∧ Known c.aspects ∧
        ∀ t ∈ c.thens, Known t.aspects ∧ ∀ f, t.target = some f → f ∈ names) ∧
      (∀ l ∈ links, (amendAll cs l).2 = []) ∧ ∀ t ∈ ofComponents cs, (amendAll t.later t.alone).2 = []) ∧
    ((componentLoop names cs links).2 = [] → (componentLoop names cs links).1 =
      links.map (fun l => (amendAll cs l).1) ++ (ofComponents cs).map fun t => (amendAll t.later t.alone).1) := by
  induction cs generalizing links with
  | nil => simp [componentLoop, ofComponents, amendAll]
  | cons c rest ih =>
    rw [List.pairwise_cons] at hd
    unfold componentLoop
    cases hm : isMessage c.name with
    | true => simp [hm]
    | false =>
      obtain ⟨e1, e2, e3⟩ := extractAspect_spec c.aspects
      simp only [Bool.false_eq_true, if_false, e1, e2]
      -- the effect of the component
      have hamend : ∀ ls : List Link,
          (if (!((valueOf firstName c.aspects).getD .undefined).eq .undefined ||
            !((valueOf sizeName c.aspects).getD .undefined).eq .undefined || !c.cond.eq .tru) = true then
            amendLinks c.name c.cond ((valueOf sizeName c.aspects).getD .undefined)
              ((valueOf firstName c.aspects).getD .undefined) ls
          else (ls, [])).1 = ls.map (fun l => (amendBy c l).1) ∧
          ((if (!((valueOf firstName c.aspects).getD .undefined).eq .undefined ||
            !((valueOf sizeName c.aspects).getD .undefined).eq .undefined || !c.cond.eq .tru) = true then
            amendLinks c.name c.cond ((valueOf sizeName c.aspects).getD .undefined)
              ((valueOf firstName c.aspects).getD .undefined) ls
          else (ls, [])).2 = [] ↔ ∀ l ∈ ls, (amendBy c l).2 = []) := by
        intro ls
        split
        · exact amendLinks_spec c ls
        · rename_i h
          simp [amendBy_trivial (Bool.eq_false_iff.mpr h)]
      obtain ⟨a1, a2⟩ := hamend (links ++ defaultLink c rest)
      rw [a1]
      -- the links of the component
      obtain ⟨t1, t2⟩ := thenLoop_spec names c rest c.thens
      have hdef : (defaultLink c rest).map (fun l => (amendBy c l).1) ++
          c.thens.map (fun t => Transition.alone ⟨c.name, t.target.getD FINAL, t.condition, t.aspects, rest⟩) =
          (ofComponent c rest).map Transition.alone ∧ ∀ l ∈ defaultLink c rest, (amendBy c l).2 = [] := by
        unfold defaultLink ofComponent
        cases c.thens with
        | cons t ts => simp
        | nil =>
          have hno : ∀ l : Link, l.target = (rest.head?.map Component.name).getD FINAL → amendBy c l = (l, []) := by
            intro l hl
            unfold amendBy
            rw [hl]
            cases rest with
            | nil => simp [hf c (by simp)]
            | cons d rest =>
              have : d.name.eq c.name = false := by
                have h1 := hd.1 d (by simp)
                cases h2 : d.name.eq c.name with
                | false => rfl
                | true => rw [ID.C38_equivalence.symm h2] at h1; cases h1
              simp [this]
          cases rest with
          | nil =>
            have := hno ⟨c.name, FINAL, .tru, .undefined, .undefined⟩ rfl
            simp [this, Transition.alone, valueOf]
          | cons d rest =>
            have := hno ⟨c.name, d.name, .tru, .undefined, .undefined⟩ rfl
            simp [this, Transition.alone, valueOf]
      obtain ⟨i1, i2⟩ := ih ((links.map fun l => (amendBy c l).1) ++ (ofComponent c rest).map Transition.alone) hd.2
        fun d hd => hf d (List.mem_cons_of_mem _ hd)
      by_cases hlocal : (thenLoop names c.name c.thens).2 = []
      · have hl : (links ++ defaultLink c rest).map (fun l => (amendBy c l).1) ++ (thenLoop names c.name c.thens).1 =
            (links.map fun l => (amendBy c l).1) ++ (ofComponent c rest).map Transition.alone := by
          rw [t2 hlocal, List.map_append, List.append_assoc, hdef.1]
        rw [hl]
        constructor
        · have hlat : ∀ t ∈ ofComponent c rest, t.later = rest := by
            unfold ofComponent
            split <;> simp
          rw [List.append_eq_nil_iff, List.append_eq_nil_iff, List.append_eq_nil_iff, e3, a2, t1, i1]
          constructor
          · rintro ⟨⟨⟨h1, h2⟩, h3⟩, h4, h5, h6⟩
            refine ⟨?_, ?_, ?_⟩
            · intro d hdm
              rcases List.mem_cons.mp hdm with rfl | hdm
              · exact ⟨hm, h1, h3⟩
              · exact h4 d hdm
            · intro l hlm
              simp only [amendAll, List.append_eq_nil_iff]
              exact ⟨h2 l (List.mem_append_left _ hlm), h5 _ (List.mem_append_left _ (List.mem_map.mpr ⟨l, hlm, rfl⟩))⟩
            · intro t htm
              rcases List.mem_append.mp htm with htm | htm
              · rw [hlat t htm]
                exact h5 _ (List.mem_append_right _ (List.mem_map.mpr ⟨t, htm, rfl⟩))
              · exact h6 t htm
          · rintro ⟨h1, h2, h3⟩
            obtain ⟨_, h4, h5⟩ := h1 c (by simp)
            refine ⟨⟨⟨h4, ?_⟩, h5⟩, fun d hdm => h1 d (List.mem_cons_of_mem _ hdm), ?_, fun t ht => h3 t (List.mem_append_right _ ht)⟩
            · intro l hlm
              rcases List.mem_append.mp hlm with hlm | hlm
              · have := h2 l hlm
                simp only [amendAll, List.append_eq_nil_iff] at this
                exact this.1
              · exact hdef.2 l hlm
            · intro l hlm
              rcases List.mem_append.mp hlm with hlm | hlm
              · obtain ⟨l', hl', rfl⟩ := List.mem_map.mp hlm
                have := h2 l' hl'
                simp only [amendAll, List.append_eq_nil_iff] at this
                exact this.2
              · obtain ⟨t, ht, rfl⟩ := List.mem_map.mp hlm
                have := h3 t (List.mem_append_left _ ht)
                rw [hlat t ht] at this
                exact this
        · intro h
          simp only [List.append_eq_nil_iff] at h
          rw [i2 h.2]
          have hlat : ∀ t ∈ ofComponent c rest, t.later = rest := by
            unfold ofComponent
            split <;> simp
          simp only [List.map_append, List.map_map, List.append_assoc, ofComponents, Function.comp_def, amendAll]
          congr 2
          apply List.map_congr_left
          intro t ht
          rw [hlat t ht]
      · constructor
        · constructor
          · intro h
            simp only [List.append_eq_nil_iff] at h
            exact absurd h.1.2 hlocal
          · rintro ⟨h, -, -⟩
            exact absurd (t1.mpr (h c (by simp)).2.2) hlocal
        · intro h
          simp only [List.append_eq_nil_iff] at h
          exact absurd h.1.2 hlocal

theorem later_suffix {cs : List Component} {t : Transition} (h : t ∈ ofComponents cs) : t.later <:+ cs := by
  induction cs with
  | nil => simp [ofComponents] at h
  | cons c cs ih =>
    rcases List.mem_append.mp h with h | h
    · have : t.later = cs := by
        unfold ofComponent at h
        split at h
        · simp only [List.mem_singleton] at h; rw [h]
        · obtain ⟨x, _, rfl⟩ := List.mem_map.mp h; rfl
      rw [this]
      exact List.suffix_cons c cs
    · exact (ih h).trans (List.suffix_cons c cs)

theorem aspects_proper {cs : List Component} (hs : ∀ c ∈ cs, ∀ t ∈ c.thens, ∀ a ∈ t.aspects, a.value.eq .undefined = false)
    {t : Transition} (h : t ∈ ofComponents cs) : ∀ a ∈ t.aspects, a.value.eq .undefined = false := by
  induction cs with
  | nil => simp [ofComponents] at h
  | cons c cs ih =>
    rcases List.mem_append.mp h with h | h
    · unfold ofComponent at h
      split at h
      · simp only [List.mem_singleton] at h; rw [h]; simp
      · obtain ⟨x, hx, rfl⟩ := List.mem_map.mp h
        exact hs c (by simp) x hx
    · exact ih (fun d hd => hs d (List.mem_cons_of_mem _ hd)) h

theorem distinct_eq {cs : List Component} (hd : cs.Pairwise fun a b => a.name.eq b.name = false) {c d : Component} (hc : c ∈ cs)
    (hdm : d ∈ cs) (h : c.name.eq d.name = true) : c = d := by
  have h' : d.name.eq c.name = true := ID.C38_equivalence.symm h
  induction cs with
  | nil => simp at hc
  | cons x xs ih =>
    rw [List.pairwise_cons] at hd
    rcases List.mem_cons.mp hc with hc | hc <;> rcases List.mem_cons.mp hdm with hdm | hdm
    · rw [hc, hdm]
    · rw [hc, hd.1 d hdm] at h; cases h
    · rw [hdm, hd.1 c hc] at h'; cases h'
    · exact ih hd.2 hc hdm

/-! ## C42 -/

/-- C42: the structure of a message. A declaration is accepted exactly if it is clean: no field is named `Message`, only known
aspects are used, targets are defined and no aspect is given both at a transition and at its target. For an accepted declaration
there is one link for each declared transition, in this order. It carries the condition and the aspects of the transition and of
its target, provided that the target is declared after the source.

Missing: conditions and aspects of components declared before the source (`C42_backward_counterexample`); an aspect given twice in
the same list is accepted (`C42_double_aspect_counterexample`). -/
theorem C42_structure_partial (initial : Option Then) (cs : List Component) (hs : Sane initial cs) (links : List Link)
    (errs : List Err) (h : createStructure initial cs = .ok (links, errs)) :
    (errs = [] ↔ Clean initial cs) ∧ (errs = [] → links = (transitions initial cs).map Transition.link) := by
  have hall : ∀ t ∈ ofComponents cs, ((amendAll t.later t.alone).2 = [] ↔ t.NoConflict) ∧
      ((amendAll t.later t.alone).2 = [] → (amendAll t.later t.alone).1 = t.link) := by
    intro t ht
    have hsub := later_suffix ht
    exact amendAll_alone rfl (hs.distinct.sublist hsub.sublist) (fun c hc => hs.component c (hsub.subset hc))
      (aspects_proper hs.thens ht)
  have key : ∀ t0 : Transition, t0.later = cs → (∀ a ∈ t0.aspects, a.value.eq .undefined = false) →
      ((componentLoop (cs.map Component.name) cs [t0.alone]).2 = [] ↔
        (∀ c ∈ cs, isMessage c.name = false ∧ Known c.aspects ∧
          ∀ t ∈ c.thens, Known t.aspects ∧ ∀ f, t.target = some f → f ∈ cs.map Component.name) ∧
        ∀ t ∈ t0 :: ofComponents cs, t.NoConflict) ∧
      ((componentLoop (cs.map Component.name) cs [t0.alone]).2 = [] →
        (componentLoop (cs.map Component.name) cs [t0.alone]).1 = (t0 :: ofComponents cs).map Transition.link) := by
    intro t0 hl ht0
    obtain ⟨h1, h2⟩ := loop_spec (cs.map Component.name) cs [t0.alone] hs.distinct hs.final
    obtain ⟨h3, h4⟩ := amendAll_alone hl hs.distinct hs.component ht0
    constructor
    · rw [h1]
      constructor
      · rintro ⟨g1, g2, g3⟩
        refine ⟨g1, ?_⟩
        intro t ht
        rcases List.mem_cons.mp ht with rfl | ht
        · exact h3.mp (g2 _ (by simp))
        · exact (hall t ht).1.mp (g3 t ht)
      · rintro ⟨g1, g2⟩
        refine ⟨g1, ?_, fun t ht => (hall t ht).1.mpr (g2 t (List.mem_cons_of_mem _ ht))⟩
        intro l hl
        simp only [List.mem_singleton] at hl
        rw [hl]
        exact h3.mpr (g2 t0 (by simp))
    · intro he
      obtain ⟨_, g2, g3⟩ := h1.mp he
      rw [h2 he]
      simp only [List.map_cons, List.map_nil, List.cons_append, List.nil_append]
      rw [h4 (g2 _ (by simp))]
      congr 1
      apply List.map_congr_left
      intro t ht
      exact (hall t ht).2 (g3 t ht)
  have fin : ∀ t0 : Transition, transitions initial cs = t0 :: ofComponents cs → t0.later = cs →
      (∀ a ∈ t0.aspects, a.value.eq .undefined = false) → ∀ e0 : List Err,
      (e0 = [] ↔ ∀ t, initial = some t → Known t.aspects) →
      (componentLoop (cs.map Component.name) cs [t0.alone]).1 = links →
      e0 ++ (componentLoop (cs.map Component.name) cs [t0.alone]).2 = errs →
      (errs = [] ↔ Clean initial cs) ∧ (errs = [] → links = (transitions initial cs).map Transition.link) := by
    intro t0 htr hl ht0 e0 he0 hlinks herrs
    obtain ⟨k1, k2⟩ := key t0 hl ht0
    rw [← hlinks, ← herrs, htr, List.append_eq_nil_iff]
    refine ⟨?_, fun h => k2 h.2⟩
    rw [he0, k1]
    constructor
    · rintro ⟨g1, g2, g3⟩
      refine ⟨?_, fun c hc => (g2 c hc).2.1, fun c hc t ht => ((g2 c hc).2.2 t ht).1, g1, ?_, by rw [htr]; exact g3⟩
      · intro c hc
        have := (g2 c hc).1
        simpa [isMessage] using this
      · intro c hc t ht f hf
        have := ((g2 c hc).2.2 t ht).2 f hf
        simpa using this
    · intro hc
      refine ⟨hc.start, ?_, by rw [← htr]; exact hc.conflicts⟩
      intro c hcm
      refine ⟨by simpa [isMessage] using hc.names c hcm, hc.component c hcm, ?_⟩
      intro t ht
      refine ⟨hc.thens c hcm t ht, ?_⟩
      intro f hf
      simpa using hc.targets c hcm t ht f hf
  unfold createStructure at h
  cases initial with
  | some t =>
    simp only [Except.ok.injEq, Prod.mk.injEq] at h
    have hal : (extractThen INITIAL t).1 = Transition.alone ⟨INITIAL, t.target.getD FINAL, t.condition, t.aspects, cs⟩ := by
      obtain ⟨h1, h2, _⟩ := extractAspect_spec t.aspects
      simp only [extractThen, Transition.alone, h1, h2]
    rw [hal] at h
    refine fin _ rfl rfl (hs.start t rfl) (extractThen INITIAL t).2 ?_ h.1 h.2
    rw [show (extractThen INITIAL t).2 = (extractAspect t.aspects).2.2 from rfl, (extractAspect_spec t.aspects).2.2]
    simp
  | none =>
    cases cs with
    | nil => cases h
    | cons c cs =>
      simp only [Except.ok.injEq] at h
      refine fin ⟨INITIAL, c.name, none, [], c :: cs⟩ rfl rfl (by simp) [] (by simp) ?_ ?_
      · exact congrArg Prod.fst h
      · exact congrArg Prod.snd h

/-- C42 for declarations in which the target of every transition is declared after its source: the condition and the aspects of
a component hold for every link to the component. -/
theorem C42_forward_partial (initial : Option Then) (cs : List Component) (hs : Sane initial cs) (links : List Link)
    (h : createStructure initial cs = .ok (links, []))
    (hf : ∀ t ∈ transitions initial cs, ∀ c ∈ cs, t.target.eq c.name = true → c ∈ t.later) :
    ∀ c ∈ cs, ∀ l ∈ links, l.target.eq c.name = true →
      (∀ e, valueOf sizeName c.aspects = some e → l.size = e) ∧ (∀ e, valueOf firstName c.aspects = some e → l.first = e) ∧
      ∀ e, c.condition = some e → e.eq .tru = false → l.condition = e ∨ ∃ e', l.condition = .bool .and [e, e'] := by
  obtain ⟨_, hl⟩ := C42_structure_partial initial cs hs links [] h
  have hl := hl rfl
  intro c hc l hlm htg
  rw [hl] at hlm
  obtain ⟨t, ht, rfl⟩ := List.mem_map.mp hlm
  have htt : t.link.target = t.target := by
    unfold Transition.link
    split <;> rfl
  rw [htt] at htg
  have hlater := hf t ht c hc htg
  have hsub : t.later <:+ cs := by
    rcases List.mem_cons.mp ht with ht | ht
    · cases initial <;> (rw [ht]; exact List.suffix_refl _)
    · exact later_suffix ht
  have hfind : t.later.find? (fun d => t.target.eq d.name) = some c := by
    obtain ⟨d, hd⟩ : ∃ d, t.later.find? (fun d => t.target.eq d.name) = some d := by
      rw [← Option.isSome_iff_exists, List.find?_isSome]
      exact ⟨c, hlater, htg⟩
    rw [hd]
    have h1 := List.find?_some hd
    have h2 := hsub.subset (List.mem_of_find?_eq_some hd)
    have hcd : c.name.eq d.name = true := ID.C38_equivalence.trans (ID.C38_equivalence.symm htg) h1
    rw [distinct_eq hs.distinct hc h2 hcd]
  unfold Transition.link
  rw [hfind]
  refine ⟨?_, ?_, ?_⟩
  · intro e he; simp [Transition.with, he]
  · intro e he; simp [Transition.with, he]
  · intro e he hne
    simp only [Transition.with, both, he, Option.getD_some, hne, Bool.false_eq_true, if_false]
    split
    · exact .inl rfl
    · exact .inr ⟨_, rfl⟩

/-! ## Examples -/

/-- The identifier of one character. -/
def exID (c : Char) : ID := ⟨[[c]]⟩

/-- The condition `A = 1`. -/
def exCond : Expr := .rel .eq (.var false false (exID 'A')) (.n 1)

/-- The declaration `A : T then B with Size => 8 then C; B : T with First => 0 if A = 1; C : T`. -/
def exForward : List Component :=
  [⟨exID 'A', none, [], [⟨some (exID 'B'), none, [⟨sizeName, .n 8⟩]⟩, ⟨some (exID 'C'), none, []⟩]⟩,
   ⟨exID 'B', some exCond, [⟨firstName, .n 0⟩], []⟩, ⟨exID 'C', none, [], []⟩]

theorem exForward_sane : Sane none exForward := by
  constructor
  · decide
  · decide
  · intro c hc a ha
    simp only [exForward, List.mem_cons, List.not_mem_nil, or_false] at hc
    rcases hc with rfl | rfl | rfl <;> simp at ha
    subst ha; decide
  · intro c hc t ht a ha
    simp only [exForward, List.mem_cons, List.not_mem_nil, or_false] at hc
    rcases hc with rfl | rfl | rfl <;> simp at ht
    rcases ht with rfl | rfl <;> simp at ha
    subst ha; decide
  · intro t ht; cases ht

/-- The hypotheses of `C42_structure_partial` and `C42_forward_partial`: the link from `A` to `B` carries the condition of `B` and
aspects of both declarations. -/
example : Sane none exForward ∧ createStructure none exForward = .ok
    ([⟨INITIAL, exID 'A', .tru, .undefined, .undefined⟩, ⟨exID 'A', exID 'B', exCond, .n 8, .n 0⟩,
      ⟨exID 'A', exID 'C', .tru, .undefined, .undefined⟩, ⟨exID 'B', exID 'C', .tru, .undefined, .undefined⟩,
      ⟨exID 'C', FINAL, .tru, .undefined, .undefined⟩], []) ∧
    ∀ t ∈ transitions none exForward, ∀ c ∈ exForward, t.target.eq c.name = true → c ∈ t.later := by
  refine ⟨exForward_sane, rfl, ?_⟩
  intro t ht c hc
  simp only [transitions, ofComponents, ofComponent, exForward, List.mem_cons, List.mem_append, List.not_mem_nil, or_false,
    List.map_cons, List.map_nil, Option.map, List.head?, Option.getD] at ht hc
  rcases ht with rfl | (rfl | rfl) | rfl | rfl <;> rcases hc with rfl | rfl | rfl <;> intro h <;>
    first
    | exact absurd h (by decide)
    | simp

/-- The declaration `A : T then C; B : T if A = 1 then null; C : T then B`. -/
def exBackward : List Component :=
  [⟨exID 'A', none, [], [⟨some (exID 'C'), none, []⟩]⟩, ⟨exID 'B', some exCond, [⟨sizeName, .n 8⟩], [⟨none, none, []⟩]⟩,
   ⟨exID 'C', none, [], [⟨some (exID 'B'), none, []⟩]⟩]

/-- C42 is false in general: the condition and the size given at `B` get lost without an error, because the only link to `B`
comes from a component that is declared later. -/
theorem C42_backward_counterexample :
    createStructure none exBackward = .ok
      ([⟨INITIAL, exID 'A', .tru, .undefined, .undefined⟩, ⟨exID 'A', exID 'C', .tru, .undefined, .undefined⟩,
        ⟨exID 'B', FINAL, .tru, .undefined, .undefined⟩, ⟨exID 'C', exID 'B', .tru, .undefined, .undefined⟩], []) ∧
    ∃ c ∈ exBackward, c.name = exID 'B' ∧ c.condition = some exCond ∧ c.aspects = [⟨sizeName, .n 8⟩] :=
  ⟨rfl, _, List.mem_cons_of_mem _ List.mem_cons_self, rfl, rfl, rfl⟩

/-- C42 is false for an aspect given twice at the same place: the first value is ignored without an error. -/
theorem C42_double_aspect_counterexample :
    createStructure none [⟨exID 'A', none, [⟨sizeName, .n 8⟩, ⟨sizeName, .n 16⟩], []⟩] =
      .ok ([⟨INITIAL, exID 'A', .tru, .n 16, .undefined⟩, ⟨exID 'A', FINAL, .tru, .undefined, .undefined⟩], []) := rfl

end Verif.SpecParser.Structure
