import Verif.Ada.DeclExamples

/-! # C66: declarations that are considered equal -/

namespace Verif.Ada
open Verif

/-- What objects stand for is alike: it has the same nodes and names, its expressions have the same values, its statements the same effects. Modes `in`,
`out` and `in out` and the two kinds of array types may be mixed up. -/
inductive Like : Meaning → Meaning → Prop
  | name {ps} : Like (.name ps) (.name ps)
  | expr {a b : AExpr} : (∀ W : World, a.value W = b.value W) → a.isOthers = b.isOthers → Like (.expr a) (.expr b)
  | stmts {ss ss' : List AStmt} : (∀ (M : Machine) (s : M.State), AStmt.execs M s ss = AStmt.execs M s ss') → Like (.stmts ss) (.stmts ss')
  | node {t : Tag} {ms ms' : List Meaning} : List.Forall₂ Like ms ms' → Like (.node t ms) (.node t ms')
  | mode {t t' : Tag} : t ∈ [.inMode, .outMode, .inOutMode] → t' ∈ [.inMode, .outMode, .inOutMode] → Like (.node t []) (.node t' [])
  | constrained {i c i' c' : Meaning} : Like i i' → Like c c' → Like (.node .array [i, c]) (.node .array [i', .node .unconstrained [], c'])
  | unconstrained {i c i' c' : Meaning} : Like i i' → Like c c' → Like (.node .array [i, .node .unconstrained [], c]) (.node .array [i', c'])

/-! ## Declarations without unordered parts -/

/-- At most one dependency. -/
def AAspect.Plain : AAspect → Prop
  | depends ds => ds.length ≤ 1
  | _ => True

/-- No component has the name `null`. -/
def AComponent.Plain : AComponent → Prop
  | comp i _ _ => i.eq ⟨[tx "null"]⟩ = false
  | null => True

/-- All literals have numbers; components are plain. -/
def ATypeDef.Plain : ATypeDef → Prop
  | enumeration ls _ => ∀ l ∈ ls, l.2 ≠ none
  | record cs v => (∀ c ∈ cs, c.Plain) ∧ ∀ p ∈ v, ∀ w ∈ p.variants, ∀ c ∈ w.components, c.Plain
  | _ => True

/-- The parts are plain. -/
def ATypeDecl.Plain (t : ATypeDecl) : Prop := t.definition.Plain ∧ ∀ a ∈ t.aspects, a.Plain

/-- The parts are plain; the associations of a formal package are given by a box. -/
def AFormal.Plain : AFormal → Prop
  | subprogram _ => True
  | package _ _ as => as = []
  | type t => t.Plain

/-- The parts are plain. -/
def FormalsPlain (fs : Option (List AFormal)) : Prop := ∀ f ∈ fs.getD [], f.Plain

mutual

/-- Declarations other than packages without dictionaries whose order would be ignored. -/
def ADecl.Plain : ADecl → Prop
  | .use _ | .useType _ | .pragma .. | .instance .. | .renaming .. | .newPackage .. => True
  | .object _ _ _ _ as | .exprFunction _ _ as => ∀ a ∈ as, a.Plain
  | .type t => t.Plain
  | .subprogram _ as fs => (∀ a ∈ as, a.Plain) ∧ fs = none
  | .body _ ds _ as => (∀ a ∈ as, a.Plain) ∧ ADecl.PlainL ds
  | .package .. | .packageBody .. => False

/-- The declarations are plain. -/
def ADecl.PlainL : List ADecl → Prop
  | [] => True
  | d :: ds => d.Plain ∧ ADecl.PlainL ds

end

/-! ## Lemmas -/

theorem eqList_like {α : Type} {eq : α → α → Bool} {m : α → Meaning} : ∀ {as bs : List α}, eqList eq as bs = true →
    (∀ a ∈ as, ∀ b ∈ bs, eq a b = true → Like (m a) (m b)) → List.Forall₂ Like (as.map m) (bs.map m)
  | [], [], _, _ => .nil
  | [], _ :: _, h, _ => by simp [eqList] at h
  | _ :: _, [], h, _ => by simp [eqList] at h
  | a :: as, b :: bs, h, hl => by
    simp only [eqList, Bool.and_eq_true] at h
    exact .cons (hl a (by simp) b (by simp) h.1) (eqList_like h.2 fun x hx y hy => hl x (by simp [hx]) y (by simp [hy]))

theorem eqList_isEmpty {α : Type} {eq : α → α → Bool} : ∀ {as bs : List α}, eqList eq as bs = true → as.isEmpty = bs.isEmpty
  | [], [], _ => rfl
  | [], _ :: _, h => by simp [eqList] at h
  | _ :: _, [], h => by simp [eqList] at h
  | _ :: _, _ :: _, _ => rfl

theorem name_like {i j : ID} (h : i.eq j = true) : Like (nameOf i) (nameOf j) := by
  have : i.parts.map PyStr.lower = j.parts.map PyStr.lower := (ID.eq_iff_key i j).mp h
  rw [nameOf, nameOf, this]
  exact .name

theorem names_like {is js : List ID} (h : eqList ID.eq is js = true) : List.Forall₂ Like (is.map nameOf) (js.map nameOf) :=
  eqList_like h fun _ _ _ _ => name_like

theorem identifiers_like {is js : List ID} (h : eqList ID.eq is js = true) : Like (identifiersOf is) (identifiersOf js) := .node (names_like h)

theorem expr_like {a b : AExpr} (h : a.eqb b = true) : Like (.expr a) (.expr b) := .expr (eqb_same a b h).value (eqb_same a b h).others

theorem exprs_like : ∀ {as bs : List AExpr}, AExpr.eqbL as bs = true → List.Forall₂ Like (as.map .expr) (bs.map .expr)
  | [], [], _ => .nil
  | [], _ :: _, h => by simp [AExpr.eqbL] at h
  | _ :: _, [], h => by simp [AExpr.eqbL] at h
  | a :: as, b :: bs, h => by
    simp only [AExpr.eqbL, Bool.and_eq_true] at h
    exact .cons (expr_like h.1) (exprs_like h.2)

theorem cases_like : ∀ {as bs : List (AExpr × AExpr)}, AExpr.eqbP as bs = true →
    List.Forall₂ Like (as.map fun c => .node .contractCase [.expr c.1, .expr c.2]) (bs.map fun c => .node .contractCase [.expr c.1, .expr c.2])
  | [], [], _ => .nil
  | [], _ :: _, h => by simp [AExpr.eqbP] at h
  | _ :: _, [], h => by simp [AExpr.eqbP] at h
  | (a, x) :: as, (b, y) :: bs, h => by
    simp only [AExpr.eqbP, Bool.and_eq_true] at h
    exact .cons (.node (.cons (expr_like h.1.1) (.cons (expr_like h.1.2) .nil))) (cases_like h.2)

theorem initial_like {a b : Option AExpr} (h : eqOpt AExpr.eqb a b = true) : List.Forall₂ Like (initialOf a) (initialOf b) := by
  cases a <;> cases b <;> simp only [eqOpt, Bool.false_eq_true] at h
  · exact .nil
  · exact .cons (.node (.cons (expr_like h) .nil)) .nil

theorem like_append {as bs cs ds : List Meaning} (h : List.Forall₂ Like as bs) (h' : List.Forall₂ Like cs ds) : List.Forall₂ Like (as ++ cs) (bs ++ ds) := by
  induction h with
  | nil => exact h'
  | cons h1 _ ih => exact .cons h1 ih

theorem aspect_like {a b : AAspect} (h : a.eqb b = true) (ha : a.Plain) (hb : b.Plain) : Like a.means b.means := by
  cases a <;> cases b <;> simp only [AAspect.eqb, Bool.false_eq_true] at h
  case depends.depends ds es =>
    simp only [AAspect.Plain] at ha hb
    match ds, es, ha, hb with
    | [], [], _, _ => exact .node .nil
    | [], [_], _, _ => simp [eqDict] at h
    | [_], [], _, _ => simp [eqDict] at h
    | [(x, is)], [(y, js)], _, _ =>
      have h : x.eq y = true ∧ eqList ID.eq is js = true := by simpa [eqDict] using h
      refine .node (.cons (.node (.cons (name_like h.1) (.cons ?_ .nil))) .nil)
      rw [← eqList_isEmpty h.2]
      split
      · exact .node .nil
      · exact .node (names_like h.2)
  case contractCases.contractCases cs cs' => exact .node (cases_like h)
  case annotate.annotate as bs =>
    rw [of_decide_eq_true h]
    refine .node ?_
    generalize bs = l
    induction l with
    | nil => exact .nil
    | cons x l ih => exact .cons .name ih
  all_goals first | exact .node (.cons (expr_like h) .nil) | exact .node .nil

theorem aspects_like {as bs : List AAspect} (h : eqList AAspect.eqb as bs = true) (ha : ∀ a ∈ as, a.Plain) (hb : ∀ b ∈ bs, b.Plain) :
    List.Forall₂ Like (aspectsOf as) (aspectsOf bs) := by
  rw [aspectsOf, aspectsOf, eqList_isEmpty h]
  split
  · exact .nil
  · exact .cons (.node (eqList_like h fun a hm b hn he => aspect_like he (ha a hm) (hb b hn))) .nil

theorem discriminants_like {ds es : Option (List ADiscriminant)} (h : eqOpt (eqList ADiscriminant.eqb) ds es = true) :
    List.Forall₂ Like (discriminantsOf ds) (discriminantsOf es) := by
  match ds, es, h with
  | none, none, _ => exact .nil
  | some [], some [], _ => exact .nil
  | some [], some (_ :: _), h => simp [eqOpt, eqList] at h
  | some (_ :: _), some [], h => simp [eqOpt, eqList] at h
  | some (d :: ds), some (e :: es), h =>
    have h : eqList ADiscriminant.eqb (d :: ds) (e :: es) = true := h
    refine .cons (.node (eqList_like h fun a _ b _ he => ?_)) .nil
    simp only [ADiscriminant.eqb, Bool.and_eq_true] at he
    exact .node (.cons (identifiers_like he.1.1) (.cons (name_like he.1.2) (initial_like he.2)))

theorem component_like {c d : AComponent} (h : c.eqb d = true) (hc : c.Plain) (hd : d.Plain) : Like c.means d.means := by
  cases c <;> cases d <;> simp only [AComponent.eqb, Bool.and_eq_true] at h
  · exact .node (.cons (identifiers_like (by simpa [eqList] using h.1.1)) (.cons (name_like h.1.2) (initial_like h.2)))
  · rw [AComponent.Plain] at hc; simp [hc] at h
  · rw [AComponent.Plain] at hd; simp [hd] at h
  · exact .node .nil

theorem components_like {cs ds : List AComponent} (h : eqList AComponent.eqb cs ds = true) (hc : ∀ c ∈ cs, c.Plain) (hd : ∀ c ∈ ds, c.Plain) :
    List.Forall₂ Like (cs.map AComponent.means) (ds.map AComponent.means) := eqList_like h fun c hm d hn he => component_like he (hc c hm) (hd d hn)

theorem variants_like {p q : AVariantPart} (h : p.eqb q = true) (hp : ∀ w ∈ p.variants, ∀ c ∈ w.components, c.Plain)
    (hq : ∀ w ∈ q.variants, ∀ c ∈ w.components, c.Plain) : Like p.means q.means := by
  simp only [AVariantPart.eqb, Bool.and_eq_true] at h
  refine .node (.cons (name_like h.1) (eqList_like h.2 fun v hv w hw he => ?_))
  simp only [AVariant.eqb, Bool.and_eq_true] at he
  exact .node (like_append (exprs_like he.1) (components_like he.2 (hp v hv) (hq w hw)))

theorem literals_like {ls ls' : List (ID × Option (Int × NBase))} (h : eqList (fun a b => ID.eq a.1 b.1 && eqNumber a.2 b.2) ls ls' = true) :
    List.Forall₂ Like (ls.map fun l => nameOf l.1) (ls'.map fun l => nameOf l.1) ∧
      List.Forall₂ Like (ls.filterMap fun l => l.2.map fun v => (.node .literal [nameOf l.1, .expr (.num v.1 v.2)] : Meaning))
        (ls'.filterMap fun l => l.2.map fun v => (.node .literal [nameOf l.1, .expr (.num v.1 v.2)] : Meaning)) := by
  induction ls generalizing ls' with
  | nil => cases ls' with
    | nil => exact ⟨.nil, .nil⟩
    | cons => simp [eqList] at h
  | cons l ls ih => cases ls' with
    | nil => simp [eqList] at h
    | cons l' ls' =>
      simp only [eqList, Bool.and_eq_true] at h
      obtain ⟨h1, h2⟩ := ih h.2
      refine ⟨.cons (name_like h.1.1) h1, ?_⟩
      have hn := h.1.2
      obtain ⟨i, n⟩ := l
      obtain ⟨j, m⟩ := l'
      cases n <;> cases m <;> simp [eqNumber, eqOpt] at hn
      · simpa using h2
      · rename_i v w
        obtain ⟨a, b⟩ := v
        obtain ⟨c, d⟩ := w
        obtain ⟨rfl, rfl⟩ := hn
        exact .cons (.node (.cons (name_like h.1.1) (.cons (.expr (fun _ => rfl) rfl) .nil))) h2

theorem all_some {ls : List (ID × Option (Int × NBase))} (h : ∀ l ∈ ls, l.2 ≠ none) : (ls.all fun l => l.2.isSome) = true :=
  List.all_eq_true.2 fun l hl => by
    obtain ⟨v, hv⟩ := Option.ne_none_iff_exists'.1 (h l hl)
    simp [hv]

/-- The definitions are alike, so are the aspects and the representations they give. -/
theorem definition_like {a b : ATypeDef} (h : a.eqb b = true) (ha : a.Plain) (hb : b.Plain) :
    List.Forall₂ Like a.means b.means ∧ a.isSubtype = b.isSubtype ∧ eqList AAspect.eqb a.ownAspects b.ownAspects = true := by
  cases a <;> cases b <;> simp only [ATypeDef.eqb, Bool.and_eq_true, Bool.false_eq_true] at h
  case modular.modular => exact ⟨.cons (.node (.cons (expr_like h) .nil)) .nil, rfl, rfl⟩
  case range.range => exact ⟨.cons (.node (.cons (expr_like h.1) (.cons (expr_like h.2) .nil))) .nil, rfl, rfl⟩
  case enumeration.enumeration ls s ls' s' =>
    rw [all_some ha, all_some hb] at h
    refine ⟨.cons (.node (literals_like h.1).1) .nil, rfl, ?_⟩
    cases s <;> cases s' <;> simp only [eqOpt, Bool.false_eq_true, and_false] at h
    · rfl
    · simp [ATypeDef.ownAspects, eqList, AAspect.eqb, h.2]
  case subtype.subtype => exact ⟨.cons (name_like h) .nil, rfl, rfl⟩
  case rangeSubtype.rangeSubtype =>
    exact ⟨.cons (name_like h.1.1) (.cons (.node (.cons (expr_like h.1.2) (.cons (expr_like h.2) .nil))) .nil), rfl, rfl⟩
  case derived.derived => exact ⟨.cons (.node (.cons (name_like h) .nil)) .nil, rfl, rfl⟩
  case array.array => exact ⟨.cons (.node (.cons (name_like h.1) (.cons (name_like h.2) .nil))) .nil, rfl, rfl⟩
  case unconstrained.unconstrained => exact ⟨.cons (.node (.cons (name_like h.1) (.cons (.node .nil) (.cons (name_like h.2) .nil)))) .nil, rfl, rfl⟩
  case array.unconstrained => exact ⟨.cons (.constrained (name_like h.1) (name_like h.2)) .nil, rfl, rfl⟩
  case unconstrained.array => exact ⟨.cons (.unconstrained (name_like h.1) (name_like h.2)) .nil, rfl, rfl⟩
  case access.access => exact ⟨.cons (.node (.cons (name_like h) .nil)) .nil, rfl, rfl⟩
  case record.record cs v ds w =>
    refine ⟨.cons (.node (like_append (components_like h.1 ha.1 hb.1) ?_)) .nil, rfl, rfl⟩
    cases v <;> cases w <;> simp only [eqOpt, Bool.false_eq_true, and_false] at h
    · exact .nil
    · exact .cons (variants_like h.2 (ha.2 _ rfl) (hb.2 _ rfl)) .nil
  all_goals exact ⟨.cons (.node .nil) .nil, rfl, rfl⟩

theorem representation_like {t u : ATypeDecl} (hi : t.id.eq u.id = true) (h : t.definition.eqb u.definition = true) (ht : t.definition.Plain)
    (hu : u.definition.Plain) : List.Forall₂ Like t.representation u.representation := by
  obtain ⟨i, ds, as, d⟩ := t
  obtain ⟨j, es, bs, e⟩ := u
  unfold ATypeDecl.representation
  cases d <;> cases e <;> simp only [ATypeDef.eqb, Bool.and_eq_true, Bool.false_eq_true] at h
  case enumeration.enumeration ls s ls' s' =>
    simp only [all_some ht, all_some hu] at h
    have := (literals_like h.1).2
    simp only
    generalize (ls.filterMap fun l => l.2.map fun v => (.node .literal [nameOf l.1, .expr (.num v.1 v.2)] : Meaning)) = x at this ⊢
    generalize (ls'.filterMap fun l => l.2.map fun v => (.node .literal [nameOf l.1, .expr (.num v.1 v.2)] : Meaning)) = y at this ⊢
    cases this with
    | nil => exact .nil
    | cons h1 h2 => exact .cons (.node (.cons (name_like hi) (.cons h1 h2))) .nil
  all_goals exact .nil

theorem eqList_append {α : Type} {eq : α → α → Bool} : ∀ {as bs cs ds : List α}, eqList eq as bs = true → eqList eq cs ds = true → eqList eq (as ++ cs) (bs ++ ds) = true
  | [], [], _, _, _, h => h
  | [], _ :: _, _, _, h, _ => by simp [eqList] at h
  | _ :: _, [], _, _, h, _ => by simp [eqList] at h
  | a :: as, b :: bs, cs, ds, h, h' => by
    simp only [eqList, Bool.and_eq_true] at h
    simp [eqList, h.1, eqList_append h.2 h']

theorem type_means (t : ATypeDecl) : t.means = if t.definition.isSubtype then .node .subtype (nameOf t.id :: t.definition.means)
    else .node .type (nameOf t.id :: discriminantsOf t.discriminants ++ t.definition.means ++ aspectsOf (t.definition.ownAspects ++ t.aspects)) := by
  obtain ⟨i, ds, as, d⟩ := t
  cases d with
  | enumeration ls s => cases s <;> rfl
  | _ => rfl

theorem type_like {t u : ATypeDecl} (h : t.eqb u = true) (ht : t.Plain) (hu : u.Plain) :
    List.Forall₂ Like (t.means :: t.representation) (u.means :: u.representation) := by
  simp only [ATypeDecl.eqb, Bool.and_eq_true] at h
  obtain ⟨⟨⟨h1, h2⟩, h3⟩, h4⟩ := h
  obtain ⟨k1, k2, k3⟩ := definition_like h4 ht.1 hu.1
  refine .cons ?_ (representation_like h1 h4 ht.1 hu.1)
  rw [type_means, type_means, k2]
  have hp : ∀ (v : ATypeDecl), v.Plain → ∀ a ∈ v.definition.ownAspects ++ v.aspects, a.Plain := fun v hv a ha => by
    rcases List.mem_append.1 ha with ha | ha
    · rw [ownAspects_eq] at ha
      split at ha
      · rw [List.mem_singleton.1 ha]; trivial
      · simp at ha
    · exact hv.2 a ha
  split
  · exact .node (.cons (name_like h1) k1)
  · exact .node (like_append (like_append (.cons (name_like h1) (discriminants_like h2)) k1) (aspects_like (eqList_append k3 h3) (hp t ht) (hp u hu)))

theorem mode_like {m n : PMode} (h : m.eqb n = true) : Like (.node m.tag []) (.node n.tag []) := by
  cases m <;> cases n <;> first | exact .node .nil | exact .mode (by decide) (by decide) | simp [PMode.eqb] at h

theorem spec_like {s t : ASpec} (h : s.eqb t = true) : Like s.means t.means := by
  simp only [ASpec.eqb, Bool.and_eq_true] at h
  obtain ⟨⟨h1, h2⟩, h3⟩ := h
  have hp : List.Forall₂ Like (if s.parameters.isEmpty then [] else [.node .parameters (s.parameters.map AParameter.means)])
      (if t.parameters.isEmpty then [] else [.node .parameters (t.parameters.map AParameter.means)]) := by
    rw [eqList_isEmpty h2]
    split
    · exact .nil
    · refine .cons (.node (eqList_like h2 fun p _ q _ he => ?_)) .nil
      simp only [AParameter.eqb, Bool.and_eq_true] at he
      exact .node (.cons (identifiers_like he.1.1.1) (.cons (mode_like he.1.1.2) (.cons (name_like he.1.2) (initial_like he.2))))
  unfold ASpec.means
  cases hs : s.result <;> cases ht : t.result <;> simp only [hs, ht, eqOpt, Bool.false_eq_true] at h3
  · exact .node (.cons (name_like h1) hp)
  · exact .node (like_append (.cons (name_like h1) hp) (.cons (.node (.cons (name_like h3) .nil)) .nil))

theorem actuals_like {as bs : List ID} (h : eqList ID.eq as bs = true) : List.Forall₂ Like (actualsOf as) (actualsOf bs) := by
  rw [actualsOf, actualsOf, eqList_isEmpty h]
  split
  · exact .nil
  · exact .cons (.node (names_like h)) .nil

theorem result_isNone {s t : ASpec} (h : s.eqb t = true) : s.result.isNone = t.result.isNone ∧ s.id.eq t.id = true := by
  simp only [ASpec.eqb, Bool.and_eq_true] at h
  refine ⟨?_, h.1.1⟩
  have := h.2
  cases hs : s.result <;> cases ht : t.result <;> simp [hs, ht, eqOpt] at this <;> rfl

open ADecl in
mutual

theorem decl_like : ∀ a b : ADecl, a.eqb b = true → a.Plain → b.Plain → List.Forall₂ Like a.means b.means
  | .use is, b, h, _, _ => by
    cases b <;> simp only [eqb, Bool.false_eq_true] at h
    exact .cons (.node (names_like h)) .nil
  | .useType is, b, h, _, _ => by
    cases b <;> simp only [eqb, Bool.false_eq_true] at h
    exact .cons (.node (names_like h)) .nil
  | .pragma .., b, h, _, _ => by cases b <;> simp [eqb] at h
  | .object is t e c as, b, h, ha, hb => by
    cases b <;> simp only [eqb, Bool.and_eq_true, Bool.false_eq_true] at h
    obtain ⟨⟨⟨⟨h1, h2⟩, h3⟩, h4⟩, h5⟩ := h
    rw [ADecl.Plain] at ha hb
    rw [means, means, eq_of_beq h4]
    refine .cons (.node (like_append (like_append (.cons (identifiers_like h1) ?_) ?_) ?_)) .nil
    · split
      · exact .cons (.node .nil) .nil
      · exact .nil
    · exact .cons (name_like h2) (initial_like h3)
    · exact aspects_like h5 ha hb
  | .type t, b, h, ha, hb => by
    cases b <;> simp only [eqb, Bool.false_eq_true] at h
    exact type_like h ha hb
  | .subprogram s as fs, b, h, ha, hb => by
    cases b <;> simp only [eqb, Bool.and_eq_true, Bool.false_eq_true] at h
    rw [ADecl.Plain] at ha hb
    rw [means, means, ha.2, hb.2, genericOf, genericOf]
    exact .cons (.node (like_append (.cons (spec_like h.1.1) (aspects_like h.1.2 ha.1 hb.1)) (.cons (.node .nil) .nil))) .nil
  | .body s ds ss as, b, h, ha, hb => by
    cases b <;> simp only [eqb, Bool.and_eq_true, Bool.false_eq_true] at h
    obtain ⟨⟨⟨h1, h2⟩, h3⟩, h4⟩ := h
    rw [ADecl.Plain] at ha hb
    rw [means, means]
    refine .cons (.node (like_append (.cons (spec_like h1) (aspects_like h4 ha.1 hb.1)) (.cons (.node (like_append (decls_like ds _ h2 ha.2 hb.2) ?_)) .nil))) .nil
    exact .cons (.stmts fun M s => eqbL_execs _ _ h3 M s) (.cons (name_like (result_isNone h1).2) .nil)
  | .exprFunction s e as, b, h, ha, hb => by
    cases b <;> simp only [eqb, Bool.and_eq_true, Bool.false_eq_true] at h
    rw [ADecl.Plain] at ha hb
    exact .cons (.node (.cons (spec_like h.1.1) (.cons (.node (.cons (expr_like h.1.2) (aspects_like h.2 ha hb))) .nil))) .nil
  | .instance i s as, b, h, _, _ => by
    cases b <;> simp only [eqb, Bool.and_eq_true, Bool.false_eq_true] at h
    rw [means, means, (result_isNone h.1.2).1]
    exact .cons (.node (.cons (.node (.cons (name_like h.1.1) .nil)) (.cons (.node (.cons (name_like (result_isNone h.1.2).2) (actuals_like h.2))) .nil))) .nil
  | .renaming s i, b, h, _, _ => by
    cases b <;> simp only [eqb, Bool.and_eq_true, Bool.false_eq_true] at h
    exact .cons (.node (.cons (spec_like h.1) (.cons (.node (.cons (name_like h.2) .nil)) .nil))) .nil
  | .package .., _, _, ha, _ => by rw [ADecl.Plain] at ha; exact ha.elim
  | .packageBody .., _, _, ha, _ => by rw [ADecl.Plain] at ha; exact ha.elim
  | .newPackage i g as, b, h, _, _ => by
    cases b <;> simp only [eqb, Bool.and_eq_true, Bool.false_eq_true] at h
    exact .cons (.node (.cons (name_like h.1.1) (.cons (.node (.cons (name_like h.1.2) (actuals_like h.2))) .nil))) .nil

theorem decls_like : ∀ as bs : List ADecl, eqbL as bs = true → PlainL as → PlainL bs → List.Forall₂ Like (meansL as) (meansL bs)
  | [], [], _, _, _ => .nil
  | [], _ :: _, h, _, _ => by simp [eqbL] at h
  | _ :: _, [], h, _, _ => by simp [eqbL] at h
  | a :: as, b :: bs, h, ha, hb => by
    simp only [eqbL, Bool.and_eq_true] at h
    rw [PlainL] at ha hb
    rw [meansL, meansL]
    exact like_append (decl_like a b h.1 ha.1 hb.1) (decls_like as bs h.2 ha.2 hb.2)

end

/-! ## The property -/

/-- **C66.** A declaration is left out of a package only for another one that declares the same, apart from the modes of parameters and the kind of
array types (for declarations without generic parts, with at most one dependency and numbers for all literals, if any). -/
theorem C66_equal_partial {a b : ADecl} (h : a.eqb b = true) (ha : a.Plain) (hb : b.Plain) : List.Forall₂ Like a.means b.means := decl_like a b h ha hb

/-- Two expression functions that differ in the case of letters. -/
example : ∃ a ∈ exDecls, ∃ b ∈ exDecls, a.strF ≠ b.strF ∧ a.eqb b = true ∧ a.Plain ∧ b.Plain :=
  ⟨.exprFunction ⟨exId ["F"], [⟨[exId ["X"]], .in, exId ["Byte"], none⟩], some (exId ["Boolean"])⟩ (.rel .gt exX (.num 5 .b0)) [], by simp [exDecls],
   .exprFunction ⟨exId ["f"], [⟨[exId ["X"]], .in, exId ["Byte"], none⟩], some (exId ["Boolean"])⟩ (.rel .gt exX (.num 5 .b0)) [], by simp [exDecls],
   by decide +kernel, by decide +kernel, by simp [ADecl.Plain], by simp [ADecl.Plain]⟩

/-- **C66.** Context items are left out only for others with the same names. -/
theorem C66_equal_context {a b : AContext} (h : a.eqb b = true) : Like a.means b.means := by
  cases a <;> cases b <;> simp only [AContext.eqb, Bool.false_eq_true] at h <;> exact .node (names_like h)

example : (AContext.with [exId ["Lib"]]).eqb (.with [exId ["LIB"]]) = true := by decide +kernel

end Verif.Ada
