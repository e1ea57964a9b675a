import Verif.Ada.DeclText
import Verif.Common.Props

/-! # Helper lemmas: the text of a declaration can be read as the declaration -/

namespace Verif.Ada
open Verif

/-- Fixed text. -/
local macro "fx" s:str : term => `(Says.fixed (tx $s) (by decide +kernel))

/-- One text after another. -/
local macro:45 a:term:46 " ⟶ " b:term:45 : term => `(Says.seq $a $b (by first | decide +kernel | simp))

/-- A text with fewer conditions. -/
local macro "wk" t:term:max : term => `(Says.weaken $t (by decide +kernel) (by decide +kernel))

theorem Says.empty (b : Bool) : Says b b .empty [] [] := ⟨[], [], .nil b, ⟨0, rfl, rfl⟩, .nil⟩

/-! ## Parts -/

theorem says_identifiers {is : List ID} (hn : is ≠ []) (h : ∀ i ∈ is, Simple i) : Says false true .identifiers (idList is) [identifiersOf is] :=
  (says_idents hn h).node

theorem says_initial {e : Option AExpr} (h : OptWF e) : Says true true .initial (initText e) (initialOf e) := by
  cases e with
  | none => exact .none true
  | some e => exact Says.left (Says.node (wk (fx " := " ⟶ says_expr h)))

theorem aspect_text {a : AAspect} (h : a.definition ≠ []) : a.strF = a.mark ++ tx " =>\n" ++ indent a.definition 2 := by
  rw [AAspect.strF, if_neg (by simpa using h)]

theorem tx_ne {s : PyStr} {r : PyStr} (h : s ≠ []) : s ++ r ≠ [] := by simp [h]

theorem says_valued {t : Tag} {w : String} {m : PyStr} {e : AExpr} (hm : Says (leads m) (trails m) (.tok (.ident w.toList)) m []) (h : e.WF) :
    Says false true (.valued t w) (m ++ tx " =>\n" ++ indent (e.strF false) 2) [.node t [.expr e]] := by
  have := (says_expr h).indent 2
  refine (Says.node (Says.weaken (Says.seq hm (fx " =>\n" ⟶ this) (by intro _; decide +kernel)) (by simp) (by simp))).cast (by simp) rfl

theorem says_listed {t : Tag} {w : String} {g : G} {m s : PyStr} {ms : List Meaning} (hm : Says (leads m) (trails m) (.tok (.ident w.toList)) m [])
    (h : Says false true (.list g .comma) s ms) (k : Nat) :
    Says false true (.listed t w g) (m ++ tx " =>\n" ++ indent (tx "(" ++ s ++ tx ")") k) [.node t ms] := by
  have h0 : Says false false (.tok .lpar ⬝ .list g .comma ⬝ .tok .rpar) (tx "(" ++ s ++ tx ")") ms :=
    ((wk (fx "(" ⟶ h ⟶ fx ")") : Says false false (.tok .lpar ⬝ .list g .comma ⬝ .tok .rpar) _ _)).cast (by simp) (by simp)
  refine (Says.node (Says.weaken (Says.seq hm (fx " =>\n" ⟶ h0.indent k) (by intro _; decide +kernel)) (by simp) (by simp))).cast (by simp) (by simp)

theorem says_inputs {is : List ID} (h : ∀ i ∈ is, Named i) :
    Says false true (.node .noInputs (.word "null") ∣∣ .node .inputs .name ∣∣ .node .inputs (.tok .lpar ⬝ .list .name .comma ⬝ .tok .rpar)) (AAspect.inputs is)
      [if is.isEmpty then .node .noInputs [] else .node .inputs (is.map nameOf)] := by
  match is with
  | [] => exact .left (.node (wk (fx "null")))
  | [i] => exact .right (.left (.node (says_name (h i (by simp)))))
  | i :: j :: is =>
    refine .right (.right ((Says.node (wk (fx "(" ⟶ says_names (is := i :: j :: is) (by simp) h ⟶ fx ")"))).cast (by simp [AAspect.inputs]) (by simp)))

theorem says_aspect {a : AAspect} (h : a.WF) : Says false true .aspect a.strF [a.means] := by
  cases a with
  | pre e => rw [aspect_text (a := .pre e) (strF_ne h)]; exact .left (says_valued (fx "Pre") h)
  | post e => rw [aspect_text (a := .post e) (strF_ne h)]; exact .right (.left (says_valued (fx "Post") h))
  | dynamicPredicate e => rw [aspect_text (a := .dynamicPredicate e) (strF_ne h)]; exact .right (.right (.left (says_valued (fx "Dynamic_Predicate") h)))
  | size e => rw [aspect_text (a := .size e) (strF_ne h)]; exact .right (.right (.right (.left (says_valued (fx "Size") h))))
  | defaultInitialCondition e =>
    rw [aspect_text (a := .defaultInitialCondition e) (strF_ne h)]; exact .right (.right (.right (.right (.left (says_valued (fx "Default_Initial_Condition") h)))))
  | sparkMode => exact .right (.right (.right (.right (.right (.left (.node (wk (fx "SPARK_Mode"))))))))
  | ghost => exact .right (.right (.right (.right (.right (.right (.left (.node (wk (fx "Ghost")))))))))
  | «import» => exact .right (.right (.right (.right (.right (.right (.right (.left (.node (wk (fx "Import"))))))))))
  | annotate args =>
    rw [aspect_text (by simp only [AAspect.definition, List.append_assoc]; exact tx_ne (by decide +kernel))]
    have : Says false true (.list .ident .comma) (joinBy (tx ", ") args) (args.map fun a => .name [PyStr.lower a]) :=
      (says_list txt_comma (f := id) (m := fun a => [.name [PyStr.lower a]]) h.1 fun a ha => says_word (h.2 a ha)).cast (by simp) (flatMap_one _ _)
    exact .right (.right (.right (.right (.right (.right (.right (.right (.left (says_listed (fx "Annotate") this 2)))))))))
  | contractCases cs =>
    rw [aspect_text (by simp only [AAspect.definition, List.append_assoc]; exact tx_ne (by decide +kernel))]
    have : Says false true (.list (.node .contractCase (.choice ⬝ .tok .arrow ⬝ .expr)) .comma)
        (joinBy (tx ",\n") (cs.map fun c => c.1.strF false ++ tx " =>\n" ++ indent (c.2.strF false) 3))
        (cs.map fun c => .node .contractCase [.expr c.1, .expr c.2]) :=
      (says_list txt_commaLine (m := fun c => [.node .contractCase [.expr c.1, .expr c.2]]) h.1 fun c hc =>
        (Says.node (says_choice (h.2 c hc).1 ⟶ fx " =>\n" ⟶ (says_expr (h.2 c hc).2).indent 3)).cast (by simp) rfl).cast rfl (flatMap_one _ _)
    exact .right (.right (.right (.right (.right (.right (.right (.right (.right (.left (says_listed (fx "Contract_Cases") (this.indentNext 1) 2))))))))))
  | depends ds =>
    rw [aspect_text (by simp only [AAspect.definition, List.append_assoc]; exact tx_ne (by decide +kernel))]
    have : Says false true (.list (.node .dependency (.name ⬝ .tok .arrow ⬝
          (.node .noInputs (.word "null") ∣∣ .node .inputs .name ∣∣ .node .inputs (.tok .lpar ⬝ .list .name .comma ⬝ .tok .rpar)))) .comma)
        (joinBy (tx ", ") (ds.map fun d => dotted d.1 ++ tx " => " ++ AAspect.inputs d.2))
        (ds.map fun d => .node .dependency [nameOf d.1, if d.2.isEmpty then .node .noInputs [] else .node .inputs (d.2.map nameOf)]) :=
      (says_list txt_comma (m := fun d => [.node .dependency [nameOf d.1, if d.2.isEmpty then .node .noInputs [] else .node .inputs (d.2.map nameOf)]]) h.1
        fun d hd => (Says.node (says_name (h.2 d hd).1 ⟶ fx " => " ⟶ says_inputs (h.2 d hd).2)).cast (by simp) (by simp)).cast rfl (flatMap_one _ _)
    exact .right (.right (.right (.right (.right (.right (.right (.right (.right (.right (says_listed (fx "Depends") (this.indentNext 1) 2))))))))))

theorem says_someAspects {as : List AAspect} (hn : as ≠ []) (h : AspectsWF as) : Says true true .someAspects (aspectText as) (aspectsOf as) := by
  rw [aspectText, aspectsOf, if_neg (by simpa using hn), if_neg (by simpa using hn)]
  have := says_list txt_commaLine (f := fun a : AAspect => indent a.strF 2) (m := fun a => [a.means]) hn fun a ha => (says_aspect (h a ha)).indent 2
  exact Says.node (wk (Says.cast (fx " with\n" ⟶ this) rfl (by simp [flatMap_one])))

theorem says_aspects {as : List AAspect} (h : AspectsWF as) : Says true true .aspects (aspectText as) (aspectsOf as) := by
  cases as with
  | nil => exact .none true
  | cons a as => exact .left (says_someAspects (by simp) h)

/-! ## Types -/

theorem says_discriminants {ds : Option (List ADiscriminant)} (h : ∀ d ∈ ds.getD [], d.WF) :
    Says true true .discriminants (discriminantText ds) (discriminantsOf ds) := by
  match ds with
  | none => exact .none true
  | some [] => exact .none true
  | some (d :: ds) =>
    have := says_list txt_semi (g := .node .discriminant (.identifiers ⬝ .tok .colon ⬝ .name ⬝ .initial)) (f := ADiscriminant.strF)
      (m := fun d => [d.means]) (xs := d :: ds) (by simp) fun d hd => by
        obtain ⟨h1, h2, h3, h4⟩ := h d hd
        exact (Says.node (wk (says_identifiers h1 h2 ⟶ fx " : " ⟶ says_name h3 ⟶ says_initial h4))).cast (by simp [ADiscriminant.strF]) rfl
    rw [flatMap_one] at this
    exact (Says.left (Says.node (wk (fx " (" ⟶ this ⟶ fx ")")))).cast (by simp [discriminantText]) (by simp [discriminantsOf])

theorem says_bounds {x y : AExpr} (hx : x.WF) (hy : y.WF) (px : 3 ≤ x.prec) (py : 3 ≤ y.prec) :
    Says true true .bounds (tx " range " ++ x.strF false ++ tx " .. " ++ y.strF false) [.node .range [.expr x, .expr y]] :=
  (Says.node (wk (fx " range " ⟶ says_simple hx px ⟶ fx " .. " ⟶ says_simple hy py))).cast (by simp) rfl

theorem says_component {i t : ID} {d : Option AExpr} (h : (AComponent.comp i t d).WF) :
    Says false false .component (AComponent.comp i t d).strF [(AComponent.comp i t d).means] := by
  obtain ⟨h1, h2, h3⟩ := h
  have : Says false true .identifiers (dotted i) [identifiersOf [i]] := says_identifiers (is := [i]) (by simp) (by simpa using h1)
  exact (Says.node (wk (this ⟶ fx " : " ⟶ says_name h2 ⟶ says_initial h3 ⟶ fx ";"))).cast (by simp [AComponent.strF]) (by simp [AComponent.means])

theorem says_nullComponent : Says false false .nullComponent AComponent.null.strF [AComponent.null.means] := Says.node (wk (fx "null;"))

theorem says_componentList {cs : List AComponent} (hn : cs ≠ []) (h0 : AComponent.null ∉ cs) (h : ∀ c ∈ cs, c.WF) :
    Says false false (.component ⬝ .many .component) (joinBy (tx "\n") (cs.map AComponent.strF)) (cs.map AComponent.means) :=
  (says_many1 txt_line (f := AComponent.strF) (m := fun c => [c.means]) hn fun c hc => by
    cases c with
    | null => exact absurd hc h0
    | comp i t d => exact says_component (h _ hc)).cast rfl (flatMap_one _ _)

theorem says_components {cs : List AComponent} (h : ComponentsWF cs) :
    Says false false (.nullComponent ∣∣ .component ⬝ .many .component) (joinBy (tx "\n") (cs.map AComponent.strF)) (cs.map AComponent.means) := by
  rcases h with rfl | ⟨h1, h2, h3⟩
  · exact .left says_nullComponent
  · exact .right (says_componentList h1 h2 h3)

theorem says_variant {v : AVariant} (h : v.WF) : Says false false .variant v.strF [v.means] := by
  obtain ⟨h1, h2, h3⟩ := h
  exact (Says.node (wk (fx "   when " ⟶ says_choices h1 h2 ⟶ fx " =>\n" ⟶ (says_components h3).indent 6))).cast (by simp [AVariant.strF]) (by simp [AVariant.means])

theorem says_variantPart {p : AVariantPart} (h : p.WF) : Says false false .variantPart p.strF [p.means] := by
  obtain ⟨h1, h2, h3⟩ := h
  have := says_many1 txt_line (f := AVariant.strF) (m := fun v => [v.means]) h2 fun v hv => says_variant (h3 v hv)
  rw [flatMap_one] at this
  exact (Says.node (wk (fx "case " ⟶ says_name h1 ⟶ fx " is\n" ⟶ Says.assoc (this ⟶ fx "\nend case;\n")))).cast (by simp [AVariantPart.strF]) (by simp [AVariantPart.means])

theorem says_record {cs : List AComponent} {v : Option AVariantPart} (h : (ATypeDef.record cs v).WF) :
    Says true true .typeDefinition (ATypeDef.record cs v).strF (ATypeDef.record cs v).means := by
  have main : ∀ s, Says false false (.nullComponent ∣∣ .variantPart ∣∣ .component ⬝ .many .component ⬝ .opt .variantPart) s
        (cs.map AComponent.means ++ v.toList.map AVariantPart.means) →
      Says true true .typeDefinition (tx "\n   record\n" ++ s ++ tx "   end record") (ATypeDef.record cs v).means := fun s hs => by
    refine .right (.right (.right (.right (.right (.right (.right ?_))))))
    exact (Says.node (wk (fx "\n   record\n" ⟶ hs ⟶ fx "   end record"))).cast (by simp) (by cases v <;> simp [ATypeDef.means])
  have hcs : ∀ {r : Bool} {ms : List Meaning} {q : PyStr}, AComponent.null ∉ cs → (∀ c ∈ cs, c.WF) → cs ≠ [] → Says false r (.opt .variantPart) q ms →
      Says false r (.nullComponent ∣∣ .variantPart ∣∣ .component ⬝ .many .component ⬝ .opt .variantPart)
        (indent (joinBy (tx "\n") (cs.map AComponent.strF)) 6 ++ tx "\n" ++ q) (cs.map AComponent.means ++ ms) := fun h0 h1 hn hq => by
    have := ((says_componentList hn h0 h1).indent 6).after txt_line (by simp)
    exact .right (.right (Says.assoc (Says.seq this hq (by simp))))
  cases v with
  | none =>
    rcases h with rfl | ⟨h1, h2, h3⟩
    · have h1 : Says false false _ (indent (joinBy (tx "\n") ([AComponent.null].map AComponent.strF)) 6 ++ tx "\n") _ :=
        (says_nullComponent.indent 6).after txt_line (by simp)
      exact (main _ (.left h1)).cast (by simp [ATypeDef.strF]) rfl
    · refine (main _ (hcs h2 h3 h1 (.none false))).cast ?_ rfl
      simp [ATypeDef.strF, h1]
  | some p =>
    obtain ⟨h1, h2, h3⟩ := h
    have hp := (says_variantPart h3).indent 6
    by_cases hn : cs = []
    · subst hn
      exact (main _ (.right (.left hp))).cast (by simp [ATypeDef.strF]) rfl
    · refine (main _ (hcs h2 h1 hn (.left hp))).cast ?_ rfl
      simp [ATypeDef.strF, hn]

theorem says_discrete : Says true true .typeDefinition ATypeDef.discrete.strF ATypeDef.discrete.means := by
  refine .right (.right (.left ⟨[.lpar, .box, .rpar], [.node .discrete []], Txt.of (by decide +kernel), ⟨0, ?_⟩, .cons (.node .nil) .nil⟩))
  exact ⟨[.lpar], [.box, .rpar], [], [.node .discrete []], ⟨rfl, rfl⟩, ⟨[.box], [.rpar], [.node .discrete []], [], .inl ⟨[], ⟨rfl, rfl⟩, rfl⟩, ⟨rfl, rfl⟩, rfl, rfl⟩, rfl, rfl⟩

theorem says_box : Says true false (.opt (.node .unconstrained (.tok .range ⬝ .tok .box)) ⬝ .tok .rpar) (tx " range <>)") [.node .unconstrained []] := by
  refine ⟨[.range, .box, .rpar], [.node .unconstrained []], Txt.of (by decide +kernel), ⟨0, ?_⟩, .cons (.node .nil) .nil⟩
  exact ⟨[.range, .box], [.rpar], [.node .unconstrained []], [], .inl ⟨[], ⟨[.range], [.box], [], [], ⟨rfl, rfl⟩, ⟨rfl, rfl⟩, rfl, rfl⟩, rfl⟩, ⟨rfl, rfl⟩, rfl, rfl⟩

theorem says_typeDefinition {t : ATypeDef} (h : t.WF) (hs : t.isSubtype = false) : Says true true .typeDefinition t.strF t.means := by
  cases t with
  | modular m => exact .left (.node (wk (fx " mod " ⟶ says_expr h)))
  | range a b => exact .right (.left (says_bounds h.1 h.2.1 h.2.2.1 h.2.2.2))
  | enumeration ls s =>
    have : Says false true _ (idList (ls.map (·.1))) _ := says_idents (is := ls.map (·.1)) (by simpa using h.1) (by simpa using fun i n hl => h.2.1 (i, n) hl)
    exact (Says.right (.right (.left (wk (fx " (" ⟶ Says.right (Says.node this) ⟶ fx ")"))))).cast (by simp [ATypeDef.strF]) (by simp [ATypeDef.means, Function.comp_def])
  | subtype b => simp [ATypeDef.isSubtype] at hs
  | rangeSubtype b x y => simp [ATypeDef.isSubtype] at hs
  | derived t => exact .right (.right (.right (.left (.node (wk (fx " new " ⟶ says_name h))))))
  | «private» => exact .right (.right (.right (.right (.left (.node (wk (fx " private")))))))
  | discrete => exact says_discrete
  | array i c =>
    refine .right (.right (.right (.right (.right (.left ?_)))))
    exact (Says.node (wk (fx " array" ⟶ fx " (" ⟶ says_name h.1 ⟶ Says.none true ⟶ fx ")" ⟶ fx " of " ⟶ says_name h.2))).cast (by
      simp only [ATypeDef.strF, show tx " array (" = tx " array" ++ tx " (" by decide +kernel, show tx ") of " = tx ")" ++ tx " of " by decide +kernel]
      simp) rfl
  | unconstrained i c =>
    refine .right (.right (.right (.right (.right (.left ?_)))))
    exact (Says.node (wk (fx " array" ⟶ fx " (" ⟶ says_name h.1 ⟶ Says.assoc (says_box ⟶ fx " of " ⟶ says_name h.2)))).cast (by
      simp only [ATypeDef.strF, show tx " array (" = tx " array" ++ tx " (" by decide +kernel, show tx " range <>) of " = tx " range <>)" ++ tx " of " by decide +kernel]
      simp) rfl
  | access o => exact .right (.right (.right (.right (.right (.right (.left (.node (wk (fx " access " ⟶ says_name h)))))))))
  | record cs v => exact says_record h

theorem ownAspects_eq (t : ATypeDef) : t.ownAspects = match t with | .enumeration _ (some e) => [.size e] | _ => [] := by
  cases t with
  | enumeration ls s => cases s <;> rfl
  | _ => rfl

/-- The declaration of a type without the representation of its literals. -/
theorem says_type {t : ATypeDecl} (h : t.WF) : ∃ s, t.strF = s ++ t.definition.extra t.id ∧ Says false false .typeDeclaration s [t.means] := by
  obtain ⟨h1, h2, h3, h4, h5⟩ := h
  refine ⟨_, rfl, ?_⟩
  cases hs : t.definition.isSubtype with
  | false =>
    have ha : AspectsWF (t.definition.ownAspects ++ t.aspects) := by
      intro a ha
      rcases List.mem_append.1 ha with ha | ha
      · cases hd : t.definition with
        | enumeration ls s =>
          cases s with
          | none => simp [hd, ATypeDef.ownAspects] at ha
          | some e =>
            rw [hd] at h3 ha
            simp only [ATypeDef.ownAspects, List.mem_singleton] at ha
            subst ha
            exact h3.2.2
        | _ => simp [hd, ATypeDef.ownAspects] at ha
      · exact h4 a ha
    exact (Says.left (Says.node (wk (fx "type " ⟶ says_ident h1 ⟶ says_discriminants h2 ⟶ fx " is" ⟶ says_typeDefinition h3 hs ⟶ says_aspects ha ⟶ fx ";")))).cast
      (by simp) (by
        simp only [ATypeDecl.means, hs, ownAspects_eq]
        cases t.definition with
        | enumeration ls s => cases s <;> simp
        | _ => simp)
  | true =>
    obtain ⟨h6, h7⟩ := h5 hs
    have hd : discriminantText t.discriminants = [] := by
      cases hd : t.discriminants with
      | none => rfl
      | some ds => rw [hd] at h6; simp only [Option.getD_some] at h6; rw [h6]; rfl
    have ho : t.definition.ownAspects = [] := by
      cases ht : t.definition <;> first | rfl | (rw [ht] at hs; simp [ATypeDef.isSubtype] at hs)
    cases ht : t.definition <;> rw [ht] at hs h3 <;> simp [ATypeDef.isSubtype] at hs
    case subtype b =>
      exact (Says.right (Says.node (wk (fx "subtype " ⟶ says_ident h1 ⟶ fx " is " ⟶ says_name h3 ⟶ Says.none true ⟶ fx ";")))).cast (by
        simp only [hd, h7, ht, ATypeDef.ownAspects, List.append_nil, List.nil_append, ATypeDef.strF, show aspectText [] = [] from rfl,
          show tx " is " = tx " is" ++ tx " " by decide +kernel]
        simp [ATypeDef.isSubtype]) (by simp [ATypeDecl.means, ht, ATypeDef.isSubtype, ATypeDef.means])
    case rangeSubtype b x y =>
      exact (Says.right (Says.node (wk (fx "subtype " ⟶ says_ident h1 ⟶ fx " is " ⟶ says_name h3.1 ⟶
          Says.left (says_bounds h3.2.1 h3.2.2.1 h3.2.2.2.1 h3.2.2.2.2) ⟶ fx ";")))).cast (by
        simp only [hd, h7, ht, ATypeDef.ownAspects, List.append_nil, List.nil_append, ATypeDef.strF, show aspectText [] = [] from rfl,
          show tx " is " = tx " is" ++ tx " " by decide +kernel]
        simp [ATypeDef.isSubtype]) (by simp [ATypeDecl.means, ht, ATypeDef.isSubtype, ATypeDef.means])

theorem says_number (v : Int × NBase) : Says false true .expr (numText v) [.expr (.num v.1 v.2)] := says_expr (by simp [AExpr.WF])

/-- The representation of literals. -/
theorem says_representation {t : ATypeDecl} (h : t.WF) :
    (t.definition.extra t.id = [] ∧ t.representation = []) ∨ Says true false .representation (t.definition.extra t.id) t.representation := by
  obtain ⟨h1, _, h3, _⟩ := h
  unfold ATypeDef.extra ATypeDecl.representation
  cases hd : t.definition with
  | enumeration ls s =>
    rw [hd] at h3
    simp only
    have hl : ∀ {α : Type} (f : ID → Int × NBase → α), (ls.filterMap fun l => l.2.map fun v => f l.1 v) =
        (ls.filterMap fun l => l.2.map fun v => (l.1, v)).map fun p => f p.1 p.2 := fun f => by
      rw [List.map_filterMap]
      congr 1
      funext l
      cases l.2 <;> rfl
    rw [hl (fun i v => dotted i ++ tx " => " ++ numText v), hl (fun i v => (.node .literal [nameOf i, .expr (.num v.1 v.2)] : Meaning))]
    have hm : ∀ p ∈ ls.filterMap fun l => l.2.map fun v => (l.1, v), Simple p.1 := by
      intro p hp
      obtain ⟨l, hl, hp⟩ := List.mem_filterMap.1 hp
      obtain ⟨v, _, rfl⟩ := Option.map_eq_some_iff.1 hp
      exact h3.2.1 l hl
    generalize hg : (ls.filterMap fun l => l.2.map fun v => (l.1, v)) = ps at hm
    cases ps with
    | nil => exact .inl ⟨rfl, rfl⟩
    | cons p ps =>
      have := says_list txt_comma (g := .node .literal (.ident ⬝ .tok .arrow ⬝ .expr)) (f := fun p : ID × Int × NBase => dotted p.1 ++ tx " => " ++ numText p.2)
        (m := fun p => [.node .literal [nameOf p.1, .expr (.num p.2.1 p.2.2)]]) (xs := p :: ps) (by simp) fun p hp =>
          (Says.node (says_ident (hm p hp) ⟶ fx " => " ⟶ says_number p.2)).cast (by simp) rfl
      rw [flatMap_one] at this
      exact .inr ((Says.node (wk (fx "\nfor " ⟶ says_ident h1 ⟶ fx " use" ⟶ fx " (" ⟶ this ⟶ fx ");"))).cast (by
        simp only [show tx " use (" = tx " use" ++ tx " (" by decide +kernel]
        simp) (by simp))
  | _ => exact .inl ⟨rfl, rfl⟩

/-! ## Subprograms -/

theorem says_mode (m : PMode) : Says false false .mode m.strF [.node m.tag []] := by
  cases m with
  | «in» => exact .right (.right (.right (.node (.empty false))))
  | out => exact .left (.node (wk (fx "out ")))
  | inOut => exact .right (.left (.node (wk (fx "in out "))))
  | access => exact .right (.right (.left (Says.cast (wk (fx "access " ⟶ Says.right (Says.node (Says.empty false)))) (by simp [PMode.strF]) rfl)))
  | accessConstant =>
    exact .right (.right (.left (Says.cast (wk (fx "access " ⟶ Says.left (Says.node (fx "constant ")))) (by
      rw [PMode.strF, show tx "access constant " = tx "access " ++ tx "constant " by decide +kernel]) rfl)))

theorem says_parameters {ps : List AParameter} (h : ∀ p ∈ ps, p.WF) :
    Says true true .parameters (parameterText ps) (if ps.isEmpty then [] else [.node .parameters (ps.map AParameter.means)]) := by
  cases ps with
  | nil => exact .none true
  | cons p ps =>
    have := says_list txt_semi (g := .node .parameter (.identifiers ⬝ .tok .colon ⬝ .mode ⬝ .name ⬝ .initial)) (f := AParameter.strF)
      (m := fun d => [d.means]) (xs := p :: ps) (by simp) fun p hp => by
        obtain ⟨h1, h2, h3, h4⟩ := h p hp
        exact (Says.node (says_identifiers h1 h2 ⟶ fx " : " ⟶ says_mode p.mode ⟶ says_name h3 ⟶ says_initial h4)).cast (by simp [AParameter.strF]) rfl
    rw [flatMap_one] at this
    exact (Says.left (Says.node (wk (fx " (" ⟶ this ⟶ fx ")")))).cast (by simp [parameterText]) (by simp)

theorem says_spec {s : ASpec} (h : s.WF) : Says false true .specification s.strF [s.means] := by
  obtain ⟨h1, h2, h3⟩ := h
  unfold ASpec.strF ASpec.means
  cases hr : s.result with
  | none => exact (Says.left (Says.node (wk (fx "procedure " ⟶ says_name h1 ⟶ says_parameters h2)))).cast (by simp) (by simp)
  | some r =>
    have hr : Named r := h3 r (by simp [hr])
    exact (Says.right (Says.node (wk (fx "function " ⟶ says_name h1 ⟶ says_parameters h2 ⟶ Says.left (Says.node (fx " return " ⟶ says_name hr)))))).cast
      (by simp) (by simp)

theorem says_formalPackage {as : List ID} (h : ∀ a ∈ as, Named a) :
    Says true false (.tok .lpar ⬝ (.node .box (.tok .box) ∣∣ .node .names (.list .name .comma)) ⬝ .tok .rpar ⬝ .tok .semi)
      (tx " (" ++ (if as.isEmpty then tx "<>" else idList as) ++ tx ");") [if as.isEmpty then .node .box [] else .node .names (as.map nameOf)] := by
  cases as with
  | nil =>
    refine ⟨[.lpar, .box, .rpar, .semi], [.node .box []], Txt.of (by decide +kernel), ⟨0, ?_⟩, .cons (.node .nil) .nil⟩
    exact ⟨[.lpar], [.box, .rpar, .semi], [], [.node .box []], ⟨rfl, rfl⟩, ⟨[.box], [.rpar, .semi], [.node .box []], [], .inl ⟨[], ⟨rfl, rfl⟩, rfl⟩,
      ⟨[.rpar], [.semi], [], [], ⟨rfl, rfl⟩, ⟨rfl, rfl⟩, rfl, rfl⟩, rfl, rfl⟩, rfl, rfl⟩
  | cons a as => exact Says.cast (wk (fx " (" ⟶ Says.right (Says.node (says_names (is := a :: as) (by simp) h)) ⟶ fx ");")) (by simp) (by simp)

theorem says_formal {f : AFormal} (h : f.WF) : Says false false .formal f.strF [f.means] := by
  cases f with
  | subprogram s => exact (Says.left (wk (fx "with " ⟶ Says.left (Says.node (says_spec h ⟶ fx ";"))))).cast (by simp [AFormal.strF]) rfl
  | package i g as =>
    obtain ⟨h1, h2, h3⟩ := h
    refine (Says.left (wk (fx "with " ⟶ Says.right (Says.node (fx "package " ⟶ says_name h1 ⟶ fx " is " ⟶ fx "new " ⟶ says_name h2 ⟶ says_formalPackage h3))))).cast ?_ rfl
    simp only [AFormal.strF, show tx "with package " = tx "with " ++ tx "package " by decide +kernel, show tx " is new " = tx " is " ++ tx "new " by decide +kernel]
    simp
  | type t =>
    obtain ⟨s, hs, h1⟩ := says_type h.1
    have he : t.definition.extra t.id = [] := by
      rcases says_representation h.1 with h2 | ⟨ts, cs, h2, ⟨n, ds, h3, h4⟩, h5⟩
      · exact h2.1
      · rw [h.2, h4] at h5; cases h5
    exact (Says.right h1).cast (by rw [AFormal.strF, hs, he, List.append_nil]) rfl

theorem says_formals {fs : List AFormal} (h : ∀ f ∈ fs, f.WF) :
    Says true true (.many .formal) (joinBy [] (fs.map fun f => tx "\n   " ++ f.strF)) (fs.map AFormal.means) := by
  have : ∀ xs : List AFormal, (∀ f ∈ xs, f.WF) → Says true true (.many .formal) (joinBy [] (xs.map fun f => tx "\n   " ++ f.strF)) (xs.map AFormal.means) := by
    intro xs
    induction xs with
    | nil => exact fun _ => ⟨[], [], .nil _, .many_nil, .nil⟩
    | cons f xs ih =>
      intro hx
      obtain ⟨ts, cs, h1, h2, h3⟩ := ih fun g hg => hx g (by simp [hg])
      have hf : Says true false .formal (tx "\n   " ++ f.strF) [f.means] :=
        Says.weaken (Says.before (Txt.white _ (by decide +kernel)) (says_formal (hx f (by simp))) (by decide +kernel)) (by decide +kernel) (by simp)
      obtain ⟨us, ds, k1, k2, k3⟩ := hf
      refine ⟨_, _, ?_, k2.many_cons h2, forall₂_append k3 h3⟩
      have := k1.append h1 (by simp)
      cases xs <;> simpa [joinBy] using this
  exact this fs h

theorem distinct_mem {α : Type} {eq : α → α → Bool} {l : List α} {x : α} (h : x ∈ distinct eq l) : x ∈ l :=
  (Common.C44_unique_sublist _ _ l).subset h

/-- A generic part in front of a declaration. -/
theorem says_generic {fs : List AFormal} (h : FormalsWF (some fs)) {s : PyStr} {m : Meaning} (hs : Says false false (.subprogram ∣∣ .package) s [m]) :
    Says false false .generic (formalText (some fs) ++ s) [genericOf (some fs) m] := by
  have := says_formals (fs := distinct AFormal.eqb fs) fun f hf => h f (distinct_mem hf)
  exact (Says.node (wk (fx "generic" ⟶ Says.after (Says.node this) (Txt.white (tx "\n") (by decide +kernel)) (by decide +kernel) ⟶ hs))).cast
    (by simp [formalText]) (by simp [genericOf])

/-! ## Declarations -/

theorem says_actuals {as : List ID} (h : ∀ a ∈ as, Named a) : Says true true .actuals (ADecl.associationText as) (actualsOf as) := by
  cases as with
  | nil => exact .none true
  | cons a as =>
    have hne : (idList (a :: as)).isEmpty = false := by
      obtain ⟨hn, hw⟩ := h a (by simp)
      obtain ⟨p, ps, hp⟩ := List.exists_cons_of_ne_nil hn
      obtain ⟨c, cs, hc⟩ := List.exists_cons_of_ne_nil (hw p (by simp [hp])).ne
      cases as <;> cases ps <;> simp [idList, joinBy, dotted, hp, joinDot, hc]
    exact (Says.left (Says.node (wk (fx " (" ⟶ says_names (is := a :: as) (by simp) h ⟶ fx ")")))).cast
      (by rw [ADecl.associationText, hne]; simp) (by simp [actualsOf])

theorem Says.item {s : PyStr} {m : List Meaning} (h : Says false false .item s m) : Says false false (.many .item) s m := by
  obtain ⟨ts, cs, h1, h2, h3⟩ := h
  exact ⟨ts ++ [], cs ++ [], by simpa using h1, h2.many_cons .many_nil, by simpa using h3⟩

theorem many_append {P : List Tok → DTrees → Prop} {ts us : List Tok} {cs ds : DTrees} (h : Many P ts cs) (h' : Many P us ds) : Many P (ts ++ us) (cs ++ ds) := by
  induction h with
  | nil => exact h'
  | cons h1 _ ih => rw [List.append_assoc, List.append_assoc]; exact .cons h1 ih

theorem Says.many {r l' r' : Bool} {g : G} {s s' : PyStr} {m m' : List Meaning} (h : Says false r (.many g) s m) (h' : Says l' r' (.many g) s' m')
    (hj : r = true → l' = true) : Says false r' (.many g) (s ++ s') (m ++ m') := by
  obtain ⟨ts, cs, h1, ⟨n, h2⟩, h3⟩ := h
  obtain ⟨us, ds, k1, ⟨k, k2⟩, k3⟩ := h'
  exact ⟨_, _, h1.append k1 hj, ⟨max n k, many_append (reads_le (g := .many g) (Nat.le_max_left ..) h2) (reads_le (g := .many g) (Nat.le_max_right ..) k2)⟩,
    forall₂_append h3 k3⟩

theorem says_useClause {is : List ID} (hn : is ≠ []) (h : ∀ i ∈ is, Named i) :
    Says false false .useClause (ADecl.use is).strF (ADecl.use is).means ∧ Says false false .useClause (ADecl.useType is).strF (ADecl.useType is).means := by
  constructor
  · exact Says.cast (wk (fx "use " ⟶ Says.right (Says.node (says_names hn h)) ⟶ fx ";")) (by simp [ADecl.strF]) (by simp [ADecl.means])
  · refine Says.cast (wk (fx "use " ⟶ Says.left (Says.node (fx "type " ⟶ says_names hn h)) ⟶ fx ";")) ?_ (by simp [ADecl.means])
    rw [ADecl.strF, show tx "use type " = tx "use " ++ tx "type " by decide +kernel]
    simp

theorem joinComma_eq (l : List PyStr) : joinComma l = joinBy (tx ", ") l := by
  induction l with
  | nil => rfl
  | cons a l ih =>
    cases l with
    | nil => rfl
    | cons b l => rw [joinComma, joinBy, ih, show tx ", " = [',', ' '] by decide +kernel]; simp

theorem strL_eq (es : List AExpr) : AExpr.strL es = es.map fun e => e.strF false := by
  induction es with
  | nil => rfl
  | cons e es ih => rw [AExpr.strL, ih]; rfl

theorem WFL_mem : ∀ {es : List AExpr}, AExpr.WFL es → ∀ e ∈ es, e.WF
  | [], _, e, he => by simp at he
  | x :: xs, h, e, he => by
    rw [AExpr.WFL] at h
    rcases List.mem_cons.1 he with rfl | he
    · exact h.1
    · exact WFL_mem h.2 e he

theorem says_pragma {i : ID} {ps : List AExpr} (hi : Simple i) (h : AExpr.WFL ps) :
    Says false false .pragma (ADecl.pragma i ps).strF (ADecl.pragma i ps).means := by
  cases ps with
  | nil => exact (Says.node (wk (fx "pragma " ⟶ says_ident hi ⟶ Says.none true ⟶ fx ";"))).cast (by simp [ADecl.strF]) (by simp [ADecl.means])
  | cons p ps =>
    have := says_list txt_comma (g := .expr) (f := fun e : AExpr => e.strF false) (m := fun e => [.expr e]) (xs := p :: ps) (by simp)
      fun e he => says_expr (WFL_mem h e he)
    rw [flatMap_one] at this
    have h1 : Says true true (.opt (.tok .lpar ⬝ .list .expr .comma ⬝ .tok .rpar)) _ _ := Says.left (wk (fx " (" ⟶ this ⟶ fx ")"))
    exact (Says.node (wk (fx "pragma " ⟶ says_ident hi ⟶ h1 ⟶ fx ";"))).cast
      (by rw [ADecl.strF, joinComma_eq, strL_eq]; simp) (by simp [ADecl.means])

theorem says_object {is : List ID} {t : ID} {e : Option AExpr} {c : Bool} {as : List AAspect} (hn : is ≠ []) (hi : ∀ i ∈ is, Simple i) (ht : Named t)
    (he : OptWF e) (ha : AspectsWF as) : Says false false .object (ADecl.object is t e c as).strF (ADecl.object is t e c as).means := by
  have hc : Says false false (.opt (.node .constant (.word "constant"))) (if c then tx "constant " else []) (if c then [.node .constant []] else []) := by
    cases c with
    | false => exact .none false
    | true => exact .left (.node (wk (fx "constant ")))
  exact (Says.node (wk (says_identifiers hn hi ⟶ fx " : " ⟶ hc ⟶ says_name ht ⟶ says_initial he ⟶ says_aspects ha ⟶ fx ";"))).cast
    (by simp [ADecl.strF]) (by simp [ADecl.means])

theorem says_typeItems {t : ATypeDecl} (h : t.WF) : Says false false (.many .item) (ADecl.type t).strF (ADecl.type t).means := by
  obtain ⟨s, hs, h1⟩ := says_type h
  have h1 : Says false false (.many .item) s [t.means] := Says.item (.right (.right (.right (.left h1))))
  rw [ADecl.strF, hs, ADecl.means]
  rcases says_representation h with ⟨h2, h3⟩ | h2
  · rw [h2, h3, List.append_nil]; exact h1
  · have h2 : Says false false (.many .item) _ _ := Says.item (Says.weaken (.right (.right (.right (.right (.left h2))))) (by simp) (by simp))
    exact (h1.many h2 (by simp)).cast rfl (by simp)

theorem says_declared {s : ASpec} {as : List AAspect} (hs : s.WF) (ha : AspectsWF as) :
    Says false false .subprogram (s.strF ++ aspectText as ++ tx ";") [.node .subprogram (s.means :: aspectsOf as ++ [.node .declared []])] := by
  cases as with
  | nil => exact (Says.node (wk (says_spec hs ⟶ Says.left (Says.node (fx ";"))))).cast (by simp [aspectText]) (by simp [aspectsOf])
  | cons a as =>
    have := says_someAspects (as := a :: as) (by simp) ha
    exact (Says.node (wk (says_spec hs ⟶ Says.right (Says.right (Says.left (this ⟶ Says.left (Says.node (fx ";")))))))).cast (by simp) (by simp)

theorem says_block {ds : List ADecl} (hd : Says false false (.many .item) (joinBy [] (ADecl.strL ds)) (ADecl.meansL ds)) {ss : List AStmt} (hn : ss ≠ [])
    (h : AStmt.WFL ss) {i : ID} (hi : Named i) :
    Says false false .block (joinBy [] (ADecl.strL ds) ++ tx "begin\n" ++ joinBy (tx "\n") ((AStmt.strs ss).map fun s => indent s 3) ++ tx "\nend " ++ dotted i ++ tx ";")
      [.node .body (ADecl.meansL ds ++ [.stmts ss, nameOf i])] := by
  have : Says false false .items (joinBy [] (ADecl.strL ds)) (ADecl.meansL ds) := by
    obtain ⟨ts, cs, h1, h2, h3⟩ := hd
    exact ⟨ts, cs, h1, h2.items, h3⟩
  exact (Says.node (wk (this ⟶ fx "begin\n" ⟶ says_stmts hn h ⟶ fx "\nend " ⟶ says_name hi ⟶ fx ";"))).cast (by simp) (by simp)

theorem says_body {s : ASpec} {ds : List ADecl} {ss : List AStmt} {as : List AAspect} (hs : s.WF) (ha : AspectsWF as)
    (hd : Says false false (.many .item) (joinBy [] (ADecl.strL ds)) (ADecl.meansL ds)) (hn : ss ≠ []) (h : AStmt.WFL ss) :
    Says false false .subprogram (ADecl.body s ds ss as).strF (ADecl.body s ds ss as).means := by
  have hb := says_block hd hn h hs.1
  cases as with
  | nil =>
    refine (Says.node (wk (says_spec hs ⟶ Says.right (Says.right (Says.right (fx " is\n" ⟶ Says.right (Says.right hb))))))).cast ?_ (by simp [ADecl.means, aspectsOf])
    simp only [ADecl.strF, show tx " is\n" = tx " " ++ tx "is\n" by decide +kernel]
    simp
  | cons a as =>
    have := says_someAspects (as := a :: as) (by simp) ha
    refine (Says.node (wk (says_spec hs ⟶ Says.right (Says.right (Says.left (this ⟶ Says.right (fx "\nis\n" ⟶ hb))))))).cast ?_ (by simp [ADecl.means])
    simp only [ADecl.strF, show tx "\nis\n" = tx "\n" ++ tx "is\n" by decide +kernel]
    simp

theorem says_exprFunction {s : ASpec} {e : AExpr} {as : List AAspect} (hs : s.WF) (he : e.WF) (ha : AspectsWF as) :
    Says false false .subprogram (ADecl.exprFunction s e as).strF (ADecl.exprFunction s e as).means := by
  have h1 : Says true true .aspects (if as.isEmpty then [] else tx "\n" ++ aspectText as) (aspectsOf as) := by
    cases as with
    | nil => exact .none true
    | cons a as =>
      exact Says.weaken (Says.before (Txt.white (tx "\n") (by decide +kernel)) (says_aspects ha) (by decide +kernel)) (by decide +kernel) (by simp)
  refine (Says.node (wk (says_spec hs ⟶ Says.right (Says.right (Says.right (fx " is\n" ⟶ Says.right (Says.left (Says.node
    (fx "  (" ⟶ (says_expr he).indentNext 3 ⟶ fx ")" ⟶ h1 ⟶ fx ";"))))))))).cast ?_ (by simp [ADecl.means])
  simp only [ADecl.strF, show tx " is\n  (" = tx " is\n" ++ tx "  (" by decide +kernel]
  simp

theorem says_instance {i : ID} {s : ASpec} {as : List ID} (hi : Named i) (hs : Named s.id) (ha : ∀ a ∈ as, Named a) :
    Says false false .subprogram (ADecl.instance i s as).strF (ADecl.instance i s as).means := by
  have main : ∀ p m, Says false true .specification p [m] → Says false false .subprogram (p ++ tx " is new " ++ dotted s.id ++ ADecl.associationText as ++ tx ";")
      [.node .subprogram [m, .node .instance (nameOf s.id :: actualsOf as)]] := fun p m hp => by
    refine (Says.node (wk (hp ⟶ Says.right (Says.right (Says.right (fx " is " ⟶ Says.left (Says.node (fx "new " ⟶ says_name hs ⟶ says_actuals ha ⟶ fx ";")))))))).cast ?_
      (by simp)
    simp only [show tx " is new " = tx " is " ++ tx "new " by decide +kernel]
    simp
  cases hr : s.result with
  | none =>
    have : Says false true .specification (tx "procedure " ++ dotted i) [.node .procedure [nameOf i]] :=
      (Says.left (Says.node (wk (fx "procedure " ⟶ says_name hi ⟶ Says.none true)))).cast (by simp) (by simp)
    exact (main _ _ this).cast (by simp [ADecl.strF, hr]) (by simp [ADecl.means, hr])
  | some r =>
    have : Says false true .specification (tx "function " ++ dotted i) [.node .function [nameOf i]] :=
      (Says.right (Says.node (wk (fx "function " ⟶ says_name hi ⟶ Says.none true ⟶ Says.none true)))).cast (by simp) (by simp)
    exact (main _ _ this).cast (by simp [ADecl.strF, hr]) (by simp [ADecl.means, hr])

theorem says_renaming {s : ASpec} {i : ID} (hs : s.WF) (hi : Named i) :
    Says false false .subprogram (ADecl.renaming s i).strF (ADecl.renaming s i).means :=
  (Says.node (wk (says_spec hs ⟶ Says.right (Says.left (Says.node (fx " renames " ⟶ says_name hi ⟶ fx ";")))))).cast (by simp [ADecl.strF]) (by simp [ADecl.means])

/-! ### Packages -/

theorem uniqueLoop_map {α β : Type} (f : α → β) (eq : α → α → Bool) (eq' : β → β → Bool) (h : ∀ a b, eq' (f a) (f b) = eq a b) (seen l : List α) :
    uniqueLoop (fun _ => 0) eq' (seen.map f) (l.map f) = (uniqueLoop (fun _ => 0) eq seen l).map f := by
  induction l generalizing seen with
  | nil => rfl
  | cons a l ih =>
    have : inSet (fun _ => 0) eq' (seen.map f) (f a) = inSet (fun _ => 0) eq seen a := by simp [inSet, h, Function.comp_def]
    rw [List.map_cons, uniqueLoop, uniqueLoop, this]
    split
    · exact ih seen
    · rw [List.map_cons, ← ih (a :: seen)]; rfl

theorem texts_eq (ds : List ADecl) : ADecl.texts ds = ds.map fun d => (d, d.strF) := by
  induction ds with
  | nil => rfl
  | cons d ds ih => rw [ADecl.texts, ih]; rfl

theorem pairs_eq (ds : List ADecl) : ADecl.pairs ds = ds.map fun d => (d, d.means) := by
  induction ds with
  | nil => rfl
  | cons d ds ih => rw [ADecl.pairs, ih]; rfl

theorem distinctWith_map {α : Type} (f : ADecl → α) (ds : List ADecl) :
    ADecl.distinctWith (ds.map fun d => (d, f d)) = (distinct ADecl.eqb ds).map fun d => (d, f d) :=
  uniqueLoop_map (fun d => (d, f d)) ADecl.eqb _ (fun _ _ => rfl) [] ds

theorem itemsOf_pairs (ds : List ADecl) : ADecl.itemsOf (ADecl.pairs ds) = (distinct ADecl.eqb ds).flatMap ADecl.means := by
  rw [ADecl.itemsOf, pairs_eq, distinctWith_map, List.flatMap_map]

theorem distinct_ne {α : Type} {eq : α → α → Bool} {l : List α} (h : l ≠ []) : distinct eq l ≠ [] := by
  obtain ⟨a, l, rfl⟩ := List.exists_cons_of_ne_nil h
  simp [distinct, unique, uniqueLoop, inSet]

/-- The items of a package. -/
theorem says_items {ds : List ADecl} (h : ∀ d ∈ ds, d.strF ≠ [] ∧ Says false false (.many .item) d.strF d.means) :
    ∃ s, Says false false .items s (ADecl.itemsOf (ADecl.pairs ds)) ∧ ADecl.itemText false (ADecl.texts ds) = s ∧
      ADecl.itemText true (ADecl.texts ds) = if ds.isEmpty then [] else tx "private\n\n" ++ s := by
  have hm : ∀ d ∈ distinct ADecl.eqb ds, d.strF ≠ [] ∧ Says false false (.many .item) d.strF d.means := fun d hd => h d (distinct_mem hd)
  have hf : ((ADecl.distinctWith (ADecl.texts ds)).filter fun d => !d.2.isEmpty).map (fun d => indent d.2 3) =
      (distinct ADecl.eqb ds).map fun d => indent d.strF 3 := by
    rw [texts_eq, distinctWith_map, List.filter_eq_self.2]
    · simp [Function.comp_def]
    · intro p hp
      obtain ⟨d, hd, rfl⟩ := List.mem_map.1 hp
      simpa using (hm d hd).1
  have hw : Txt false false (tx "\n\n") [] := Txt.of (by decide +kernel)
  have hi : ∀ s m, Says false false (.many .item) s m → Says false false .items s m := fun s m ⟨ts, cs, h1, h2, h3⟩ => ⟨ts, cs, h1, h2.items, h3⟩
  have main : ∀ xs : List ADecl, (∀ d ∈ xs, d.strF ≠ [] ∧ Says false false (.many .item) d.strF d.means) →
      Says false false (.many .item) (joinBy (tx "\n\n") (xs.map fun d => indent d.strF 3)) (xs.flatMap ADecl.means) := by
    intro xs
    induction xs with
    | nil => exact fun _ => ⟨[], [], .nil _, .many_nil, .nil⟩
    | cons d xs ih =>
      intro hx
      have h1 := (hx d (by simp)).2.indent 3
      have h2 := ih fun e he => hx e (List.mem_cons_of_mem _ he)
      cases xs with
      | nil => exact h1.cast (by simp [joinBy]) (by simp)
      | cons e xs => exact ((h1.after hw (by simp)).many h2 (by simp)).cast (by simp [joinBy]) (by simp)
  rw [itemsOf_pairs, ADecl.itemText, ADecl.itemText, hf]
  cases hd : ds with
  | nil => exact ⟨[], hi _ _ ⟨[], [], .nil _, .many_nil, .nil⟩, rfl, rfl⟩
  | cons d ds' =>
    rw [← hd]
    obtain ⟨e, es, he⟩ := List.exists_cons_of_ne_nil (distinct_ne (eq := ADecl.eqb) (l := ds) (by simp [hd]))
    have := (main _ hm).after hw (by simp)
    refine ⟨_, hi _ _ this, ?_, ?_⟩
    · simp [he]
    · have hne : ds ≠ [] := by simp [hd]
      simp [he, hne]

theorem says_packageRest {ds ps : List ADecl} (hd : ∀ d ∈ ds, d.strF ≠ [] ∧ Says false false (.many .item) d.strF d.means)
    (hp : ∀ d ∈ ps, d.strF ≠ [] ∧ Says false false (.many .item) d.strF d.means) {i : ID} (hi : Named i) :
    Says false false .packageRest (ADecl.itemText false (ADecl.texts ds) ++ ADecl.itemText true (ADecl.texts ps) ++ tx "end " ++ dotted i ++ tx ";\n")
      (ADecl.itemsOf (ADecl.pairs ds) ++ (if ps.isEmpty then [] else [.node .privatePart (ADecl.itemsOf (ADecl.pairs ps))]) ++ [nameOf i]) := by
  obtain ⟨s, h1, h2, _⟩ := says_items hd
  obtain ⟨q, k1, _, k2⟩ := says_items hp
  have hq : Says false false (.opt (.node .privatePart (.word "private" ⬝ .items))) (if ps.isEmpty then [] else tx "private\n\n" ++ q)
      (if ps.isEmpty then [] else [.node .privatePart (ADecl.itemsOf (ADecl.pairs ps))]) := by
    cases ps with
    | nil => exact .none false
    | cons p ps =>
      generalize ADecl.itemsOf (ADecl.pairs (p :: ps)) = ms at k1
      exact .left (.node (wk (fx "private\n\n" ⟶ k1)))
  rw [h2, k2]
  exact Says.cast (wk (h1 ⟶ hq ⟶ fx "end " ⟶ says_name hi ⟶ fx ";\n")) (by simp) (by simp)

theorem says_package {i : ID} {ds ps : List ADecl} {as : List AAspect} (hi : Named i) (ha : AspectsWF as)
    (hd : ∀ d ∈ ds, d.strF ≠ [] ∧ Says false false (.many .item) d.strF d.means)
    (hp : ∀ d ∈ ps, d.strF ≠ [] ∧ Says false false (.many .item) d.strF d.means) :
    Says false false .package (tx "package " ++ dotted i ++ aspectText as ++ tx "\nis\n\n" ++ ADecl.itemText false (ADecl.texts ds) ++
        ADecl.itemText true (ADecl.texts ps) ++ tx "end " ++ dotted i ++ tx ";\n")
      [.node .package (nameOf i :: aspectsOf as ++ ADecl.itemsOf (ADecl.pairs ds) ++
        (if ps.isEmpty then [] else [.node .privatePart (ADecl.itemsOf (ADecl.pairs ps))]) ++ [nameOf i])] := by
  have hr := says_packageRest hd hp hi
  cases as with
  | nil =>
    exact Says.cast (wk (fx "package " ⟶ Says.right (Says.node (says_name hi ⟶ Says.right (fx "\nis\n\n" ⟶ Says.right hr))))) (by simp [aspectText]) (by simp [aspectsOf])
  | cons a as =>
    have := says_someAspects (as := a :: as) (by simp) ha
    exact Says.cast (wk (fx "package " ⟶ Says.right (Says.node (says_name hi ⟶ Says.left (this ⟶ fx "\nis\n\n" ⟶ hr))))) (by simp) (by simp)

theorem says_packageBody {i : ID} {ds : List ADecl} {as : List AAspect} (hi : Named i) (ha : AspectsWF as) (hn : ds ≠ [])
    (hd : ∀ d ∈ ds, d.strF ≠ [] ∧ Says false false (.many .item) d.strF d.means) :
    Says false false .package (ADecl.packageBody i ds as).strF (ADecl.packageBody i ds as).means := by
  obtain ⟨s, h1, h2, _⟩ := says_items hd
  refine Says.cast (wk (fx "package " ⟶ Says.left (Says.node (fx "body " ⟶ says_name hi ⟶ says_aspects ha ⟶ fx "\nis\n\n" ⟶ h1 ⟶ fx "end " ⟶ says_name hi ⟶ fx ";\n"))))
    ?_ (by simp [ADecl.means])
  simp only [ADecl.strF, List.isEmpty_iff, hn, if_false, h2, show tx "package body " = tx "package " ++ tx "body " by decide +kernel]
  simp

theorem says_newPackage {i g : ID} {as : List ID} (hi : Named i) (hg : Named g) (ha : ∀ a ∈ as, Named a) :
    Says false false .package (ADecl.newPackage i g as).strF (ADecl.newPackage i g as).means := by
  refine Says.cast (wk (fx "package " ⟶ Says.right (Says.node (says_name hi ⟶ Says.right (fx " is " ⟶ Says.left (Says.node
    (fx "new " ⟶ says_name hg ⟶ says_actuals ha ⟶ fx ";\n"))))))) ?_ (by simp [ADecl.means])
  simp only [ADecl.strF, show tx " is new " = tx " is " ++ tx "new " by decide +kernel]
  simp

/-! ## Induction -/

/-- The grammar of units after the context clause. -/
theorem says_unitPackage {i : ID} {ds ps : List ADecl} {fs : Option (List AFormal)} {as : List AAspect} (hi : Named i) (hf : FormalsWF fs) (ha : AspectsWF as)
    (hd : ∀ d ∈ ds, d.strF ≠ [] ∧ Says false false (.many .item) d.strF d.means)
    (hp : ∀ d ∈ ps, d.strF ≠ [] ∧ Says false false (.many .item) d.strF d.means) :
    Says false false (.package ∣∣ .generic) (ADecl.package i ds ps fs as).strF (ADecl.package i ds ps fs as).means := by
  have h := says_package hi ha hd hp
  cases fs with
  | none => exact (Says.left h).cast (by simp [ADecl.strF, formalText]) (by simp [ADecl.means, genericOf])
  | some fs => exact (Says.right (says_generic hf (.right h))).cast (by simp [ADecl.strF]) (by simp [ADecl.means])

theorem strF_nonempty {d : ADecl} (hw : d.WF) (hh : d.hashable = true) : d.strF ≠ [] := by
  have ht : ∀ s : ASpec, s.strF ≠ [] := fun s => by
    unfold ASpec.strF
    split <;> simp only [List.append_assoc] <;> exact tx_ne (by decide +kernel)
  have hs : ∀ (s : ASpec) r, s.strF ++ r ≠ [] := fun s r => tx_ne (ht s)
  cases d with
  | use is => rw [ADecl.strF, List.append_assoc]; exact tx_ne (by decide +kernel)
  | useType is => rw [ADecl.strF, List.append_assoc]; exact tx_ne (by decide +kernel)
  | pragma i ps => simp only [ADecl.strF, List.append_assoc]; exact tx_ne (by decide +kernel)
  | type t =>
    simp only [ADecl.strF, ATypeDecl.strF, List.append_assoc]
    refine tx_ne ?_
    split <;> decide +kernel
  | subprogram s as fs => simp [ADecl.strF, ht]
  | body s ds ss as => simp only [ADecl.strF, List.append_assoc]; exact hs _ _
  | exprFunction s e as => simp only [ADecl.strF, List.append_assoc]; exact hs _ _
  | «instance» i s as =>
    simp only [ADecl.strF, List.append_assoc]
    refine tx_ne ?_
    split <;> decide +kernel
  | «renaming» s i => simp only [ADecl.strF, List.append_assoc]; exact hs _ _
  | object is t e c as => simp [ADecl.hashable] at hh
  | package i ds ps fs as => simp [ADecl.hashable] at hh
  | packageBody i ds as => simp [ADecl.hashable] at hh
  | newPackage i g as => simp [ADecl.hashable] at hh

open ADecl in
mutual

theorem says_decl : ∀ d : ADecl, d.WF → Says false false (.many .item) d.strF d.means
  | .use is, h => by rw [WF] at h; exact .item (.left (says_useClause h.1 h.2).1)
  | .useType is, h => by rw [WF] at h; exact .item (.left (says_useClause h.1 h.2).2)
  | .pragma i ps, h => by rw [WF] at h; exact .item (.right (.left (says_pragma h.1 h.2)))
  | .object is t e c as, h => by rw [WF] at h; exact .item (.right (.right (.left (says_object h.1 h.2.1 h.2.2.1 h.2.2.2.1 h.2.2.2.2))))
  | .type t, h => by rw [WF] at h; exact says_typeItems h
  | .subprogram s as none, h => by
    rw [WF] at h
    exact (Says.item (.right (.right (.right (.right (.right (.left (says_declared h.1 h.2.1)))))))).cast (by simp [strF, formalText]) (by simp [means, genericOf])
  | .subprogram s as (some fs), h => by
    rw [WF] at h
    exact (Says.item (.right (.right (.right (.right (.right (.right (.right (says_generic h.2.2 (.left (says_declared h.1 h.2.1)))))))))) ).cast
      (by simp [strF]) (by simp [means])
  | .body s ds ss as, h => by
    rw [WF] at h
    exact .item (.right (.right (.right (.right (.right (.left (says_body h.1 h.2.1 (says_decls ds h.2.2.1) h.2.2.2.1 h.2.2.2.2)))))))
  | .exprFunction s e as, h => by rw [WF] at h; exact .item (.right (.right (.right (.right (.right (.left (says_exprFunction h.1 h.2.1 h.2.2)))))))
  | .instance i s as, h => by rw [WF] at h; exact .item (.right (.right (.right (.right (.right (.left (says_instance h.1 h.2.1 h.2.2)))))))
  | .renaming s i, h => by rw [WF] at h; exact .item (.right (.right (.right (.right (.right (.left (says_renaming h.1 h.2)))))))
  | .package i ds ps fs as, h => by
    rw [WF] at h
    exact .item (.right (.right (.right (.right (.right (.right (says_unitPackage h.1 h.2.1 h.2.2.1 (says_hashed ds h.2.2.2.1) (says_hashed ps h.2.2.2.2))))))))
  | .packageBody i ds as, h => by
    rw [WF] at h
    exact .item (.right (.right (.right (.right (.right (.right (.left (says_packageBody h.1 h.2.1 h.2.2.1 (says_hashed ds h.2.2.2)))))))))
  | .newPackage i g as, h => by rw [WF] at h; exact .item (.right (.right (.right (.right (.right (.right (.left (says_newPackage h.1 h.2.1 h.2.2))))))))

theorem says_decls : ∀ ds : List ADecl, WFL ds → Says false false (.many .item) (joinBy [] (strL ds)) (meansL ds)
  | [], _ => ⟨[], [], .nil _, .many_nil, .nil⟩
  | d :: ds, h => by
    rw [WFL] at h
    have h1 := ((says_decl d h.1).after txt_line (by simp)).indent 3
    have h2 := says_decls ds h.2
    refine (h1.many h2 (by simp)).cast ?_ (by rw [meansL])
    rw [strL]
    cases strL ds <;> simp [joinBy]

theorem says_hashed : ∀ ds : List ADecl, WFH ds → ∀ d ∈ ds, d.strF ≠ [] ∧ Says false false (.many .item) d.strF d.means
  | [], _, d, hd => by simp at hd
  | x :: xs, h, d, hd => by
    rw [WFH] at h
    have hx := says_decl x h.2.1
    have hn := strF_nonempty h.2.1 h.1
    have hxs := says_hashed xs h.2.2
    rcases List.mem_cons.1 hd with rfl | hd
    · exact ⟨hn, hx⟩
    · exact hxs d hd

end

/-! ## Units -/

theorem says_context {c : AContext} (h : c.WF) : Says false false .contextItem c.strF [c.means] := by
  cases c with
  | «with» is => exact .left ((Says.node (wk (fx "with " ⟶ says_names h.1 h.2 ⟶ fx ";"))).cast (by simp [AContext.strF]) (by simp [AContext.means]))
  | use is => exact .right (.left ((says_useClause h.1 h.2).1.cast rfl (by simp [ADecl.means, AContext.means])))
  | useType is => exact .right (.left ((says_useClause h.1 h.2).2.cast rfl (by simp [ADecl.means, AContext.means])))
  | pragma i ps => exact .right (.right ((says_pragma h.1 h.2).cast rfl (by simp [ADecl.means, AContext.means])))

theorem says_contexts {cs : List AContext} (h : ∀ c ∈ cs, c.WF) :
    Says false false (.many .contextItem) (contextText cs) ((distinct AContext.eqb cs).map AContext.means) := by
  unfold contextText
  by_cases hn : cs = []
  · subst hn
    exact ⟨[], [], .nil _, .many_nil, .nil⟩
  · rw [if_neg (by simpa using hn)]
    have := says_many txt_line (g := .contextItem) (f := AContext.strF) (m := fun c => [c.means]) (xs := distinct AContext.eqb cs)
      fun c hc => says_context (h c (distinct_mem hc))
    rw [flatMap_one] at this
    exact this.after (Txt.of (by decide +kernel) : Txt false false (tx "\n\n") []) (by simp)

theorem says_unitDecl {d : ADecl} (h : d.WF) (hp : d.isPackage = true) : Says false false (.package ∣∣ .generic) d.strF d.means ∧ d.strF ≠ [] := by
  cases d with
  | package i ds ps fs as =>
    rw [ADecl.WF] at h
    refine ⟨says_unitPackage h.1 h.2.1 h.2.2.1 (says_hashed ds h.2.2.2.1) (says_hashed ps h.2.2.2.2), ?_⟩
    rw [ADecl.strF]
    simp [show tx "package " ≠ [] by decide +kernel]
  | packageBody i ds as =>
    rw [ADecl.WF] at h
    refine ⟨.left (says_packageBody h.1 h.2.1 h.2.2.1 (says_hashed ds h.2.2.2)), ?_⟩
    rw [ADecl.strF, if_neg (by simpa using h.2.2.1)]
    simp [show tx "end " ≠ [] by decide +kernel]
  | newPackage i g as =>
    rw [ADecl.WF] at h
    refine ⟨.left (says_newPackage h.1 h.2.1 h.2.2), ?_⟩
    rw [ADecl.strF]
    simp [show tx "package " ≠ [] by decide +kernel]
  | _ => simp [ADecl.isPackage] at hp

theorem says_unit {cs : List AContext} {d : ADecl} (hc : ∀ c ∈ cs, c.WF) (h : d.WF) (hp : d.isPackage = true) :
    Says false false .unit (contextText cs ++ d.strF) ((distinct AContext.eqb cs).map AContext.means ++ d.means) :=
  says_contexts hc ⟶ (says_unitDecl h hp).1

end Verif.Ada
