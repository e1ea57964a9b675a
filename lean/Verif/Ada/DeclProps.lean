import Verif.Ada.DeclMain
import Verif.Ada.DeclParse
import Verif.Ada.StmtProps

/-! # C66: the text of an Ada declaration declares what the object stands for

The specification (`Ada/DeclGrammar.lean`) reads text as declarations of Ada. `ADecl.means` (`Ada/DeclValue.lean`) is what the object stands for. -/

namespace Verif.Ada
open Verif

/-! ## No exception -/

theorem firstOf_none {l : List (Option PyErr)} (h : ∀ x ∈ l, x = none) : firstOf l = none := by
  induction l with
  | nil => rfl
  | cons x l ih => rw [firstOf, h x (by simp), ih fun y hy => h y (by simp [hy])]; rfl

theorem firstOf_map {α : Type} {f : α → Option PyErr} {l : List α} (h : ∀ x ∈ l, f x = none) : firstOf (l.map f) = none :=
  firstOf_none fun y hy => by
    obtain ⟨x, hx, rfl⟩ := List.mem_map.1 hy
    exact h x hx

theorem opt_not_raises {e : Option AExpr} (h : OptWF e) : optRaises e = none := by
  cases e with
  | none => rfl
  | some e => exact not_raises e h

theorem choice_not_raises {e : AExpr} (h : e.WF ∨ e.isOthers = true) : e.raises = none := by
  by_cases ho : e.isOthers = true
  · unfold AExpr.isOthers at ho
    split at ho
    · rfl
    · simp at ho
  · exact not_raises e (h.resolve_right ho)

theorem raisesP_none {cs : List (AExpr × AExpr)} (h : ∀ c ∈ cs, (c.1.WF ∨ c.1.isOthers = true) ∧ c.2.WF) : AExpr.raisesP cs = none := by
  induction cs with
  | nil => rfl
  | cons c cs ih =>
    obtain ⟨a, b⟩ := c
    rw [AExpr.raisesP, choice_not_raises (h (a, b) (by simp)).1, not_raises b (h (a, b) (by simp)).2, ih fun c hc => h c (by simp [hc])]
    rfl

theorem raisesL_none {cs : List AExpr} (h : ∀ c ∈ cs, c.WF ∨ c.isOthers = true) : AExpr.raisesL cs = none := by
  induction cs with
  | nil => rfl
  | cons c cs ih => rw [AExpr.raisesL, choice_not_raises (h c (by simp)), ih fun c hc => h c (by simp [hc])]; rfl

theorem aspect_not_raises {a : AAspect} (h : a.WF) : a.raises = none := by
  cases a with
  | contractCases cs => exact raisesP_none h.2
  | pre e => exact not_raises e h
  | post e => exact not_raises e h
  | dynamicPredicate e => exact not_raises e h
  | size e => exact not_raises e h
  | defaultInitialCondition e => exact not_raises e h
  | _ => rfl

theorem aspects_not_raise {as : List AAspect} (h : AspectsWF as) : aspectRaises as = none := firstOf_map fun a ha => aspect_not_raises (h a ha)

theorem component_not_raises {c : AComponent} (h : c.WF) : c.raises = none := by
  cases c with
  | null => rfl
  | comp i t d => exact opt_not_raises h.2.2

theorem components_not_raise {cs : List AComponent} (h : ∀ c ∈ cs, c.WF) : firstOf (cs.map AComponent.raises) = none :=
  firstOf_map fun c hc => component_not_raises (h c hc)

theorem ComponentsWF.all {cs : List AComponent} (h : ComponentsWF cs) : ∀ c ∈ cs, c.WF := by
  rcases h with rfl | h
  · intro c hc
    rw [List.mem_singleton.1 hc]
    trivial
  · exact h.2.2

theorem definition_not_raises {t : ATypeDef} (h : t.WF) : t.raises = none := by
  cases t with
  | modular m => exact not_raises m h
  | range a b => rw [ATypeDef.raises, not_raises a h.1, not_raises b h.2.1]; rfl
  | rangeSubtype b x y => rw [ATypeDef.raises, not_raises x h.2.1, not_raises y h.2.2.1]; rfl
  | record cs v =>
    cases v with
    | none => rw [ATypeDef.raises, components_not_raise (ComponentsWF.all h)]; rfl
    | some p =>
      obtain ⟨h1, _, _, _, h2⟩ := h
      have : firstOf (p.variants.map fun w => AExpr.raisesL w.choices <|> firstOf (w.components.map AComponent.raises)) = none :=
        firstOf_map fun w hw => by rw [raisesL_none (h2 w hw).2.1, components_not_raise (h2 w hw).2.2.all]; rfl
      rw [ATypeDef.raises, components_not_raise h1]
      exact this
  | _ => rfl

theorem type_not_raises {t : ATypeDecl} (h : t.WF) : t.raises = none := by
  obtain ⟨_, h2, h3, h4, _⟩ := h
  have : aspectRaises (t.definition.ownAspects ++ t.aspects) = none := by
    refine firstOf_map fun a ha => ?_
    rcases List.mem_append.1 ha with ha | ha
    · rw [ownAspects_eq] at ha
      split at ha
      · rename_i hd
        rw [hd] at h3
        rw [List.mem_singleton.1 ha]
        exact not_raises _ h3.2.2
      · simp at ha
    · exact aspect_not_raises (h4 a ha)
  rw [ATypeDecl.raises, firstOf_map fun d hd => opt_not_raises (h2 d hd).2.2.2, definition_not_raises h3, this]
  rfl

theorem spec_not_raises {s : ASpec} (h : s.WF) : s.raises = none := firstOf_map fun p hp => opt_not_raises (h.2.1 p hp).2.2.2

theorem formals_not_raise {fs : Option (List AFormal)} (h : FormalsWF fs) : formalRaises fs = none := by
  cases fs with
  | none => rfl
  | some fs =>
    refine firstOf_map fun f hf => ?_
    have := h f hf
    cases f with
    | subprogram s => exact spec_not_raises this
    | package i g as => rfl
    | type t => exact type_not_raises this.1

open ADecl in
mutual

theorem decl_not_raises : ∀ d : ADecl, d.WF → d.raises = none
  | .use _, _ => rfl
  | .useType _, _ => rfl
  | .pragma i ps, h => by rw [WF] at h; exact not_raisesL ps h.2
  | .object is t e c as, h => by rw [WF] at h; rw [raises, opt_not_raises h.2.2.2.1, aspects_not_raise h.2.2.2.2]; rfl
  | .type t, h => by rw [WF] at h; exact type_not_raises h
  | .subprogram s as fs, h => by rw [WF] at h; rw [raises, formals_not_raise h.2.2, spec_not_raises h.1, aspects_not_raise h.2.1]; rfl
  | .body s ds ss as, h => by
    rw [WF] at h
    rw [raises, spec_not_raises h.1, aspects_not_raise h.2.1, decls_not_raise ds h.2.2.1, snot_raisesL ss h.2.2.2.2]; rfl
  | .exprFunction s e as, h => by rw [WF] at h; rw [raises, spec_not_raises h.1, not_raises e h.2.1, aspects_not_raise h.2.2]; rfl
  | .instance i s as, _ => rfl
  | .renaming s i, h => by rw [WF] at h; exact spec_not_raises h.1
  | .package i ds ps fs as, h => by
    rw [WF] at h
    rw [raises, formals_not_raise h.2.1, aspects_not_raise h.2.2.1, hashed_not_raise ds h.2.2.2.1, hashed_not_raise ps h.2.2.2.2]; rfl
  | .packageBody i ds as, h => by rw [WF] at h; rw [raises, aspects_not_raise h.2.1, hashed_not_raise ds h.2.2.2]; rfl
  | .newPackage i g as, _ => rfl

theorem decls_not_raise : ∀ ds : List ADecl, WFL ds → raisesL ds = none
  | [], _ => rfl
  | d :: ds, h => by rw [WFL] at h; rw [raisesL, decl_not_raises d h.1, decls_not_raise ds h.2]; rfl

theorem hashed_not_raise : ∀ ds : List ADecl, WFH ds → raisesH ds = none
  | [], _ => rfl
  | d :: ds, h => by rw [WFH] at h; rw [raisesH, if_pos h.1, decl_not_raises d h.2.1, hashed_not_raise ds h.2.2]; rfl

end

/-! ## The property -/

theorem Txt.elements {l r : Bool} {s : PyStr} {ts : List Tok} (h : Txt l r s ts) : Ada.elements s = ts := by
  have := h.scan [] fun _ => trivial
  simpa [Ada.scan, Ada.elements, endWord] using this

theorem Says.reads {l r : Bool} {g : G} {s : PyStr} {m : List Meaning} (h : Says l r g s m) :
    ∃ cs, Phrase g (elements s) cs ∧ List.Forall₂ Agrees cs m := by
  obtain ⟨ts, cs, h1, h2, h3⟩ := h
  exact ⟨cs, by rwa [h1.elements], h3⟩

/-- **C66.** Every declaration built from names of Ada has a text; the text consists of declarations of Ada, it can be read in one way only, and it
declares what the object stands for: the same entities with the same names, types, modes, aspects, values and statements, in the same order. -/
theorem C66_text_partial {d : ADecl} (h : d.WF) :
    ∃ x cs, d.str = .ok x ∧ Declarations (elements x) cs ∧ (∀ ds, Declarations (elements x) ds → ds = cs) ∧ List.Forall₂ Agrees cs d.means := by
  obtain ⟨ts, cs, h1, h2, h3⟩ := says_decl d h
  have hr : Declarations (elements d.strF) cs := by rw [h1.elements]; exact h2.items
  exact ⟨d.strF, cs, by rw [ADecl.str, decl_not_raises d h], hr, fun ds hd => hd.unique hr, h3⟩

/-- **C66.** The text of a unit, made of context items and a package, a package body or an instance of a package, is a compilation unit of Ada, it
can be read in one way only, and it consists of the context items and the declaration. -/
theorem C66_unit_partial {cs : List AContext} {d : ADecl} (hc : ∀ c ∈ cs, c.WF) (h : d.WF) (hp : d.isPackage = true) :
    ∃ x ts, unitText cs d = .ok x ∧ CompilationUnit (elements x) ts ∧ (∀ us, CompilationUnit (elements x) us → us = ts) ∧
      List.Forall₂ Agrees ts ((distinct AContext.eqb cs).map AContext.means ++ d.means) := by
  have hs := says_unitDecl h hp
  obtain ⟨ts, h1, h2⟩ := (says_unit hc h hp).reads
  refine ⟨contextText cs ++ d.strF, ts, ?_, h1, fun us hu => hu.unique h1, h2⟩
  have : firstOf (cs.map AContext.raises) = none := firstOf_map fun c hm => by
    have := hc c hm
    cases c with
    | pragma i ps => exact not_raisesL ps this.2
    | _ => rfl
  rw [unitText, this, decl_not_raises d h]
  simp [hs.2]

/-- **C66.** Declarations with the same text declare the same: what one text is read as agrees with both. -/
theorem C66_same_text {a b : ADecl} (ha : a.WF) (hb : b.WF) (hs : a.str = b.str) :
    ∃ cs, List.Forall₂ Agrees cs a.means ∧ List.Forall₂ Agrees cs b.means := by
  obtain ⟨x, cs, h1, h2, _, h4⟩ := C66_text_partial ha
  obtain ⟨y, ds, k1, _, k3, k4⟩ := C66_text_partial hb
  rw [h1, k1] at hs
  cases hs
  exact ⟨cs, h4, k3 cs h2 ▸ k4⟩

/-- **C66.** The grammar of declarations and units is unambiguous. -/
theorem C66_unambiguous {ts : List Tok} {cs ds : DTrees} :
    (Declarations ts cs → Declarations ts ds → cs = ds) ∧ (CompilationUnit ts cs → CompilationUnit ts ds → cs = ds) :=
  ⟨Declarations.unique, CompilationUnit.unique⟩

theorem uniqueLoop_all {α : Type} {eq : α → α → Bool} (seen l : List α) (h : l.Pairwise fun a b => eq a b = false) (hs : ∀ a ∈ seen, ∀ b ∈ l, eq a b = false) :
    uniqueLoop (fun _ => 0) eq seen l = l := by
  induction l generalizing seen with
  | nil => rfl
  | cons a l ih =>
    have h0 : inSet (fun _ => 0) eq seen a = false := by
      simp only [inSet, List.any_eq_false]
      intro x hx
      simp [hs x hx a (by simp)]
    rw [List.pairwise_cons] at h
    rw [uniqueLoop, h0, if_neg (by simp), ih (a :: seen) h.2 fun x hx b hb => ?_]
    rcases List.mem_cons.1 hx with rfl | hx
    · exact h.1 b hb
    · exact hs x hx b (by simp [hb])

theorem uniqueLoop_kept {α : Type} {eq : α → α → Bool} (seen l : List α) :
    ∀ x ∈ l, x ∈ uniqueLoop (fun _ => 0) eq seen l ∨ ∃ y, (y ∈ seen ∨ y ∈ uniqueLoop (fun _ => 0) eq seen l) ∧ eq y x = true := by
  induction l generalizing seen with
  | nil => simp
  | cons a l ih =>
    intro x hx
    unfold uniqueLoop
    split
    · rename_i hin
      rcases List.mem_cons.1 hx with rfl | hx
      · obtain ⟨y, hy, h⟩ : ∃ y ∈ seen, eq y x = true := by simpa [inSet] using hin
        exact .inr ⟨y, .inl hy, h⟩
      · exact ih seen x hx
    · rcases List.mem_cons.1 hx with rfl | hx
      · exact .inl (by simp)
      · rcases ih (a :: seen) x hx with h | ⟨y, hy, h⟩
        · exact .inl (by simp [h])
        · refine .inr ⟨y, ?_, h⟩
          simp only [List.mem_cons] at hy ⊢
          rcases hy with (h | h) | h
          · exact .inr (.inl h)
          · exact .inl h
          · exact .inr (.inr h)

/-- What is left of a list without repetitions: elements in the same order, no two of them equal; an element that is left out is equal to one that is
not; nothing is left out if no two elements are equal. -/
def WithoutRepetitions {α : Type} (eq : α → α → Bool) (l kept : List α) : Prop :=
  kept.Sublist l ∧ kept.Pairwise (fun a b => eq a b = false) ∧ (∀ x ∈ l, x ∈ kept ∨ ∃ y ∈ kept, eq y x = true) ∧
    (l.Pairwise (fun a b => eq a b = false) → kept = l)

theorem distinct_spec {α : Type} (eq : α → α → Bool) (l : List α) : WithoutRepetitions eq l (distinct eq l) :=
  ⟨Common.C44_unique_sublist _ _ l, Common.C44_unique_nodup _ _ (fun _ _ _ => rfl) l,
   fun x hx => by simpa [distinct, unique] using uniqueLoop_kept (eq := eq) [] l x hx,
   fun h => uniqueLoop_all [] l h (by simp)⟩

/-- **C66.** Packages declare their declarations in order, each once; if no two declarations of a package are equal, they declare all of them. -/
theorem C66_package_items (i : ID) (ds ps : List ADecl) (fs : Option (List AFormal)) (as : List AAspect) :
    ∃ kd kp, WithoutRepetitions ADecl.eqb ds kd ∧ WithoutRepetitions ADecl.eqb ps kp ∧
      (ADecl.package i ds ps none as).means = [.node .package (nameOf i :: aspectsOf as ++ kd.flatMap ADecl.means ++
        (if ps.isEmpty then [] else [.node .privatePart (kp.flatMap ADecl.means)]) ++ [nameOf i])] ∧
      (ADecl.packageBody i ds as).means = [.node .packageBody (nameOf i :: aspectsOf as ++ kd.flatMap ADecl.means ++ [nameOf i])] ∧
      ∀ l, fs = some l → ∃ kf, WithoutRepetitions AFormal.eqb l kf ∧ ∀ m, (ADecl.package i ds ps none as).means = [m] →
        (ADecl.package i ds ps fs as).means = [.node .generic [.node .formals (kf.map AFormal.means), m]] := by
  refine ⟨_, _, distinct_spec _ ds, distinct_spec _ ps, ?_, ?_, fun l hl => ⟨_, distinct_spec _ l, fun m hm => ?_⟩⟩
  · rw [ADecl.means, itemsOf_pairs, itemsOf_pairs, genericOf]
  · rw [ADecl.means, itemsOf_pairs]
  · rw [ADecl.means, genericOf] at hm
    rw [ADecl.means, hl, genericOf, List.cons.inj hm |>.1]

/-- **C66.** The context items of a unit appear in order, each once. -/
theorem C66_context_items (cs : List AContext) : WithoutRepetitions AContext.eqb cs (distinct AContext.eqb cs) := distinct_spec _ cs

/-- **C66.** An enumeration type has the given literals. They are in the order of their numbers, as Ada requires of a representation clause, if all of
them have numbers (literals with the same number stay in the given order), and in the given order otherwise. -/
theorem C66_enumeration (ls : List (ID × Option (Int × NBase))) (size : Option AExpr) :
    ∃ ls', mkEnumeration ls size = .enumeration ls' size ∧ ls'.Perm ls ∧ ((∃ l ∈ ls, l.2 = none) → ls' = ls) ∧
      ((∀ l ∈ ls, l.2 ≠ none) → ls'.Pairwise fun a b => ∀ v w, a.2 = some v → b.2 = some w → v.1 ≤ w.1) ∧
      ∀ a b, [a, b].Sublist ls → (∀ v w, a.2 = some v → b.2 = some w → v.1 ≤ w.1) → [a, b].Sublist ls' := by
  by_cases h : (ls.all fun l => l.2.isSome) = true
  · rw [mkEnumeration, if_pos h]
    have ha : ∀ l ∈ ls, l.2 ≠ none := by
      intro l hl
      have := List.all_eq_true.1 h l hl
      intro hn
      rw [hn] at this
      simp at this
    have ht : ∀ a b c : ID × Option (Int × NBase), decide ((a.2.map (·.1)).getD 0 ≤ (b.2.map (·.1)).getD 0) = true →
        decide ((b.2.map (·.1)).getD 0 ≤ (c.2.map (·.1)).getD 0) = true → decide ((a.2.map (·.1)).getD 0 ≤ (c.2.map (·.1)).getD 0) = true := by
      intro a b c h1 h2
      simp only [decide_eq_true_eq] at h1 h2 ⊢
      omega
    have htot : ∀ a b : ID × Option (Int × NBase), (decide ((a.2.map (·.1)).getD 0 ≤ (b.2.map (·.1)).getD 0) ||
        decide ((b.2.map (·.1)).getD 0 ≤ (a.2.map (·.1)).getD 0)) = true := by
      intro a b
      simp only [Bool.or_eq_true, decide_eq_true_eq]
      omega
    refine ⟨_, rfl, List.mergeSort_perm .., fun ⟨l, hl, hn⟩ => absurd hn (ha l hl), fun _ => ?_, fun a b hs hv => ?_⟩
    · refine (List.pairwise_mergeSort ht htot ls).imp ?_
      intro a b hab v w hv hw
      rw [hv, hw] at hab
      simpa using hab
    · refine List.pair_sublist_mergeSort ht htot ?_ hs
      obtain ⟨v, hv'⟩ := Option.ne_none_iff_exists'.1 (ha a (hs.subset (by simp)))
      obtain ⟨w, hw'⟩ := Option.ne_none_iff_exists'.1 (ha b (hs.subset (by simp)))
      simpa [hv', hw'] using hv v w hv' hw'
  · rw [mkEnumeration, if_neg h]
    refine ⟨_, rfl, .refl _, fun _ => rfl, fun ha => ?_, fun _ _ hs _ => hs⟩
    refine absurd (List.all_eq_true.2 fun l hl => ?_) h
    obtain ⟨v, hv⟩ := Option.ne_none_iff_exists'.1 (ha l hl)
    simp [hv]

theorem mkEnumeration_WF {ls : List (ID × Option (Int × NBase))} {size : Option AExpr} (hn : ls ≠ []) (h : ∀ l ∈ ls, Simple l.1) (hs : OptWF size) :
    (mkEnumeration ls size).WF := by
  obtain ⟨ls', he, hp, _⟩ := C66_enumeration ls size
  rw [he]
  refine ⟨?_, fun l hl => h l (hp.subset hl), hs⟩
  rintro rfl
  exact hn (List.nil_perm.1 hp)

end Verif.Ada
