import Verif.Ada.DeclEqual

/-! # C66: package units that are put together from parts (`rflx/ada.py:1643-1717`) -/

namespace Verif.Ada
open Verif

/-- `PackageUnit`, `rflx/ada.py:1643-1656`. Declaration and body have the same identifier (the invariant of the class), which is kept once. -/
structure AUnit where
  context : List AContext
  id : ID
  decls : List ADecl
  priv : List ADecl
  formals : Option (List AFormal)
  aspects : List AAspect
  bodyContext : List AContext
  bodyDecls : List ADecl
  bodyAspects : List AAspect

/-- `UnitPart` and `SubprogramUnitPart`, `rflx/ada.py:1706-1717`. -/
structure AUnitPart where
  specification : List ADecl
  body : List ADecl
  priv : List ADecl

namespace AUnit

/-- `declaration`, `rflx/ada.py:1654`. -/
def declaration (u : AUnit) : ADecl := .package u.id u.decls u.priv u.formals u.aspects

/-- `body`, `rflx/ada.py:1656`. -/
def body (u : AUnit) : ADecl := .packageBody u.id u.bodyDecls u.bodyAspects

/-- `__iadd__`, `rflx/ada.py:1658-1668`. -/
def add (u : AUnit) (p : AUnitPart) : AUnit :=
  { u with decls := u.decls ++ p.specification, priv := u.priv ++ p.priv, bodyDecls := u.bodyDecls ++ p.body }

/-- `ads`, `rflx/ada.py:1670-1672`. -/
def ads (u : AUnit) : Py PyStr := unitText u.context u.declaration

/-- `adb`, `rflx/ada.py:1674-1676`: no text without a body. The body is evaluated first. -/
def adb (u : AUnit) : Py PyStr := unitText u.bodyContext u.body

/-- The unit is right: names, context items and declarations are (`ADecl.WF`), the declarations can be hashed. -/
def WF (u : AUnit) : Prop :=
  Named u.id ∧ (∀ c ∈ u.context, c.WF) ∧ (∀ c ∈ u.bodyContext, c.WF) ∧ FormalsWF u.formals ∧ AspectsWF u.aspects ∧ AspectsWF u.bodyAspects ∧
    ∀ d ∈ u.decls ++ u.priv ++ u.bodyDecls, d.hashable = true ∧ d.WF

end AUnit

/-- The declarations of a part are right. -/
def AUnitPart.WF (p : AUnitPart) : Prop := ∀ d ∈ p.specification ++ p.priv ++ p.body, d.hashable = true ∧ d.WF

theorem WFH_iff {ds : List ADecl} : ADecl.WFH ds ↔ ∀ d ∈ ds, d.hashable = true ∧ d.WF := by
  induction ds with
  | nil => simp [ADecl.WFH]
  | cons d ds ih => simp [ADecl.WFH, ih, and_assoc]

theorem add_parts (u : AUnit) (ps : List AUnitPart) :
    ps.foldl AUnit.add u = { u with decls := u.decls ++ ps.flatMap (·.specification), priv := u.priv ++ ps.flatMap (·.priv),
                                    bodyDecls := u.bodyDecls ++ ps.flatMap (·.body) } := by
  induction ps generalizing u with
  | nil => simp
  | cons p ps ih => rw [List.foldl_cons, ih]; simp [AUnit.add]

theorem parts_WF {u : AUnit} {ps : List AUnitPart} (hu : u.WF) (hp : ∀ p ∈ ps, p.WF) : (ps.foldl AUnit.add u).WF := by
  induction ps generalizing u with
  | nil => exact hu
  | cons p ps ih =>
    rw [List.foldl_cons]
    refine ih ?_ fun q hq => hp q (by simp [hq])
    obtain ⟨h1, h2, h3, h4, h5, h6, h7⟩ := hu
    refine ⟨h1, h2, h3, h4, h5, h6, fun d hd => ?_⟩
    have := hp p (by simp) d
    have := h7 d
    simp only [AUnit.add, List.mem_append] at *
    grind

/-- **C66.** A package unit put together from any parts has the text of a compilation unit for its declaration. It consists of the context items and a
package that declares the declarations of the unit and of the parts, in the order in which they were added, repetitions left out. -/
theorem C66_specification_partial {u : AUnit} {ps : List AUnitPart} (hu : u.WF) (hp : ∀ p ∈ ps, p.WF) :
    ∃ x ts cs ds qs m, (ps.foldl AUnit.add u).ads = .ok x ∧ CompilationUnit (elements x) ts ∧ (∀ us, CompilationUnit (elements x) us → us = ts) ∧
      WithoutRepetitions AContext.eqb u.context cs ∧
      WithoutRepetitions ADecl.eqb (u.decls ++ ps.flatMap (·.specification)) ds ∧
      WithoutRepetitions ADecl.eqb (u.priv ++ ps.flatMap (·.priv)) qs ∧
      m = .node .package (nameOf u.id :: aspectsOf u.aspects ++ ds.flatMap ADecl.means ++
        (if qs.isEmpty then [] else [.node .privatePart (qs.flatMap ADecl.means)]) ++ [nameOf u.id]) ∧
      List.Forall₂ Agrees ts (cs.map AContext.means ++ [genericOf u.formals m]) := by
  have hw := parts_WF hu hp
  obtain ⟨h1, h2, h3, h4, h5, h6, h7⟩ := hw
  have hd : (ps.foldl AUnit.add u).declaration.WF := by
    rw [AUnit.declaration, ADecl.WF]
    exact ⟨h1, h4, h5, WFH_iff.2 fun d hd => h7 d (by simp [hd]), WFH_iff.2 fun d hd => h7 d (by simp [hd])⟩
  obtain ⟨x, ts, k1, k2, k3, k4⟩ := C66_unit_partial h2 hd rfl
  refine ⟨x, ts, _, _, _, _, k1, k2, k3, distinct_spec _ _, distinct_spec _ _, distinct_spec _ _, rfl, ?_⟩
  have he : ∀ l : List ADecl, (distinct ADecl.eqb l).isEmpty = l.isEmpty := fun l => by
    cases l with
    | nil => rfl
    | cons d l =>
      obtain ⟨e, es, h⟩ := List.exists_cons_of_ne_nil (distinct_ne (eq := ADecl.eqb) (l := d :: l) (by simp))
      rw [h]; rfl
  rw [add_parts] at k4
  rw [he]
  simpa only [AUnit.declaration, ADecl.means, itemsOf_pairs] using k4

/-- **C66.** There is no text for the body if neither the unit nor a part has a declaration for it; otherwise the text is a compilation unit that
consists of the context items and the package body with these declarations, in the order in which they were added, repetitions left out. -/
theorem C66_body_partial {u : AUnit} {ps : List AUnitPart} (hu : u.WF) (hp : ∀ p ∈ ps, p.WF) :
    (u.bodyDecls ++ ps.flatMap (·.body) = [] → (ps.foldl AUnit.add u).adb = .ok []) ∧
    (u.bodyDecls ++ ps.flatMap (·.body) ≠ [] →
      ∃ x ts cs ds, (ps.foldl AUnit.add u).adb = .ok x ∧ CompilationUnit (elements x) ts ∧ (∀ us, CompilationUnit (elements x) us → us = ts) ∧
        WithoutRepetitions AContext.eqb u.bodyContext cs ∧ WithoutRepetitions ADecl.eqb (u.bodyDecls ++ ps.flatMap (·.body)) ds ∧
        List.Forall₂ Agrees ts (cs.map AContext.means ++
          [.node .packageBody (nameOf u.id :: aspectsOf u.bodyAspects ++ ds.flatMap ADecl.means ++ [nameOf u.id])])) := by
  have hw := parts_WF hu hp
  rw [add_parts] at hw ⊢
  obtain ⟨h1, h2, h3, h4, h5, h6, h7⟩ := hw
  refine ⟨fun hn => ?_, fun hn => ?_⟩
  · have hc : firstOf (u.bodyContext.map AContext.raises) = none := firstOf_map fun c hm => by
      have := h3 c hm
      cases c with
      | pragma i ps => exact not_raisesL ps this.2
      | _ => rfl
    simp only [AUnit.adb, AUnit.body, unitText, hn, hc, ADecl.raises, ADecl.raisesH, aspects_not_raise h6]
    rfl
  · have hd : (ADecl.packageBody u.id (u.bodyDecls ++ ps.flatMap (·.body)) u.bodyAspects).WF := by
      rw [ADecl.WF]
      exact ⟨h1, h6, hn, WFH_iff.2 fun d hd => h7 d (by simp only [List.mem_append] at hd ⊢; exact .inr hd)⟩
    obtain ⟨x, ts, k1, k2, k3, k4⟩ := C66_unit_partial h3 hd rfl
    refine ⟨x, ts, _, _, k1, k2, k3, distinct_spec _ _, distinct_spec _ _, ?_⟩
    simpa only [ADecl.means, itemsOf_pairs] using k4

/-! ## Examples -/

/-- A unit with a context. -/
def exUnit : AUnit := ⟨exContext, exId ["P", "Q"], [], [], none, [.sparkMode], [], [], []⟩

/-- A part with an expression function. -/
def exPart : AUnitPart :=
  ⟨[.subprogram ⟨exId ["Get"], [⟨[exId ["X"]], .inOut, exId ["Byte"], none⟩], none⟩ [] none],
   [.body ⟨exId ["Get"], [⟨[exId ["X"]], .inOut, exId ["Byte"], none⟩], none⟩ [] [.assign exX (.num 3 .b0)] []], []⟩

theorem exUnit_WF : exUnit.WF := by
  have hw : Named (exId ["P", "Q"]) := by decide +kernel
  have := exContext_WF
  simp [AUnit.WF, exUnit, hw, this, FormalsWF, AspectsWF, AAspect.WF]
  exact this

theorem exPart_WF : exPart.WF := by
  have hs : ∀ i ∈ [exId ["Byte"], exId ["Get"], exId ["X"]], Simple i := by decide +kernel
  have hn : ∀ i, Simple i → Named i := fun i h => h.1
  simp only [List.mem_cons, List.not_mem_nil, or_false, forall_eq_or_imp, forall_eq] at hs
  simp [exPart, AUnitPart.WF, ADecl.hashable, ADecl.WF, ADecl.WFL, hs, hn, ASpec.WF, AParameter.WF, AspectsWF, FormalsWF, OptWF, AStmt.WFL, AStmt.WF, exX_WF,
    exNum_WF, show exX.isName = true from rfl]

example : (match ([exPart, exPart].foldl AUnit.add exUnit).ads with
    | .ok s => decide (s = ("with Lib;\nuse Lib;\n\npackage P.Q with\n  SPARK_Mode\nis\n\n   procedure Get (X : in out Byte);\n\nend P.Q;\n").toList)
    | .error _ => false) = true := by
  decide +kernel

example : (match ([exPart, exPart].foldl AUnit.add exUnit).adb with
    | .ok s => decide (s = ("package body P.Q\nis\n\n   procedure Get (X : in out Byte) is\n   begin\n      X := 3;\n   end Get;\n\nend P.Q;\n").toList)
    | .error _ => false) = true := by
  decide +kernel

/-- Both theorems apply. -/
example : ∃ x, ([exPart, exPart].foldl AUnit.add exUnit).adb = .ok x ∧ ∃ ts, CompilationUnit (elements x) ts := by
  obtain ⟨x, ts, _, _, h1, h2, _⟩ := (C66_body_partial exUnit_WF (ps := [exPart, exPart]) (by simp [exPart_WF])).2 (by simp [exUnit, exPart])
  exact ⟨x, h1, ts, h2⟩

example : ∃ x, ([exPart, exPart].foldl AUnit.add exUnit).ads = .ok x ∧ ∃ ts, CompilationUnit (elements x) ts := by
  obtain ⟨x, ts, _, _, _, _, h1, h2, _⟩ := C66_specification_partial exUnit_WF (ps := [exPart, exPart]) (by simp [exPart_WF])
  exact ⟨x, h1, ts, h2⟩

end Verif.Ada
