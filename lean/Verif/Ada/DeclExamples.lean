import Verif.Ada.DeclProps

/-! # C66: examples and counterexamples -/

namespace Verif.Ada
open Verif

/-- An identifier of one or two words. -/
def exId (ws : List String) : ID := ⟨ws.map String.toList⟩

/-- The declarations of a package: a use clause, a modular type, an enumeration with numbers, a record with a variant part, a procedure with a contract,
an expression function and the function again. -/
def exDecls : List ADecl :=
  [.useType [exId ["Lib", "T"]],
   .type ⟨exId ["Byte"], none, [.size (.num 8 .b0)], .modular (.bin .pow (.num 2 .b0) (.num 8 .b0))⟩,
   .type ⟨exId ["Color"], none, [], .enumeration [(exId ["Red"], some (1, .b0)), (exId ["Green"], some (2, .b0))] (some (.num 2 .b0))⟩,
   .type ⟨exId ["R"], some [⟨[exId ["D"]], exId ["Boolean"], some exX⟩], [], .record [.comp (exId ["A"]) (exId ["Byte"]) none]
      (some ⟨exId ["D"], [⟨[exX], [.comp (exId ["B"]) (exId ["Lib", "T"]) (some (.num 0 .b0))]⟩, ⟨[.var false ⟨["others".toList]⟩], [.null]⟩]⟩)⟩,
   .subprogram ⟨exId ["Get"], [⟨[exId ["X"], exId ["Y"]], .in, exId ["Byte"], none⟩, ⟨[exId ["Z"]], .out, exId ["Byte"], none⟩], none⟩
     [.pre (.rel .gt exX (.num 5 .b0)), .depends [(exId ["Z"], [exId ["X"], exId ["Y"]])]] none,
   .exprFunction ⟨exId ["F"], [⟨[exId ["X"]], .in, exId ["Byte"], none⟩], some (exId ["Boolean"])⟩ (.rel .gt exX (.num 5 .b0)) [],
   .exprFunction ⟨exId ["f"], [⟨[exId ["X"]], .in, exId ["Byte"], none⟩], some (exId ["Boolean"])⟩ (.rel .gt exX (.num 5 .b0)) []]

/-- A generic package with a private part. -/
def exPackage : ADecl :=
  .package (exId ["P", "Q"]) exDecls [.type ⟨exId ["Ptr"], none, [], .access (exId ["Byte"])⟩]
    (some [.type ⟨exId ["T"], none, [], .discrete⟩, .subprogram ⟨exId ["Op"], [], none⟩, .package (exId ["L"]) (exId ["Lists"]) []]) [.sparkMode]

/-- The body of a package with the body of a procedure. -/
def exBody : ADecl :=
  .packageBody (exId ["P", "Q"])
    [.body ⟨exId ["Get"], [⟨[exId ["X"]], .inOut, exId ["Byte"], none⟩], none⟩ [.object [exId ["V"]] (exId ["Byte"]) (some exX) true []]
      [.assign exX (.num 3 .b0), .null] [.ghost]] []

/-- Context items, one of them twice. -/
def exContext : List AContext := [.with [exId ["Lib"]], .use [exId ["Lib"]], .with [exId ["LIB"]]]

theorem exContext_WF : ∀ c ∈ exContext, c.WF := by
  have h : ∀ i ∈ [exId ["Lib"], exId ["LIB"]], Named i := by decide +kernel
  simp only [List.mem_cons, List.not_mem_nil, or_false, forall_eq_or_imp, forall_eq] at h
  simp [exContext, AContext.WF, h]

theorem exX_WF : exX.WF := by
  have : Dotted ⟨[['X']]⟩ := by decide +kernel
  simpa [exX, AExpr.WF] using this

theorem exNum_WF (n : Int) : (AExpr.num n .b0).WF := by simp [AExpr.WF]

theorem exGt_WF : (AExpr.rel .gt exX (.num 5 .b0)).WF := by
  have : Dotted ⟨[['X']]⟩ := by decide +kernel
  simp [exX, AExpr.WF, AExpr.hasPrec, this]

theorem exPackage_WF : exPackage.WF := by
  have hw : ∀ i ∈ [exId ["P", "Q"], exId ["Lib", "T"], exId ["Lists"]], Named i := by decide +kernel
  have hs : ∀ i ∈ [exId ["Byte"], exId ["Color"], exId ["Green"], exId ["Red"], exId ["R"], exId ["D"], exId ["Boolean"], exId ["A"], exId ["B"], exId ["Get"],
    exId ["X"], exId ["Y"], exId ["Z"], exId ["F"], exId ["f"], exId ["Ptr"], exId ["T"], exId ["Op"], exId ["L"]], Simple i := by decide +kernel
  have hn : ∀ i, Simple i → Named i := fun i h => h.1
  simp only [List.mem_cons, List.not_mem_nil, or_false, forall_eq_or_imp, forall_eq] at hw hs
  have ho : (AExpr.var false ⟨["others".toList]⟩).isOthers = true := by decide +kernel
  have hp : (AExpr.bin .pow (.num 2 .b0) (.num 8 .b0)).WF := by simp [AExpr.WF, AExpr.hasPrec]
  simp only [exPackage, exDecls, ADecl.WF, ADecl.WFH, ADecl.hashable]
  simp [hw, hs, hn, hp, FormalsWF, AFormal.WF, AspectsWF, AAspect.WF, ATypeDecl.WF, ATypeDef.WF, ATypeDecl.representation, ADiscriminant.WF,
    OptWF, AVariantPart.WF, AVariant.WF, ComponentsWF, AComponent.WF, ASpec.WF, AParameter.WF, exX_WF, exNum_WF, exGt_WF, ATypeDef.isSubtype]
  exact .inr ho

theorem exBody_WF : exBody.WF := by
  have hw : Named (exId ["P", "Q"]) := by decide +kernel
  have hs : ∀ i ∈ [exId ["Byte"], exId ["Get"], exId ["X"], exId ["V"]], Simple i := by decide +kernel
  have hn : ∀ i, Simple i → Named i := fun i h => h.1
  simp only [List.mem_cons, List.not_mem_nil, or_false, forall_eq_or_imp, forall_eq] at hs
  simp [exBody, ADecl.WF, ADecl.WFH, ADecl.WFL, ADecl.hashable, hw, hs, hn, AspectsWF, AAspect.WF, ASpec.WF, AParameter.WF, OptWF, exX_WF, exNum_WF,
    AStmt.WFL, AStmt.WF, show exX.isName = true from rfl]

/-- The text of declarations. -/
example : ((exDecls.drop 1).take 4).map ADecl.strF = [
    "type Byte is mod 2**8 with\n  Size =>\n    8;".toList,
    "type Color is (Red, Green) with\n  Size =>\n    2;\nfor Color use (Red => 1, Green => 2);".toList,
    ("type R (D : Boolean := X) is\n   record\n      A : Byte;\n      case D is\n         when X =>\n            B : Lib.T := 0;\n" ++
        "         when others =>\n            null;\n      end case;\n   end record;").toList,
    "procedure Get (X, Y : Byte; Z : out Byte) with\n  Pre =>\n    X > 5,\n  Depends =>\n    (Z => (X, Y));".toList] := by
  decide +kernel

/-- A generic package with a function that is declared twice. -/
def exSmallPackage : ADecl :=
  .package (exId ["P", "Q"]) (exDecls.drop 5) [.type ⟨exId ["Ptr"], none, [], .access (exId ["Byte"])⟩]
    (some [.type ⟨exId ["T"], none, [], .discrete⟩]) [.sparkMode]

/-- The text of a unit. -/
example : (match unitText exContext exSmallPackage with
    | .ok s => decide (s = ("with Lib;\nuse Lib;\n\ngeneric\n   type T is (<>);\n" ++
        "package P.Q with\n  SPARK_Mode\nis\n\n" ++
        "   function F (X : Byte) return Boolean is\n     (X > 5);\n\nprivate\n\n   type Ptr is access Byte;\n\nend P.Q;\n").toList)
    | .error _ => false) = true := by
  decide +kernel

example : (match unitText exContext exBody with
    | .ok s => decide (s = ("with Lib;\nuse Lib;\n\npackage body P.Q\nis\n\n   procedure Get (X : in out Byte) with\n     Ghost\n   is\n" ++
        "      V : constant Byte := X;\n   begin\n      X := 3;\n      null;\n   end Get;\n\nend P.Q;\n").toList)
    | .error _ => false) = true := by
  decide +kernel

/-- The hypotheses of the theorems hold for these units. -/
example : ∃ x ts, unitText exContext exPackage = .ok x ∧ CompilationUnit (elements x) ts ∧ (∀ us, CompilationUnit (elements x) us → us = ts) ∧
    List.Forall₂ Agrees ts ((distinct AContext.eqb exContext).map AContext.means ++ exPackage.means) :=
  C66_unit_partial exContext_WF exPackage_WF rfl

example : ∃ x cs, exBody.str = .ok x ∧ Declarations (elements x) cs ∧ (∀ ds, Declarations (elements x) ds → ds = cs) ∧ List.Forall₂ Agrees cs exBody.means :=
  C66_text_partial exBody_WF

/-- The function is declared once. -/
example : (distinct ADecl.eqb exDecls).length = 6 := by decide +kernel

example : ∃ ls, mkEnumeration [(exId ["Green"], some (2, .b0)), (exId ["Red"], some (1, .b0))] none = .enumeration ls none ∧
    ls.map (·.1) = [exId ["Red"], exId ["Green"]] :=
  ⟨_, rfl, by simp [List.mergeSort, List.MergeSort.Internal.splitInTwo]⟩

/-! ## Counterexamples -/

/-- An object cannot be declared in a package: its class has no hash. -/
theorem C66_object_in_package_counterexample (i n t : ID) :
    (ADecl.package i [.object [n] t none false []] [] none []).str = .error .typeError := by
  simp [ADecl.str, ADecl.raises, ADecl.raisesH, ADecl.hashable, formalRaises, aspectRaises, firstOf]

/-- The procedure with an `in` parameter. -/
def exIn : ADecl := .subprogram ⟨exId ["Get"], [⟨[exId ["X"]], .in, exId ["Byte"], none⟩], none⟩ [] none

/-- The procedure with an `out` parameter. -/
def exOut : ADecl := .subprogram ⟨exId ["Get"], [⟨[exId ["X"]], .out, exId ["Byte"], none⟩], none⟩ [] none

/-- Two procedures that differ in the mode of a parameter are considered equal: a package that has both declares only the first one. -/
theorem C66_mode_counterexample :
    exIn.strF ≠ exOut.strF ∧ exIn.eqb exOut = true ∧
      (ADecl.package (exId ["P"]) [exIn, exOut] [] none []).strF = (ADecl.package (exId ["P"]) [exIn] [] none []).strF := by
  refine ⟨by decide +kernel, by decide +kernel, by decide +kernel⟩

/-- An array type and an unconstrained array type are considered equal. -/
theorem C66_array_counterexample :
    (ATypeDecl.mk (exId ["A"]) none [] (.array (exId ["I"]) (exId ["C"]))).eqb ⟨exId ["A"], none, [], .unconstrained (exId ["I"]) (exId ["C"])⟩ = true := by
  decide +kernel

/-- A body without statements, a record without components and contract cases without cases have a text, although Ada has no such declarations: there
is nothing between `begin` and `end`, `record` and `end record`, and the parentheses. -/
theorem C66_empty_counterexample :
    let s : ASpec := ⟨exId ["Get"], [], none⟩
    (ADecl.body s [] [] []).strF = "procedure Get is\nbegin\n\nend Get;".toList ∧
    (ADecl.type ⟨exId ["R"], none, [], .record [] none⟩).strF = "type R is\n   record\n   end record;".toList ∧
    (ADecl.subprogram s [.contractCases []] none).strF = "procedure Get with\n  Contract_Cases =>\n    ();".toList := by
  refine ⟨by decide +kernel, by decide +kernel, by decide +kernel⟩

end Verif.Ada
