import Verif.Ada.Decl
import Verif.Ada.DeclGrammar
import Verif.Ada.StmtValue
import Batteries.Data.List.Basic

/-! # What declaration objects stand for

A declaration object stands for a tree like that of a text, whose expressions and statements are those of the object. -/

namespace Verif.Ada
open Verif

/-- The trees of declaration objects. -/
abbrev Meaning := DTree AExpr (List AStmt)

/-- A tree of a text is a tree of an object: it has the same nodes and names, its expressions have the same values, its statements the same effects
(wherever these are defined). -/
inductive Agrees : DTree Tree STree → Meaning → Prop
  | name {ps} : Agrees (.name ps) (.name ps)
  | others {e : AExpr} : e.isOthers = true → Agrees (.expr .others) (.expr e)
  | expr {t : Tree} {e : AExpr} : (∀ W : World, W.Std → t.value W = e.value W) → Agrees (.expr t) (.expr e)
  | stmts {t : STree} {ss : List AStmt} :
      (∀ M : Machine, (∀ s, (M.world s).Std) → ∀ s o, AStmt.execs M s ss = some o → t.exec M s = some o) → Agrees (.stmts t) (.stmts ss)
  | node {t : Tag} {cs : DTrees} {ms : List Meaning} : List.Forall₂ Agrees cs ms → Agrees (.node t cs) (.node t ms)

/-- A name of one or more words of Ada. -/
def Named (i : ID) : Prop := i.parts ≠ [] ∧ ∀ p ∈ i.parts, Word p

instance (i : ID) : Decidable (Named i) := by unfold Named; infer_instance

/-- An identifier: a name of one word. -/
def Simple (i : ID) : Prop := Named i ∧ i.parts.length = 1

instance (i : ID) : Decidable (Simple i) := by unfold Simple; infer_instance

/-- The tree of a name. -/
def nameOf (i : ID) : Meaning := .name (i.parts.map PyStr.lower)

/-- The tree of a list of identifiers. -/
def identifiersOf (is : List ID) : Meaning := .node .identifiers (is.map nameOf)

/-- The tree of a default or initial value. -/
def initialOf : Option AExpr → List Meaning
  | none => []
  | some e => [.node .default [.expr e]]

/-- An optional expression is right. -/
def OptWF : Option AExpr → Prop
  | none => True
  | some e => e.WF

/-! ## Aspects -/

namespace AAspect

/-- What an aspect stands for. -/
def means : AAspect → Meaning
  | pre e => .node .pre [.expr e]
  | post e => .node .post [.expr e]
  | contractCases cs => .node .contractCases (cs.map fun c => .node .contractCase [.expr c.1, .expr c.2])
  | depends ds => .node .depends (ds.map fun d =>
      .node .dependency [nameOf d.1, if d.2.isEmpty then .node .noInputs [] else .node .inputs (d.2.map nameOf)])
  | dynamicPredicate e => .node .dynamicPredicate [.expr e]
  | size e => .node .size [.expr e]
  | defaultInitialCondition e => .node .defaultInitialCondition [.expr e]
  | sparkMode => .node .sparkMode []
  | ghost => .node .ghost []
  | «import» => .node .import []
  | annotate args => .node .annotate (args.map fun a => .name [PyStr.lower a])

/-- The aspects whose text is claimed to be right: there are contract cases, dependencies and arguments, and their parts are right. -/
def WF : AAspect → Prop
  | pre e | post e | dynamicPredicate e | size e | defaultInitialCondition e => e.WF
  | contractCases cs => cs ≠ [] ∧ ∀ c ∈ cs, (c.1.WF ∨ c.1.isOthers = true) ∧ c.2.WF
  | depends ds => ds ≠ [] ∧ ∀ d ∈ ds, Named d.1 ∧ ∀ i ∈ d.2, Named i
  | annotate args => args ≠ [] ∧ ∀ a ∈ args, Word a
  | _ => True

end AAspect

/-- What aspects stand for. -/
def aspectsOf (as : List AAspect) : List Meaning := if as.isEmpty then [] else [.node .aspects (as.map AAspect.means)]

/-- The aspects are right. -/
def AspectsWF (as : List AAspect) : Prop := ∀ a ∈ as, a.WF

/-! ## Types -/

/-- What a discriminant stands for. -/
def ADiscriminant.means (d : ADiscriminant) : Meaning := .node .discriminant ([identifiersOf d.ids, nameOf d.type] ++ initialOf d.default)

/-- Discriminants have identifiers and a type. -/
def ADiscriminant.WF (d : ADiscriminant) : Prop := d.ids ≠ [] ∧ (∀ i ∈ d.ids, Simple i) ∧ Named d.type ∧ OptWF d.default

/-- What a component stands for. -/
def AComponent.means : AComponent → Meaning
  | comp i t d => .node .component ([identifiersOf [i], nameOf t] ++ initialOf d)
  | null => .node .nullComponent []

/-- A component is right. -/
def AComponent.WF : AComponent → Prop
  | comp i t d => Simple i ∧ Named t ∧ OptWF d
  | null => True

/-- `null;` is the only component, or there are components, none of which is `null;`. -/
def ComponentsWF (cs : List AComponent) : Prop := cs = [.null] ∨ cs ≠ [] ∧ AComponent.null ∉ cs ∧ ∀ c ∈ cs, c.WF

/-- What a variant stands for. -/
def AVariant.means (v : AVariant) : Meaning := .node .variant (v.choices.map .expr ++ v.components.map AComponent.means)

/-- A variant has choices and components. -/
def AVariant.WF (v : AVariant) : Prop := v.choices ≠ [] ∧ (∀ e ∈ v.choices, e.WF ∨ e.isOthers = true) ∧ ComponentsWF v.components

/-- What a variant part stands for. -/
def AVariantPart.means (p : AVariantPart) : Meaning := .node .variants (nameOf p.discriminant :: p.variants.map AVariant.means)

/-- A variant part has variants. -/
def AVariantPart.WF (p : AVariantPart) : Prop := Named p.discriminant ∧ p.variants ≠ [] ∧ ∀ v ∈ p.variants, v.WF

/-- What the definition of a type stands for. -/
def ATypeDef.means : ATypeDef → List Meaning
  | modular m => [.node .modular [.expr m]]
  | range a b => [.node .range [.expr a, .expr b]]
  | enumeration ls _ => [.node .enumeration (ls.map fun l => nameOf l.1)]
  | subtype b => [nameOf b]
  | rangeSubtype b x y => [nameOf b, .node .range [.expr x, .expr y]]
  | derived t => [.node .derived [nameOf t]]
  | «private» => [.node .privateType []]
  | discrete => [.node .discrete []]
  | array i c => [.node .array [nameOf i, nameOf c]]
  | unconstrained i c => [.node .array [nameOf i, .node .unconstrained [], nameOf c]]
  | access o => [.node .access [nameOf o]]
  | record cs v => [.node .record (cs.map AComponent.means ++ (match v with | none => [] | some p => [p.means]))]

/-- The definition of a type is right: there are literals and components, bounds need no parentheses. -/
def ATypeDef.WF : ATypeDef → Prop
  | modular m => m.WF
  | range a b => a.WF ∧ b.WF ∧ 3 ≤ a.prec ∧ 3 ≤ b.prec
  | enumeration ls s => ls ≠ [] ∧ (∀ l ∈ ls, Simple l.1) ∧ OptWF s
  | subtype b => Named b
  | rangeSubtype b x y => Named b ∧ x.WF ∧ y.WF ∧ 3 ≤ x.prec ∧ 3 ≤ y.prec
  | derived t => Named t
  | «private» | discrete => True
  | array i c | unconstrained i c => Named i ∧ Named c
  | access o => Named o
  | record cs v =>
    match v with
    | none => ComponentsWF cs
    | some p => (∀ c ∈ cs, c.WF) ∧ AComponent.null ∉ cs ∧ p.WF

/-- What discriminants stand for. -/
def discriminantsOf : Option (List ADiscriminant) → List Meaning
  | none | some [] => []
  | some (d :: ds) => [.node .discriminants ((d :: ds).map ADiscriminant.means)]

/-- What the declaration of a type stands for, without the representation of its literals. -/
def ATypeDecl.means (t : ATypeDecl) : Meaning :=
  if t.definition.isSubtype then .node .subtype (nameOf t.id :: t.definition.means)
  else .node .type (nameOf t.id :: discriminantsOf t.discriminants ++ t.definition.means ++
    aspectsOf ((match t.definition with | .enumeration _ (some e) => [.size e] | _ => []) ++ t.aspects))

/-- What the numbers of literals stand for. -/
def ATypeDecl.representation (t : ATypeDecl) : List Meaning :=
  match t.definition with
  | .enumeration ls _ =>
    match ls.filterMap fun l => l.2.map fun v => (.node .literal [nameOf l.1, .expr (.num v.1 v.2)] : Meaning) with
    | [] => []
    | ms => [.node .representation (nameOf t.id :: ms)]
  | _ => []

/-- The declaration of a type is right; subtypes have neither discriminants nor aspects. -/
def ATypeDecl.WF (t : ATypeDecl) : Prop :=
  Simple t.id ∧ (∀ d ∈ t.discriminants.getD [], d.WF) ∧ t.definition.WF ∧ AspectsWF t.aspects ∧
    (t.definition.isSubtype = true → t.discriminants.getD [] = [] ∧ t.aspects = [])

/-! ## Subprograms -/

/-- The node of a mode. -/
def PMode.tag : PMode → Tag
  | «in» => .inMode
  | out => .outMode
  | inOut => .inOutMode
  | access => .accessMode
  | accessConstant => .accessConstantMode

/-- What a parameter stands for. -/
def AParameter.means (p : AParameter) : Meaning := .node .parameter ([identifiersOf p.ids, .node p.mode.tag [], nameOf p.type] ++ initialOf p.default)

/-- A parameter has identifiers and a type. -/
def AParameter.WF (p : AParameter) : Prop := p.ids ≠ [] ∧ (∀ i ∈ p.ids, Simple i) ∧ Named p.type ∧ OptWF p.default

/-- What a specification stands for. -/
def ASpec.means (s : ASpec) : Meaning :=
  let ps := if s.parameters.isEmpty then [] else [.node .parameters (s.parameters.map AParameter.means)]
  match s.result with
  | none => .node .procedure (nameOf s.id :: ps)
  | some r => .node .function (nameOf s.id :: ps ++ [.node .returnType [nameOf r]])

/-- A specification is right. -/
def ASpec.WF (s : ASpec) : Prop := Named s.id ∧ (∀ p ∈ s.parameters, p.WF) ∧ ∀ r ∈ s.result, Named r

/-- What a formal parameter stands for. -/
def AFormal.means : AFormal → Meaning
  | subprogram s => .node .formalSubprogram [s.means]
  | package i g as => .node .formalPackage [nameOf i, nameOf g, if as.isEmpty then .node .box [] else .node .names (as.map nameOf)]
  | type t => t.means

/-- A formal parameter is right; the literals of a formal type have no numbers. -/
def AFormal.WF : AFormal → Prop
  | subprogram s => s.WF
  | package i g as => Named i ∧ Named g ∧ ∀ a ∈ as, Named a
  | type t => t.WF ∧ t.representation = []

/-- What a generic part stands for, in front of a declaration. Repeated parameters count once. -/
def genericOf (fs : Option (List AFormal)) (m : Meaning) : Meaning :=
  match fs with
  | none => m
  | some fs => .node .generic [.node .formals ((distinct AFormal.eqb fs).map AFormal.means), m]

/-- A generic part is right. -/
def FormalsWF (fs : Option (List AFormal)) : Prop := ∀ f ∈ fs.getD [], f.WF

/-! ## Declarations -/

/-- What the associations of an instantiation stand for. -/
def actualsOf (as : List ID) : List Meaning := if as.isEmpty then [] else [.node .names (as.map nameOf)]

namespace ADecl

/-- What the declarations of a package stand for, given with what each stands for. Repeated declarations count once. -/
def itemsOf (l : List (ADecl × List Meaning)) : List Meaning := (distinctWith l).flatMap (·.2)

mutual

/-- What a declaration stands for. -/
def means : ADecl → List Meaning
  | use is => [.node .use (is.map nameOf)]
  | useType is => [.node .useType (is.map nameOf)]
  | pragma i ps => [.node .pragma (nameOf i :: ps.map .expr)]
  | object is t e c as => [.node .object (identifiersOf is :: (if c then [.node .constant []] else []) ++ nameOf t :: initialOf e ++ aspectsOf as)]
  | type t => t.means :: t.representation
  | subprogram s as fs => [genericOf fs (.node .subprogram (s.means :: aspectsOf as ++ [.node .declared []]))]
  | body s ds ss as => [.node .subprogram (s.means :: aspectsOf as ++ [.node .body (meansL ds ++ [.stmts ss, nameOf s.id])])]
  | exprFunction s e as => [.node .subprogram [s.means, .node .expressionFunction (.expr e :: aspectsOf as)]]
  | «instance» i s as => [.node .subprogram [.node (if s.result.isNone then .procedure else .function) [nameOf i], .node .instance (nameOf s.id :: actualsOf as)]]
  | «renaming» s i => [.node .subprogram [s.means, .node .renamed [nameOf i]]]
  | package i ds ps fs as =>
    [genericOf fs (.node .package (nameOf i :: aspectsOf as ++ itemsOf (pairs ds) ++
      (if ps.isEmpty then [] else [.node .privatePart (itemsOf (pairs ps))]) ++ [nameOf i]))]
  | packageBody i ds as => [.node .packageBody (nameOf i :: aspectsOf as ++ itemsOf (pairs ds) ++ [nameOf i])]
  | newPackage i g as => [.node .package [nameOf i, .node .instance (nameOf g :: actualsOf as)]]

/-- What declarations stand for. -/
def meansL : List ADecl → List Meaning
  | [] => []
  | d :: ds => means d ++ meansL ds

/-- Declarations with what they stand for. -/
def pairs : List ADecl → List (ADecl × List Meaning)
  | [] => []
  | d :: ds => (d, means d) :: pairs ds

end

mutual

/-- The declarations whose text is claimed to be right: names are words of Ada, there is at least one name or statement where Ada requires one, the
expressions and statements are right (`AExpr.WF`, `AStmt.WF`), the declarations of a package can be hashed. -/
def WF : ADecl → Prop
  | use is | useType is => is ≠ [] ∧ ∀ i ∈ is, Named i
  | pragma i ps => Simple i ∧ AExpr.WFL ps
  | object is t e _ as => is ≠ [] ∧ (∀ i ∈ is, Simple i) ∧ Named t ∧ OptWF e ∧ AspectsWF as
  | type t => t.WF
  | subprogram s as fs => s.WF ∧ AspectsWF as ∧ FormalsWF fs
  | body s ds ss as => s.WF ∧ AspectsWF as ∧ WFL ds ∧ ss ≠ [] ∧ AStmt.WFL ss
  | exprFunction s e as => s.WF ∧ e.WF ∧ AspectsWF as
  | «instance» i s as => Named i ∧ Named s.id ∧ ∀ a ∈ as, Named a
  | «renaming» s i => s.WF ∧ Named i
  | package i ds ps fs as => Named i ∧ FormalsWF fs ∧ AspectsWF as ∧ WFH ds ∧ WFH ps
  | packageBody i ds as => Named i ∧ AspectsWF as ∧ ds ≠ [] ∧ WFH ds
  | newPackage i g as => Named i ∧ Named g ∧ ∀ a ∈ as, Named a

/-- `WF` for the declarations of a subprogram. -/
def WFL : List ADecl → Prop
  | [] => True
  | d :: ds => WF d ∧ WFL ds

/-- `WF` for the declarations of a package. -/
def WFH : List ADecl → Prop
  | [] => True
  | d :: ds => d.hashable = true ∧ WF d ∧ WFH ds

end

end ADecl

/-! ## Units -/

/-- What a context item stands for. -/
def AContext.means : AContext → Meaning
  | «with» is => .node .withClause (is.map nameOf)
  | use is => .node .use (is.map nameOf)
  | useType is => .node .useType (is.map nameOf)
  | pragma i ps => .node .pragma (nameOf i :: ps.map .expr)

/-- A context item is right. -/
def AContext.WF : AContext → Prop
  | «with» is | use is | useType is => is ≠ [] ∧ ∀ i ∈ is, Named i
  | pragma i ps => Simple i ∧ AExpr.WFL ps

/-- The declarations of units. -/
def ADecl.isPackage : ADecl → Bool
  | package .. | packageBody .. | newPackage .. => true
  | _ => false

end Verif.Ada
