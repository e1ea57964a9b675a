import Batteries.Data.List.Basic
import Verif.SpecParser.Sessions
import Verif.SpecParser.PackageSpec

/-! # Which session a specification declares

An independent specification of property C56: nothing here refers to the functions of the parser. The values of expressions are those of `Means`
(`TreeSpec.lean`). -/

namespace Verif.SpecParser
open Verif

variable {M : Type}

/-! ## Names and expressions -/

/-- A name as it is written. -/
def IdNode.texts : IdNode → List PyStr
  | .unqualified t => [t]
  | .qualified none n => [n]
  | .qualified (some p) n => [p, n]

/-- An identifier with the spelling of a name. -/
def Spelled (n : IdNode) (i : ID) : Prop := i.parts = n.texts

/-- The name is not a reserved word. -/
def FreeName (n : PyStr) : Prop := n.lower ∉ reservedWords

/-- An identifier that is a simple name and not a reserved word. -/
def Called (n : PyStr) (i : ID) : Prop := i.parts = [n] ∧ FreeName n

/-- The type that a name stands for, in lower case: `Boolean` and `Opaque` are predefined. -/
def typeName (n : IdNode) : List PyStr :=
  match n.key with
  | [x] =>
    if x = ['b', 'o', 'o', 'l', 'e', 'a', 'n'] then [['_', '_', 'b', 'u', 'i', 'l', 't', 'i', 'n', 's', '_', '_'], x]
    else if x = ['o', 'p', 'a', 'q', 'u', 'e'] then [['_', '_', 'i', 'n', 't', 'e', 'r', 'n', 'a', 'l', '_', '_'], x]
    else [x]
  | k => k

/-- The expression made of an operator and two operands. -/
def Op.expr : Op → Expr → Expr → Expr
  | .pow, a, b => .bin .pow a b
  | .add, a, b => .add [a, b]
  | .sub, a, b => .bin .sub a b
  | .mul, a, b => .mul [a, b]
  | .div, a, b => .bin .div a b
  | .mod, a, b => .bin .mod a b
  | .lt, a, b => .rel .lt a b
  | .gt, a, b => .rel .gt a b
  | .le, a, b => .rel .le a b
  | .ge, a, b => .rel .ge a b
  | .and, a, b => .bool .and [a, b]
  | .or, a, b => .bool .or [a, b]
  | .isIn, a, b => .rel .isIn a b
  | .notIn, a, b => .rel .notIn a b
  | .eq, a, b => .rel .eq a b
  | .neq, a, b => .rel .ne a b

mutual

/-- `Written t e`: the expression has the structure of the text, with names as they are written. -/
inductive Written : Tree → Expr → Prop
  | numeral {s n b} : Numeral s n → Written (.numeral s) (.num n b)
  | paren {t e} : Written t e → Written (.paren t) e
  | var {id i} : Spelled id i → Written (.var id) (.var false false i)
  | attribute {k t e} : Written t e → Written (.attribute k t) (.attr false k e)
  | aggregate {ts es} : WrittenL ts es → Written (.aggregate ts) (.agg es)
  | string (s : PyStr) : Written (.string ('"' :: s ++ ['"'])) (.agg (s.map fun c => .num c.toNat .b0))
  | call {id i ts es} : Spelled id i → WrittenL ts es → Written (.call id ts) (.call false i es)
  | all {p i t u a b} : Spelled p i → Written t a → Written u b → Written (.quantified false p t u) (.quant .allIn i a b)
  | exist {p i t u a b} : Spelled p i → Written t a → Written u b → Written (.quantified true p t u) (.quant .someIn i a b)
  | negation {t v b} : Written t (.num v b) → Written (.negation t) (.num (-v) b)
  | concatenation {l r es fs} : Written l (.agg es) → Written r (.agg fs) → Written (.concatenation l r) (.agg (es ++ fs))
  | select {t e s i} : Written t e → Spelled s i → Written (.select t s) (.sel false e i)
  | binop {op l r a b} : Written l a → Written r b → Written (.binop op l r) (op.expr a b)

/-- `Written` for lists. -/
inductive WrittenL : List Tree → List Expr → Prop
  | nil : WrittenL [] []
  | cons {t e ts es} : Written t e → WrittenL ts es → WrittenL (t :: ts) (e :: es)

end

/-- An expression has the structure and the values of the text. -/
def ExprIs (t : Tree) (e : Expr) : Prop := Written t e ∧ Denotes t e

/-- An optional condition: without text it is always true. -/
def GuardIs : Option Tree → Expr → Prop
  | none, e => e = .tru
  | some t, e => ExprIs t e

/-- `ws` are written one after the other, each with a name; `vs` are as written if the names differ, otherwise the last one of each name counts. -/
def Collected {α β : Type} (key : α → List PyStr) (name : β → List PyStr) (R : α → β → Prop) (ws : List α) (vs : List β) : Prop :=
  vs.Pairwise (fun a b => name a ≠ name b) ∧
  (∀ v ∈ vs, ∃ pre w post, ws = pre ++ w :: post ∧ key w = name v ∧ R w v ∧ ∀ u ∈ post, key u ≠ key w) ∧
  (∀ w ∈ ws, ∃ v ∈ vs, name v = key w) ∧
  (ws.Pairwise (fun a b => key a ≠ key b) → List.Forall₂ R ws vs)

/-- A name is compared without regard to case. -/
def nameKey (n : PyStr) : List PyStr := [n.lower]

/-- The expressions of sessions. -/
def SExprIs : STree → Session.SExpr → Prop
  | .plain t, .plain e => ExprIs t e
  | .paren t, e => SExprIs t e
  | .comprehension n a s c, .comprehension i a' s' c' => Called n i ∧ ExprIs a a' ∧ ExprIs s s' ∧ GuardIs c c'
  | .conversion n a, .conversion i a' => Spelled n i ∧ ExprIs a a'
  | .aggregate n none, .aggregate i vs => Spelled n i ∧ vs = []
  | .aggregate n (some ws), .aggregate i vs =>
    Spelled n i ∧ Collected (fun w => nameKey w.1) (fun v => v.1.key) (fun w v => ExprIs w.2 v.2) ws vs ∧
      (ws.Pairwise (fun a b => nameKey a.1 ≠ nameKey b.1) → List.Forall₂ (fun w v => Called w.1 v.1) ws vs)
  | _, _ => False

/-! ## Statements and declarations -/

/-- A transition with its target and condition. -/
def TransitionIs (t : TransitionTree) (x : ID × Expr) : Prop := Called t.target x.1 ∧ GuardIs t.condition x.2

/-- The statements. -/
inductive StatementIs : StatementTree → Session.Action → Prop
  | reset {n i} : Called n i → StatementIs (.reset n) (.reset i)
  | assignment {n i t e} : Called n i → SExprIs t e → StatementIs (.assignment n t) (.assign i e)
  | append {n i t e} : Called n i → SExprIs t e → StatementIs (.attribute n ['A', 'p', 'p', 'e', 'n', 'd'] t) (.append i e)
  | extend {n i t e} : Called n i → SExprIs t e → StatementIs (.attribute n ['E', 'x', 't', 'e', 'n', 'd'] t) (.extend i e)
  | read {n i t e} : Called n i → SExprIs t e → StatementIs (.attribute n ['R', 'e', 'a', 'd'] t) (.read i e)
  | write {n i t e} : Called n i → SExprIs t e → StatementIs (.attribute n ['W', 'r', 'i', 't', 'e'] t) (.write i e)

/-- Variables and renamings. -/
inductive LocalIs : LocalTree → Session.Decl M → Prop
  | uninitialized {n i ty t} : Called n i → t.key = typeName ty → LocalIs (.variable n ty none) (.variable i t none)
  | initialized {n i ty t x e} : Called n i → t.key = typeName ty → SExprIs x e → LocalIs (.variable n ty (some x)) (.variable i t (some e))
  | renaming {n i ty t x ng p s} : Called n i → t.key = typeName ty → SExprIs x (.plain (.sel ng p s)) →
      LocalIs (.renaming n ty x) (.renaming i t ng p s)

/-- The name of a declaration. -/
def LocalTree.name : LocalTree → PyStr
  | .variable n _ _ => n
  | .renaming n _ _ => n

/-- Parameters of sessions. -/
inductive FormalIs : FormalTree → Session.Decl M → Prop
  | channel {n i ps r w} : Called n i → ps ≠ [] → (r = true ↔ true ∈ ps) → (w = true ↔ false ∈ ps) →
      FormalIs (.channel n ps) (.channel i r w)
  | function {n i ps as r t} : Called n i → List.Forall₂ (fun p a => FreeName p.1 ∧ Spelled p.2 a) ps as → Spelled r t →
      FormalIs (.function n ps r) (.function i as t)
  | privateType {n i} : Called n i → FormalIs (.privateType n) (.type i (.other (.priv (String.ofList n))))

/-- The name of a parameter. -/
def FormalTree.name : FormalTree → PyStr
  | .channel n _ => n
  | .function n _ _ => n
  | .privateType n => n

/-- The name of a declaration of a session without regard to case. -/
def declName (d : Session.Decl M) : List PyStr := d.id.key

/-! ## States and sessions -/

/-- A state. -/
def StateIs (t : StateTree) (s : Session.FullState M) : Prop :=
  Called t.name s.identifier ∧
  match t.body with
  | none => s.transitions = [] ∧ s.exception = none ∧ s.actions = [] ∧ s.declarations = []
  | some b =>
    b.endName = t.name ∧ List.Forall₂ TransitionIs (b.conditional ++ [b.final]) s.transitions ∧ b.final.condition = none ∧
    (match b.exception, s.exception with
      | none, none => True
      | some x, some i => Called x.target i ∧ x.condition = none
      | _, _ => False) ∧
    List.Forall₂ StatementIs b.actions s.actions ∧ Collected (fun d => nameKey d.name) declName LocalIs b.declarations s.declarations

/-- A session. -/
structure SessionIs (package : ID) (types : Session.Dict (Session.MType M)) (t : SessionTree) (s : Session.FullSession M) : Prop where
  name : s.identifier.parts = package.parts ++ [t.name]
  endName : t.endName = t.name
  initial : Called t.initial s.initial
  final : Called t.final s.final
  states : List.Forall₂ StateIs t.states s.states
  declarations : Collected (fun d => nameKey d.name) declName LocalIs t.declarations s.declarations
  parameters : Collected (fun d => nameKey d.name) declName FormalIs t.parameters s.parameters
  types : s.types = types

/-! ## Texts -/

/-- What the lexical analysis ensures. -/
def STree.Lexical : STree → Prop
  | .plain t => SpecParser.Lexical t
  | .paren e => e.Lexical
  | .comprehension n a s c => IsName n ∧ SpecParser.Lexical a ∧ SpecParser.Lexical s ∧ ∀ t, c = some t → SpecParser.Lexical t
  | .conversion n a => n.Lexical ∧ SpecParser.Lexical a
  | .aggregate n vs => n.Lexical ∧ ∀ l, vs = some l → ∀ v ∈ l, IsName v.1 ∧ SpecParser.Lexical v.2

/-- `STree.Lexical` for transitions. -/
def TransitionTree.Lexical (t : TransitionTree) : Prop := IsName t.target ∧ ∀ c, t.condition = some c → SpecParser.Lexical c

/-- `STree.Lexical` for statements. -/
def StatementTree.Lexical : StatementTree → Prop
  | .reset n => IsName n
  | .assignment n e => IsName n ∧ e.Lexical
  | .attribute n _ e => IsName n ∧ e.Lexical

/-- `STree.Lexical` for declarations. -/
def LocalTree.Lexical : LocalTree → Prop
  | .variable n t e => IsName n ∧ t.Lexical ∧ ∀ x, e = some x → x.Lexical
  | .renaming n t e => IsName n ∧ t.Lexical ∧ e.Lexical

/-- `STree.Lexical` for parameters. -/
def FormalTree.Lexical : FormalTree → Prop
  | .channel n _ => IsName n
  | .function n ps r => IsName n ∧ (∀ p ∈ ps, IsName p.1 ∧ p.2.Lexical) ∧ r.Lexical
  | .privateType n => IsName n

/-- `STree.Lexical` for states. -/
def StateTree.Lexical (s : StateTree) : Prop :=
  IsName s.name ∧ ∀ b, s.body = some b → (∀ t ∈ b.conditional, t.Lexical) ∧ b.final.Lexical ∧ (∀ t, b.exception = some t → t.Lexical) ∧
    (∀ a ∈ b.actions, a.Lexical) ∧ ∀ d ∈ b.declarations, d.Lexical

/-- `STree.Lexical` for sessions. -/
structure SessionTree.Lexical (s : SessionTree) : Prop where
  name : IsName s.name
  initial : IsName s.initial
  final : IsName s.final
  states : ∀ t ∈ s.states, t.Lexical
  declarations : ∀ d ∈ s.declarations, d.Lexical
  parameters : ∀ p ∈ s.parameters, p.Lexical

/-! ## What the parser supports -/

/-- An expression that the parser supports (see `Supported`) and that has a value. -/
def Readable (m : Mode) (t : Tree) : Prop := Supported m t ∧ ∃ D ρ v, Means D ρ t v ∧ Fits m v

/-- `Readable` for expressions of sessions. -/
def STree.Readable : STree → Prop
  | .plain t => SpecParser.Readable .any t
  | .paren e => e.Readable
  | .comprehension n a s c => FreeName n ∧ SpecParser.Readable .any a ∧ SpecParser.Readable .any s ∧ ∀ t, c = some t → SpecParser.Readable .bool t
  | .conversion n a => n.Free ∧ SpecParser.Readable .any a
  | .aggregate n vs => n.Free ∧ ∀ l, vs = some l → ∀ v ∈ l, FreeName v.1 ∧ SpecParser.Readable .any v.2

/-- `Readable` for transitions. -/
def TransitionTree.Readable (t : TransitionTree) : Prop := FreeName t.target ∧ ∀ c, t.condition = some c → SpecParser.Readable .bool c

/-- `Readable` for statements. -/
def StatementTree.Readable : StatementTree → Prop
  | .reset n => FreeName n
  | .assignment n e => FreeName n ∧ e.Readable
  | .attribute n a e => FreeName n ∧ e.Readable ∧
    a ∈ [['A', 'p', 'p', 'e', 'n', 'd'], ['E', 'x', 't', 'e', 'n', 'd'], ['R', 'e', 'a', 'd'], ['W', 'r', 'i', 't', 'e']]

/-- A selected component, possibly in parentheses. -/
def Tree.isSelected : Tree → Prop
  | .select _ _ => True
  | .paren t => t.isSelected
  | _ => False

/-- `Tree.isSelected` for expressions of sessions. -/
def STree.isSelected : STree → Prop
  | .plain t => t.isSelected
  | .paren e => e.isSelected
  | _ => False

/-- `Readable` for declarations: only a selected component can be renamed. -/
def LocalTree.Readable : LocalTree → Prop
  | .variable n t e => FreeName n ∧ t.Free ∧ ∀ x, e = some x → x.Readable
  | .renaming n t e => FreeName n ∧ t.Free ∧ e.Readable ∧ e.isSelected

/-- `Readable` for parameters: channels are readable or writable. -/
def FormalTree.Readable : FormalTree → Prop
  | .channel n ps => FreeName n ∧ ps ≠ []
  | .function n ps r => FreeName n ∧ (∀ p ∈ ps, FreeName p.1 ∧ p.2.Free) ∧ r.Free
  | .privateType n => FreeName n

/-- `Readable` for states: the last transition and the exception transition have no condition. -/
def StateTree.Readable (s : StateTree) : Prop :=
  FreeName s.name ∧ ∀ b, s.body = some b → b.endName = s.name ∧ (∀ t ∈ b.conditional, t.Readable) ∧ b.final.Readable ∧
    b.final.condition = none ∧ (∀ t, b.exception = some t → t.Readable ∧ t.condition = none) ∧
    (∀ a ∈ b.actions, a.Readable) ∧ ∀ d ∈ b.declarations, d.Readable

/-- `Readable` for sessions. -/
structure SessionTree.Readable (s : SessionTree) : Prop where
  name : FreeName s.name
  endName : s.endName = s.name
  initial : FreeName s.initial
  final : FreeName s.final
  states : ∀ t ∈ s.states, t.Readable
  declarations : ∀ d ∈ s.declarations, d.Readable
  parameters : ∀ p ∈ s.parameters, p.Readable

end Verif.SpecParser
