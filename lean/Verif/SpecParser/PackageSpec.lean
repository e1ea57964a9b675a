import Batteries.Data.List.Basic
import Verif.SpecParser.Package
import Verif.SpecParser.TreeSpec
import Verif.SpecParser.StructureProps

/-! # What the declarations of a specification declare

An independent specification: which type a declaration stands for, given the types declared before it. The meaning of expressions is that of
`Means` (`TreeSpec.lean`), the links of a message are those of `Structure.transitions` (`StructureProps.lean`). -/

namespace Verif.SpecParser
open Verif Verif.Types

variable {M S : Type}

/-! ## Numbers, conditions and names -/

/-- The value of a constant expression. -/
def HasValue (t : Tree) (v : Int) : Prop := ∀ D ρ, Means D ρ t (.int v)

/-- The expression `e` has the values of the tree `t`. -/
def Denotes (t : Tree) (e : Expr) : Prop := ∀ D ρ v, eval D ρ e = some v ↔ Means D ρ t v

/-- Numbers combined by `+`, `-`, `*`, `**` and `mod`. -/
def Constant : Tree → Prop
  | .numeral _ => True
  | .paren e => Constant e
  | .negation e => Constant e
  | .binop op l r => (op = .add ∨ op = .sub ∨ op = .mul ∨ op = .pow ∨ op = .mod) ∧ Constant l ∧ Constant r
  | _ => False

/-- The type that a name stands for in a package, in lower case: `Boolean` and `Opaque` are predefined, other simple names belong to the
package. -/
def refersTo (package : PyStr) (n : IdNode) : List PyStr :=
  match n.key with
  | [x] =>
    if x = ['b', 'o', 'o', 'l', 'e', 'a', 'n'] then [['_', '_', 'b', 'u', 'i', 'l', 't', 'i', 'n', 's', '_', '_'], x]
    else if x = ['o', 'p', 'a', 'q', 'u', 'e'] then [['_', '_', 'i', 'n', 't', 'e', 'r', 'n', 'a', 'l', '_', '_'], x]
    else [package.lower, x]
  | k => k

/-- The type `t` is the one that a name stands for. -/
def IsType (package : PyStr) (n : IdNode) (t : MTy M) : Prop := t.identifier.key = refersTo package n

/-! ## Scalars -/

/-- First and last value and the number of bits of an integer type. -/
def Interval (t : IntType) (first last : Int) (size : Int) : Prop :=
  (∃ n, t.first = .ok n ∧ n.v = first) ∧ (∃ n, t.last = .ok n ∧ n.v = last) ∧ ∃ n, t.size = .ok n ∧ n.v = size

/-- The last aspect with the name `n`. -/
def LastAspect (n : PyStr) (as : List AspectNode) (a : AspectNode) : Prop :=
  ∃ bs cs, as = bs ++ a :: cs ∧ a.name = n ∧ ∀ c ∈ cs, c.name ≠ n

/-- The size of an enumeration. -/
def SizeAspect (as : List AspectNode) (size : Int) : Prop :=
  ∃ a t, LastAspect ['S', 'i', 'z', 'e'] as a ∧ a.value = some t ∧ HasValue t size

/-- Whether all values of an enumeration are valid: `Always_Valid`, `Always_Valid => True` or `Always_Valid => False`. -/
def AlwaysValid (as : List AspectNode) (b : Bool) : Prop :=
  (b = false ∧ ∀ a ∈ as, a.name ≠ ['A', 'l', 'w', 'a', 'y', 's', '_', 'V', 'a', 'l', 'i', 'd']) ∨
  ∃ a, LastAspect ['A', 'l', 'w', 'a', 'y', 's', '_', 'V', 'a', 'l', 'i', 'd'] as a ∧
    (a.value = none ∧ b = true ∨
      ∃ t n, a.value = some t ∧ t.name? = some n ∧
        (n.key = [['t', 'r', 'u', 'e']] ∧ b = true ∨ n.key = [['f', 'a', 'l', 's', 'e']] ∧ b = false))

/-- The values of an enumeration are different from each other and fit in `size` bits, and its names are different. -/
def Proper (literals : List (ID × Int)) (size : Int) : Prop :=
  literals.Pairwise (fun a b => a.1.key ≠ b.1.key) ∧ literals.Pairwise (fun a b => a.2 ≠ b.2) ∧ size ≤ 64 ∧
  ∀ l ∈ literals, 0 ≤ l.2 ∧ 0 ≤ size ∧ l.2 < 2 ^ size.toNat

/-! ## Messages -/

/-- The aspects of a component or transition. -/
def AspectIs (a : AspectNode) (b : Structure.Aspect) : Prop := b.name = a.name ∧ ∃ t, a.value = some t ∧ Denotes t b.value

/-- An optional condition. -/
def ConditionIs : Option Tree → Option Expr → Prop
  | none, none => True
  | some t, some e => Denotes t e
  | _, _ => False

/-- A name of a field. -/
def FieldIs (n : PyStr) (i : ID) : Prop := i.key = [n.lower]

/-- A `then` clause. -/
def ThenIs (t : ThenTree) (u : Structure.Then) : Prop :=
  (match t.target, u.target with
    | none, none => True
    | some n, some i => FieldIs n i
    | _, _ => False) ∧ ConditionIs t.condition u.condition ∧ List.Forall₂ AspectIs t.aspects u.aspects

/-- An optional initial clause. -/
def InitialIs : Option ThenTree → Option Structure.Then → Prop
  | none, none => True
  | some t, some u => ThenIs t u
  | _, _ => False

/-- A component. -/
def ComponentIs (c : ComponentTree) (d : Structure.Component) : Prop :=
  FieldIs c.name d.name ∧ ConditionIs c.condition d.condition ∧ List.Forall₂ AspectIs c.aspects d.aspects ∧ List.Forall₂ ThenIs c.thens d.thens

/-- The types of fields: a field has the type that its declaration names, if there is such a type among `types`. -/
def FieldTypesAre (types : List (MTy M)) (package : PyStr) (cs : List ComponentTree) (ts : List (ID × MTy M)) : Prop :=
  (∀ c ∈ cs, ∀ t ∈ types, IsType package c.type t → ∃ f, FieldIs c.name f ∧ (f, t) ∈ ts) ∧
  ∀ f t, (f, t) ∈ ts → t ∈ types ∧ ∃ c ∈ cs, FieldIs c.name f ∧ IsType package c.type t

/-! ## Names in conditions -/

mutual

/-- The names used in an expression, without the parameters of quantified expressions. The elements of aggregates are left out. -/
def Tree.names : Tree → List (List PyStr)
  | .paren e => e.names
  | .var id => [id.key]
  | .attribute _ e => e.names
  | .select e _ => e.names
  | .call id args => id.key :: namesL args
  | .quantified _ p it pr => (it.names ++ pr.names).filter fun x => x ≠ p.key
  | .binop _ l r => l.names ++ r.names
  | _ => []

/-- The names used in expressions. -/
def namesL : List Tree → List (List PyStr)
  | [] => []
  | e :: es => e.names ++ namesL es

end

/-- The literals of the enumerations among the types of fields: those of the package and predefined ones by their names, those of all packages
by their names with the package. -/
def IsLiteral (fields : List (ID × MTy M)) (package : PyStr) (x : List PyStr) : Prop :=
  ∃ f ∈ fields, ∃ t p, f.2 = .enum t ∧ t.id.parent = .ok p ∧ ∃ l ∈ t.literals,
    x = l.1.key ∧ (p.key = [['_', '_', 'b', 'u', 'i', 'l', 't', 'i', 'n', 's', '_', '_']] ∨ p.key = [package.lower]) ∨
    ∃ q, p.mul l.1 = .ok q ∧ x = q.key ∧ p.key ≠ [['_', '_', 'b', 'u', 'i', 'l', 't', 'i', 'n', 's', '_', '_']]

/-! ## Declarations -/

/-- The type declared by a definition in a package after the types `before`. -/
inductive Declares (B : Backend M S) (before : List (MTy M)) (package : PyStr) : TypeDef → MTy M → Prop
  /-- `type T is mod 2 ** k`. -/
  | modular {m t} {k : Nat} : k ≤ 64 → HasValue m (2 ^ k) → Interval (.modular t) 0 (2 ^ k - 1) k →
      Declares B before package (.modular m) (.modular t)
  /-- `type T is range f .. l with Size => s`. -/
  | range {f l a s t first last size} : a.name = ['S', 'i', 'z', 'e'] → a.value = some s →
      HasValue f first → HasValue l last → HasValue s size →
      0 ≤ first → first ≤ last → last < 2 ^ 63 → 0 ≤ size → last < 2 ^ size.toNat → size ≤ 64 →
      Interval (.range t) first last size → Declares B before package (.range f l a) (.range t)
  /-- `type T is (A => 1, B => 4) with Size => s`. -/
  | named {es as t size} : List.Forall₂ (fun (e : PyStr × Tree) (l : ID × Int) => l.1.key = [e.1.lower] ∧ HasValue e.2 l.2) es t.literals →
      SizeAspect as size → (∃ n, scalarSize t.size = .ok n ∧ n.v = size) → AlwaysValid as t.alwaysValid → Proper t.literals size →
      Declares B before package (.named es as) (.enum t)
  /-- `type T is (A, B) with Size => s`: the values are 0, 1, … -/
  | positional {es as t size} : t.literals.map (fun l => (l.1.key, l.2)) = es.zipIdx.map (fun e => ([PyStr.lower e.1], (e.2 : Int))) →
      SizeAspect as size → (∃ n, scalarSize t.size = .ok n ∧ n.v = size) → AlwaysValid as t.alwaysValid → Proper t.literals size →
      Declares B before package (.positional es as) (.enum t)
  /-- `type T is array of U`: the size of a scalar `U` is a multiple of eight, a message `U` is not empty. -/
  | array {e id t} : t ∈ before → IsType package e t →
      ((∃ s n, t.scalarSize? = some s ∧ s = .ok n ∧ 8 ∣ n.v) ∨ ∃ i m, t = .message i m ∧ B.nonNull m = true) →
      Declares B before package (.array e) (.array id t)
  /-- `type T is message … end message`. -/
  | message {init cs id m start ds ts} :
      InitialIs init start →
      List.Forall₂ ComponentIs cs ds → FieldTypesAre before package cs ts →
      B.message id ((Structure.transitions start ds).map Structure.Transition.link) ts = .ok m →
      Declares B before package (.message init cs) (.message id m)
  /-- `type T is null message`. -/
  | nullMessage {id m} : B.null id = .ok m → Declares B before package .nullMessage (.message id m)
  /-- `type T is new U`. -/
  | derived {b id i u m} : MTy.message i u ∈ before → IsType package b (MTy.message i u) → B.derived id u = .ok m →
      Declares B before package (.derived b) (.message id m)

/-- The type created for a declaration. A type has the name of its package and its own name; a refinement refers to a field of type `Opaque` of
a message, its condition is the one written and uses fields of the message and literals. -/
def DeclOf (B : Backend M S) (before : List (MTy M)) (package : PyStr) : DeclTree S → MTy M → Prop
  | .type n d, t => t.identifier.key = [package.lower, PyStr.lower n] ∧ Declares B before package d t
  | .refinement p f s c, t => ∃ id pid pm field sid sm condition, t = .refinement id pid field sid condition ∧
      MTy.message pid pm ∈ before ∧ IsType package p (MTy.message pid pm) ∧
      MTy.message sid sm ∈ before ∧ IsType package s (MTy.message sid sm) ∧
      FieldIs f field ∧ (∃ g ∈ B.types pm, g.1.key = field.key ∧ g.2 = .opaqueType) ∧
      (match c with
        | none => condition = .tru
        | some c => Denotes c condition ∧ ∀ x ∈ c.names, (∃ g ∈ B.types pm, g.1.key = x) ∨ IsLiteral (B.types pm) package x)
  | .session _, _ => False

/-- The predefined type `Boolean`: `False` is 0, `True` is 1, in one bit. -/
def IsBoolean (t : MTy M) : Prop :=
  ∃ b, t = .enum b ∧ b.id.key = [['_', '_', 'b', 'u', 'i', 'l', 't', 'i', 'n', 's', '_', '_'], ['b', 'o', 'o', 'l', 'e', 'a', 'n']] ∧
    b.literals.map (fun l => (l.1.key, l.2)) = [([['f', 'a', 'l', 's', 'e']], 0), ([['t', 'r', 'u', 'e']], 1)] ∧
    (∃ n, scalarSize b.size = .ok n ∧ n.v = 1) ∧ b.alwaysValid = false

/-- The names of the literals of an enumeration. -/
def MTy.literals? : MTy M → Option (List ID)
  | .enum t => some (t.literals.map fun l => l.1)
  | _ => none

/-- The name and the literals of a type, as data of C35. -/
def MTy.names (t : MTy M) : ModelPkg.Ty := ⟨t.identifier, t.literals?⟩

/-- The declaration of a type or refinement. -/
def isTypeDecl : DeclTree S → Bool
  | .session _ => false
  | _ => true

/-- The declarations of types and refinements, with the names of their packages. -/
def typeDecls (ps : List (PackageTree S)) : List (PyStr × DeclTree S) :=
  ps.flatMap fun p => (p.decls.filter isTypeDecl).map fun d => (p.name, d)

/-! ## Texts -/

/-- Aspects with lexically correct values. -/
def AspectNode.Lexical (a : AspectNode) : Prop := ∀ t, a.value = some t → SpecParser.Lexical t

/-- `Lexical` for `then` clauses. -/
def ThenTree.Lexical (t : ThenTree) : Prop :=
  (∀ n, t.target = some n → IsName n) ∧ (∀ e, t.condition = some e → SpecParser.Lexical e) ∧ ∀ a ∈ t.aspects, a.Lexical

/-- `Lexical` for components. -/
def ComponentTree.Lexical (c : ComponentTree) : Prop :=
  IsName c.name ∧ c.type.Lexical ∧ (∀ e, c.condition = some e → SpecParser.Lexical e) ∧ (∀ a ∈ c.aspects, a.Lexical) ∧
  ∀ t ∈ c.thens, t.Lexical

/-- What the lexical analysis ensures for definitions of types. -/
def TypeDef.Lexical : TypeDef → Prop
  | .array e => e.Lexical
  | .modular m => SpecParser.Lexical m
  | .range f l a => SpecParser.Lexical f ∧ SpecParser.Lexical l ∧ a.Lexical
  | .named es as => (∀ e ∈ es, IsName e.1 ∧ SpecParser.Lexical e.2) ∧ ∀ a ∈ as, a.Lexical
  | .positional es as => (∀ e ∈ es, IsName e) ∧ ∀ a ∈ as, a.Lexical
  | .message i cs => (∀ t, i = some t → t.Lexical) ∧ ∀ c ∈ cs, c.Lexical
  | .nullMessage => True
  | .derived b => b.Lexical

/-- The numbers in the definition of a type are constants, and the names of fields are different from each other. -/
def TypeDef.Simple : TypeDef → Prop
  | .modular m => Constant m
  | .range f l a => Constant f ∧ Constant l ∧ ∀ t, a.value = some t → Constant t
  | .named _ as => ∀ a ∈ as, a.name = ['S', 'i', 'z', 'e'] → ∀ t, a.value = some t → Constant t
  | .positional _ as => ∀ a ∈ as, a.name = ['S', 'i', 'z', 'e'] → ∀ t, a.value = some t → Constant t
  | .message _ cs => cs.Pairwise fun a b => PyStr.lower a.name ≠ PyStr.lower b.name
  | _ => True

/-- What the lexical analysis ensures for declarations. -/
def DeclTree.Lexical : DeclTree S → Prop
  | .type n d => IsName n ∧ d.Lexical
  | .refinement p f s c => p.Lexical ∧ IsName f ∧ s.Lexical ∧ ∀ t, c = some t → SpecParser.Lexical t
  | .session _ => True

/-- `TypeDef.Simple` for declarations. -/
def DeclTree.Simple : DeclTree S → Prop
  | .type _ d => d.Simple
  | _ => True

end Verif.SpecParser
