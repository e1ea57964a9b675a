import Verif.Session.Decl
import Verif.Typing.CheckProps
import Verif.Expr.VarsProps

/-! # Specification for property C49 -/

namespace Verif.Session
open Verif Verif.Typing

variable {M : Type} [DecidableEq M]

/-- A name that is read in an expression of a session: it is not the parameter of a quantified expression or the iterator of
a comprehension. -/
inductive SFree (x : List PyStr) : SExpr → Prop
  | plain {e} : Free x e → SFree x (.plain e)
  | array {i a s c} : Free x a → SFree x (.comprehension i a s c)
  | selector {i a s c} : x ≠ i.key → Free x s → SFree x (.comprehension i a s c)
  | condition {i a s c} : x ≠ i.key → Free x c → SFree x (.comprehension i a s c)
  | value {id vs v} : v ∈ vs → Free x v.2 → SFree x (.aggregate id vs)
  | argument {id e} : Free x e → SFree x (.conversion id e)

/-- A function that is called in an expression. -/
inductive Called (f : List PyStr) : Expr → Prop
  | here {ng id args} : f = id.key → Called f (.call ng id args)
  | attr {ng k pre} : Called f pre → Called f (.attr ng k pre)
  | sel {ng pre s} : Called f pre → Called f (.sel ng pre s)
  | call {ng id args a} : a ∈ args → Called f a → Called f (.call ng id args)
  | not {e} : Called f e → Called f (.not e)
  | bool {op ts t} : t ∈ ts → Called f t → Called f (.bool op ts)
  | add {ts t} : t ∈ ts → Called f t → Called f (.add ts)
  | mul {ts t} : t ∈ ts → Called f t → Called f (.mul ts)
  | binLeft {op l r} : Called f l → Called f (.bin op l r)
  | binRight {op l r} : Called f r → Called f (.bin op l r)
  | relLeft {op l r} : Called f l → Called f (.rel op l r)
  | relRight {op l r} : Called f r → Called f (.rel op l r)
  | agg {es e} : e ∈ es → Called f e → Called f (.agg es)
  | iterable {k p it pr} : Called f it → Called f (.quant k p it pr)
  | predicate {k p it pr} : Called f pr → Called f (.quant k p it pr)

/-- A function that is called in an expression of a session. -/
inductive SCalled (f : List PyStr) : SExpr → Prop
  | plain {e} : Called f e → SCalled f (.plain e)
  | array {i a s c} : Called f a → SCalled f (.comprehension i a s c)
  | selector {i a s c} : Called f s → SCalled f (.comprehension i a s c)
  | condition {i a s c} : Called f c → SCalled f (.comprehension i a s c)
  | value {id vs v} : v ∈ vs → Called f v.2 → SCalled f (.aggregate id vs)
  | argument {id e} : Called f e → SCalled f (.conversion id e)

/-- The declarations of a session. -/
def FullSession.all (s : FullSession M) : List (Decl M) := s.parameters ++ s.declarations

/-- All declarations of a session and its states. -/
def FullSession.everything (s : FullSession M) : List (Decl M) := s.all ++ s.states.flatMap FullState.declarations

/-- A name is declared by some of the declarations, and not as a type. -/
def DeclaredBy (ds : List (Decl M)) (x : List PyStr) : Prop := ∃ d ∈ ds, d.id.key = x ∧ ∀ i t, d ≠ .type i t

/-- A function is declared by some of the declarations, or built-in. -/
def FunctionOf (ds : List (Decl M)) (f : List PyStr) : Prop :=
  f = dataAvailable.key ∨ ∃ i as r, Decl.function i as r ∈ ds ∧ i.key = f

/-- A name is a literal. -/
def IsLiteral (literals : Dict (Ty M)) (x : List PyStr) : Prop := ∃ l ∈ literals, l.1.key = x

/-- A type that is neither undefined nor a channel. -/
def Ordinary : Ty M → Prop
  | .undefined | .any | .channel _ _ => False
  | _ => True

/-- The types of a model are neither undefined nor channels. -/
def MType.Ordinary : MType M → Prop
  | .message t r => Session.Ordinary t ∧ ∀ l, Session.Ordinary (r l)
  | .refinement t _ _ _ _ _ => Session.Ordinary t
  | .other t => Session.Ordinary t

/-- All types of a session are ordinary. -/
def FullSession.OrdinaryTypes (s : FullSession M) : Prop :=
  (∀ t ∈ s.types, t.2.Ordinary) ∧ ∀ d ∈ s.everything, ∀ i t, d = .type i t → t.Ordinary

/-- Values in message aggregates that are always checked: no calls and no arithmetic. -/
def Direct : Expr → Prop
  | .call _ _ _ | .add _ | .mul _ | .bin _ _ _ => False
  | _ => True

/-- The values in message aggregates are always checked. -/
def SDirect : SExpr → Prop
  | .aggregate _ vs => ∀ v ∈ vs, Direct v.2
  | _ => True

/-- The expression of a declaration. -/
inductive Decl.Has : Decl M → SExpr → Prop
  | initial {i t e} : Decl.Has (.variable i t (some e)) e
  | renamed {i t ng p s} : Decl.Has (.renaming i t ng p s) (.plain p)

/-- A declaration uses a name in its expression. -/
def Decl.Uses (x : List PyStr) (d : Decl M) : Prop := ∃ e, d.Has e ∧ (SFree x e ∨ SCalled x e)

/-- An action uses a name. -/
def Action.Uses (x : List PyStr) (a : Action) : Prop := a.id.key = x ∨ ∃ e, a.expr = some e ∧ (SFree x e ∨ SCalled x e)

/-- A state uses a name: in its declarations, actions or conditions. -/
def FullState.Uses (x : List PyStr) (t : FullState M) : Prop :=
  (∃ d ∈ t.declarations, d.Uses x) ∨ (∃ a ∈ t.actions, a.Uses x) ∨ ∃ c ∈ t.transitions, Free x c.2 ∨ Called x c.2

/-- A session uses a name: in a declaration, as the type of a declaration, or in a state. -/
def FullSession.Uses (x : List PyStr) (s : FullSession M) : Prop :=
  (∃ d ∈ s.all, d.Uses x) ∨ (∃ d ∈ s.everything, ∃ i, d.typeId = some i ∧ i.key = x) ∨
    ∃ t ∈ s.states, t.Uses x

/-- No name is declared twice. -/
def DistinctNames (ds : List (Decl M)) : Prop := ds.Pairwise fun a b => a.id.key ≠ b.id.key

/-- A type is known: it is given, or declared. Types without a prefix are those of the package of the session. -/
def KnownType (package : ID) (types : Dict (MType M)) (ds : List (Decl M)) (i : ID) : Prop :=
  (∃ t ∈ types, t.1.key = (qualified i package).key) ∨ ∃ j t, Decl.type j t ∈ ds ∧ (qualified j package).key = (qualified i package).key

/-- A type with a name: its own type, or, for a message, the type with some refinements. -/
def NamedType (package : ID) (types : Dict (MType M)) (ds : List (Decl M)) (i : ID) (t : Ty M) : Prop :=
  ∃ u : MType M, ((∃ e ∈ types, e.1.key = (qualified i package).key ∧ e.2 = u) ∨
      ∃ j, Decl.type j u ∈ ds ∧ (qualified j package).key = (qualified i package).key) ∧
    (t = u.type ∨ ∃ v r l, u = .message v r ∧ t = r l)

/-- The type of a declaration. -/
inductive TypeOf (package : ID) (types : Dict (MType M)) (ds : List (Decl M)) : Decl M → Ty M → Prop
  | variable {i n e t} : NamedType package types ds n t → TypeOf package types ds (.variable i n e) t
  | renaming {i n ng p s t} : NamedType package types ds n t → TypeOf package types ds (.renaming i n ng p s) t
  | function {i as n t} : NamedType package types ds n t → TypeOf package types ds (.function i as n) t
  | channel {i r w} : TypeOf package types ds (.channel i r w) (.channel r w)

/-- A name has a type in a state: it is declared there or in the session. -/
def FullSession.NameType (s : FullSession M) (package : ID) (t : FullState M) (x : List PyStr) (u : Ty M) : Prop :=
  ∃ d ∈ s.all ++ t.declarations, d.id.key = x ∧ TypeOf package s.types s.everything d u

/-- The types of names are those of literals and declarations. -/
def FullSession.Types (s : FullSession M) (literals : Dict (Ty M)) (package : ID) (t : FullState M) (Γ : Ctx M) : Prop :=
  ∀ x, Γ.var x = .undefined ∨ (∃ l ∈ literals, l.1.key = x ∧ l.2 = Γ.var x) ∨ s.NameType package t x (Γ.var x)

/-- Refinements are messages. -/
def Body.Proper (B : Body M) : Prop := ∀ m, ∀ r ∈ B.refinements m, ∃ n b, r.2 = .message n b

/-- An expression of which the evaluation may raise an exception. -/
inductive Raises : SExpr → Prop
  | sel {ng p s} : Raises (.plain (.sel ng p s))
  | head {ng p} : Raises (.plain (.attr ng .head p))
  | comprehension {i a s c} : Raises (.comprehension i a s c)
  | aggregate {id vs} : Raises (.aggregate id vs)

/-- An action that may raise an exception. -/
inductive Action.Raises : Action → Prop
  | append {i e} : Action.Raises (.append i e)
  | extend {i e} : Action.Raises (.extend i e)
  | assign {i e} : Session.Raises e → Action.Raises (.assign i e)

/-- A session is accepted. -/
def FullSession.Accepted (B : Body M) (literals : Dict (Ty M)) (h : List PyStr → Int) (s : FullSession M) : Prop :=
  FullSession.new B literals h s = .ok s

end Verif.Session
