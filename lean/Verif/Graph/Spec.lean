import Verif.Graph.Model

/-! # Specification of message structures: paths and acceptance -/

namespace Verif.Graph
open Verif

/-- `p` is a sequence of links of `s` leading from `a` to `b`. -/
inductive Path (s : List Link) (a : Field) : List Link → Field → Prop
  | nil : Path s a [] a
  | snoc {p : List Link} {l : Link} : Path s a p l.source → l ∈ s → Path s a (p ++ [l]) l.target

/-- `b` can be reached from `a` over at least one link. -/
def Reaches (s : List Link) (a b : Field) : Prop := ∃ p, p ≠ [] ∧ Path s a p b

/-- The constructor returns without error, and `message.fields` is `fields`. -/
def Def.Accepted (m : Def) (fields : List Field) : Prop := ∃ k, m.construct k = .ok fields

/-- The constructor does not return. -/
def Def.Diverges (m : Def) : Prop := ∀ k, m.construct k = .error .fuel

/-- `a` comes before `b` in the list. -/
def Before (l : List Field) (a b : Field) : Prop := ∃ xs ys zs, l = xs ++ a :: ys ++ b :: zs

/-- A field that the links mention, other than the two artificial ones. -/
def Def.IsField (m : Def) (f : Field) : Prop :=
  (∃ l ∈ m.links, l.source = f ∨ l.target = f) ∧ f ≠ INITIAL ∧ f ≠ FINAL

/-- No two conditions compare equal and are of different classes. This can only fail for operations with a single term
(`And(x) == AndThen(x)`), which the specification parser does not create. -/
def Def.Regular (m : Def) : Prop :=
  ∀ l ∈ m.links, ∀ l' ∈ m.links, l.condition.eq l'.condition = true → l.condition.cls = l'.condition.cls

end Verif.Graph
