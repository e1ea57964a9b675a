import Verif.Expr.Semantics

/-! # Classes of expressions used in the statements about expressions -/

namespace Verif

/-- Letters, digits, underscore. -/
def wordChar (c : Char) : Bool := c.isAlphanum || c == '_'

/-- Words with a fixed meaning in the printed form of expressions. -/
def keywords : List PyStr :=
  ["True".toList, "False".toList, "and".toList, "or".toList, "not".toList, "then".toList,
   "else".toList, "mod".toList, "in".toList, "for".toList, "all".toList, "some".toList, "of".toList]

/-- An identifier as the specification language has it: `::`-separated words of letters, digits
and underscores that do not start with a digit; no reserved word. -/
def ID.Lex (i : ID) : Prop :=
  i.parts ≠ [] ∧ (∀ p ∈ i.parts, (∃ c s, p = c :: s ∧ c.isDigit = false) ∧ ∀ c ∈ p, wordChar c = true) ∧
  ∀ w ∈ keywords, i.parts ≠ [w]

instance (i : ID) : Decidable i.Lex := by
  unfold ID.Lex
  have : ∀ p : PyStr, Decidable (∃ c s, p = c :: s ∧ c.isDigit = false) := fun p =>
    match p with
    | [] => isFalse (by simp)
    | c :: s => if h : c.isDigit = false then isTrue ⟨c, s, rfl, h⟩ else isFalse (by simpa using h)
  infer_instance

/-- The first term of a sum is not a relation or a boolean operation (it is printed without
parentheses). -/
def Expr.headOK : List Expr → Prop
  | .bool _ _ :: _ => False
  | .rel _ _ _ :: _ => False
  | _ => True

mutual
/-- Well-formed expressions: identifiers are words, prefixes of attributes and selections are
(non-negative) variables, no empty disjunction, no sum starting with a truth value, `UNDEFINED` does
not occur. Types are not restricted otherwise; ill-typed expressions have no value. -/
def Expr.WF : Expr → Prop
  | .tru => True
  | .fls => True
  | .undefined => False
  | .num _ _ => True
  | .var _ _ id => id.Lex
  | .attr _ _ pre =>
    match pre with
    | .var ng _ id => ng = false ∧ id.Lex
    | _ => False
  | .sel _ pre s =>
    match pre with
    | .var ng _ id => ng = false ∧ id.Lex ∧ s.Lex
    | _ => False
  | .call _ id args => id.Lex ∧ Expr.WFL args
  | .not e => e.WF
  | .bool op ts => Expr.WFL ts ∧ (ts = [] → op.isAnd = true)
  | .add ts => Expr.WFL ts ∧ Expr.headOK ts
  | .mul ts => Expr.WFL ts
  | .bin _ l r => l.WF ∧ r.WF
  | .rel _ l r => l.WF ∧ r.WF
  | .agg es => Expr.WFL es
  | .quant _ p it pr => p.Lex ∧ it.WF ∧ pr.WF

def Expr.WFL : List Expr → Prop
  | [] => True
  | e :: es => e.WF ∧ Expr.WFL es
end

mutual
/-- Constant expressions: numbers combined by `+`, `*`, `-`, `**`, `mod`. -/
def Expr.Const : Expr → Prop
  | .num _ _ => True
  | .add ts => Expr.ConstL ts
  | .mul ts => Expr.ConstL ts
  | .bin op l r => op ≠ .div ∧ l.Const ∧ r.Const
  | _ => False
def Expr.ConstL : List Expr → Prop
  | [] => True
  | e :: es => e.Const ∧ Expr.ConstL es
end

mutual
/-- Expressions on which `simplified` is right. `s` tells that the expression is a summand: a term of
a sum, an operand of a difference, or a factor of such a term. A summand may get negated, and `-` is
wrong on `**` and `mod` (and on `/` unless division truncates, which `odd` expresses), so these may
be summands only if they are constant. -/
def Expr.Good (odd : Prop) (s : Bool) : Expr → Prop
  | .num _ _ => True
  | .var _ _ _ => True
  | .attr _ _ _ => True
  | .sel _ _ _ => True
  | .call _ _ _ => True
  | .tru => s = false
  | .fls => s = false
  | .undefined => s = false
  | .not e => s = false ∧ e.Good odd false
  | .bool _ ts => s = false ∧ Expr.GoodL odd false ts
  | .add ts => Expr.GoodL odd true ts
  | .mul ts => Expr.GoodL odd s ts
  | .bin op l r =>
    match op with
    | .sub => l.Good odd true ∧ r.Good odd true
    | .div => (s = true → odd) ∧ l.Good odd s ∧ r.Good odd false
    | .pow => (s = true → l.Const ∧ r.Const) ∧ l.Good odd false ∧ r.Good odd false
    | .mod => (s = true → l.Const ∧ r.Const) ∧ l.Good odd false ∧ r.Good odd false
  | .rel _ l r => s = false ∧ l.Good odd false ∧ r.Good odd false
  | .agg es => s = false ∧ Expr.GoodL odd false es
  | .quant _ _ it pr => s = false ∧ it.Good odd false ∧ pr.Good odd false
def Expr.GoodL (odd : Prop) (s : Bool) : List Expr → Prop
  | [] => True
  | e :: es => e.Good odd s ∧ Expr.GoodL odd s es
end

end Verif

namespace Verif

mutual
/-- Some part of the expression is a quantified expression. -/
def Expr.HQ : Expr → Prop
  | .quant _ _ _ _ => True
  | .not e => e.HQ
  | .bool _ ts => Expr.HQL ts
  | .add ts => Expr.HQL ts
  | .mul ts => Expr.HQL ts
  | .bin _ l r => l.HQ ∨ r.HQ
  | .rel _ l r => l.HQ ∨ r.HQ
  | .agg es => Expr.HQL es
  | .call _ _ args => Expr.HQL args
  | _ => False
def Expr.HQL : List Expr → Prop
  | [] => False
  | e :: es => e.HQ ∨ Expr.HQL es
end

mutual
/-- Expressions on which `-` is right: names, numbers, sums and products of these; quotients if the
division truncates (`odd`). -/
def Expr.Neg (odd : Prop) : Expr → Prop
  | .num _ _ => True
  | .var _ _ _ => True
  | .attr _ _ _ => True
  | .sel _ _ _ => True
  | .call _ _ _ => True
  | .add ts => Expr.NegL odd ts
  | .mul ts => Expr.NegL odd ts
  | .bin op l r => op = .div ∧ odd ∧ l.Neg odd ∧ r.Good odd false
  | _ => False
def Expr.NegL (odd : Prop) : List Expr → Prop
  | [] => True
  | e :: es => e.Neg odd ∧ Expr.NegL odd es
end

end Verif
