import Verif.Ada.FromExpr
import Verif.Ada.Value

/-! # What the text of a translated expression is compared with -/

namespace Verif.Ada
open Verif

/-- The first part of an identifier. -/
def first? (i : ID) : Option PyStr := i.parts.head?.map PyStr.lower

/-- Names: variables, attributes and components of variables, functions. -/
structure Names where
  var : ID → Prop
  attr : AttrKind → ID → Prop
  sel : ID → ID → Prop
  call : ID → Prop

/-- The attribute of Ada with the meaning of an attribute of a specification. -/
def attrName : AttrKind → Option PyStr
  | .size => some ['s', 'i', 'z', 'e']
  | .length => some ['l', 'e', 'n', 'g', 't', 'h']
  | .first => some ['f', 'i', 'r', 's', 't']
  | .last => some ['l', 'a', 's', 't']
  | .valid => some ['v', 'a', 'l', 'i', 'd']
  | _ => none

/-- The names `N` have in a text of Ada the values that they have in the specification. `B` are the parameters of enclosing quantified
expressions; nothing is known about their components and attributes. -/
structure Shows (W : World) (ρ : Env) (N : Names) (B : List PyStr) : Prop where
  std : W.Std
  lit : ∀ v, W.val (W.lit v) = some v
  bound : ∀ x : PyStr, x.lower ∈ B → W.val (W.id x.lower) = some (ρ.var [x.lower])
  var : ∀ i : ID, N.var i → i.parts ≠ [] → (∀ x ∈ first? i, x ∉ B) → (path W i.parts).bind W.val = some (ρ.var i.key)
  attr : ∀ (i : ID) (k : AttrKind) (a : PyStr), N.attr k i → attrName k = some a → i.parts ≠ [] → (∀ x ∈ first? i, x ∉ B) →
    (path W i.parts).bind (fun n => W.val (W.attr n a)) = some (ρ.attr k i.key)
  sel : ∀ i s : ID, N.sel i s → i.parts ≠ [] → (∀ x ∈ first? i, x ∉ B) →
    (path W i.parts).bind (fun n => W.val (selPath W n s.parts)) = some (ρ.sel i.key s.key)
  call : ∀ (i : ID) (vs : List Val), N.call i → i.parts ≠ [] → vs ≠ [] → (∀ x ∈ first? i, x ∉ B) →
    (path W i.parts).bind (fun n => W.val (W.app n vs)) = some (ρ.call i.key vs)

/-- A name of Ada that is not a component of a parameter. -/
def Visible (B : List PyStr) (i : ID) : Prop := Dotted i ∧ ∀ x ∈ first? i, x ∉ B

/-- Names without sign. -/
def plainName : Expr → Bool
  | .var neg _ _ => !neg
  | .attr neg _ _ => !neg
  | .sel neg _ _ => !neg
  | .call neg _ _ => !neg
  | _ => false

/-- The first term of a sum is printed without parentheses. -/
def sumHead : List Expr → Prop
  | [] => False
  | .bool _ _ :: _ => False
  | .rel _ _ _ :: _ => False
  | _ => True

mutual

/-- The expressions of a specification whose Ada text is claimed to be right: identifiers are names of Ada, prefixes are variables, attributes
exist in Ada, names are those of `N` or parameters of enclosing quantified expressions (`B`), there are no empty disjunctions, sums and products, aggregates have at least two elements, sums do not start with a relation or a
logical operation, the right operand of a membership test and the iterated expression of a quantifier are names. -/
def Adaptable (N : Names) (B : List PyStr) : Expr → Prop
  | .tru => True
  | .fls => True
  | .undefined => False
  | .num _ _ => True
  | .var _ _ i => Dotted i ∧ ((∃ x, i.parts = [x] ∧ x.lower ∈ B) ∨ (N.var i ∧ Visible B i))
  | .attr _ k pre =>
    match pre with
    | .var neg _ i => neg = false ∧ N.attr k i ∧ Visible B i ∧ (attrName k).isSome = true
    | _ => False
  | .sel _ pre s =>
    match pre with
    | .var neg _ i => neg = false ∧ N.sel i s ∧ Visible B i ∧ Dotted s
    | _ => False
  | .call _ i args => Visible B i ∧ AdaptableL N B args ∧ (args = [] → N.var i) ∧ (args ≠ [] → N.call i)
  | .not e => Adaptable N B e
  | .bool op ts => AdaptableL N B ts ∧ (ts = [] → op.isAnd = true)
  | .add ts => AdaptableL N B ts ∧ sumHead ts
  | .mul ts => AdaptableL N B ts ∧ ts ≠ []
  | .bin _ l r => Adaptable N B l ∧ Adaptable N B r
  | .rel op l r => Adaptable N B l ∧ Adaptable N B r ∧ (op = .isIn ∨ op = .notIn → plainName r = true)
  | .agg es => AdaptableL N B es ∧ 2 ≤ es.length
  | .quant _ p it pr =>
    ∃ x, p.parts = [x] ∧ Word x ∧ x.lower ≠ "true".toList ∧ x.lower ≠ "false".toList ∧ plainName it = true ∧ Adaptable N B it ∧
      Adaptable N (x.lower :: B) pr

/-- `Adaptable` for lists. -/
def AdaptableL (N : Names) (B : List PyStr) : List Expr → Prop
  | [] => True
  | e :: es => Adaptable N B e ∧ AdaptableL N B es

end

mutual

/-- Expressions that stand for themselves in the model of the code generator (`Gen/Subst.lean`), where immutable variables represent elements
of arrays, and aggregates of numbers those of bytes. -/
def Direct : Expr → Prop
  | .var _ imm _ => imm = false
  | .attr _ _ pre => Direct pre
  | .sel _ pre _ => Direct pre
  | .call _ _ args => DirectL args
  | .not e => Direct e
  | .bool _ ts => DirectL ts
  | .add ts => DirectL ts
  | .mul ts => DirectL ts
  | .bin _ l r => Direct l ∧ Direct r
  | .rel _ l r => Direct l ∧ Direct r
  | .agg _ => False
  | .quant _ _ it pr => Direct it ∧ Direct pr
  | _ => True

/-- `Direct` for lists. -/
def DirectL : List Expr → Prop
  | [] => True
  | e :: es => Direct e ∧ DirectL es

end

end Verif.Ada
