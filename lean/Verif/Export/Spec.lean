import Verif.Export.Model

/-! # What the exported document says

A document is read by keys. `Describes e j` says that the document `j` describes the expression `e`: its kind is the
name of the class of the expression and the entries of its data describe the parts of the expression. `DescribesDecl`
and `DescribesModel` say the same of types and models. Nothing here uses the functions that write the document. -/

namespace Verif.Export

open Verif Verif.Types

/-- The entry of a document under a key. -/
def Json.get (j : Json) (k : String) : Option Json :=
  match j with
  | .dict d => d.lookup k.toList
  | _ => none

/-- The entry of the data of a document under a key. -/
def Json.part (j : Json) (k : String) : Option Json := (j.get "data").bind (·.get k)

/-- The document has this kind. -/
def Json.HasKind (j : Json) (k : String) : Prop := ∃ s, j.get "kind" = some (.str s) ∧ s = k.toList

/-- The document is the list of the parts of an identifier. -/
def IsID (i : ID) (j : Json) : Prop := j = .list (i.parts.map .str)

/-- The names of the operators in documents. -/
def opName : BoolOp → String
  | .and => "And" | .andThen => "AndThen" | .or => "Or" | .orElse => "OrElse"

/-- The names of the arithmetic operators in documents. -/
def arithName : ArithOp → String
  | .sub => "Sub" | .div => "Div" | .pow => "Pow" | .mod => "Mod"

/-- The names of the relations in documents. -/
def relName : RelOp → String
  | .lt => "Less" | .le => "LessEqual" | .eq => "Equal" | .ge => "GreaterEqual" | .gt => "Greater"
  | .ne => "NotEqual" | .isIn => "In" | .notIn => "NotIn"

/-- The names of the attributes in documents. -/
def attrName : AttrKind → String
  | .size => "Size" | .length => "Length" | .first => "First" | .last => "Last" | .validChecksum => "ValidChecksum"
  | .valid => "Valid" | .present => "Present" | .head => "Head" | .opaque => "Opaque"

/-- The names of the quantifiers in documents. -/
def quantName : QKind → String
  | .allOf => "ForAllOf" | .allIn => "ForAllIn" | .someIn => "ForSomeIn"

/-- The base of a number as a number. -/
def baseNumber : NBase → Int
  | .b0 => 0 | .b2 => 2 | .b8 => 8 | .b10 => 10 | .b16 => 16

mutual

/-- The document describes the expression. -/
def Describes : Expr → Json → Prop
  | .tru, j => j.HasKind "BooleanTrue"
  | .fls, j => j.HasKind "BooleanFalse"
  | .undefined, j => j.HasKind "UndefinedExpr"
  | .num v b, j => j.HasKind "Number" ∧ j.part "value" = some (.int v) ∧ j.part "base" = some (.int (baseNumber b))
  | .var neg _ i, j => j.HasKind "Variable" ∧ j.part "negative" = some (.bool neg) ∧
      ∃ a, j.part "identifier" = some a ∧ IsID i a
  | .attr neg k p, j => j.HasKind (attrName k) ∧ j.part "negative" = some (.bool neg) ∧
      ∃ a, j.part "prefix" = some a ∧ Describes p a
  | .sel neg p s, j => j.HasKind "Selected" ∧ j.part "negative" = some (.bool neg) ∧
      (∃ a, j.part "prefix" = some a ∧ Describes p a) ∧ ∃ a, j.part "selector" = some a ∧ IsID s a
  | .call neg i args, j => j.HasKind "Call" ∧ j.part "negative" = some (.bool neg) ∧
      (∃ a, j.part "identifier" = some a ∧ IsID i a) ∧ ∃ l, j.part "args" = some (.list l) ∧ DescribesAll args l
  | .not e, j => j.HasKind "Not" ∧ ∃ a, j.part "expr" = some a ∧ Describes e a
  | .bool op ts, j => j.HasKind (opName op) ∧ ∃ l, j.part "terms" = some (.list l) ∧ DescribesAll ts l
  | .add ts, j => j.HasKind "Add" ∧ ∃ l, j.part "terms" = some (.list l) ∧ DescribesAll ts l
  | .mul ts, j => j.HasKind "Mul" ∧ ∃ l, j.part "terms" = some (.list l) ∧ DescribesAll ts l
  | .bin op a b, j => j.HasKind (arithName op) ∧ (∃ x, j.part "left" = some x ∧ Describes a x) ∧
      ∃ y, j.part "right" = some y ∧ Describes b y
  | .rel op a b, j => j.HasKind (relName op) ∧ (∃ x, j.part "left" = some x ∧ Describes a x) ∧
      ∃ y, j.part "right" = some y ∧ Describes b y
  | .agg es, j => j.HasKind "Aggregate" ∧ ∃ l, j.part "elements" = some (.list l) ∧ DescribesAll es l
  | .quant k p it pr, j => j.HasKind (quantName k) ∧ (∃ a, j.part "parameter_identifier" = some a ∧ IsID p a) ∧
      (∃ a, j.part "iterable" = some a ∧ Describes it a) ∧ ∃ a, j.part "predicate" = some a ∧ Describes pr a

/-- The documents describe the expressions one by one. -/
def DescribesAll : List Expr → List Json → Prop
  | [], l => l = []
  | e :: es, l => ∃ j js, l = j :: js ∧ Describes e j ∧ DescribesAll es js

end

/-- Two lists agree one by one. -/
def Each {α β : Type} (R : α → β → Prop) : List α → List β → Prop
  | [], l => l = []
  | a :: as, l => ∃ b bs, l = b :: bs ∧ R a b ∧ Each R as bs

/-- The document of a field. -/
def DescribesField (f : ID) (j : Json) : Prop := j.HasKind "Field" ∧ ∃ a, j.part "identifier" = some a ∧ IsID f a

/-- The document of a link. -/
def DescribesLink (l : Dot.Link) (j : Json) : Prop :=
  j.HasKind "Link" ∧ (∃ a, j.part "source" = some a ∧ DescribesField l.source a) ∧
  (∃ a, j.part "target" = some a ∧ DescribesField l.target a) ∧
  (∃ a, j.part "condition" = some a ∧ Describes l.condition a) ∧
  (∃ a, j.part "size" = some a ∧ Describes l.size a) ∧
  ∃ a, j.part "first" = some a ∧ Describes l.first a

/-- The document of a number. -/
def DescribesNum (n : Num) (j : Json) : Prop := Describes (.num n.v n.base) j

/-- An identifier as it is written in a specification: the parts separated by two colons. -/
def text (i : ID) : PyStr := (i.parts.intersperse [':', ':']).flatten

/-- An entry of a dictionary: its key is the text of an identifier. -/
def Entry {β : Type} (R : β → Json → Prop) (a : ID × β) (e : PyStr × Json) : Prop := e.1 = text a.1 ∧ R a.2 e.2

/-- The document of a type. The size of a range or an enumeration is the number `s`, to which the expression
evaluates. -/
def DescribesDecl : Decl → Json → Prop
  | .modular i m, j => j.HasKind "ModularInteger" ∧ (∃ a, j.part "identifier" = some a ∧ IsID i a) ∧
      ∃ a, j.part "modulus" = some a ∧ Describes m a
  | .range i _ _ s f l, j => j.HasKind "RangeInteger" ∧ (∃ a, j.part "identifier" = some a ∧ IsID i a) ∧
      (∃ a, j.part "first" = some a ∧ DescribesNum f a) ∧ (∃ a, j.part "last" = some a ∧ DescribesNum l a) ∧
      ∃ a n, j.part "size" = some a ∧ s.simplified = .ok (.num n.v n.base) ∧ DescribesNum n a
  | .enum i ls s v, j => j.HasKind "Enumeration" ∧ (∃ a, j.part "identifier" = some a ∧ IsID i a) ∧
      (∃ d, j.part "literals" = some (.dict d) ∧ Each (Entry DescribesNum) ls d) ∧
      (∃ a n, j.part "size" = some a ∧ s.simplified = .ok (.num n.v n.base) ∧ DescribesNum n a) ∧
      j.part "always_valid" = some (.bool v)
  | .array i e, j => j.HasKind "Array" ∧ (∃ a, j.part "identifier" = some a ∧ IsID i a) ∧
      ∃ a, j.part "element_type" = some a ∧ IsID e a
  | .opaque, j => j.HasKind "Opaque"
  | .private i, j => j.HasKind "Private" ∧ ∃ a, j.part "identifier" = some a ∧ IsID i a
  | .message m, j => j.HasKind "Message" ∧ (∃ a, j.part "identifier" = some a ∧ IsID m.id a) ∧
      (∃ l, j.part "structure" = some (.list l) ∧ Each DescribesLink m.structure_ l) ∧
      ∃ d, j.part "types" = some (.dict d) ∧ Each (Entry IsID) m.types d
  | .refinement i pdu f sdu c, j => j.HasKind "Refinement" ∧ (∃ a, j.part "identifier" = some a ∧ IsID i a) ∧
      (∃ a, j.part "package" = some a ∧ IsID ⟨i.parts.dropLast⟩ a) ∧
      (∃ a, j.part "pdu" = some a ∧ IsID pdu a) ∧ (∃ a, j.part "field" = some a ∧ DescribesField f a) ∧
      (∃ a, j.part "sdu" = some a ∧ IsID sdu a) ∧ ∃ a, j.part "condition" = some a ∧ Describes c a

/-- The document of a model without sessions. -/
def DescribesModel (m : Model) (j : Json) : Prop :=
  j.HasKind "Model" ∧ (∃ l, j.part "_Model__types" = some (.list l) ∧ Each DescribesDecl m.types l) ∧
  m.sessions = [] ∧ j.part "_Model__sessions" = some (.list [])

/-! ## The part of a model a document determines -/

mutual

/-- The expression without the flag for immutable variables. -/
def plain : Expr → Expr
  | .var neg _ i => .var neg false i
  | .attr neg k p => .attr neg k (plain p)
  | .sel neg p s => .sel neg (plain p) s
  | .call neg i args => .call neg i (plains args)
  | .not e => .not (plain e)
  | .bool op ts => .bool op (plains ts)
  | .add ts => .add (plains ts)
  | .mul ts => .mul (plains ts)
  | .bin op a b => .bin op (plain a) (plain b)
  | .rel op a b => .rel op (plain a) (plain b)
  | .agg es => .agg (plains es)
  | .quant k p it pr => .quant k p (plain it) (plain pr)
  | e => e

/-- `plain` of each expression. -/
def plains : List Expr → List Expr
  | [] => []
  | e :: es => plain e :: plains es

end

/-- Two expressions are the same but for the flags for immutable variables. -/
def SameExpr (a b : Expr) : Prop := plain a = plain b

/-- Two links are the same. -/
def SameLink (a b : Dot.Link) : Prop :=
  a.source = b.source ∧ a.target = b.target ∧ SameExpr a.condition b.condition ∧ SameExpr a.size b.size ∧
  SameExpr a.first b.first

/-- The size is the number `n`. -/
def HasSize (s : Expr) (n : Num) : Prop := s.simplified = .ok (.num n.v n.base)

/-- Two types are the same: the same kind of type with the same name and contents. Bounds and sizes are compared by
their numbers, messages without checksums and without the message they are derived from. -/
def SameDecl : Decl → Decl → Prop
  | .modular i m, .modular i' m' => i = i' ∧ SameExpr m m'
  | .range i _ _ s f l, .range i' _ _ s' f' l' => i = i' ∧ f = f' ∧ l = l' ∧ ∃ n, HasSize s n ∧ HasSize s' n
  | .enum i ls s v, .enum i' ls' s' v' => i = i' ∧ ls = ls' ∧ v = v' ∧ ∃ n, HasSize s n ∧ HasSize s' n
  | .array i e, .array i' e' => i = i' ∧ e = e'
  | .opaque, .opaque => True
  | .private i, .private i' => i = i'
  | .message m, .message m' => m.id = m'.id ∧ Each SameLink m.structure_ m'.structure_ ∧ m.types = m'.types
  | .refinement i p f s c, .refinement i' p' f' s' c' => i = i' ∧ p = p' ∧ f = f' ∧ s = s' ∧ SameExpr c c'
  | _, _ => False

/-- An identifier with at least one part, whose parts are not empty and have no colons. -/
def GoodID (i : ID) : Prop := i.parts ≠ [] ∧ ∀ p ∈ i.parts, p ≠ [] ∧ ':' ∉ p

/-- The keys of a dictionary with identifiers as keys: different identifiers, which are compared without case. -/
def GoodKeys (ks : List ID) : Prop := (∀ k ∈ ks, GoodID k) ∧ ks.Pairwise (fun a b => a.eq b = false)

/-- A type as the constructors leave it: the names of literals and fields are different, the sizes are numbers, the
identifier of a refinement has a package. -/
def GoodDecl : Decl → Prop
  | .range _ _ _ s _ _ => ∃ n, HasSize s n
  | .enum _ ls s _ => GoodKeys (ls.map (·.1)) ∧ ∃ n, HasSize s n
  | .message m => GoodKeys (m.types.map (·.1))
  | .refinement i .. => 2 ≤ i.parts.length ∧ ∀ p ∈ i.parts, p ≠ [] ∧ ' ' ∉ p ∧ '.' ∉ p ∧ ':' ∉ p
  | _ => True

end Verif.Export
