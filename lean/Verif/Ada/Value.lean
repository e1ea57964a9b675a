import Verif.Ada.Grammar
import Verif.Ada.Syntax

/-! # The meaning of the expressions of `rflx/ada.py`

An independent specification: the value an object of a class of `rflx/ada.py` stands for, and the class of objects whose text is claimed to
be right. Nothing here refers to the text. -/

namespace Verif.Ada
open Verif

/-- `True` and `False` have their standard meaning. -/
structure World.Std (W : World) : Prop where
  tru : W.val (W.id "true".toList) = some (.bool true)
  fls : W.val (W.id "false".toList) = some (.bool false)

/-- The meaning of the parts of an identifier after a prefix. -/
def selPath (W : World) (n : W.Ent) (ps : List PyStr) : W.Ent := ps.foldl (fun n p => W.sel n p.lower) n

/-- The meaning of an identifier. -/
def path (W : World) : List PyStr → Option W.Ent
  | [] => none
  | p :: ps => some (selPath W (W.id p.lower) ps)

/-- The value of a name with a sign. -/
def signed (neg : Bool) (v : Option Val) : Option Val := if neg then negVal v else v

/-- The binary arithmetic operators. -/
def mathOp : ArithOp → MathOp
  | .sub => .sub
  | .div => .div
  | .pow => .pow
  | .mod => .mod

/-- The names of attributes in the Ada reference manual, in lower case. -/
def Attr.name : Attr → PyStr
  | .size => ['s', 'i', 'z', 'e']
  | .length => ['l', 'e', 'n', 'g', 't', 'h']
  | .first => ['f', 'i', 'r', 's', 't']
  | .last => ['l', 'a', 's', 't']
  | .range => ['r', 'a', 'n', 'g', 'e']
  | .old => ['o', 'l', 'd']
  | .result => ['r', 'e', 's', 'u', 'l', 't']
  | .constrained => ['c', 'o', 'n', 's', 't', 'r', 'a', 'i', 'n', 'e', 'd']
  | .valid => ['v', 'a', 'l', 'i', 'd']

/-- The names of attributes that are functions. -/
def AttrFn.name : AttrFn → PyStr
  | .val => ['v', 'a', 'l']
  | .pos => ['p', 'o', 's']

namespace AExpr

mutual

/-- The meaning of a name (without its sign). -/
def ent (W : World) : AExpr → Option W.Ent
  | var _ id => path W id.parts
  | attr _ k pre => (ent W pre).map fun n => W.attr n k.name
  | fn k pre e => appEnt W ((ent W pre).map fun n => W.attr n k.name) ((value W e).map fun v => [v])
  | indexed _ pre es => appEnt W (ent W pre) (values W es)
  | sel _ pre s => (ent W pre).map fun n => selPath W n s.parts
  | call _ id args =>
    match args with
    | [] => path W id.parts
    | a :: as => appEnt W (path W id.parts) (values W (a :: as))
  | slice pre lo hi => sliceEnt W (ent W pre) (value W lo) (value W hi)
  | conv id e => appEnt W (path W id.parts) ((value W e).map fun v => [v])
  | _ => none

/-- The value of an expression. -/
def value (W : World) : AExpr → Option Val
  | num v _ => some (.int v)
  | var neg id => signed neg ((path W id.parts).bind W.val)
  | attr neg k pre => signed neg ((ent W pre).bind fun n => W.val (W.attr n k.name))
  | fn k pre e => (appEnt W ((ent W pre).map fun n => W.attr n k.name) ((value W e).map fun v => [v])).bind W.val
  | indexed neg pre es => signed neg ((appEnt W (ent W pre) (values W es)).bind W.val)
  | sel neg pre s => signed neg ((ent W pre).bind fun n => W.val (selPath W n s.parts))
  | call neg id args =>
    match args with
    | [] => signed neg ((path W id.parts).bind W.val)
    | a :: as => signed neg ((appEnt W (path W id.parts) (values W (a :: as))).bind W.val)
  | slice pre lo hi => (sliceEnt W (ent W pre) (value W lo) (value W hi)).bind W.val
  | not e => notVal (value W e)
  | bool op ts =>
    match ts with
    | [] => some (.bool op.isAnd)
    | t :: ts => boolVals W op (value W t) ts
  | add ts =>
    match ts with
    | [] => some (.int 0)
    | t :: ts => mathVals W .add (value W t) ts
  | mul ts =>
    match ts with
    | [] => some (.int 1)
    | t :: ts => mathVals W .mul (value W t) ts
  | bin op l r => mathVal (mathOp op) (value W l) (value W r)
  | rel op l r => relVal op true (value W l) (value W r)
  | agg es => aggVal (values W es)
  | ife arms els =>
    condVals W arms (match els with | none => none | some e => some (value W e))
  | named es => (fields W es).bind fun vs => W.val (W.record vs)
  | case c alts => (value W c).bind fun v => caseVals W v alts
  | quant k p it pr => quantVal k (value W it) fun v => value (W.bind (joinDot p.parts).lower (.int v)) pr
  | quantR k p lo hi pr =>
    quantVal k (rangeVal (value W lo) (value W hi)) fun v => value (W.bind (joinDot p.parts).lower (.int v)) pr
  | conv id e => (appEnt W (path W id.parts) ((value W e).map fun v => [v])).bind W.val

/-- The values of a list. -/
def values (W : World) : List AExpr → Option (List Val)
  | [] => some []
  | e :: es => match value W e, values W es with
    | some v, some vs => some (v :: vs)
    | _, _ => none

/-- Several operands of a logical operator, from left to right. -/
def boolVals (W : World) (op : BoolOp) (v : Option Val) : List AExpr → Option Val
  | [] => v
  | t :: ts => boolVals W op (boolVal op v (value W t)) ts

/-- Several operands of an arithmetic operator, from left to right. -/
def mathVals (W : World) (op : MathOp) (v : Option Val) : List AExpr → Option Val
  | [] => v
  | t :: ts => mathVals W op (mathVal op v (value W t)) ts

/-- The first alternative with a true condition; `v` is the value of the `else` part. -/
def condVals (W : World) : List (AExpr × AExpr) → Option (Option Val) → Option Val
  | [], v => v.getD (some (.bool true))
  | (c, e) :: as, v => condVal (value W c) (value W e) (some (condVals W as v))

/-- The first alternative whose choice is `others` or has the value `v`. -/
def caseVals (W : World) (v : Val) : List (AExpr × AExpr) → Option Val
  | [] => none
  | (c, e) :: as =>
    if c.isOthers then value W e else (value W c).bind fun u => if u = v then value W e else caseVals W v as

/-- The values of named components. -/
def fields (W : World) : List (ID × AExpr) → Option (List (PyStr × Val))
  | [] => some []
  | (x, e) :: es => match value W e, fields W es with
    | some v, some vs => some (((joinDot x.parts).lower, v) :: vs)
    | _, _ => none

end

/-- Names without sign. -/
def isName : AExpr → Bool
  | var neg _ => !neg
  | attr neg _ _ => !neg
  | fn _ _ _ => true
  | indexed neg _ _ => !neg
  | sel neg _ _ => !neg
  | call neg _ _ => !neg
  | slice _ _ _ => true
  | conv _ _ => true
  | _ => false

end AExpr

/-- An identifier of Ada: letters, digits and underscores, starting with a letter; no reserved word. -/
def Word (p : PyStr) : Prop :=
  (∃ c s, p = c :: s ∧ c.isDigit = false) ∧ (∀ c ∈ p, wordChar c = true) ∧ keywords.lookup p.lower = none ∧ p.lower ∉ reservedWords

instance (p : PyStr) : Decidable (Word p) := by
  unfold Word
  have : Decidable (∃ c s, p = c :: s ∧ c.isDigit = false) :=
    match p with
    | [] => isFalse (by simp)
    | c :: s => if h : c.isDigit = false then isTrue ⟨c, s, rfl, h⟩ else isFalse (by simpa using h)
  infer_instance

/-- What may follow a dot: an identifier, or `all`. -/
def Part (p : PyStr) : Prop := Word p ∨ p = ['a', 'l', 'l']

instance (p : PyStr) : Decidable (Part p) := by unfold Part; infer_instance

/-- A name of one or more parts; `all` may be one of the parts after the first. -/
def Dotted (i : ID) : Prop := i.parts ≠ [] ∧ (∀ p ∈ i.parts.head?, Word p) ∧ ∀ p ∈ i.parts.tail, Part p

instance (i : ID) : Decidable (Dotted i) := by unfold Dotted; infer_instance

namespace AExpr

/-- The selector of a named component: an identifier or `others`. -/
def Selector (i : ID) : Prop := ∃ x, i.parts = [x] ∧ (Word x ∨ x = ['o', 't', 'h', 'e', 'r', 's'])

/-- The first term of a sum is printed without parentheses. -/
def headOK : List AExpr → Prop
  | [] => False
  | t :: _ => 3 ≤ t.prec

mutual

/-- The expressions whose text is claimed to be right: names are words of Ada, prefixes are names without sign, there are no empty disjunctions,
sums, products and conditional expressions, aggregates have at least two elements, sums do not start with a relation or a logical operation,
the right operand of a membership test is a name, bounds of slices and ranges are neither relations nor logical operations, quantified
expressions range over names (or over ranges, if they are not `for all .. of`) and do not hide `True` or `False`, aggregates with named
components have components and are no operands, case expressions have alternatives and their choices are expressions or `others`. -/
def WF : AExpr → Prop
  | num _ _ => True
  | var _ id => Dotted id
  | attr _ _ pre => WF pre ∧ pre.isName = true
  | fn _ pre e => WF pre ∧ pre.isName = true ∧ WF e
  | indexed _ pre es => WF pre ∧ pre.isName = true ∧ es ≠ [] ∧ WFL es
  | sel _ pre s => WF pre ∧ pre.isName = true ∧ s.parts ≠ [] ∧ ∀ p ∈ s.parts, Part p
  | call _ id args => Dotted id ∧ WFL args
  | slice pre lo hi => WF pre ∧ pre.isName = true ∧ WF lo ∧ WF hi ∧ 3 ≤ lo.prec ∧ 3 ≤ hi.prec
  | not e => WF e ∧ e.hasPrec = true
  | bool op ts => WFL ts ∧ (ts = [] → op.isAnd = true) ∧ ∀ t ∈ ts, t.hasPrec = true
  | add ts => WFL ts ∧ headOK ts ∧ ∀ t ∈ ts, t.hasPrec = true
  | mul ts => WFL ts ∧ ts ≠ [] ∧ ∀ t ∈ ts, t.hasPrec = true
  | bin _ l r => WF l ∧ WF r ∧ l.hasPrec = true ∧ r.hasPrec = true
  | rel op l r => WF l ∧ WF r ∧ (op = .isIn ∨ op = .notIn → r.isName = true) ∧ l.hasPrec = true ∧ r.hasPrec = true
  | agg es => WFL es ∧ 2 ≤ es.length
  | named es => es ≠ [] ∧ WFN es
  | ife arms els => arms ≠ [] ∧ WFP arms ∧ (match els with | none => True | some e => WF e)
  | quant _ p it pr => WF it ∧ it.isName = true ∧ WF pr ∧
      ∃ x, p.parts = [x] ∧ Word x ∧ x.lower ≠ "true".toList ∧ x.lower ≠ "false".toList
  | case c alts => WF c ∧ alts ≠ [] ∧ WFA alts
  | quantR k p lo hi pr => WF lo ∧ WF hi ∧ 3 ≤ lo.prec ∧ 3 ≤ hi.prec ∧ k ≠ .allOf ∧ WF pr ∧
      ∃ x, p.parts = [x] ∧ Word x ∧ x.lower ≠ "true".toList ∧ x.lower ≠ "false".toList
  | conv id e => Dotted id ∧ WF e

/-- `WF` for lists. -/
def WFL : List AExpr → Prop
  | [] => True
  | e :: es => WF e ∧ WFL es

/-- `WF` for alternatives. -/
def WFP : List (AExpr × AExpr) → Prop
  | [] => True
  | (c, e) :: as => WF c ∧ WF e ∧ WFP as

/-- `WF` for the alternatives of a case expression. -/
def WFA : List (AExpr × AExpr) → Prop
  | [] => True
  | (c, e) :: as => (WF c ∨ c.isOthers = true) ∧ WF e ∧ WFA as

/-- `WF` for named components. -/
def WFN : List (ID × AExpr) → Prop
  | [] => True
  | (x, e) :: es => Selector x ∧ WF e ∧ WFN es

end

end AExpr
end Verif.Ada
