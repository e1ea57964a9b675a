import Verif.Expr.Semantics
import Verif.Expr.WF

/-! # Reading Ada text

An independent specification: the lexical elements of Ada (ARM 2), the syntax of expressions (ARM 4.1-4.5) and their values. Nothing here
refers to `rflx/ada.py`. Left out: character and string literals, comments (a comment is an element that no expression contains), real
literals, ranges in memberships. -/

namespace Verif.Ada
open Verif

/-! ## Lexical elements -/

/-- Lexical elements. Identifiers are given in lower case: Ada is case-insensitive. `reserved` are the reserved words that do not occur in the
expressions described here. -/
inductive Tok
  | ident (x : PyStr) | num (n : Nat) | reserved (x : PyStr) | other (c : Char) | comment
  | and | then_ | or | else_ | not | mod | in_ | for_ | all | some | of | if_ | elsif | range
  | lpar | rpar | comma | tick | dot | dots | plus | minus | star | slash | pow | lt | le | eq | ge | gt | ne | arrow
  | semi | colon | bar | assign | box
deriving DecidableEq, Repr

/-- The reserved words that occur in expressions. -/
def keywords : List (PyStr × Tok) :=
  [("and".toList, .and), ("then".toList, .then_), ("or".toList, .or), ("else".toList, .else_), ("not".toList, .not), ("mod".toList, .mod),
   ("in".toList, .in_), ("for".toList, .for_), ("all".toList, .all), ("some".toList, .some), ("of".toList, .of), ("if".toList, .if_),
   ("elsif".toList, .elsif), ("range".toList, .range)]

/-- The other reserved words (ARM 2.9). -/
def reservedWords : List PyStr :=
  ["abort", "abs", "abstract", "accept", "access", "aliased", "array", "at", "begin", "body", "case", "constant", "declare", "delay",
   "delta", "digits", "do", "end", "entry", "exception", "exit", "function", "generic", "goto", "interface", "is", "limited", "loop",
   "new", "null", "others", "out", "overriding", "package", "pragma", "private", "procedure", "protected", "raise", "record", "rem",
   "renames", "requeue", "return", "reverse", "select", "separate", "subtype", "synchronized", "tagged", "task", "terminate", "type",
   "until", "use", "when", "while", "with", "xor"].map String.toList

/-- The value of a digit. -/
def digitValue (c : Char) : Nat :=
  ['0', '1', '2', '3', '4', '5', '6', '7', '8', '9', 'A', 'B', 'C', 'D', 'E', 'F'].idxOf c

/-- The value of digits in a base. -/
def valueIn (b : Nat) (s : PyStr) : Nat := s.foldl (fun a c => a * b + digitValue c) 0

/-- The value of a numeric literal: digits, or base and digits, `base#digits#`. -/
def literal (w : PyStr) : Nat :=
  if w.contains '#' then valueIn (valueIn 10 (w.takeWhile (· ≠ '#'))) ((w.dropWhile (· ≠ '#')).tail.dropLast) else valueIn 10 w

/-- The element given by a sequence of letters, digits, underscores and `#`. -/
def word (w : PyStr) : Tok :=
  match w with
  | [] => .ident []
  | c :: _ =>
    if c.isDigit then .num (literal w)
    else match keywords.lookup w.lower with
      | some t => t
      | none => if w.lower ∈ reservedWords then .reserved w.lower else .ident w.lower

/-- Characters of words and numbers. -/
def inWord (c : Char) : Bool := wordChar c || c == '#'

/-- Delimiters of two characters, and the start of a comment. -/
def compound (c d : Char) : Option Tok :=
  if c = '*' ∧ d = '*' then some .pow
  else if c = '/' ∧ d = '=' then some .ne
  else if c = '<' ∧ d = '=' then some .le
  else if c = '>' ∧ d = '=' then some .ge
  else if c = '=' ∧ d = '>' then some .arrow
  else if c = '.' ∧ d = '.' then some .dots
  else if c = '-' ∧ d = '-' then some .comment
  else if c = ':' ∧ d = '=' then some .assign
  else if c = '<' ∧ d = '>' then some .box
  else none

/-- Delimiters of one character; white space separates. -/
def single (c : Char) : List Tok :=
  if c = ' ' ∨ c = '\n' then []
  else if c = '(' then [.lpar]
  else if c = ')' then [.rpar]
  else if c = ',' then [.comma]
  else if c = '\'' then [.tick]
  else if c = '.' then [.dot]
  else if c = '+' then [.plus]
  else if c = '-' then [.minus]
  else if c = '*' then [.star]
  else if c = '/' then [.slash]
  else if c = '<' then [.lt]
  else if c = '=' then [.eq]
  else if c = '>' then [.gt]
  else if c = ';' then [.semi]
  else if c = ':' then [.colon]
  else if c = '|' then [.bar]
  else [.other c]

/-- The end of a word. -/
def endWord (cur : PyStr) : List Tok := if cur.isEmpty then [] else [word cur]

/-- The lexical elements of a text; `cur` is the beginning of a word. -/
def scan (cur : PyStr) : PyStr → List Tok
  | [] => endWord cur
  | [c] => if inWord c then [word (cur ++ [c])] else endWord cur ++ single c
  | c :: d :: s =>
    if inWord c then scan (cur ++ [c]) (d :: s)
    else match compound c d with
      | some t => endWord cur ++ t :: scan [] s
      | none => endWord cur ++ single c ++ scan [] (d :: s)

/-- The lexical elements of a text. -/
def elements (s : PyStr) : List Tok := scan [] s

/-! ## Syntax -/

/-- Binary adding, multiplying and exponentiation operators. -/
inductive MathOp | add | sub | mul | div | mod | pow
deriving DecidableEq, Repr

/-- Syntax trees. `id`, `sel`, `attr`, `app` and `slice` are names: `x`, `n.x`, `n'x`, `n (x, y)`, `n (x .. y)`. `cond` is a conditional
expression, `agg` a positional aggregate (and a list of expressions), `named` an aggregate with named components. The alternatives of a case
expression are a chain of `alt`, each with its choices; `others` is a choice. `range` is a range of a quantified expression. -/
inductive Tree where
  | num (n : Nat)
  | id (x : PyStr)
  | sel (t : Tree) (x : PyStr)
  | attr (t : Tree) (x : PyStr)
  | app (t : Tree) (args : List Tree)
  | slice (t lo hi : Tree)
  | agg (es : List Tree)
  | named (es : List (PyStr × Tree))
  | neg (t : Tree)
  | not (t : Tree)
  | math (op : MathOp) (l r : Tree)
  | rel (op : RelOp) (l r : Tree)
  | bool (op : BoolOp) (l r : Tree)
  | cond (c t : Tree) (e : Option Tree)
  | case (c alts : Tree)
  | alt (choices : List Tree) (e : Tree) (next : Option Tree)
  | others
  | quant (k : QKind) (x : PyStr) (it pr : Tree)
  | range (lo hi : Tree)

/-- Logical operators. -/
def logical : BoolOp → List Tok
  | .and => [.and]
  | .andThen => [.and, .then_]
  | .or => [.or]
  | .orElse => [.or, .else_]

/-- Relational operators and membership tests. -/
def relational : RelOp → List Tok
  | .lt => [.lt]
  | .le => [.le]
  | .eq => [.eq]
  | .ge => [.ge]
  | .gt => [.gt]
  | .ne => [.ne]
  | .isIn => [.in_]
  | .notIn => [.not, .in_]

/-- Quantifiers. -/
def quantifier : QKind → Tok × Tok
  | .allOf => (.all, .of)
  | .allIn => (.all, .in_)
  | .someIn => (.some, .in_)

/-- The multiplying operators. -/
def MathOp.multiplying : MathOp → Option Tok
  | .mul => some .star
  | .div => some .slash
  | .mod => some .mod
  | _ => none

/-- The binary adding operators. -/
def MathOp.adding : MathOp → Option Tok
  | .add => some .plus
  | .sub => some .minus
  | _ => none

/-- The syntactic categories of ARM 4.4: `expression`, `relation`, `simple_expression`, `term`, `factor`, `primary`, `name`; a sequence of
relations joined by one logical operator (`chain`); a list of expressions (`list`); what follows `if` in a conditional expression (`cond`);
named associations (`assocs`); the alternatives of a case expression (`alts`), their choices (`choices`, `choice`). -/
inductive Cat | expression | chain (op : BoolOp) | relation | simple | term | factor | primary | name | list | cond
  | assocs | alts | choices | choice

/-- A reserved word. -/
def kw (w : String) : Tok := .reserved w.toList

/-- The selector of a component association: a name or `others`. -/
def selector : Tok → Option PyStr
  | .ident x => some x
  | .reserved x => if x = "others".toList then some x else none
  | _ => none

/-- The syntax of expressions, ARM 4.1 (names), 4.3 (aggregates), 4.4 (expressions), 4.5.7, 4.5.8 (conditional and quantified expressions,
for which the parentheses are required; case expressions: 3.8.1 for the choices). An explicit dereference `n.all` is given as a component.
Operators of the same precedence are grouped from left to right (ARM 4.5). -/
inductive Reads : Cat → List Tok → Tree → Prop
  | relation {ts t} : Reads .relation ts t → Reads .expression ts t
  | chain {op ts t} : Reads (.chain op) ts t → Reads .expression ts t
  | two {op ts us t u} : Reads .relation ts t → Reads .relation us u → Reads (.chain op) (ts ++ logical op ++ us) (.bool op t u)
  | more {op ts us t u} : Reads (.chain op) ts t → Reads .relation us u → Reads (.chain op) (ts ++ logical op ++ us) (.bool op t u)
  | simple {ts t} : Reads .simple ts t → Reads .relation ts t
  | compare {op ts us t u} : Reads .simple ts t → Reads .simple us u → Reads .relation (ts ++ relational op ++ us) (.rel op t u)
  | term {ts t} : Reads .term ts t → Reads .simple ts t
  | minus {ts t} : Reads .term ts t → Reads .simple (.minus :: ts) (.neg t)
  | adding {op o ts us t u} : op.adding = some o → Reads .simple ts t → Reads .term us u → Reads .simple (ts ++ o :: us) (.math op t u)
  | factor {ts t} : Reads .factor ts t → Reads .term ts t
  | multiplying {op o ts us t u} : op.multiplying = some o → Reads .term ts t → Reads .factor us u →
      Reads .term (ts ++ o :: us) (.math op t u)
  | primary {ts t} : Reads .primary ts t → Reads .factor ts t
  | power {ts us t u} : Reads .primary ts t → Reads .primary us u → Reads .factor (ts ++ .pow :: us) (.math .pow t u)
  | not {ts t} : Reads .primary ts t → Reads .factor (.not :: ts) (.not t)
  | num {n} : Reads .primary [.num n] (.num n)
  | name {ts t} : Reads .name ts t → Reads .primary ts t
  | paren {ts t} : Reads .expression ts t → Reads .primary (.lpar :: ts ++ [.rpar]) t
  | aggregate {ts es} : Reads .list ts (.agg es) → 2 ≤ es.length → Reads .primary (.lpar :: ts ++ [.rpar]) (.agg es)
  | conditional {ts t} : Reads .cond ts t → Reads .primary (.lpar :: .if_ :: ts ++ [.rpar]) t
  | quantified {k x ts us t u} : Reads .name ts t → Reads .expression us u →
      Reads .primary (.lpar :: .for_ :: (quantifier k).1 :: .ident x :: (quantifier k).2 :: ts ++ .arrow :: us ++ [.rpar]) (.quant k x t u)
  | quantifiedRange {k x ts us vs t u v} : k ≠ .allOf → Reads .simple ts t → Reads .simple us u → Reads .expression vs v →
      Reads .primary (.lpar :: .for_ :: (quantifier k).1 :: .ident x :: (quantifier k).2 :: ts ++ .dots :: us ++ .arrow :: vs ++ [.rpar])
        (.quant k x (.range t u) v)
  | caseOf {ts us t u} : Reads .expression ts t → Reads .alts us u →
      Reads .primary (.lpar :: kw "case" :: ts ++ kw "is" :: us ++ [.rpar]) (.case t u)
  | named {ts t} : Reads .assocs ts t → Reads .primary (.lpar :: ts ++ [.rpar]) t
  | ident {x} : Reads .name [.ident x] (.id x)
  | selected {x ts t} : Reads .name ts t → Reads .name (ts ++ [.dot, .ident x]) (.sel t x)
  | dereference {ts t} : Reads .name ts t → Reads .name (ts ++ [.dot, .all]) (.sel t "all".toList)
  | attribute {x ts t} : Reads .name ts t → Reads .name (ts ++ [.tick, .ident x]) (.attr t x)
  | range {ts t} : Reads .name ts t → Reads .name (ts ++ [.tick, .range]) (.attr t "range".toList)
  | apply {ts us t es} : Reads .name ts t → Reads .list us (.agg es) → Reads .name (ts ++ .lpar :: us ++ [.rpar]) (.app t es)
  | slice {ts us vs t u v} : Reads .name ts t → Reads .simple us u → Reads .simple vs v →
      Reads .name (ts ++ .lpar :: us ++ .dots :: vs ++ [.rpar]) (.slice t u v)
  | one {ts t} : Reads .expression ts t → Reads .list ts (.agg [t])
  | cons {ts us t es} : Reads .expression ts t → Reads .list us (.agg es) → Reads .list (ts ++ .comma :: us) (.agg (t :: es))
  | then_ {ts us c t} : Reads .expression ts c → Reads .expression us t → Reads .cond (ts ++ .then_ :: us) (.cond c t none)
  | else_ {ts us vs c t e} : Reads .expression ts c → Reads .expression us t → Reads .expression vs e →
      Reads .cond (ts ++ .then_ :: us ++ .else_ :: vs) (.cond c t (some e))
  | elsif {ts us vs c t e} : Reads .expression ts c → Reads .expression us t → Reads .cond vs e →
      Reads .cond (ts ++ .then_ :: us ++ .elsif :: vs) (.cond c t (some e))
  | assoc {k x ts t} : selector k = some x → Reads .expression ts t → Reads .assocs (k :: .arrow :: ts) (.named [(x, t)])
  | assocs {k x ts us t es} : selector k = some x → Reads .expression ts t → Reads .assocs us (.named es) →
      Reads .assocs (k :: .arrow :: ts ++ .comma :: us) (.named ((x, t) :: es))
  | alt {ts us cs u} : Reads .choices ts (.agg cs) → Reads .expression us u →
      Reads .alts (kw "when" :: ts ++ .arrow :: us) (.alt cs u none)
  | alts {ts us vs cs u v} : Reads .choices ts (.agg cs) → Reads .expression us u → Reads .alts vs v →
      Reads .alts (kw "when" :: ts ++ .arrow :: us ++ .comma :: vs) (.alt cs u (some v))
  | choice {ts t} : Reads .choice ts t → Reads .choices ts (.agg [t])
  | choices {ts us t cs} : Reads .choice ts t → Reads .choices us (.agg cs) → Reads .choices (ts ++ .bar :: us) (.agg (t :: cs))
  | chosen {ts t} : Reads .expression ts t → Reads .choice ts t
  | others : Reads .choice [kw "others"] .others

/-! ## Values -/

/-- The meaning of names: an identifier, a component of a prefix, an attribute of a prefix, an application of a prefix to arguments (call,
indexing, conversion), a slice, a record with named components. `lit` is the meaning of a parameter with a value. -/
structure World where
  Ent : Type
  id : PyStr → Ent
  sel : Ent → PyStr → Ent
  attr : Ent → PyStr → Ent
  app : Ent → List Val → Ent
  slice : Ent → Int → Int → Ent
  record : List (PyStr × Val) → Ent
  lit : Val → Ent
  val : Ent → Option Val

/-- The parameter of a quantified expression. -/
def World.bind (W : World) (x : PyStr) (v : Val) : World := { W with id := fun y => if y = x then W.lit v else W.id y }

/-- The values of arithmetic operators; division truncates towards zero, `mod` has the sign of the divisor (ARM 4.5.5). -/
def MathOp.eval : MathOp → Int → Int → Option Int
  | .add, a, b => some (a + b)
  | .sub, a, b => some (a - b)
  | .mul, a, b => some (a * b)
  | .div, a, b => if b = 0 then none else some (Int.tdiv a b)
  | .mod, a, b => if b = 0 then none else some (Int.fmod a b)
  | .pow, a, b => if b < 0 then none else some (a ^ b.toNat)

/-- An arithmetic operator applied to values. -/
def mathVal (op : MathOp) : Option Val → Option Val → Option Val
  | some (.int a), some (.int b) => (op.eval a b).map .int
  | _, _ => none

/-- A relation applied to values. The second operand of a membership test has to be a name (a subtype or a range): any other expression would
be compared with the first operand. -/
def relVal (op : RelOp) (name : Bool) : Option Val → Option Val → Option Val
  | some a, some b => if name || (op ≠ .isIn && op ≠ .notIn) then (op.eval a b).map .bool else none
  | _, _ => none

/-- Logical operators; the short-circuit forms do not need the second operand if the first one decides. -/
def boolVal : BoolOp → Option Val → Option Val → Option Val
  | .and, some (.bool a), some (.bool b) => some (.bool (a && b))
  | .or, some (.bool a), some (.bool b) => some (.bool (a || b))
  | .andThen, some (.bool false), _ => some (.bool false)
  | .andThen, some (.bool true), some (.bool b) => some (.bool b)
  | .orElse, some (.bool true), _ => some (.bool true)
  | .orElse, some (.bool false), some (.bool b) => some (.bool b)
  | _, _, _ => none

/-- `not`. -/
def notVal : Option Val → Option Val
  | some (.bool b) => some (.bool !b)
  | _ => none

/-- The sign `-`. -/
def negVal : Option Val → Option Val
  | some (.int a) => some (.int (-a))
  | _ => none

/-- A conditional expression; without `else` it is true if the condition is false. -/
def condVal (c : Option Val) (t : Option Val) (e : Option (Option Val)) : Option Val :=
  match c with
  | some (.bool true) => t
  | some (.bool false) => e.getD (some (.bool true))
  | _ => none

/-- A positional aggregate of integers. -/
def aggVal (vs : Option (List Val)) : Option Val := (vs.bind (allSome Val.int?)).map .seq

/-- A quantified expression over the values of a name. -/
def quantVal (k : QKind) (it : Option Val) (pr : Int → Option Val) : Option Val :=
  match it with
  | some (.seq xs) => (allSome (fun x => (pr x).bind Val.bool?) xs).map fun bs => .bool (if k = .someIn then bs.any id else bs.all id)
  | _ => none

/-- An alternative of a case expression: its value if a choice is met, the value of the other alternatives otherwise. -/
def altVal : Option Bool → Option Val → Option Val → Option Val
  | some true, v, _ => v
  | some false, _, v => v
  | none, _, _ => none

/-- The values of a range. -/
def rangeVal : Option Val → Option Val → Option Val
  | some (.int a), some (.int b) => some (.seq ((List.range (b + 1 - a).toNat).map fun (i : Nat) => a + (i : Int)))
  | _, _ => none

/-- A slice with integer bounds. -/
def sliceEnt (W : World) : Option W.Ent → Option Val → Option Val → Option W.Ent
  | some n, some (.int a), some (.int b) => some (W.slice n a b)
  | _, _, _ => none

/-- An application. -/
def appEnt (W : World) : Option W.Ent → Option (List Val) → Option W.Ent
  | some n, some vs => some (W.app n vs)
  | _, _ => none

/-- The form of a name. -/
def Tree.isName : Tree → Bool
  | .id _ | .sel _ _ | .attr _ _ | .app _ _ | .slice _ _ _ => true
  | _ => false

mutual

/-- The meaning of a name. -/
def Tree.ent (W : World) : Tree → Option W.Ent
  | .id x => some (W.id x)
  | .sel t x => (t.ent W).map fun n => W.sel n x
  | .attr t x => (t.ent W).map fun n => W.attr n x
  | .app t args => appEnt W (t.ent W) (Tree.values W args)
  | .slice t lo hi => sliceEnt W (t.ent W) (lo.value W) (hi.value W)
  | _ => none

/-- The value of a tree. -/
def Tree.value (W : World) : Tree → Option Val
  | .num n => some (.int n)
  | .id x => W.val (W.id x)
  | .sel t x => (t.ent W).bind fun n => W.val (W.sel n x)
  | .attr t x => (t.ent W).bind fun n => W.val (W.attr n x)
  | .app t args => (appEnt W (t.ent W) (Tree.values W args)).bind W.val
  | .slice t lo hi => (sliceEnt W (t.ent W) (lo.value W) (hi.value W)).bind W.val
  | .agg es => aggVal (Tree.values W es)
  | .neg t => negVal (t.value W)
  | .not t => notVal (t.value W)
  | .math op l r => mathVal op (l.value W) (r.value W)
  | .rel op l r => relVal op r.isName (l.value W) (r.value W)
  | .bool op l r => boolVal op (l.value W) (r.value W)
  | .cond c t e => condVal (c.value W) (t.value W) (match e with | none => none | some e => some (e.value W))
  | .named es => (Tree.fields W es).bind fun vs => W.val (W.record vs)
  | .case c alts => (c.value W).bind fun v => alts.select W v
  | .alt .. => none
  | .others => none
  | .quant k x it pr => quantVal k (it.value W) fun v => pr.value (W.bind x (.int v))
  | .range lo hi => rangeVal (lo.value W) (hi.value W)

/-- The value of the first alternative with a choice that has the value `v`. -/
def Tree.select (W : World) (v : Val) : Tree → Option Val
  | .alt choices e none => altVal (Tree.covers W v choices) (e.value W) none
  | .alt choices e (some a) => altVal (Tree.covers W v choices) (e.value W) (a.select W v)
  | _ => none

/-- Whether one of the choices is `others` or has the value `v`. -/
def Tree.covers (W : World) (v : Val) : List Tree → Option Bool
  | [] => some false
  | .others :: _ => some true
  | t :: ts => (t.value W).bind fun u => if u = v then some true else Tree.covers W v ts

/-- The values of named components. -/
def Tree.fields (W : World) : List (PyStr × Tree) → Option (List (PyStr × Val))
  | [] => some []
  | (x, t) :: ts => match t.value W, Tree.fields W ts with
    | some v, some vs => some ((x, v) :: vs)
    | _, _ => none

/-- The values of a list. -/
def Tree.values (W : World) : List Tree → Option (List Val)
  | [] => some []
  | t :: ts => match t.value W, Tree.values W ts with
    | some v, some vs => some (v :: vs)
    | _, _ => none

end

end Verif.Ada
