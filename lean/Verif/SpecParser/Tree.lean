import Verif.Expr.Syntax

/-! # Expressions from syntax trees: `rflx/specification/parser.py:239-261, 289-480, 572-659, 681-708`

The syntax trees are those of librflxlang, which is not part of the repository: `Tree` has the nodes and texts the functions read. Not
modelled: the nodes `Binding`, `Comprehension`, `Conversion` and `MessageAggregate` (`parser.py:482-491, 588-600, 611-635`), locations. -/

namespace Verif.SpecParser
open Verif

/-- `RESERVED_WORDS`, `rflx/specification/const.py:1-77`. -/
def reservedWords : List PyStr :=
  [['a', 'b', 'o', 'r', 't'], ['a', 'b', 's'], ['a', 'b', 's', 't', 'r', 'a', 'c', 't'], ['a', 'c', 'c', 'e', 'p', 't'],
   ['a', 'c', 'c', 'e', 's', 's'], ['a', 'l', 'i', 'a', 's', 'e', 'd'], ['a', 'l', 'l'], ['a', 'n', 'd'], ['a', 'r', 'r', 'a', 'y'],
   ['a', 't'], ['b', 'e', 'g', 'i', 'n'], ['b', 'o', 'd', 'y'], ['c', 'a', 's', 'e'], ['c', 'o', 'n', 's', 't', 'a', 'n', 't'],
   ['d', 'e', 'c', 'l', 'a', 'r', 'e'], ['d', 'e', 'l', 'a', 'y'], ['d', 'e', 'l', 't', 'a'], ['d', 'i', 'g', 'i', 't', 's'], ['d', 'o'],
   ['e', 'l', 's', 'e'], ['e', 'l', 's', 'i', 'f'], ['e', 'n', 'd'], ['e', 'n', 't', 'r', 'y'],
   ['e', 'x', 'c', 'e', 'p', 't', 'i', 'o', 'n'], ['e', 'x', 'i', 't'], ['f', 'o', 'r'], ['f', 'u', 'n', 'c', 't', 'i', 'o', 'n'],
   ['g', 'e', 'n', 'e', 'r', 'i', 'c'], ['g', 'o', 't', 'o'], ['i', 'f'], ['i', 'n'], ['i', 'n', 't', 'e', 'r', 'f', 'a', 'c', 'e'],
   ['i', 's'], ['l', 'i', 'm', 'i', 't', 'e', 'd'], ['l', 'o', 'o', 'p'], ['m', 'o', 'd'], ['n', 'e', 'w'], ['n', 'o', 't'],
   ['n', 'u', 'l', 'l'], ['o', 'f'], ['o', 'r'], ['o', 't', 'h', 'e', 'r', 's'], ['o', 'u', 't'],
   ['o', 'v', 'e', 'r', 'r', 'i', 'd', 'i', 'n', 'g'], ['p', 'a', 'c', 'k', 'a', 'g', 'e'], ['p', 'r', 'a', 'g', 'm', 'a'],
   ['p', 'r', 'i', 'v', 'a', 't', 'e'], ['p', 'r', 'o', 'c', 'e', 'd', 'u', 'r', 'e'], ['p', 'r', 'o', 't', 'e', 'c', 't', 'e', 'd'],
   ['r', 'a', 'i', 's', 'e'], ['r', 'a', 'n', 'g', 'e'], ['r', 'e', 'c', 'o', 'r', 'd'], ['r', 'e', 'm'],
   ['r', 'e', 'n', 'a', 'm', 'e', 's'], ['r', 'e', 'q', 'u', 'e', 'u', 'e'], ['r', 'e', 't', 'u', 'r', 'n'],
   ['r', 'e', 'v', 'e', 'r', 's', 'e'], ['s', 'e', 'l', 'e', 'c', 't'], ['s', 'e', 'p', 'a', 'r', 'a', 't', 'e'], ['s', 'o', 'm', 'e'],
   ['s', 'u', 'b', 't', 'y', 'p', 'e'], ['s', 'y', 'n', 'c', 'h', 'r', 'o', 'n', 'i', 'z', 'e', 'd'], ['t', 'a', 'g', 'g', 'e', 'd'],
   ['t', 'a', 's', 'k'], ['t', 'e', 'r', 'm', 'i', 'n', 'a', 't', 'e'], ['t', 'h', 'e', 'n'], ['t', 'y', 'p', 'e'],
   ['u', 'n', 't', 'i', 'l'], ['u', 's', 'e'], ['w', 'h', 'e', 'n'], ['w', 'h', 'i', 'l', 'e'], ['w', 'i', 't', 'h'], ['x', 'o', 'r'],
   ['i', 'n', 'i', 't', 'i', 'a', 'l'], ['f', 'i', 'n', 'a', 'l']]

/-- `NullID`: an `UnqualifiedID` with its text, or an `ID` with the texts of `f_package` (if any) and `f_name`. -/
inductive IdNode
  | unqualified (text : PyStr)
  | qualified (package : Option PyStr) (name : PyStr)
deriving DecidableEq, Repr

/-- `create_id`, `rflx/specification/parser.py:239-261`. -/
def createId : IdNode → Py ID
  | .unqualified text => if text.lower ∈ reservedWords then .error .recordFlux else ID.ofStr text
  | .qualified package name => do
    let n ← ID.ofStr name
    match package with
    | none => return n
    | some p => (← ID.ofStr p).mul n

/-- `text.split(c)` for a character. -/
def splitChar (c : Char) : PyStr → List PyStr
  | [] => [[]]
  | d :: s =>
    match splitChar c s with
    | [] => [[d]]
    | p :: ps => if d = c then [] :: p :: ps else (d :: p) :: ps

/-- The value of a digit for `int`. -/
def pyDigit (c : Char) : Option Nat :=
  if '0' ≤ c ∧ c ≤ '9' then some (c.toNat - '0'.toNat)
  else if 'a' ≤ c ∧ c ≤ 'z' then some (c.toNat - 'a'.toNat + 10)
  else if 'A' ≤ c ∧ c ≤ 'Z' then some (c.toNat - 'A'.toNat + 10)
  else none

/-- The digits after the first one in `int(s, base)`: a single underscore may stand between two digits. -/
def pyDigits (base : Nat) : PyStr → Nat → Py Nat
  | [], acc => .ok acc
  | '_' :: c :: s, acc =>
    match pyDigit c with
    | some d => if d < base then pyDigits base s (acc * base + d) else .error .valueError
    | none => .error .valueError
  | c :: s, acc =>
    match pyDigit c with
    | some d => if d < base then pyDigits base s (acc * base + d) else .error .valueError
    | none => .error .valueError

/-- `int(s, base)` for digits without prefix. -/
def pyDigits1 (base : Nat) : PyStr → Py Nat
  | [] => .error .valueError
  | c :: s =>
    match pyDigit c with
    | some d => if d < base then pyDigits base s d else .error .valueError
    | none => .error .valueError

/-- The prefixes `0b`, `0o` and `0x`, which `int` accepts for the bases 2, 8 and 16; an underscore may follow. -/
def dropPrefix (base : Nat) (s : PyStr) : PyStr :=
  let strip (s : PyStr) : PyStr := match s with
    | '_' :: r => r
    | r => r
  match s with
  | '0' :: c :: r =>
    if base = 2 ∧ (c = 'b' ∨ c = 'B') ∨ base = 8 ∧ (c = 'o' ∨ c = 'O') ∨ base = 16 ∧ (c = 'x' ∨ c = 'X') then strip r else s
  | _ => s

/-- Python's `int(s, base)`. Simplifications: signs and surrounding spaces are left out (they do not occur in a numeric literal), only ASCII
digits; `int(s, 0)` is outside of the model. -/
def pyInt (s : PyStr) (base : Nat) : Py Nat :=
  if base = 0 then .error .unmodelled
  else if base < 2 ∨ 36 < base then .error .valueError
  else pyDigits1 base (dropPrefix base s)

/-- The base of `Number`. For all other bases the text of the number raises an exception (`rflx/expression.py:643-644`), this is outside of
the model. -/
def toBase (base : Nat) : Py NBase :=
  match base with
  | 2 => .ok .b2
  | 8 => .ok .b8
  | 10 => .ok .b10
  | 16 => .ok .b16
  | _ => .error .unmodelled

/-- `create_numeric_literal`, `rflx/specification/parser.py:289-297`. -/
def createNumeral (text : PyStr) : Py Expr :=
  match splitChar '#' text with
  | [n] => do
    let v ← pyInt n 10
    return .num v .b0
  | [b, n, _] => do
    let base ← pyInt b 10
    let v ← pyInt n base
    return .num v (← toBase base)
  | _ => .error .notImplemented

/-- The kinds of `f_op`, `rflx/specification/parser.py:300-365`. -/
inductive Op | pow | add | sub | mul | div | mod | lt | gt | le | ge | and | or | isIn | notIn | eq | neq
deriving DecidableEq, Repr

/-- The syntax trees of expressions; the comments of `create` give the kinds of nodes. -/
inductive Tree
  | numeral (text : PyStr)
  | paren (e : Tree)
  | var (id : IdNode)
  | attribute (k : AttrKind) (e : Tree)
  | aggregate (es : List Tree)
  | string (text : PyStr)
  | call (id : IdNode) (args : List Tree)
  | quantified (exist : Bool) (p : IdNode) (it pr : Tree)
  | negation (e : Tree)
  | concatenation (l r : Tree)
  | select (e : Tree) (s : IdNode)
  | binop (op : Op) (l r : Tree)
deriving Inhabited

/-- `create_expression`, `create_math_expression` and `create_bool_expression` differ in their tables of handlers. -/
inductive Mode | any | math | bool
deriving DecidableEq, Repr

/-- `MATH_OPERATIONS`, `rflx/specification/parser.py:333-340`. -/
def mathOperation : Op → Option (Expr → Expr → Expr)
  | .pow => some (.bin .pow)
  | .add => some fun l r => .add [l, r]
  | .sub => some (.bin .sub)
  | .mul => some fun l r => .mul [l, r]
  | .div => some (.bin .div)
  | .mod => some (.bin .mod)
  | _ => none

/-- `MATH_COMPARISONS`, `rflx/specification/parser.py:355-360`. -/
def mathComparison : Op → Option (Expr → Expr → Expr)
  | .lt => some (.rel .lt)
  | .gt => some (.rel .gt)
  | .le => some (.rel .le)
  | .ge => some (.rel .ge)
  | _ => none

/-- `BOOLEAN_OPERATIONS`, `rflx/specification/parser.py:362-365`. -/
def booleanOperation : Op → Option (Expr → Expr → Expr)
  | .and => some fun l r => .bool .and [l, r]
  | .or => some fun l r => .bool .or [l, r]
  | _ => none

/-- `OPERATIONS`, `rflx/specification/parser.py:300-305`. -/
def operation : Op → Option (Expr → Expr → Expr)
  | .isIn => some (.rel .isIn)
  | .notIn => some (.rel .notIn)
  | .eq => some (.rel .eq)
  | .neq => some (.rel .ne)
  | _ => none

/-- The constructor for an operator and the function that creates its operands: `create_binop`, `create_math_binop` and `create_bool_binop`,
`rflx/specification/parser.py:308-330, 343-352, 368-389`. -/
def binop (m : Mode) (op : Op) : Py ((Expr → Expr → Expr) × Mode) :=
  match m with
  | .any =>
    match operation op, booleanOperation op, mathOperation op, mathComparison op with
    | some c, _, _, _ => .ok (c, .any)
    | _, some c, _, _ => .ok (c, .any)
    | _, _, some c, _ => .ok (c, .math)
    | _, _, _, some c => .ok (c, .math)
    | _, _, _, _ => .error .notImplemented
  | .math =>
    match mathOperation op with
    | some c => .ok (c, .math)
    | none => .error .notImplemented
  | .bool =>
    match mathComparison op, booleanOperation op, operation op with
    | some c, _, _ => .ok (c, .math)
    | _, some c, _ => .ok (c, .bool)
    | _, _, some c => .ok (c, .any)
    | _, _, _ => .error .notImplemented

/-- `create_math_attribute` (`rflx/specification/parser.py:411-421`) and `create_attribute` (`parser.py:424-444`). There is no node for the
attribute `Length`. -/
def createAttribute (m : Mode) (k : AttrKind) (inner : Expr) : Py Expr :=
  match m, k with
  | _, .last => .ok (.attr false .last inner)
  | _, .first => .ok (.attr false .first inner)
  | _, .size => .ok (.attr false .size inner)
  | .math, _ => .error .notImplemented
  | _, .length => .error .notImplemented
  | _, k => .ok (.attr false k inner)

/-- `create_string_literal`, `rflx/specification/parser.py:454-458`, and `String.__init__` (`rflx/expression.py:1476-1479`): an aggregate of
the codes of the characters. Simplification: that the object is printed as a text is left out. -/
def createString (text : PyStr) : Py Expr :=
  match splitChar '"' text with
  | _ :: s :: _ => .ok (.agg (s.map fun c => .num c.toNat .b0))
  | _ => .error .indexError

/-- `create_negation`, `rflx/specification/parser.py:572-575`, for the operand. -/
def negated : Expr → Py Expr
  | .num v b => .ok (.num (-v) b)
  | _ => .error .assertion

/-- `create_concatenation`, `rflx/specification/parser.py:578-585`, for the operands. -/
def concatenated : Expr → Expr → Py Expr
  | .agg es, .agg fs => .ok (.agg (es ++ fs))
  | _, _ => .error .assertion

mutual

/-- `create_expression`, `create_math_expression` and `create_bool_expression`, `rflx/specification/parser.py:638-659, 681-708`: a node
without handler gives a `KeyError`. -/
def create (m : Mode) : Tree → Py Expr
  -- `NumericLiteral`
  | .numeral text => if m = .bool then .error .keyError else createNumeral text
  -- `ParenExpression`, `parser.py:392-401`
  | .paren e => create m e
  -- `Variable`, `parser.py:404-408`
  | .var id => (createId id).map fun i => .var false false i
  -- `Attribute`
  | .attribute k e => (create .any e).bind (createAttribute m k)
  -- `ArrayAggregate`, `parser.py:447-451`
  | .aggregate es => if m = .bool then .error .keyError else (createL .math es).map .agg
  -- `StringLiteral`
  | .string text => if m = .any then createString text else .error .keyError
  -- `Call`, `parser.py:461-466`
  | .call id args => (createId id).bind fun i => (createL .any args).map fun as => .call false i as
  -- `QuantifiedExpression`, `parser.py:469-480`
  | .quantified exist p it pr =>
    if m = .math then .error .keyError
    else (createId p).bind fun i => (create .any it).bind fun a => (create .any pr).map fun b =>
      .quant (if exist then .someIn else .allIn) i a b
  -- `Negation`
  | .negation e => if m = .bool then .error .keyError else (create .math e).bind negated
  -- `Concatenation`
  | .concatenation l r =>
    if m = .any then (create .any l).bind fun a => (create .any r).bind fun b => concatenated a b else .error .keyError
  -- `SelectNode`, `parser.py:603-608`
  | .select e s => (create .any e).bind fun a => (createId s).map fun i => .sel false a i
  -- `BinOp`
  | .binop op l r => (binop m op).bind fun c => (create c.2 l).bind fun a => (create c.2 r).map fun b => c.1 a b

/-- `[create(e) for e in es]`. -/
def createL (m : Mode) : List Tree → Py (List Expr)
  | [] => .ok []
  | e :: es => (create m e).bind fun a => (createL m es).map fun as => a :: as

end

end Verif.SpecParser
