import Verif.Expr.Syntax

/-! # `str` and `==` of expressions (`rflx/expression.py`) -/

namespace Verif

/-- `indent_next`, `rflx/common.py:63-64`. -/
def indentNext (s : PyStr) (k : Nat) : PyStr :=
  s.flatMap (fun c => if c = '\n' then '\n' :: List.replicate k ' ' else [c])

/-- `string.split("\n")`, used by `rflx/common.py:60`. -/
def splitLines : PyStr → List PyStr
  | [] => [[]]
  | c :: s =>
    if c = '\n' then [] :: splitLines s
    else match splitLines s with
      | [] => [[c]]
      | l :: ls => (c :: l) :: ls

/-- `"\n".join(lines)`, used by `rflx/common.py:60`. -/
def joinLines : List PyStr → PyStr
  | [] => []
  | [l] => l
  | l :: m :: ls => l ++ '\n' :: joinLines (m :: ls)

/-- `indent`, `rflx/common.py:59-60`. -/
def indent (s : PyStr) (k : Nat) : PyStr :=
  joinLines ((splitLines s).map (fun l => if l.isEmpty then [] else List.replicate k ' ' ++ l))

/-- `", ".join(parts)`, used by `rflx/expression.py:1371,1435`. -/
def joinComma : List PyStr → PyStr
  | [] => []
  | [l] => l
  | l :: m :: ls => l ++ ',' :: ' ' :: joinComma (m :: ls)

/-- Digit characters as printed by `format` (`X` prints upper case letters). -/
def digitChar (d : Nat) : Char := ['0', '1', '2', '3', '4', '5', '6', '7', '8', '9', 'A', 'B', 'C', 'D', 'E', 'F'].getD d '0'

/-- Digits of a number in a base, most significant first; fuel bounds the number of digits. -/
def digitsAux (b : Nat) : Nat → Nat → PyStr
  | 0, m => [digitChar (m % b)]
  | fuel + 1, m => if m < b then [digitChar m] else digitsAux b fuel (m / b) ++ [digitChar (m % b)]

/-- `"{}".format`, `"{:b}".format`, `"{:o}".format`, `"{:X}".format` on natural numbers. A number
has at most as many digits as its value plus one. -/
def digits (b m : Nat) : PyStr := digitsAux b m m

/-- `Number._update_str` for a non-negative value, `rflx/expression.py:631-645`. -/
def natStr (b : NBase) (m : Nat) : PyStr :=
  match b with
  | .b0 => digits 10 m
  | .b2 => ['2', '#'] ++ digits 2 m ++ ['#']
  | .b8 => ['8', '#'] ++ digits 8 m ++ ['#']
  | .b10 => ['1', '0', '#'] ++ digits 10 m ++ ['#']
  | .b16 => ['1', '6', '#'] ++ digits 16 m ++ ['#']

/-- `f"(-{s})" if negative else s`, `rflx/expression.py:645,982`. -/
def wrapNeg (neg : Bool) (s : PyStr) : PyStr := if neg then ['(', '-'] ++ s ++ [')'] else s

/-- `Number._update_str`, `rflx/expression.py:631-645`. -/
def intStr (v : Int) (b : NBase) : PyStr := wrapNeg (v < 0) (natStr b v.natAbs)

/-- Class name printed by `Attribute.representation`, `rflx/expression.py:1073,1143`. -/
def AttrKind.str : AttrKind → PyStr
  | .size => ['S', 'i', 'z', 'e']
  | .length => ['L', 'e', 'n', 'g', 't', 'h']
  | .first => ['F', 'i', 'r', 's', 't']
  | .last => ['L', 'a', 's', 't']
  | .validChecksum => ['V', 'a', 'l', 'i', 'd', '_', 'C', 'h', 'e', 'c', 'k', 's', 'u', 'm']
  | .valid => ['V', 'a', 'l', 'i', 'd']
  | .present => ['P', 'r', 'e', 's', 'e', 'n', 't']
  | .head => ['H', 'e', 'a', 'd']
  | .opaque => ['O', 'p', 'a', 'q', 'u', 'e']

/-- `symbol` of the boolean operators, `rflx/expression.py:557,574,602,619`. -/
def BoolOp.symbol : BoolOp → PyStr
  | .and => [' ', 'a', 'n', 'd', ' ']
  | .andThen => [' ', 'a', 'n', 'd', ' ', 't', 'h', 'e', 'n', ' ']
  | .or => [' ', 'o', 'r', ' ']
  | .orElse => [' ', 'o', 'r', ' ', 'e', 'l', 's', 'e', ' ']

/-- `symbol` of the binary arithmetic operators, `rflx/expression.py:870,898,926,954`. -/
def ArithOp.symbol : ArithOp → PyStr
  | .sub => [' ', '-', ' ']
  | .div => [' ', '/', ' ']
  | .pow => ['*', '*']
  | .mod => [' ', 'm', 'o', 'd', ' ']

/-- `symbol` of the relations, `rflx/expression.py:1542-1730`. -/
def RelOp.symbol : RelOp → PyStr
  | .lt => [' ', '<', ' ']
  | .le => [' ', '<', '=', ' ']
  | .eq => [' ', '=', ' ']
  | .ge => [' ', '>', '=', ' ']
  | .gt => [' ', '>', ' ']
  | .ne => [' ', '/', '=', ' ']
  | .isIn => [' ', 'i', 'n', ' ']
  | .notIn => [' ', 'n', 'o', 't', ' ', 'i', 'n', ' ']

/-- `quantifier` and `keyword`, `rflx/expression.py:1829-1861`. -/
def QKind.words : QKind → PyStr × PyStr
  | .allOf => (['a', 'l', 'l'], ['o', 'f'])
  | .allIn => (['a', 'l', 'l'], ['i', 'n'])
  | .someIn => (['s', 'o', 'm', 'e'], ['i', 'n'])

/-- `precedence` of the binary arithmetic operators, `rflx/expression.py:859,887,915,943`. -/
def ArithOp.prec : ArithOp → Nat
  | .sub => 3
  | .div => 5
  | .pow => 6
  | .mod => 5

namespace Expr

/-- `precedence`, `rflx/expression.py:25-33` and the property of each class. -/
def prec : Expr → Nat
  | bool .. => 1
  | rel .. => 2
  | add _ => 3
  | mul _ => 5
  | bin op _ _ => op.prec
  | not _ => 6
  | _ => 7

/-- `parenthesized`, `rflx/expression.py:177-180`; `p` is the precedence of the enclosing operator,
`s` the text of `e`. -/
def parens (p : Nat) (e : Expr) (s : PyStr) : PyStr :=
  if e.prec ≤ p then '(' :: indentNext s 1 ++ [')'] else s

/-- `(isinstance(t, Number) and t.value < 0) or (isinstance(t, Name) and t.negative)`,
`rflx/expression.py:761`. -/
def isNegative : Expr → Bool
  | num v _ => v < 0
  | var neg _ _ => neg
  | attr neg _ _ => neg
  | sel neg _ _ => neg
  | call neg _ _ => neg
  | _ => false

mutual

/-- `str(self)` (`flip = false`), `_update_str` of every class. With `flip = true` the text of
`-self` for numbers and names, needed by `Add._update_str` (`rflx/expression.py:762`). -/
def strF (flip : Bool) : Expr → PyStr
  | tru => ['T', 'r', 'u', 'e']
  | fls => ['F', 'a', 'l', 's', 'e']
  | undefined => ['_', '_', 'U', 'N', 'D', 'E', 'F', 'I', 'N', 'E', 'D', '_', '_']
  | num v b => if flip then intStr (-v) .b0 else intStr v b
  | var neg _ id => wrapNeg (neg ^^ flip) id.str
  | attr neg k pre => wrapNeg (neg ^^ flip) (strF false pre ++ '\'' :: k.str)
  | sel neg pre s => wrapNeg (neg ^^ flip) (strF false pre ++ '.' :: s.str)
  | call neg id args =>
    wrapNeg (neg ^^ flip)
      (id.str ++ (if args.isEmpty then [] else [' ', '('] ++ joinComma (strL args) ++ [')']))
  | not e => ['n', 'o', 't', ' '] ++ parens 6 e (strF false e)
  | bool op ts =>
    match ts with
    | [] => ['T', 'r', 'u', 'e']
    | t :: ts => parens 1 t (strF false t) ++ strBoolTail op ts
  | add ts =>
    match ts with
    | [] => ['0']
    | t :: ts => strF false t ++ strAddTail ts
  | mul ts =>
    match ts with
    | [] => ['1']
    | t :: ts => parens 5 t (strF false t) ++ strMulTail ts
  | bin op l r => parens op.prec l (strF false l) ++ op.symbol ++ parens op.prec r (strF false r)
  | rel op l r => parens 2 l (strF false l) ++ op.symbol ++ parens 2 r (strF false r)
  | agg es => '[' :: joinComma (strL es) ++ [']']
  | quant k p it pr =>
    ['(', 'f', 'o', 'r', ' '] ++ k.words.1 ++ ' ' :: p.str ++ ' ' :: k.words.2 ++ ' ' :: strF false it
      ++ [' ', '=', '>', '\n'] ++ indent (strF false pr) 4 ++ [')']

/-- `map(str, elements)`. -/
def strL : List Expr → List PyStr
  | [] => []
  | e :: es => strF false e :: strL es

/-- The terms after the first in `BoolAssExpr._update_str`, `rflx/expression.py:503-512`. -/
def strBoolTail (op : BoolOp) : List Expr → PyStr
  | [] => []
  | t :: ts =>
    '\n' :: op.symbol.tail ++ indentNext (parens 1 t (strF false t)) (op.symbol.length - 1)
      ++ strBoolTail op ts

/-- The terms after the first in `Add._update_str`, `rflx/expression.py:760-764`. -/
def strAddTail : List Expr → PyStr
  | [] => []
  | t :: ts =>
    (if t.isNegative then [' ', '-', ' '] ++ strF true t
     else [' ', '+', ' '] ++ parens 3 t (strF false t)) ++ strAddTail ts

/-- The terms after the first in `AssExpr._update_str` for `Mul`, `rflx/expression.py:378-383`. -/
def strMulTail : List Expr → PyStr
  | [] => []
  | t :: ts => [' ', '*', ' '] ++ parens 5 t (strF false t) ++ strMulTail ts

end

/-- `str(self)`. -/
def str (e : Expr) : PyStr := strF false e

/-- `a == b`: `Expr.__eq__` (`rflx/expression.py:89-92`), `Number.__eq__` (691-696),
`Variable.__eq__` (1024-1027), with Python's fallback to the reflected comparison and finally to
identity when neither class is a subclass of the other. -/
def eq (a b : Expr) : Bool :=
  (a.cls.sub b.cls || b.cls.sub a.cls) &&
  match a, b with
  | num x _, num y _ => x == y
  | var n1 _ i, var n2 _ j => n1 == n2 && i.eq j
  | a, b => a.str == b.str

end Expr
end Verif
