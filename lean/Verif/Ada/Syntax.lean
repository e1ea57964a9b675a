import Verif.Expr.Print

/-! # Ada expressions and their text (`rflx/ada.py:15-719`)

Not modelled: `String` (`rflx/ada.py:489-500`). `ValueRange` (694-705) is modelled as iterable of a quantified expression (`quantR`) and as the
only element of `Indexed`, which has the same text as `Slice` (`slice`); these are the places where it is used. The cache `_str` is not modelled: `_str` is computed from attributes that do not change. -/

namespace Verif.Ada
open Verif

/-- The attributes `Size` to `Valid`, `rflx/ada.py:350-383`. -/
inductive Attr | size | length | first | last | range | old | result | constrained | valid
deriving DecidableEq, Repr

/-- `Val` and `Pos`, `rflx/ada.py:398-403`. -/
inductive AttrFn | val | pos
deriving DecidableEq, Repr

/-- Expressions, `rflx/ada.py`: `Number` (193-220), `Variable` (311-325), `Attribute` (332-347), `AttributeExpr` (386-395; it has no flag
`negative`, because the parameter `negative` is ignored), `Indexed` (406-418), `Selected` (421-437), `Call` (440-460), `Slice` (463-472),
`Not` (83-93), `And`, `AndThen`, `Or`, `OrElse` (137-190), `Add` (223-239), `Mul` (242-249), `Sub`, `Div`, `Pow`, `Mod` (252-289), the
relations (517-568), `Aggregate` (475-486), `NamedAggregate` (501-514), `IfExpr` (578-600), `CaseExpr` (611-633), quantified expressions
(636-691; `quantR` with a `ValueRange`), `Conversion` (708-719). -/
inductive AExpr where
  | num (v : Int) (base : NBase)
  | var (neg : Bool) (id : ID)
  | attr (neg : Bool) (k : Attr) (pre : AExpr)
  | fn (k : AttrFn) (pre e : AExpr)
  | indexed (neg : Bool) (pre : AExpr) (es : List AExpr)
  | sel (neg : Bool) (pre : AExpr) (s : ID)
  | call (neg : Bool) (id : ID) (args : List AExpr)
  | slice (pre lo hi : AExpr)
  | not (e : AExpr)
  | bool (op : BoolOp) (ts : List AExpr)
  | add (ts : List AExpr)
  | mul (ts : List AExpr)
  | bin (op : ArithOp) (l r : AExpr)
  | rel (op : RelOp) (l r : AExpr)
  | agg (es : List AExpr)
  | named (es : List (ID × AExpr))
  | ife (arms : List (AExpr × AExpr)) (els : Option AExpr)
  | case (c : AExpr) (alts : List (AExpr × AExpr))
  | quant (k : QKind) (p : ID) (it pr : AExpr)
  | quantR (k : QKind) (p : ID) (lo hi pr : AExpr)
  | conv (id : ID) (e : AExpr)
deriving Inhabited

/-- `".".join(parts)`: `ID.__str__` (`rflx/identifier.py:52-53`) with the separator of `rflx/ada.py:15-18`. -/
def joinDot : List PyStr → PyStr
  | [] => []
  | [p] => p
  | p :: q :: ps => p ++ '.' :: joinDot (q :: ps)

/-- `str(identifier)` for an `ada.ID`. -/
def dotted (i : ID) : PyStr := joinDot i.parts

/-- `self.__class__.__name__`, `rflx/ada.py:347, 350-383`. -/
def Attr.str : Attr → PyStr
  | .size => ['S', 'i', 'z', 'e']
  | .length => ['L', 'e', 'n', 'g', 't', 'h']
  | .first => ['F', 'i', 'r', 's', 't']
  | .last => ['L', 'a', 's', 't']
  | .range => ['R', 'a', 'n', 'g', 'e']
  | .old => ['O', 'l', 'd']
  | .result => ['R', 'e', 's', 'u', 'l', 't']
  | .constrained => ['C', 'o', 'n', 's', 't', 'r', 'a', 'i', 'n', 'e', 'd']
  | .valid => ['V', 'a', 'l', 'i', 'd']

/-- `self.__class__.__name__`, `rflx/ada.py:395, 398-403`. -/
def AttrFn.str : AttrFn → PyStr
  | .val => ['V', 'a', 'l']
  | .pos => ['P', 'o', 's']

/-- `symbol`, `rflx/ada.py:166-190`; the texts are those of `rflx/expression.py`. -/
def boolSymbol : BoolOp → PyStr
  | .and => [' ', 'a', 'n', 'd', ' ']
  | .andThen => [' ', 'a', 'n', 'd', ' ', 't', 'h', 'e', 'n', ' ']
  | .or => [' ', 'o', 'r', ' ']
  | .orElse => [' ', 'o', 'r', ' ', 'e', 'l', 's', 'e', ' ']

/-- `symbol`, `rflx/ada.py:257-289`. -/
def arithSymbol : ArithOp → PyStr
  | .sub => [' ', '-', ' ']
  | .div => [' ', '/', ' ']
  | .pow => ['*', '*']
  | .mod => [' ', 'm', 'o', 'd', ' ']

/-- `symbol`, `rflx/ada.py:523-568`. -/
def relSymbol : RelOp → PyStr
  | .lt => [' ', '<', ' ']
  | .le => [' ', '<', '=', ' ']
  | .eq => [' ', '=', ' ']
  | .ge => [' ', '>', '=', ' ']
  | .gt => [' ', '>', ' ']
  | .ne => [' ', '/', '=', ' ']
  | .isIn => [' ', 'i', 'n', ' ']
  | .notIn => [' ', 'n', 'o', 't', ' ', 'i', 'n', ' ']

/-- `quantifier` and `keyword`, `rflx/ada.py:664-691`. -/
def quantWords : QKind → PyStr × PyStr
  | .allOf => (['a', 'l', 'l'], ['o', 'f'])
  | .allIn => (['a', 'l', 'l'], ['i', 'n'])
  | .someIn => (['s', 'o', 'm', 'e'], ['i', 'n'])

/-- `precedence`, `rflx/ada.py:253-285`. -/
def arithPrec : ArithOp → Nat
  | .sub => 3
  | .div => 5
  | .pow => 6
  | .mod => 5

/-- The arguments in `Call._representation`, `rflx/ada.py:456-458`: the parentheses depend on the text of the arguments. -/
def callArgs (s : PyStr) : PyStr := if s.isEmpty then [] else [' ', '('] ++ s ++ [')']

namespace AExpr

mutual

/-- `==`, `rflx/common.py:7-18`: same class and same attributes; identifiers are compared without regard to case. -/
def eqb : AExpr → AExpr → Bool
  | num v b, num v' b' => v = v' && b = b'
  | var n i, var n' i' => n = n' && i.eq i'
  | attr n k p, attr n' k' p' => n = n' && k = k' && eqb p p'
  | fn k p e, fn k' p' e' => k = k' && eqb p p' && eqb e e'
  | indexed n p es, indexed n' p' es' => n = n' && eqb p p' && eqbL es es'
  | sel n p s, sel n' p' s' => n = n' && eqb p p' && s.eq s'
  | call n i es, call n' i' es' => n = n' && i.eq i' && eqbL es es'
  | slice p l h, slice p' l' h' => eqb p p' && eqb l l' && eqb h h'
  | not e, not e' => eqb e e'
  | bool o ts, bool o' ts' => o = o' && eqbL ts ts'
  | add ts, add ts' => eqbL ts ts'
  | mul ts, mul ts' => eqbL ts ts'
  | bin o l r, bin o' l' r' => o = o' && eqb l l' && eqb r r'
  | rel o l r, rel o' l' r' => o = o' && eqb l l' && eqb r r'
  | agg es, agg es' => eqbL es es'
  | named es, named es' => eqbN es es'
  | ife as none, ife as' none => eqbP as as'
  | ife as (some e), ife as' (some e') => eqbP as as' && eqb e e'
  | case c as, case c' as' => eqb c c' && eqbP as as'
  | quant k p i e, quant k' p' i' e' => k = k' && p.eq p' && eqb i i' && eqb e e'
  | quantR k p l h e, quantR k' p' l' h' e' => k = k' && p.eq p' && eqb l l' && eqb h h' && eqb e e'
  | conv i e, conv i' e' => i.eq i' && eqb e e'
  | _, _ => false

/-- `==` of lists. -/
def eqbL : List AExpr → List AExpr → Bool
  | [], [] => true
  | e :: es, e' :: es' => eqb e e' && eqbL es es'
  | _, _ => false

/-- `==` of lists of pairs. -/
def eqbP : List (AExpr × AExpr) → List (AExpr × AExpr) → Bool
  | [], [] => true
  | (c, e) :: es, (c', e') :: es' => eqb c c' && eqb e e' && eqbP es es'
  | _, _ => false

/-- `==` of lists of named elements. -/
def eqbN : List (ID × AExpr) → List (ID × AExpr) → Bool
  | [], [] => true
  | (x, e) :: es, (x', e') :: es' => x.eq x' && eqb e e' && eqbN es es'
  | _, _ => false

end

/-- `precedence`, `rflx/ada.py:44-52` and the property of each class. -/
def prec : AExpr → Nat
  | bool .. => 1
  | rel .. => 2
  | add _ => 3
  | mul _ => 5
  | bin op _ _ => arithPrec op
  | not _ => 6
  | _ => 7

/-- Whether the property `precedence` exists: that of `NamedAggregate` raises `NotImplementedError`, `rflx/ada.py:512-514`. -/
def hasPrec : AExpr → Bool
  | named _ => false
  | _ => true

/-- `parenthesized`, `rflx/ada.py:77-80`; `p` is the precedence of the enclosing operator, `s` the text of `e`. -/
def parens (p : Nat) (e : AExpr) (s : PyStr) : PyStr :=
  if e.prec ≤ p then '(' :: indentNext s 1 ++ [')'] else s

/-- `(isinstance(t, Number) and t.value < 0) or (isinstance(t, Name) and t.negative)`, `rflx/ada.py:227`. -/
def isNegative : AExpr → Bool
  | num v _ => v < 0
  | var neg _ => neg
  | attr neg _ _ => neg
  | indexed neg _ _ => neg
  | sel neg _ _ => neg
  | call neg _ _ => neg
  | _ => false

mutual

/-- `str(self)` (`flip = false`), `_update_str` of every class. With `flip = true` the text of `-self` for numbers and negative names, needed
by `Add._update_str` (`rflx/ada.py:228`). An empty sum has no text, see `raises`. -/
def strF (flip : Bool) : AExpr → PyStr
  | num v b => if flip then intStr (-v) .b0 else intStr v b
  | var neg id => wrapNeg (neg ^^ flip) (dotted id)
  | attr neg k pre => wrapNeg (neg ^^ flip) (strF false pre ++ '\'' :: k.str)
  | fn k pre e => strF false pre ++ '\'' :: k.str ++ [' ', '('] ++ strF false e ++ [')']
  | indexed neg pre es => wrapNeg (neg ^^ flip) (strF false pre ++ [' ', '('] ++ joinComma (strL es) ++ [')'])
  | sel neg pre s => wrapNeg (neg ^^ flip) (strF false pre ++ '.' :: dotted s)
  | call neg id args =>
    wrapNeg (neg ^^ flip) (dotted id ++ callArgs (joinComma (strL args)))
  | slice pre lo hi => strF false pre ++ [' ', '('] ++ strF false lo ++ [' ', '.', '.', ' '] ++ strF false hi ++ [')']
  | not e => ['n', 'o', 't', ' '] ++ parens 6 e (strF false e)
  | bool op ts =>
    match ts with
    | [] => ['T', 'r', 'u', 'e']
    | t :: ts => parens 1 t (strF false t) ++ strBoolTail op ts
  | add ts =>
    match ts with
    | [] => []
    | t :: ts => strF false t ++ strAddTail ts
  | mul ts =>
    match ts with
    | [] => []
    | t :: ts => parens 5 t (strF false t) ++ strMulTail ts
  | bin op l r => parens (arithPrec op) l (strF false l) ++ arithSymbol op ++ parens (arithPrec op) r (strF false r)
  | rel op l r => parens 2 l (strF false l) ++ relSymbol op ++ parens 2 r (strF false r)
  | agg es => '(' :: joinComma (strL es) ++ [')']
  | named es => '(' :: joinComma (strN es) ++ [')']
  | ife arms els =>
    (match arms with
      | [] => []
      | (c, e) :: as =>
        ['(', 'i', 'f', '\n'] ++ indent (strF false c) 4 ++ ['\n', ' ', 't', 'h', 'e', 'n', '\n'] ++ indent (strF false e) 4 ++ strArms as) ++
    (match els with
      | none => []
      | some e => ['\n', ' ', 'e', 'l', 's', 'e', '\n'] ++ indent (strF false e) 4) ++ [')']
  | case c alts =>
    ['(', 'c', 'a', 's', 'e', ' '] ++ strF false c ++ [' ', 'i', 's'] ++ indent (strAlts none alts) 4 ++ [')']
  | quant k p it pr =>
    ['(', 'f', 'o', 'r', ' '] ++ (quantWords k).1 ++ ' ' :: dotted p ++ ' ' :: (quantWords k).2 ++ ' ' :: strF false it
      ++ [' ', '=', '>', '\n'] ++ indent (strF false pr) 4 ++ [')']
  | quantR k p lo hi pr =>
    ['(', 'f', 'o', 'r', ' '] ++ (quantWords k).1 ++ ' ' :: dotted p ++ ' ' :: (quantWords k).2 ++ ' ' :: strF false lo ++
      [' ', '.', '.', ' '] ++ strF false hi ++ [' ', '=', '>', '\n'] ++ indent (strF false pr) 4 ++ [')']
  | conv id e => dotted id ++ [' ', '('] ++ strF false e ++ [')']

/-- `map(str, elements)`. -/
def strL : List AExpr → List PyStr
  | [] => []
  | e :: es => strF false e :: strL es

/-- The terms after the first in `BoolAssExpr._update_str`, `rflx/ada.py:138-153`. -/
def strBoolTail (op : BoolOp) : List AExpr → PyStr
  | [] => []
  | t :: ts =>
    '\n' :: (boolSymbol op).tail ++ indentNext (parens 1 t (strF false t)) ((boolSymbol op).length - 1) ++ strBoolTail op ts

/-- The terms after the first in `Add._update_str`, `rflx/ada.py:226-230`. -/
def strAddTail : List AExpr → PyStr
  | [] => []
  | t :: ts =>
    (if t.isNegative then [' ', '-', ' '] ++ strF true t else [' ', '+', ' '] ++ parens 3 t (strF false t)) ++ strAddTail ts

/-- The terms after the first in `AssExpr._update_str` for `Mul`, `rflx/ada.py:123-124`. -/
def strMulTail : List AExpr → PyStr
  | [] => []
  | t :: ts => [' ', '*', ' '] ++ parens 5 t (strF false t) ++ strMulTail ts

/-- The alternatives after the first in `IfExpr._update_str`, `rflx/ada.py:591-592`. -/
def strArms : List (AExpr × AExpr) → PyStr
  | [] => []
  | (c, e) :: as =>
    ['\n', ' ', 'e', 'l', 's', 'i', 'f', '\n'] ++ indent (strF false c) 4 ++ ['\n', ' ', 't', 'h', 'e', 'n', '\n'] ++
      indent (strF false e) 4 ++ strArms as

/-- The elements in `NamedAggregate._update_str`, `rflx/ada.py:508`. -/
def strN : List (ID × AExpr) → List PyStr
  | [] => []
  | (x, e) :: es => (dotted x ++ [' ', '=', '>', ' '] ++ strF false e) :: strN es

/-- The alternatives in `CaseExpr._update_str`, `rflx/ada.py:619-628`: adjacent alternatives with equal expressions are joined
(`itertools.groupby`). `key` is the first expression of the group an alternative belongs to, with its text, or `none` for the first one of
a group; the last alternative of a group is followed by the expression. -/
def strAlts (key : Option (AExpr × PyStr)) : List (AExpr × AExpr) → PyStr
  | [] => []
  | (c, e) :: as =>
    (if key.isNone then ['\n', 'w', 'h', 'e', 'n', ' '] else [' ', '|', ' ']) ++ strF false c ++
      (match as with
        | [] => [' ', '=', '>', '\n'] ++ indent (key.getD (e, strF false e)).2 3
        | (c', e') :: as' =>
          if eqb (key.getD (e, strF false e)).1 e' then strAlts (some (key.getD (e, strF false e))) ((c', e') :: as')
          else [' ', '=', '>', '\n'] ++ indent (key.getD (e, strF false e)).2 3 ++ ',' :: strAlts none ((c', e') :: as'))

end

/-- Reading `precedence` in `parenthesized`, `rflx/ada.py:77-80`; `x` is the exception raised by `str(e)`, which comes after. -/
def operand (e : AExpr) (x : Option PyErr) : Option PyErr := if e.hasPrec then x else some .notImplemented

mutual

/-- The exception that `str` raises: `self.terms[0]` of an empty sum (`rflx/ada.py:225`) raises `IndexError`, the precedence of a named
aggregate that is an operand raises `NotImplementedError`. The texts are computed from left to right, those of
the operands of logical operators from right to left (143), those of the control expression of a case expression at the end. -/
def raises : AExpr → Option PyErr
  | num _ _ => none
  | var _ _ => none
  | attr _ _ pre => raises pre
  | fn _ pre e => raises pre <|> raises e
  | indexed _ pre es => raises pre <|> raisesL es
  | sel _ pre _ => raises pre
  | call _ _ args => raisesL args
  | slice pre lo hi => raises pre <|> raises lo <|> raises hi
  | not e => operand e (raises e)
  | bool _ ts => raisesR ts
  | add ts =>
    match ts with
    | [] => some .indexError
    | t :: ts => raises t <|> raisesO ts
  | mul ts => raisesO ts
  | bin _ l r => operand l (raises l) <|> operand r (raises r)
  | rel _ l r => operand l (raises l) <|> operand r (raises r)
  | agg es => raisesL es
  | named es => raisesN es
  | ife arms els => raisesP arms <|> (match els with | none => none | some e => raises e)
  | case c alts => raisesC alts <|> raisesE alts <|> raises c
  | quant _ _ it pr => raises it <|> raises pr
  | quantR _ _ lo hi pr => raises lo <|> raises hi <|> raises pr
  | conv _ e => raises e

/-- `raises` for lists. -/
def raisesL : List AExpr → Option PyErr
  | [] => none
  | e :: es => raises e <|> raisesL es

/-- `raises` for operands. -/
def raisesO : List AExpr → Option PyErr
  | [] => none
  | e :: es => operand e (raises e) <|> raisesO es

/-- `raises` for operands, from right to left. -/
def raisesR : List AExpr → Option PyErr
  | [] => none
  | e :: es => raisesR es <|> operand e (raises e)

/-- `raises` for the choices of alternatives. -/
def raisesC : List (AExpr × AExpr) → Option PyErr
  | [] => none
  | (c, _) :: as => raises c <|> raisesC as

/-- `raises` for the expressions of alternatives. -/
def raisesE : List (AExpr × AExpr) → Option PyErr
  | [] => none
  | (_, e) :: as => raises e <|> raisesE as

/-- `raises` for alternatives. -/
def raisesP : List (AExpr × AExpr) → Option PyErr
  | [] => none
  | (c, e) :: as => raises c <|> raises e <|> raisesP as

/-- `raises` for named elements. -/
def raisesN : List (ID × AExpr) → Option PyErr
  | [] => none
  | (_, e) :: es => raises e <|> raisesN es

end

/-- `str(self)`, `rflx/ada.py:58-63`. -/
def str (e : AExpr) : Py PyStr := match e.raises with | some x => .error x | none => .ok (strF false e)

/-- `Val(prefix, expression, negative)` and `Pos(prefix, expression, negative)`, `rflx/ada.py:386-403`: `negative` is not passed on. -/
def mkFn (k : AttrFn) (pre e : AExpr) (_negative : Bool) : AExpr := .fn k pre e

/-- `condition == TRUE`, `rflx/ada.py:573` with `Base.__eq__` (`rflx/common.py:7-18`), which also compares `_str`. -/
def isTrue : AExpr → Bool
  | var false id => id.eq ⟨[['T', 'r', 'u', 'e']]⟩
  | _ => false

/-- `If(condition_expressions, else_expression)`, `rflx/ada.py:571-575`. -/
def mkIf (arms : List (AExpr × AExpr)) (els : Option AExpr) : AExpr :=
  match arms with
  | [(c, e)] => if c.isTrue then e else .ife arms els
  | _ => .ife arms els

/-- `choice == Variable("others")`, `rflx/ada.py:605`. -/
def isOthers : AExpr → Bool
  | var false id => id.eq ⟨[['o', 't', 'h', 'e', 'r', 's']]⟩
  | _ => false

/-- `Case(control_expression, case_expressions)`, `rflx/ada.py:603-608`. -/
def mkCase (c : AExpr) (alts : List (AExpr × AExpr)) : AExpr :=
  match alts with
  | [(x, e)] => if x.isOthers then e else .case c alts
  | _ => .case c alts

end AExpr
end Verif.Ada
