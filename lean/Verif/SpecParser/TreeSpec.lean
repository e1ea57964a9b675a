import Verif.SpecParser.Tree
import Verif.Expr.Semantics

/-! # What the text of an expression means

An independent specification: nothing here refers to the functions of the parser. Values of names are given by an environment. -/

namespace Verif.SpecParser
open Verif

/-! ## Numerals and names -/

/-- `c` is the digit with the value `d`. -/
def IsDigit (c : Char) (d : Nat) : Prop :=
  ['0', '1', '2', '3', '4', '5', '6', '7', '8', '9', 'A', 'B', 'C', 'D', 'E', 'F'][d]? = some c ∨
  ['0', '1', '2', '3', '4', '5', '6', '7', '8', '9', 'a', 'b', 'c', 'd', 'e', 'f'][d]? = some c

/-- Digits of the base `b`, with single underscores in between. -/
inductive Digits (b : Nat) : PyStr → List Nat → Prop
  | one {c d} : IsDigit c d → d < b → Digits b [c] [d]
  | cons {c d s ds} : IsDigit c d → d < b → Digits b s ds → Digits b (c :: s) (d :: ds)
  | underscore {c d s ds} : IsDigit c d → d < b → Digits b s ds → Digits b (c :: '_' :: s) (d :: ds)

/-- The number with the given digits, the first digit is the most significant one. -/
def positional (b : Nat) (ds : List Nat) : Nat := ds.foldl (fun a d => a * b + d) 0

/-- `12_000` and `16#2E_E0#`: numerals and their values. -/
inductive Numeral : PyStr → Nat → Prop
  | decimal {s ds} : Digits 10 s ds → Numeral s (positional 10 ds)
  | based {bs b s ds} : Digits 10 bs b → 2 ≤ positional 10 b → positional 10 b ≤ 16 → Digits (positional 10 b) s ds →
      Numeral (bs ++ '#' :: s ++ ['#']) (positional (positional 10 b) ds)

/-- A name, without regard to case. -/
def IdNode.key : IdNode → List PyStr
  | .unqualified t => [PyStr.lower t]
  | .qualified none n => [PyStr.lower n]
  | .qualified (some p) n => [PyStr.lower p, PyStr.lower n]

/-- The text of an identifier. -/
def IsName (t : PyStr) : Prop := t ≠ [] ∧ ' ' ∉ t ∧ '.' ∉ t ∧ ':' ∉ t

/-- The parts of a name are identifiers. -/
def IdNode.Lexical : IdNode → Prop
  | .unqualified t => IsName t
  | .qualified none n => IsName n
  | .qualified (some p) n => IsName p ∧ IsName n

/-- A name that is not a reserved word. -/
def IdNode.Free : IdNode → Prop
  | .unqualified t => PyStr.lower t ∉ reservedWords
  | .qualified _ _ => True

/-! ## Values -/

/-- What the operators mean. -/
def Op.apply (D : Division) : Op → Val → Val → Option Val
  | .add, .int a, .int b => some (.int (a + b))
  | .sub, .int a, .int b => some (.int (a - b))
  | .mul, .int a, .int b => some (.int (a * b))
  | .div, .int a, .int b => if b = 0 then none else some (.int (D.div a b))
  | .pow, .int a, .int b => if b < 0 then none else some (.int (a ^ b.toNat))
  | .mod, .int a, .int b => if b = 0 then none else some (.int (Int.fmod a b))
  | .lt, .int a, .int b => some (.bool (a < b))
  | .gt, .int a, .int b => some (.bool (a > b))
  | .le, .int a, .int b => some (.bool (a ≤ b))
  | .ge, .int a, .int b => some (.bool (a ≥ b))
  | .and, .bool a, .bool b => some (.bool (a && b))
  | .or, .bool a, .bool b => some (.bool (a || b))
  | .isIn, .int a, .seq b => some (.bool (a ∈ b))
  | .notIn, .int a, .seq b => some (.bool (a ∉ b))
  | .eq, .int a, .int b => some (.bool (a = b))
  | .eq, .bool a, .bool b => some (.bool (a = b))
  | .eq, .seq a, .seq b => some (.bool (a = b))
  | .neq, .int a, .int b => some (.bool (a ≠ b))
  | .neq, .bool a, .bool b => some (.bool (a ≠ b))
  | .neq, .seq a, .seq b => some (.bool (a ≠ b))
  | _, _, _ => none

/-- A name, possibly in parentheses. -/
def Tree.name? : Tree → Option IdNode
  | .var id => some id
  | .paren e => e.name?
  | _ => none

mutual

/-- `Means D ρ t v`: the expression `t` has the value `v` if the names have the values `ρ`. -/
inductive Means (D : Division) : Env → Tree → Val → Prop
  | numeral {ρ s n} : Numeral s n → Means D ρ (.numeral s) (.int n)
  | paren {ρ e v} : Means D ρ e v → Means D ρ (.paren e) v
  | var {ρ id} : Means D ρ (.var id) (ρ.var id.key)
  | attribute {ρ k e id} : e.name? = some id → Means D ρ (.attribute k e) (ρ.attr k id.key)
  | aggregate {ρ es xs} : MeansL D ρ es (xs.map .int) → Means D ρ (.aggregate es) (.seq xs)
  | string {ρ} (s : PyStr) : Means D ρ (.string ('"' :: s ++ ['"'])) (.seq (s.map fun c => (c.toNat : Int)))
  | name {ρ id} : Means D ρ (.call id []) (ρ.var id.key)
  | call {ρ id a as vs} : MeansL D ρ (a :: as) vs → Means D ρ (.call id (a :: as)) (ρ.call id.key vs)
  | all {ρ p it pr xs bs} : Means D ρ it (.seq xs) → MeansQ D ρ p pr xs bs → Means D ρ (.quantified false p it pr) (.bool (bs.all id))
  | exist {ρ p it pr xs bs} : Means D ρ it (.seq xs) → MeansQ D ρ p pr xs bs → Means D ρ (.quantified true p it pr) (.bool (bs.any id))
  | negation {ρ e i} : Means D ρ e (.int i) → Means D ρ (.negation e) (.int (-i))
  | concatenation {ρ l r a b} : Means D ρ l (.seq a) → Means D ρ r (.seq b) → Means D ρ (.concatenation l r) (.seq (a ++ b))
  | select {ρ e s id} : e.name? = some id → Means D ρ (.select e s) (ρ.sel id.key s.key)
  | binop {ρ op l r a b v} : Means D ρ l a → Means D ρ r b → op.apply D a b = some v → Means D ρ (.binop op l r) v

/-- The values of a list of expressions. -/
inductive MeansL (D : Division) : Env → List Tree → List Val → Prop
  | nil {ρ} : MeansL D ρ [] []
  | cons {ρ e es v vs} : Means D ρ e v → MeansL D ρ es vs → MeansL D ρ (e :: es) (v :: vs)

/-- The truth values of a predicate for the values of its parameter. -/
inductive MeansQ (D : Division) : Env → IdNode → Tree → List Int → List Bool → Prop
  | nil {ρ p pr} : MeansQ D ρ p pr [] []
  | cons {ρ p pr x xs b bs} : Means D (ρ.set p.key (.int x)) pr (.bool b) → MeansQ D ρ p pr xs bs → MeansQ D ρ p pr (x :: xs) (b :: bs)

end

/-! ## Trees of texts -/

mutual

/-- What the lexical analysis ensures: identifiers, numerals and string literals have the right form. -/
def Lexical : Tree → Prop
  | .numeral s => ∃ n, Numeral s n
  | .paren e => Lexical e
  | .var id => id.Lexical
  | .attribute _ e => Lexical e
  | .aggregate es => LexicalL es
  | .string s => ∃ t, s = '"' :: t ++ ['"'] ∧ '"' ∉ t
  | .call id args => id.Lexical ∧ LexicalL args
  | .quantified _ p it pr => p.Lexical ∧ Lexical it ∧ Lexical pr
  | .negation e => Lexical e
  | .concatenation l r => Lexical l ∧ Lexical r
  | .select e s => Lexical e ∧ s.Lexical
  | .binop _ l r => Lexical l ∧ Lexical r

/-- `Lexical` for lists. -/
def LexicalL : List Tree → Prop
  | [] => True
  | e :: es => Lexical e ∧ LexicalL es

end

/-- Numbers. -/
def IsNumber : Tree → Prop
  | .numeral _ => True
  | .paren e => IsNumber e
  | .negation e => IsNumber e
  | _ => False

/-- Sequences given by their elements. -/
def IsSequence : Tree → Prop
  | .aggregate _ => True
  | .string _ => True
  | .paren e => IsSequence e
  | .concatenation l r => IsSequence l ∧ IsSequence r
  | _ => False

/-- A decimal numeral or one of the bases 2, 8, 10 or 16. -/
def IsPrintable (s : PyStr) : Prop :=
  '#' ∉ s ∨ ∃ b ∈ [['2'], ['8'], ['1', '0'], ['1', '6']], ∃ r, s = b ++ '#' :: r

/-- Attributes that are numbers of bits. -/
def isBitAttribute : AttrKind → Bool
  | .first | .last | .size => true
  | _ => false

/-- Operands of arithmetic and of order relations are numbers, operands of `and` and `or` are as the whole, other operands are anything. -/
def operandMode (m : Mode) : Op → Mode
  | .pow | .add | .sub | .mul | .div | .mod | .lt | .gt | .le | .ge => .math
  | .and | .or => m
  | .isIn | .notIn | .eq | .neq => .any

mutual

/-- The expressions that the parser supports: only numbers can be negated, only aggregates and strings can be concatenated, only `First`,
`Last` and `Size` can be operands of arithmetic, numbers have one of four bases, names are not reserved, and predicates have truth values. `m` tells where the
expression stands: as operand of arithmetic (`math`), as a condition (`bool`) or elsewhere. -/
def Supported : Mode → Tree → Prop
  | _, .numeral s => IsPrintable s
  | m, .paren e => Supported m e
  | _, .var id => id.Free
  | m, .attribute k e => (m = .math → isBitAttribute k = true) ∧ k ≠ .length ∧ Supported .any e
  | _, .aggregate es => SupportedL .math es
  | _, .string _ => True
  | _, .call id args => id.Free ∧ SupportedL .any args
  | _, .quantified _ p it pr => p.Free ∧ Supported .any it ∧ Supported .any pr ∧ ∃ D ρ b, Means D ρ pr (.bool b)
  | _, .negation e => IsNumber e ∧ Supported .math e
  | _, .concatenation l r => IsSequence l ∧ IsSequence r ∧ Supported .any l ∧ Supported .any r
  | _, .select e s => Supported .any e ∧ s.Free
  | m, .binop op l r => Supported (operandMode m op) l ∧ Supported (operandMode m op) r

/-- `Supported` for lists. -/
def SupportedL : Mode → List Tree → Prop
  | _, [] => True
  | m, e :: es => Supported m e ∧ SupportedL m es

end

/-- The kind of value that is expected at a place. -/
def Fits : Mode → Val → Prop
  | .any, _ => True
  | .math, v => ∃ i, v = .int i
  | .bool, v => ∃ b, v = .bool b

end Verif.SpecParser
