import Verif.Expr.Subst
import Verif.Bits.Model

/-! # Scalar types (`rflx/model/type_.py`)

A constructor collects errors and the object is used only after `error.propagate()`
(`rflx/model/model.py:46-49`), so a constructor is modelled together with that call: it returns the object
if there is no error and raises `RecordFluxError` otherwise. Messages and locations are not modelled. -/

namespace Verif.Types

open Verif

/-- An object of class `Number`, `rflx/expression.py:625-645`. -/
structure Num where
  v : Int
  base : NBase
deriving DecidableEq, Repr

/-- The number as an expression. -/
def Num.expr (n : Num) : Expr := .num n.v n.base

/-- `Number(v)`, `rflx/expression.py:626-629`. -/
def Num.n (v : Int) : Num := ⟨v, .b0⟩

/-- `isinstance(e, expr.Number)`, used at `rflx/model/type_.py:57,93,179,187,203,361`. -/
def asNum : Expr → Option Num
  | .num v b => some ⟨v, b⟩
  | _ => none

/-- Python's `int.bit_length`, used at `rflx/model/type_.py:120,233,381`. -/
def bitLength (n : Int) : Nat := if n = 0 then 0 else n.natAbs.log2 + 1

/-- Python's `a & b` on integers (two's complement with infinitely many digits), used at
`rflx/model/type_.py:111`. -/
def pyAnd : Int → Int → Int
  | .ofNat a, .ofNat b => (a &&& b : Nat)
  | .ofNat a, .negSucc b => (a ^^^ (a &&& b) : Nat)
  | .negSucc a, .ofNat b => (b ^^^ (b &&& a) : Nat)
  | .negSucc a, .negSucc b => .negSucc (a ||| b)

/-- `Type.__init__`, `rflx/model/type_.py:15-30`: the check of the identifier; `true` is an error. -/
def badId (id : ID) : Bool := id.parts.length != 2

/-- `ModularInteger`, `rflx/model/type_.py:87-120`. -/
structure ModInt where
  id : ID
  modulus : Expr
  size : Expr
deriving Repr

/-- `ModularInteger.__init__`, `rflx/model/type_.py:88-120`. -/
def ModInt.new (id : ID) (modulus : Expr) : Py ModInt := do
  let modulusNum ← modulus.simplified
  match asNum modulusNum with
  | none => .error .recordFlux
  | some m =>
    if badId id || m.v > 2 ^ 64 || (m.v == 0 || pyAnd m.v (m.v - 1) != 0) then .error .recordFlux
    else .ok ⟨id, modulus, (Num.n (bitLength (m.v - 1))).expr⟩

/-- `RangeInteger`, `rflx/model/type_.py:164-251`. -/
structure RangeInt where
  id : ID
  firstExpr : Expr
  first : Num
  lastExpr : Expr
  last : Num
  size : Expr
deriving Repr

/-- `RangeInteger.__init__`, `rflx/model/type_.py:165-251`. The comparisons of numbers are those of their
values (`rflx/expression.py:691-724`). -/
def RangeInt.new (id : ID) (first last size : Expr) : Py RangeInt := do
  let firstNum ← first.simplified
  let lastNum ← last.simplified
  let sizeNum ← size.simplified
  match asNum firstNum, asNum lastNum, asNum sizeNum with
  | some f, some l, some s =>
    if badId id || l.v ≥ 2 ^ 63 then .error .recordFlux
    else if f.v < 0 || f.v > l.v || (bitLength l.v : Int) > s.v || s.v > 64 then .error .recordFlux
    else .ok ⟨id, first, f, last, l, size⟩
  | _, _, _ => .error .recordFlux

/-- `Scalar.size`, `rflx/model/type_.py:54-58`. -/
def scalarSize (size : Expr) : Py Num := do
  match asNum (← size.simplified) with
  | some n => .ok n
  | none => .error .assertion

/-- `Integer` types, `rflx/model/type_.py:72-84`. -/
inductive IntType
  | modular (t : ModInt)
  | range (t : RangeInt)

namespace IntType

/-- `size`, `rflx/model/type_.py:54-58`. -/
def size : IntType → Py Num
  | modular t => scalarSize t.size
  | range t => scalarSize t.size

/-- `first`, `rflx/model/type_.py:132-134,262-264`. -/
def first : IntType → Py Num
  | modular _ => .ok (Num.n 0)
  | range t => .ok t.first

/-- `last`, `rflx/model/type_.py:136-140,270-272`. -/
def last : IntType → Py Num
  | modular t => do
    match asNum (← t.modulus.simplified) with
    | some m => .ok (Num.n (m.v - 1))
    | none => .error .assertion
  | range t => .ok t.last

/-- `constraints(name, proof=True)`, `rflx/model/type_.py:142-150,278-286`. `name` is a string or identifier;
`Size(name)` is the attribute of `Variable(name)`. -/
def proofConstraints (t : IntType) (name : ID) : Py (List Expr) :=
  match t with
  | modular t => do
    let size ← scalarSize t.size
    return [.rel .lt (.var false false name) t.modulus, .rel .ge (.var false false name) (.n 0),
      .rel .eq (.attr false .size (.var false false name)) size.expr]
  | range t => do
    let size ← scalarSize t.size
    return [.rel .ge (.var false false name) t.first.expr, .rel .le (.var false false name) t.last.expr,
      .rel .eq (.attr false .size (.var false false name)) size.expr]

/-- `constraints(name, proof=False)`, `rflx/model/type_.py:151,288-296`, with `base_first` (298-300) and
`base_last` (302-304). -/
def constraints (t : IntType) (name : ID) : Py (List Expr) :=
  match t with
  | modular _ => .ok [.tru]
  | range t => do
    let size ← scalarSize t.size
    if (← t.first.expr.simplified).eq (← t.last.expr.simplified) then
      return [.rel .eq (.var false false name) t.first.expr]
    let baseFirst ← (Expr.n 0).simplified
    let baseLast ← (Expr.bin .sub (.bin .pow (.n 2) size.expr) (.n 1)).simplified
    let c : Expr := if !(← t.first.expr.simplified).eq baseFirst then
      .rel .ge (.var false false name) t.first.expr else .tru
    let c : Expr := if !(← t.last.expr.simplified).eq baseLast then
      .bool .and [c, .rel .le (.var false false name) t.last.expr] else c
    return [← c.simplified]

end IntType

/-! ## Enumerations -/

/-- `StrID`, `rflx/identifier.py:112`: a name given as a string or as an identifier. -/
inductive StrID
  | str (s : PyStr)
  | id (i : ID)
deriving DecidableEq, Repr

/-- `e1[0] == e2[0]`, `rflx/model/type_.py:333`: strings are compared literally, identifiers by `ID.__eq__`;
a string and an identifier are different. -/
def StrID.eq : StrID → StrID → Bool
  | .str a, .str b => a == b
  | .id a, .id b => a.eq b
  | _, _ => false

/-- `str(k)`, `rflx/model/type_.py:349`. -/
def StrID.text : StrID → PyStr
  | .str s => s
  | .id i => i.str

/-- `ID(k)`, `rflx/model/type_.py:357`. -/
def StrID.toID : StrID → Py ID
  | .str s => ID.ofStr s
  | .id i => ID.ofID i

/-- `self.literals[k] = v`, `rflx/model/type_.py:357`: a dictionary keyed by identifiers. An equal key keeps
its place and spelling. -/
def dictSet : List (ID × Int) → ID → Int → List (ID × Int)
  | [], k, v => [(k, v)]
  | (k', v') :: d, k, v => if k'.eq k then (k', v) :: d else (k', v') :: dictSet d k v

/-- `self.literals[k]`, `k in self.literals`, used at `rflx/pyrflx/typevalue.py:230,239,249`. -/
def dictGet (d : List (ID × Int)) (k : ID) : Option Int := (d.find? (fun kv => kv.1.eq k)).map (·.2)

/-- The loop filling `self.literals`, `rflx/model/type_.py:347-357`; the second component tells whether there
was an invalid name. -/
def fillLiterals : List (StrID × Int) → List (ID × Int) → Bool → Py (List (ID × Int) × Bool)
  | [], d, bad => .ok (d, bad)
  | (k, v) :: rest, d, bad =>
    if k.text.contains ' ' || k.text.contains '.' then fillLiterals rest d true
    else do
      let i ← k.toID
      fillLiterals rest (dictSet d i v) bad

/-- Two equal names, `rflx/model/type_.py:331-345`. -/
def dupNames : List (StrID × Int) → Bool
  | [] => false
  | kv :: rest => rest.any (fun kv' => kv'.1.eq kv.1) || dupNames rest

/-- Two equal values, `rflx/model/type_.py:395-406`. -/
def dupValues : List (ID × Int) → Bool
  | [] => false
  | kv :: rest => rest.any (fun kv' => kv.2 == kv'.2) || dupValues rest

/-- The check of the smallest and the largest value, `rflx/model/type_.py:370-387`. -/
def badValues (values : List Int) (size : Int) : Bool :=
  match values.min?, values.max? with
  | some mn, some mx => mn < 0 || mx > 2 ^ 63 - 1 || (bitLength mx : Int) > size
  | _, _ => false

/-- `Enumeration`, `rflx/model/type_.py:319-416`. Values of literals are numbers without base: the base is only
used for printing. -/
structure Enum where
  id : ID
  literals : List (ID × Int)
  size : Expr
  alwaysValid : Bool
deriving Repr

/-- `Enumeration.__init__`, `rflx/model/type_.py:320-416`. `2 ** int(size_num)` (408) is not an integer for
negative sizes. -/
def Enum.new (id : ID) (literals : List (StrID × Int)) (size : Expr) (alwaysValid : Bool) : Py Enum := do
  let (lits, badName) ← fillLiterals literals [] false
  let sizeNum ← size.simplified
  match asNum sizeNum with
  | none => .error .recordFlux
  | some s =>
    if badId id || dupNames literals || badName || badValues (lits.map (·.2)) s.v || s.v > 64 || dupValues lits ||
      (alwaysValid && s.v ≥ 0 && (lits.length : Int) == 2 ^ s.v.toNat) then .error .recordFlux
    else .ok ⟨id, lits, size, alwaysValid⟩

/-- `const.BUILTINS_PACKAGE`, `rflx/const.py:3`. -/
def builtinsPackage : ID := ⟨[['_', '_', 'B', 'U', 'I', 'L', 'T', 'I', 'N', 'S', '_', '_']]⟩

/-- `{self.package * l: v for l, v in self.literals.items()}`, `rflx/model/type_.py:434`. -/
def prefixedLiterals (package : ID) : List (ID × Int) → List (ID × Int) → Py (List (ID × Int))
  | [], d => .ok d
  | (l, v) :: rest, d => do
    let l' ← package.mul l
    prefixedLiterals package rest (dictSet d l' v)

/-- `{**a, **b}`, `rflx/model/type_.py:438`. -/
def dictMerge (a b : List (ID × Int)) : List (ID × Int) := b.foldl (fun d kv => dictSet d kv.1 kv.2) a

/-- `constraints(name, proof=True, same_package)`, `rflx/model/type_.py:430-455`. -/
def Enum.proofConstraints (t : Enum) (name : ID) (samePackage : Bool) : Py (List Expr) := do
  let package ← t.id.parent
  let pre ← prefixedLiterals package t.literals []
  let literals := if package.eq builtinsPackage then t.literals
    else if samePackage then dictMerge t.literals pre else pre
  let size ← scalarSize t.size
  return .bool .or (literals.map fun kv => .rel .eq (.var false false name) (.var false false kv.1)) ::
    literals.map (fun kv => .rel .eq (.var false false kv.1) (.n kv.2)) ++
    [.rel .eq (.attr false .size (.var false false name)) size.expr]

end Verif.Types
