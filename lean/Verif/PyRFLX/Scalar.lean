import Verif.Types.Model
import Verif.Bits.Model

/-! # Scalar values of PyRFLX (`rflx/pyrflx/typevalue.py:130-292`)

The type of a value object never changes and `_value` is its only state, so the methods are functions from the type
(and the flag `imported`) to the new value. -/

namespace Verif.PyRFLX

open Verif Verif.Types Verif.Bits

/-- The name `"__VALUE__"`, `rflx/pyrflx/typevalue.py:166,228`. -/
def valueID : ID := ⟨[['_', '_', 'V', 'A', 'L', 'U', 'E', '_', '_']]⟩

/-- `Bitstring(format(value, f"0{size}b"))`, `rflx/pyrflx/typevalue.py:194,284`. The size is printed by
`Number._update_str` (`rflx/expression.py:631-645`): a number with a base or a negative number gives an invalid format
specification, which is a `ValueError`. A negative value is printed with a sign, which `Bitstring` rejects. -/
def fmtBits (size : Num) (value : Int) : Py Bitstring :=
  if size.base ≠ .b0 ∨ size.v < 0 then .error .valueError
  else if value < 0 then .error .pyrflx
  else .ok ⟨formatBin size.v.toNat value.toNat⟩

/-! ## Integers -/

/-- `IntegerValue.assign(value, check)`, `rflx/pyrflx/typevalue.py:164-174`: the new `_value`. -/
def IntegerValue.assign (t : IntType) (value : Int) (check : Bool) : Py Int := do
  if check then
    let cs ← t.proofConstraints valueID
    let size ← t.size
    let e ← (Expr.bool .and cs).substituted
      [(.var false false valueID, .n value), (.attr false .size (.var false false valueID), size.expr)]
    if (← e.simplified).isTru then return value else .error .pyrflx
  else return value

/-- `IntegerValue.parse(value, check)` of a bit string, `rflx/pyrflx/typevalue.py:176-179`. -/
def IntegerValue.parse (t : IntType) (b : Bitstring) (check : Bool) : Py Int := do
  IntegerValue.assign t (← b.toInt) check

/-- `IntegerValue.parse(value, check)` of bytes, `rflx/pyrflx/typevalue.py:176-179`. -/
def IntegerValue.parseBytes (t : IntType) (b : List Byte) (check : Bool) : Py Int :=
  IntegerValue.parse t (Bitstring.fromBytes b) check

/-- `IntegerValue.bitstring`, `rflx/pyrflx/typevalue.py:191-194`, of an initialized value. -/
def IntegerValue.bitstring (t : IntType) (value : Int) : Py Bitstring := do
  fmtBits (← t.size) value

/-! ## Enumerations -/

/-- `self.__builtin`, `rflx/pyrflx/typevalue.py:209`. -/
def isBuiltin (package : ID) : Bool := package.eq builtinsPackage

/-- `EnumValue.__init__`, `rflx/pyrflx/typevalue.py:206-216`: the dictionary `__literals`. Its keys are variables, which
compare like their identifiers. -/
def EnumValue.literals (package : ID) (imported : Bool) :
    List (ID × Int) → List (ID × Int) → Py (List (ID × Int))
  | [], d => .ok d
  | (k, v) :: rest, d => do
    let d := if isBuiltin package || !imported then dictSet d k v else d
    if isBuiltin package then literals package imported rest d
    else
      let pk ← package.mul k
      literals package imported rest (dictSet d pk v)

/-- `value.startswith(str(self._type.package))`, `rflx/pyrflx/typevalue.py:221`. -/
def startsWith (s p : PyStr) : Bool := p.isPrefixOf s

/-- `prefixed_value` in `EnumValue.assign`, `rflx/pyrflx/typevalue.py:219-223`. -/
def EnumValue.resolve (package : ID) (imported : Bool) (value : PyStr) : Py ID :=
  if startsWith value package.str || !imported || isBuiltin package then ID.ofStr value
  else package.mulStr value

/-- `EnumValue.assign(value, check)`, `rflx/pyrflx/typevalue.py:218-247`: the new `_value`. In the mapping of the
substitution later entries replace earlier ones, so they come first here. -/
def EnumValue.assign (t : Enum) (imported : Bool) (value : PyStr) (check : Bool) : Py (PyStr × Int) := do
  let package ← t.id.parent
  let lits ← literals package imported t.literals []
  let i ← resolve package imported value
  if (dictGet lits i).isNone then .error .pyrflx
  let name ← i.name
  let number ← (match dictGet t.literals name with
    | some v => .ok v
    | none => .error .keyError : Py Int)
  let r ← (if check then do
      let cs ← t.proofConstraints valueID !imported
      let size ← scalarSize t.size
      let e ← (Expr.bool .and cs).substituted
        ((.var false false valueID, .n number) :: (.attr false .size (.var false false valueID), size.expr) ::
          lits.map fun kv => (.var false false kv.1, .n kv.2))
      e.simplified
    else .ok .tru : Py Expr)
  if r.isTru then return (if imported && !isBuiltin package then i.str else name.str, number)
  else .error .assertion

/-- The string `"UNKNOWN"`, `rflx/pyrflx/typevalue.py:255`. -/
def unknown : PyStr := ['U', 'N', 'K', 'N', 'O', 'W', 'N']

/-- The loop of `EnumValue.parse`, `rflx/pyrflx/typevalue.py:259-266`: the last literal with this number wins. -/
def EnumValue.search (imported : Bool) (n : Int) : List (ID × Int) → Option (PyStr × Int) → Py (Option (PyStr × Int))
  | [], r => .ok r
  | (k, v) :: rest, r =>
    if v == n then do
      let text ← (if imported then .ok k.str else k.name.map ID.str : Py PyStr)
      search imported n rest (some (text, v))
    else search imported n rest r

/-- `EnumValue.parse(value)` of a bit string, `rflx/pyrflx/typevalue.py:249-266`. -/
def EnumValue.parse (t : Enum) (imported : Bool) (b : Bitstring) : Py (PyStr × Int) := do
  let n ← b.toInt
  let package ← t.id.parent
  let lits ← literals package imported t.literals []
  if !(lits.map (·.2)).contains (n : Int) then
    if t.alwaysValid then .ok (unknown, n) else .error .pyrflx
  else
    match ← search imported n lits none with
    | some r => .ok r
    | none => .error .attributeError

/-- `EnumValue.bitstring`, `rflx/pyrflx/typevalue.py:281-284`, of an initialized value. -/
def EnumValue.bitstring (t : Enum) (value : PyStr × Int) : Py Bitstring := do
  fmtBits (← scalarSize t.size) value.2

end Verif.PyRFLX
