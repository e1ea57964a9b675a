import Verif.PyRFLX.Scalar

/-! # Arrays of scalars in PyRFLX (`rflx/pyrflx/typevalue.py:295-322,397-497`)

Arrays of messages are not modelled here. -/

namespace Verif.PyRFLX

open Verif Verif.Types Verif.Bits

/-- The classes of scalar types, `rflx/model/type_.py:87,164,319`. -/
inductive Scalar
  | int (t : IntType)
  | enum (t : Enum)

/-- The value of a scalar, `rflx/pyrflx/typevalue.py:150,203`. -/
inductive SVal
  | int (v : Int)
  | enum (text : PyStr) (v : Int)
deriving DecidableEq, Repr

/-- A value object of a scalar type: its type, the flag `imported` of enumerations, its value
(`rflx/pyrflx/typevalue.py:49-51,206-209`). -/
structure Elem where
  type : Scalar
  imported : Bool
  value : SVal

/-- `self._type.size`, `rflx/model/type_.py:54-58`. -/
def Scalar.size : Scalar → Py Num
  | .int t => t.size
  | .enum t => scalarSize t.size

/-- `TypeValue.construct(type, imported)` (`rflx/pyrflx/typevalue.py:113-127`) followed by `parse` of a bit string
(176-179, 249-266). -/
def Scalar.parse (s : Scalar) (imported : Bool) (b : Bitstring) (check : Bool) : Py Elem :=
  match s with
  | .int t => (IntegerValue.parse t b check).map fun v => ⟨s, imported, .int v⟩
  | .enum t => (EnumValue.parse t imported b).map fun r => ⟨s, imported, .enum r.1 r.2⟩

/-- `element.bitstring`, `rflx/pyrflx/typevalue.py:191-194,281-284`. -/
def Elem.bitstring (e : Elem) : Py Bitstring :=
  match e.type, e.value with
  | .int t, .int v => IntegerValue.bitstring t v
  | .enum t, .enum txt v => EnumValue.bitstring t (txt, v)
  | _, _ => .error .unmodelled

/-- `ArrayValue.bitstring`, `rflx/pyrflx/typevalue.py:489-493`. -/
def arrayBits (es : List Elem) : Py Bitstring := do
  return Bitstring.join (← es.mapM Elem.bitstring)

/-- `CompositeValue._check_size_of_assigned_value`, `rflx/pyrflx/typevalue.py:303-322`: `expected` is the expected size
if it is a number. -/
def checkSize (expected : Option Int) (size : Nat) : Py Unit :=
  match expected with
  | some n => if (size : Int) ≠ n then .error .pyrflx else .ok ()
  | none => .ok ()

/-- The loop of `ArrayValue.parse` over `value_str`, `rflx/pyrflx/typevalue.py:466-472`. The first argument is an upper
bound of the number of iterations: an iteration with element size 0 raises an exception, the others shorten the string. -/
def parseLoop (s : Scalar) (imported check : Bool) (n : Nat) : Nat → List Bool → Py (List Elem)
  | _, [] => .ok []
  | 0, _ :: _ => .error .fuel
  | k + 1, bits => do
    let e ← s.parse imported ⟨bits.take n⟩ check
    let es ← parseLoop s imported check n k (bits.drop n)
    return e :: es

/-- `ArrayValue.parse(value, check)` of a bit string for arrays of scalars, `rflx/pyrflx/typevalue.py:437-476`. Types of
negative size (enumerations without literals) are not modelled. -/
def ArrayValue.parse (s : Scalar) (imported : Bool) (expected : Option Int) (b : Bitstring) (check : Bool) :
    Py (List Elem) := do
  checkSize expected b.len
  let size ← s.size
  if size.v < 0 then .error .unmodelled
  else parseLoop s imported check size.v.toNat b.len b.bits

/-- `ArrayValue.parse(value, check)` of bytes, `rflx/pyrflx/typevalue.py:437-476`. -/
def ArrayValue.parseBytes (s : Scalar) (imported : Bool) (expected : Option Int) (b : List Byte) (check : Bool) :
    Py (List Elem) := do
  checkSize expected (b.length * 8)
  let bits := Bitstring.fromBytes b
  let size ← s.size
  if size.v < 0 then .error .unmodelled
  else parseLoop s imported check size.v.toNat bits.len bits.bits

/-- `v.equal_type(self._element_type)`, `rflx/pyrflx/typevalue.py:58-59`: an instance of the same class (no class of
scalar types is derived from another). -/
def Scalar.sameClass : Scalar → Scalar → Bool
  | .int (.modular _), .int (.modular _) => true
  | .int (.range _), .int (.range _) => true
  | .enum _, .enum _ => true
  | _, _ => false

/-- `ArrayValue.assign(value, check)` for arrays of scalars, `rflx/pyrflx/typevalue.py:407-435`. -/
def ArrayValue.assign (s : Scalar) (expected : Option Int) (es : List Elem) (check : Bool) : Py (List Elem) := do
  if check then
    let bits ← es.mapM Elem.bitstring
    checkSize expected (Bitstring.join bits).len
  if es.all fun e => e.type.sameClass s then return es else .error .pyrflx

end Verif.PyRFLX
