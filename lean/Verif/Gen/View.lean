import Verif.Gen.Subst

/-! # The values of names in the generated code

What an expression of the generated code reads: the discriminants and the cursors of the context, enumeration literals and
results of functions. Enumeration literals and fields of enumeration types are represented by their numbers, so the
conversions `To_Base`, `Types.U64`, `Types.Bit_Length` and `Types.Bit_Index` are the identity (`rflx/generator/generator.py`
generates `To_Base` from the representation, see C32). Arithmetic is that of integers: overflow checks of `Types.U64`
(`rflx/templates/rflx_arithmetic.ads:7-8`) and range checks of conversions are not part of this model. Names of fields are in
lower case. -/

namespace Verif.Gen
open Verif

/-- What expressions of the generated code read. -/
structure View where
  /-- `Ctx.First`, `Ctx.Last`. -/
  first : Int
  last : Int
  /-- `Ctx.Cursors (F_X).First`, `Ctx.Cursors (F_X).Last`, `Ctx.Cursors (F_X).Value.X_Value`. -/
  cFirst : PyStr → Int
  cLast : PyStr → Int
  cValue : PyStr → Int
  /-- The number of an enumeration literal. -/
  lit : List PyStr → Int
  /-- `Equal (Ctx, F_X, Data)`. -/
  equal : PyStr → List Int → Bool
  /-- `Buffer.all (A .. B)`. -/
  slice : Int → Int → List Int
  /-- `Field_First (Ctx, F_X)`, `Field_Last (Ctx, F_X)`, `Field_Size (Ctx, F_X)`, `Get_X (Ctx)`. -/
  fFirst : PyStr → Int
  fLast : PyStr → Int
  fSize : PyStr → Int
  get : PyStr → Int
  /-- `Valid (Ctx, F_X)`, `Structural_Valid (Ctx, F_X)`. -/
  valid : PyStr → Bool
  structuralValid : PyStr → Bool
  /-- `Val.X_Value`, `Size`: parameters of `Field_Condition`. -/
  val : Int
  size : Int

/-- A name as a value, for the enumeration literals `F_X`. -/
def nameVal (n : PyStr) : Val := .seq (n.map fun c => (c.toNat : Int))

/-- The name of a value. -/
def valName : Val → PyStr
  | .seq l => l.map fun i => Char.ofNat i.toNat
  | _ => []

/-- The numbers of a value. -/
def valSeq : Val → List Int
  | .seq l => l
  | _ => []

/-- The number of a value. -/
def valInt : Val → Int
  | .int i => i
  | _ => 0

/-- The name in `F_X`. -/
def unaffixed : PyStr → Option PyStr
  | 'f' :: '_' :: n => some n
  | _ => none

/-- The value of a variable. -/
def View.var (V : View) (embedded : Bool) (k : List PyStr) : Val :=
  if k = (if embedded then [['f', 'i', 'r', 's', 't']] else [['c', 't', 'x'], ['f', 'i', 'r', 's', 't']]) then .int V.first
  else if k = (if embedded then [['l', 'a', 's', 't']] else [['c', 't', 'x'], ['l', 'a', 's', 't']]) then .int V.last
  else if k = [['c', 't', 'x']] then .bool true
  else if k = [['s', 'i', 'z', 'e']] then .int V.size
  else if k.head? = some ['v', 'a', 'l'] then .int V.val
  else
    match k with
    | [w] =>
      match unaffixed w with
      | some n => nameVal n
      | none => .int (V.lit k)
    | _ => .int (V.lit k)

/-- The value of a component of a cursor. -/
def View.sel (V : View) (pre s : List PyStr) : Val :=
  match pre.getLast? with
  | some w =>
    match unaffixed w with
    | some n =>
      if s = [['f', 'i', 'r', 's', 't']] then .int (V.cFirst n)
      else if s = [['l', 'a', 's', 't']] then .int (V.cLast n)
      else .int (V.cValue n)
    | none => .int 0
  | none => .int 0

/-- `Types.Byte_Index`, `rflx/templates/rflx_generic_types.ads:39-40`. -/
def byteIndex (b : Int) : Int := (b - 1) / 8 + 1

/-- The value of a function with two parameters, the second of which is a field. -/
def View.fieldCall (V : View) (id : List PyStr) (n : PyStr) : Val :=
  if id = FIELD_FIRST.key then .int (V.fFirst n)
  else if id = FIELD_LAST.key then .int (V.fLast n)
  else if id = FIELD_SIZE.key then .int (V.fSize n)
  else if id = [['v', 'a', 'l', 'i', 'd']] then .bool (V.valid n)
  else .bool (V.structuralValid n)

/-- The value of a call. -/
def View.call (V : View) (id : List PyStr) (args : List Val) : Val :=
  match args with
  | [a] =>
    if id = BYTE_INDEX.key then .int (byteIndex (valInt a))
    else
      match id with
      | [w] =>
        if w.take 4 = ['g', 'e', 't', '_'] then .int (V.get (w.drop 4)) else a
      | _ => a
  | [a, b] =>
    if id = BUFFER_ALL.key then .seq (V.slice (valInt a) (valInt b)) else V.fieldCall id (valName b)
  | [_, b, d] => .bool (V.equal (valName b) (valSeq d))
  | _ => .bool false

/-- The assignment of values to the names of the generated code. Attributes do not occur. -/
def View.env (V : View) (embedded : Bool) : Env := ⟨V.var embedded, fun _ _ => .int 0, V.sel, V.call⟩

end Verif.Gen
