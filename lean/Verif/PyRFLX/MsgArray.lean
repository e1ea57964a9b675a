import Verif.PyRFLX.Message

/-! # PyRFLX arrays of messages (`rflx/pyrflx/typevalue.py`)

An array of messages without refinements and checksums: elements are created by `TypeValue.construct` (`rflx/pyrflx/typevalue.py:111-127`),
which gives a message without refinements, and without functions for its checksums. -/

namespace Verif.PyRFLX

open Verif Verif.Types Verif.Bits Verif.Graph

/-- An element of a list that is assigned to an array: a message with its identifier and state, or another value, of which only the
result of `bitstring` matters. -/
inductive Item
  | message (id : ID) (m : Msg) (σ : State)
  | other (bits : Py Bitstring)

/-- `element.bitstring`, `rflx/pyrflx/typevalue.py:1016-1031` for messages. -/
def Item.bitstring : Item → Py Bitstring
  | .message _ m σ => m.bitstring σ
  | .other b => b

/-- `ArrayValue.bitstring`, `rflx/pyrflx/typevalue.py:489-493`. -/
def itemBits (vs : List Item) : Py Bitstring := (vs.mapM Item.bitstring).map Bitstring.join

/-- The check of an element in `ArrayValue.assign`, `rflx/pyrflx/typevalue.py:410-427`, for an array of messages with identifier
`id`. -/
def checkItem (id : ID) : Item → Py Unit
  | .message i m σ =>
    if i.eq id then (m.validMessage σ).bind fun b => if b then .ok () else .error .pyrflx
    else .error .pyrflx
  | .other _ => .error .pyrflx

/-- `ArrayValue.assign(value, check)` for arrays of messages, `rflx/pyrflx/typevalue.py:407-435`: the new value. -/
def MsgArray.assign (id : ID) (expected : Option Int) (vs : List Item) (check : Bool) : Py (List Item) := do
  if check then
    let bits ← vs.mapM Item.bitstring
    checkSize expected (Bitstring.join bits).len
  vs.forM (checkItem id)
  return vs

/-- The loop of `ArrayValue.parse` for arrays of messages, `rflx/pyrflx/typevalue.py:443-460`: `old` is `_value`, to which the elements are
appended; the second component of the result is the exception, if any. The first argument bounds the number of iterations; the loop
in the code has no bound. -/
def MsgArray.parseLoop (id : ID) (m : Msg) : Nat → List Item → List Bool → List Item × Option PyErr
  | _, old, [] => (old, none)
  | 0, old, _ :: _ => (old, some .fuel)
  | k + 1, old, bits =>
    match m.new.bind fun σ => m.parse σ ⟨bits⟩ with
    | .error e => (old, some e)
    | .ok σ =>
      match m.validMessage σ with
      | .error e => (old, some e)
      | .ok false => (old, some .assertion)
      | .ok true =>
        match m.bitstring σ with
        | .error e => (old ++ [.message id m σ], some e)
        | .ok b =>
          match (Bitstring.mk bits).slice b.len none with
          | .error e => (old ++ [.message id m σ], some e)
          | .ok r => parseLoop id m k (old ++ [.message id m σ]) r.bits

/-- `ArrayValue.parse(value)` of a bit string for arrays of messages, `rflx/pyrflx/typevalue.py:437-460`: the new value, and the
exception. The first argument bounds the number of iterations. -/
def MsgArray.parse (fuel : Nat) (id : ID) (m : Msg) (expected : Option Int) (old : List Item) (b : Bitstring) : List Item × Option PyErr :=
  match checkSize expected b.len with
  | .error e => (old, some e)
  | .ok _ => MsgArray.parseLoop id m fuel old b.bits

/-- `ArrayValue.parse(value)` of bytes for arrays of messages, `rflx/pyrflx/typevalue.py:437-460`. -/
def MsgArray.parseBytes (fuel : Nat) (id : ID) (m : Msg) (expected : Option Int) (old : List Item) (b : List Byte) : List Item × Option PyErr :=
  match checkSize expected (b.length * 8) with
  | .error e => (old, some e)
  | .ok _ => MsgArray.parseLoop id m fuel old (Bitstring.fromBytes b).bits

end Verif.PyRFLX
