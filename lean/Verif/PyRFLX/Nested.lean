import Verif.PyRFLX.Message

/-! # Refinements of PyRFLX messages (`rflx/pyrflx/typevalue.py:330-395,569-605,772-784,1008-1014,1258-1264`,
`rflx/pyrflx/pyrflx.py:15-35`, `rflx/pyrflx/package.py:16-17`)

The layer of `MessageValue` that parses the bytes of an opaque field as a message, on top of `Verif.PyRFLX.Message`. As there,
messages are used with verification; they have no checksums here. Messages returned by `get` are values: changing them afterwards is
not modelled. -/

namespace Verif.PyRFLX

open Verif Verif.Types Verif.Bits Verif.Graph

/-- `RefinementValue`, `rflx/pyrflx/typevalue.py:1258-1264`: the field, the message in the field and the condition. -/
structure RefValue where
  field : Field
  sdu : ID
  condition : Expr

/-- The model given to `PyRFLX.__init__`, `rflx/pyrflx/pyrflx.py:15-35`: messages and refinements (with the refined message), in the order
of the model. -/
structure World where
  messages : List (ID × Msg)
  refinements : List (ID × RefValue)

/-- `messages[identifier]`, `rflx/pyrflx/pyrflx.py:21-35`: later messages replace earlier ones. -/
def World.message (W : World) (i : ID) : Py Msg :=
  match W.messages.reverse.find? fun e => e.1.eq i with
  | some e => .ok e.2
  | none => .error .keyError

/-- `_refinements` of a message, `rflx/pyrflx/pyrflx.py:32-35`, `rflx/pyrflx/typevalue.py:569-570`. Copies of the message have the same
refinements (574-575). -/
def World.refs (W : World) (i : ID) : List RefValue := (W.refinements.filter fun e => e.1.eq i).map (·.2)

/-- `MessageValue` with refinements: the identifier of the message, the attributes of `State`, and for each field `_refinement_message` and
`_nested_message` of its value (`rflx/pyrflx/typevalue.py:333,337`). -/
inductive NVal
  | mk (id : ID) (st : State) (ref : Field → Option ID) (nested : Field → Option NVal)

/-- The identifier of the message. -/
def NVal.id : NVal → ID
  | .mk i _ _ _ => i
/-- The attributes of `State`. -/
def NVal.st : NVal → State
  | .mk _ σ _ _ => σ
/-- `_refinement_message` of the fields. -/
def NVal.ref : NVal → Field → Option ID
  | .mk _ _ r _ => r
/-- `_nested_message` of the fields. -/
def NVal.nested : NVal → Field → Option NVal
  | .mk _ _ _ n => n

/-- Parsing of a new message, the type of `World.parse`. -/
abbrev Parser := ID → Bitstring → Py NVal

/-- The second part of `MessageValue.set`, `rflx/pyrflx/typevalue.py:835-841`, see `Msg.set`. -/
def Msg.finish (m : Msg) (σ : State) (f : Field) : State × Option PyErr :=
  match m.newMapping σ.fv with
  | .error e => (σ, some e)
  | .ok M =>
    let σ := { σ with mapping := M }
    match m.allFalse M (outgoing m.links f) with
    | .error e => (σ, some e)
    | .ok true => (σ.upd f { σ.fv f with value := none }, some .pyrflx)
    | .ok false =>
      match m.preset σ f with
      | .error e => (σ, some e)
      | .ok σ => (σ, none)

/-- `set_refinement` in `MessageValue.set`, `rflx/pyrflx/typevalue.py:772-781`: the last refinement of the field whose condition holds, or
what was set before. -/
def Msg.chooseRef (m : Msg) (M : List (Expr × Expr)) (f : Field) : List RefValue → Option ID → Py (Option ID)
  | [], r => .ok r
  | x :: xs, r =>
    if x.field = f then (m.holds M x.condition).bind fun b => chooseRef m M f xs (if b then some x.sdu else r)
    else chooseRef m M f xs r

/-- The value as bit string, `rflx/pyrflx/typevalue.py:686-687`, and its size, 306-309; `none` if the value is no bytes (822). -/
def Input.data : Input → Option (Bitstring × Nat)
  | .bits b => some (b, b.len)
  | .bytes b => some (Bitstring.fromBytes b, b.length * 8)
  | _ => none

/-- `nested_msg.valid_message` and `nested_msg.bytestring`, `rflx/pyrflx/typevalue.py:356-358`. -/
def World.encoded (W : World) (n : NVal) : Py (List Byte) :=
  (W.message n.id).bind fun m => (m.validMessage n.st).bind fun b => if b then m.bytestring n.st else .error .assertion

/-- `OpaqueValue.parse`, `rflx/pyrflx/typevalue.py:342-360`, with a refinement: the nested message and the new `_value`. -/
def World.nest (W : World) (sub : Parser) (expected : Option Num) (i : ID) (x : Input) : Py (NVal × Val) :=
  match x.data with
  | none => .error .pyrflx
  | some (b, size) =>
    (checkSize (expected.map Num.v) size).bind fun _ =>
    (sub i b).bind fun n => (W.encoded n).map fun out => (n, .bytes out)

/-- `MessageValue.set(f, value)` with refinements, `rflx/pyrflx/typevalue.py:766-847`: see `Msg.set`. -/
def World.setIn (W : World) (sub : Parser) (m : Msg) (v : NVal) (f : Field) (x : Input) : NVal × Option PyErr :=
  if f ∉ v.st.accessible then (v, some .pyrflx)
  else
    match m.prepare v.st f with
    | .error e => (v, some e)
    | .ok a =>
      match (if (m.typeOf f).isOpaque then m.chooseRef v.st.mapping f (W.refs v.id) (v.ref f) else .ok none : Py (Option ID)) with
      | .error e => (.mk v.id (v.st.upd f a) v.ref v.nested, some e)
      | .ok none =>
        match assignValue (m.typeOf f) a.expected x with
        | .error e => (.mk v.id (v.st.upd f a) v.ref v.nested, some e)
        | .ok y => 
          let r := m.finish (v.st.upd f { a with value := some y }) f
          (.mk v.id r.1 v.ref v.nested, r.2)
      | .ok (some i) =>
        let ref := fun g => if g = f then some i else v.ref g
        match W.nest sub a.expected i x with
        | .error e => (.mk v.id (v.st.upd f a) ref v.nested, some e)
        | .ok (n, y) =>
          let r := m.finish (v.st.upd f { a with value := some y }) f
          (.mk v.id r.1 ref (fun g => if g = f then some n else v.nested g), r.2)

/-- `self.set(...)` with the exception as result. -/
def World.setIn! (W : World) (sub : Parser) (m : Msg) (v : NVal) (f : Field) (x : Input) : Py NVal :=
  match W.setIn sub m v f x with
  | (v, none) => .ok v
  | (_, some e) => .error e

/-- `set_field_without_size`, `rflx/pyrflx/typevalue.py:706-713`, see `Msg.parseRest`. -/
def World.parseRest (W : World) (sub : Parser) (m : Msg) (v : NVal) (f : Field) (last cur : Nat) (value : Bitstring) : Py (NVal × Nat × Nat) :=
  (m.currentPos v.st f last cur).bind fun pos =>
  (m.getFirst v.st f).bind fun
    | none => .error .assertion
    | some first => (value.slice pos none).bind fun b =>
      (W.setIn! sub m (.mk v.id (v.st.upd f { v.st.fv f with first := some first }) v.ref v.nested) f (.bits b)).map fun v => (v, pos, pos)

/-- `set_field_with_size`, `rflx/pyrflx/typevalue.py:715-723`, see `Msg.parseSized`. -/
def World.parseSized (W : World) (sub : Parser) (m : Msg) (v : NVal) (f : Field) (size : Num) (last cur : Nat) (value : Bitstring) :
    Py (NVal × Nat × Nat) :=
  (m.currentPos v.st f last cur).bind fun pos =>
  if size.v < 0 then .error .pyrflx
  else match value.slice pos (some (pos + size.v.toNat)) with
    | .error _ => .error .pyrflx
    | .ok b => (W.setIn! sub m v f (.bits b)).map fun v => (v, pos, pos + size.v.toNat)

/-- The loop of `MessageValue.parse`, `rflx/pyrflx/typevalue.py:725-747`, see `Msg.parseLoop`. -/
def World.parseLoop (W : World) (sub : Parser) (m : Msg) (value : Bitstring) : Nat → NVal → Option Field → Nat → Nat → Py NVal
  | _, _, none, _, _ => .error .keyError
  | 0, _, some _, _, _ => .error .fuel
  | k + 1, v, some f, last, cur =>
    if f = FINAL then .ok v
    else (m.getSize v.st f).bind fun size =>
      (match (m.typeOf f).isOpaque, size with
        | true, none => W.parseRest sub m v f last cur value
        | _, none => .error .assertion
        | _, some s => W.parseSized sub m v f s last cur value : Py (NVal × Nat × Nat)).bind fun r =>
      (m.nextField r.1.st.mapping f).bind fun nxt => parseLoop W sub m value k r.1 nxt r.2.1 r.2.2

/-- `MessageValue.parse` of a bit string, `rflx/pyrflx/typevalue.py:684-747`. -/
def World.parseIn (W : World) (sub : Parser) (m : Msg) (v : NVal) (value : Bitstring) : Py NVal :=
  (m.nextField v.st.mapping INITIAL).bind fun nxt => W.parseLoop sub m value m.fuel v nxt 0 0

/-- A new message, `rflx/pyrflx/package.py:16-17`, `rflx/pyrflx/typevalue.py:505-567,572-592`: the values of the fields are new, so they have no
`_refinement_message` and no `_nested_message`. -/
def World.new (W : World) (i : ID) : Py NVal :=
  (W.message i).bind fun m => m.new.map fun σ => .mk i σ (fun _ => none) (fun _ => none)

/-- A copy of the message that parses the value, `rflx/pyrflx/typevalue.py:346-355`. Python's recursion ends with an exception
(`RecursionError`) if messages are nested too deep; the first argument bounds the depth, and `PyErr.fuel` stands for this exception. -/
def World.parse (W : World) : Nat → Parser
  | 0 => fun _ _ => .error .fuel
  | d + 1 => fun i value =>
    (W.message i).bind fun m => (W.new i).bind fun v => W.parseIn (World.parse W d) m v value

/-- `message.set(f, value)` for messages of the model. -/
def World.set (W : World) (depth : Nat) (v : NVal) (f : Field) (x : Input) : NVal × Option PyErr :=
  match W.message v.id with
  | .error e => (v, some e)
  | .ok m => W.setIn (W.parse depth) m v f x

/-- The result of `MessageValue.get`, `rflx/pyrflx/typevalue.py:1008`. -/
inductive Got
  | value (v : Val)
  | message (n : NVal)

/-- `MessageValue.get(f)`, `rflx/pyrflx/typevalue.py:1008-1014`. -/
def World.get (W : World) (v : NVal) (f : Field) : Py Got :=
  (W.message v.id).bind fun m =>
  (m.get v.st f).map fun x =>
    match (m.typeOf f).isOpaque, v.nested f with
    | true, some n => .message n
    | _, _ => .value x

/-- `MessageValue.bytestring`, `rflx/pyrflx/typevalue.py:1037-1048`. -/
def World.bytestring (W : World) (v : NVal) : Py (List Byte) := (W.message v.id).bind fun m => m.bytestring v.st

end Verif.PyRFLX
