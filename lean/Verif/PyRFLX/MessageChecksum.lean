import Verif.PyRFLX.Message

/-! # Checksums of PyRFLX messages (`rflx/pyrflx/typevalue.py:833-847, 902-1006, 1096-1106, 1144, 1164-1178`)

The layer of `MessageValue` that calculates and checks checksums, on top of `Verif.PyRFLX.Message`. As there, messages are
used with verification and have no refinements. -/

namespace Verif.PyRFLX

open Verif Verif.Types Verif.Bits Verif.Graph

/-- A parameter of a checksum, `rflx/pyrflx/typevalue.py:1176-1178`: a range or another expression (`Attribute`,
`Variable`). The same type is used for evaluated parameters. -/
inductive Param
  | range (lower upper : Expr)
  | expr (e : Expr)

/-- An argument of a checksum function, `rflx/pyrflx/typevalue.py:986`: a range of positions, the value of a field, or an
integer. -/
inductive Arg
  | range (lower upper : Int)
  | value (v : Val)
  | int (v : Int)

/-- A checksum function. It is called with the bytes of the message and the arguments (`rflx/pyrflx/typevalue.py:1006`). Here
an argument comes with its parameter, in the code with the text of the parameter. Functions without side effects only. -/
abbrev ChecksumFn := List Byte → List (Param × Arg) → Py Input

/-- `MessageValue.Checksum`, `rflx/pyrflx/typevalue.py:1164-1178`. A parameter is a pair of `expression` and
`evaluated_expression`. -/
structure Check where
  field : Field
  function : Option ChecksumFn
  calculated : Bool
  params : List (Param × Param)

/-- A new `Checksum`, `rflx/pyrflx/typevalue.py:1165-1178`. -/
def Check.new (field : Field) (params : List Param) : Check :=
  ⟨field, none, false, params.map fun p => (p, .expr .undefined)⟩

/-- A message with checksums. `names` are the keys of `_checksums` (`rflx/pyrflx/typevalue.py:525-538`). -/
structure CMsg where
  base : Msg
  names : List Field

/-- The message as it is after the first update of the mapping: `ValidChecksum(f)` is true for every checksum field
(`rflx/pyrflx/typevalue.py:1144`). These entries are kept with the literals, both are looked up in the same way. Simplified: the
code has them from the end of the first `set` on, here they are already used when the position and the size of the first field
that is set are determined. This makes a difference only if such a field also follows a link with such a condition. -/
def CMsg.msg (c : CMsg) : Msg :=
  { c.base with lits := c.base.lits ++ c.names.map fun f => (.attr false .validChecksum (.var false false f), .tru) }

/-- The attributes of a `MessageValue` that change, with `_checksums` (`rflx/pyrflx/typevalue.py:525-538`). -/
structure CState where
  st : State
  checks : List Check

/-! ## Evaluation of the parameters -/

/-- `self.__simplified(expr_tuple.expression)`, `rflx/pyrflx/typevalue.py:940,1147-1162`; the bounds of a range are evaluated
separately (`rflx/expression.py:1886-1899`). -/
def Msg.evalParam (m : Msg) (M : List (Expr × Expr)) : Param → Py Param
  | .range l u => (m.simplifiedIn M l).bind fun l => (m.simplifiedIn M u).map fun u => .range l u
  | .expr e => (m.simplifiedIn M e).map .expr

/-- The field a bound of a range refers to, `rflx/pyrflx/typevalue.py:913-923`: the prefix of the attribute `First` or `Last`;
`none` stands for `None`. -/
def boundField : Expr → Py (Option Field)
  | .bin .sub (.attr _ .first (.var _ _ i)) _ => .ok (some i)
  | .bin .sub (.attr _ .last (.var _ _ i)) _ => .ok (some i)
  | .bin .sub _ _ => .error .assertion
  | .add ts => .ok (ts.foldl (fun r t => match t with
      | .attr _ .first (.var _ _ i) => some i
      | .attr _ .last (.var _ _ i) => some i
      | _ => r) none)
  | .attr _ .first (.var _ _ i) => .ok (some i)
  | .attr _ .last (.var _ _ i) => .ok (some i)
  | _ => .error .assertion

/-- The loop of `valid_path`, `rflx/pyrflx/typevalue.py:930-936`. -/
def Msg.pathLoop (m : Msg) (names : List Field) (σ : State) (upper : Option Field) : Nat → Field → Py Bool
  | 0, f => if some f = upper then .ok true else .error .fuel
  | k + 1, f =>
    if some f = upper then .ok true
    else (m.nextField σ.mapping f).bind fun
      | none => .ok false
      | some g =>
        if g = FINAL ∨ g ∈ names then pathLoop m names σ upper k g
        else ((σ.fv g).isSet (m.typeOf g)).bind fun b => if b then pathLoop m names σ upper k g else .ok false

/-- `valid_path`, `rflx/pyrflx/typevalue.py:903-937`. A message with a checksum has a first field. -/
def Msg.validPath (m : Msg) (names : List Field) (σ : State) (lower upper : Expr) : Py Bool :=
  (m.nextField σ.mapping INITIAL).bind fun first =>
  (match first with
    | some g => lower.substituted [(.attr false .first messageVar, .attr false .first (.var false false g))]
    | none => .error .keyError : Py Expr).bind fun lower =>
  (boundField lower).bind fun lo =>
  (boundField upper).bind fun up =>
  match lo with
  | none => .error .assertion
  | some lo => m.pathLoop names σ (if up = some messageID' then some FINAL else up) (m.fuel + 1) lo
where
  /-- `"Message"`, `rflx/pyrflx/typevalue.py:928`. -/
  messageID' : ID := ⟨[['M', 'e', 's', 's', 'a', 'g', 'e']]⟩

/-- `self._fields[name].set`, `rflx/pyrflx/typevalue.py:953,958`. -/
def Msg.namedSet (m : Msg) (σ : State) (i : ID) : Py Bool :=
  match m.fieldNamed i with
  | some g => (σ.fv g).isSet (m.typeOf g)
  | none => .error .keyError

/-- The tests for one parameter in `_is_checksum_settable`, `rflx/pyrflx/typevalue.py:941-960`, with the evaluated
parameter. -/
def Msg.paramSettable (m : Msg) (names : List Field) (σ : State) : Param → Param → Py Bool
  | .range l u, .range l' u' =>
    match asNum l', asNum u' with
    | some _, some _ => m.validPath names σ l u
    | _, _ => .ok false
  | _, .expr (.var _ _ i) => m.namedSet σ i
  | _, .expr (.attr _ _ (.var _ _ i)) => m.namedSet σ i
  | _, .expr (.attr ..) => .error .keyError
  | _, _ => .ok true

/-- The loop of `_is_checksum_settable`, `rflx/pyrflx/typevalue.py:939-961`: the parameters afterwards and the result. -/
def Msg.paramsSettable (m : Msg) (names : List Field) (σ : State) : List (Param × Param) → Py (List (Param × Param) × Bool)
  | [] => .ok ([], true)
  | (p, _) :: ps =>
    (m.evalParam σ.mapping p).bind fun e =>
    (m.paramSettable names σ p e).bind fun b =>
    if b then (paramsSettable m names σ ps).map fun r => ((p, e) :: r.1, r.2) else .ok ((p, e) :: ps, false)

/-- `MessageValue._is_checksum_settable`, `rflx/pyrflx/typevalue.py:902-961`. It stores the evaluated parameters. -/
def Msg.settable (m : Msg) (names : List Field) (σ : State) (c : Check) : Py (Check × Bool) :=
  (m.paramsSettable names σ c.params).map fun r => ({ c with params := r.1 }, r.2)

/-! ## Calculation -/

/-- The argument for an evaluated parameter, `rflx/pyrflx/typevalue.py:988-1005`. -/
def Msg.argument (m : Msg) (σ : State) : Param → Py Arg
  | .range l u =>
    match asNum l, asNum u with
    | some l, some u => .ok (.range l.v u.v)
    | _, _ => .error .assertion
  | .expr (.var _ _ i) =>
    match m.fields.find? fun f => f.eq i with
    | none => .error .assertion
    | some g => ((σ.fv g).isSet (m.typeOf g)).bind fun b =>
      match b, (σ.fv g).value with
      | true, some v => .ok (.value v)
      | _, _ => .error .assertion
  | .expr e =>
    match asNum e with
    | some v => .ok (.int v.v)
    | none => .error .assertion

/-- The loop of `_calculate_checksum`, `rflx/pyrflx/typevalue.py:987-1005`. -/
def Msg.arguments (m : Msg) (σ : State) : List (Param × Param) → Py (List (Param × Arg))
  | [] => .ok []
  | (p, e) :: ps => (m.argument σ e).bind fun a => (arguments m σ ps).map fun as => (p, a) :: as

/-- `MessageValue._unchecked_bytestring`, `rflx/pyrflx/typevalue.py:1037-1042`. -/
def Msg.uncheckedBytes (m : Msg) (σ : State) : Py (List Byte) :=
  (m.bitstring σ).bind fun b => if b.len % 8 = 0 then .ok b.toBytes else .error .assertion

/-- `MessageValue._calculate_checksum`, `rflx/pyrflx/typevalue.py:977-1006`. -/
def Msg.calculate (m : Msg) (σ : State) (c : Check) : Py Input :=
  match c.function with
  | none => .error .pyrflx
  | some f => (m.arguments σ c.params).bind fun as => (m.uncheckedBytes σ).bind fun bs => f bs as

/-! ## Setting fields -/

/-- `MessageValue.set(f, value, checksum_calculation=False)`, `rflx/pyrflx/typevalue.py:766-839`: `Msg.set` without the last
step. -/
def Msg.setOnly (m : Msg) (σ : State) (f : Field) (x : Input) : State × Option PyErr :=
  if f ∉ σ.accessible then (σ, some .pyrflx)
  else
    match m.prepare σ f with
    | .error e => (σ, some e)
    | .ok v =>
      match assignValue (m.typeOf f) v.expected x with
      | .error e => (σ.upd f v, some e)
      | .ok value =>
        let σ := σ.upd f { v with value := some value }
        match m.newMapping σ.fv with
        | .error e => (σ, some e)
        | .ok M =>
          let σ := { σ with mapping := M }
          match m.allFalse M (outgoing m.links f) with
          | .error e => (σ, some e)
          | .ok true => (σ.upd f { σ.fv f with value := none }, some .pyrflx)
          | .ok false => (σ, none)

/-- `typeval.assign(value)` of the value of a field, `rflx/pyrflx/typevalue.py:967,970`. A value that is not of the accepted
type (as `0` for an opaque field, or a bit string) leads to an exception, though to another one than here. -/
def Msg.assignTo (m : Msg) (σ : State) (f : Field) (x : Input) : Py State :=
  match x with
  | .bits _ => .error .pyrflx
  | x => (assignValue (m.typeOf f) (σ.fv f).expected x).map fun v => σ.upd f { σ.fv f with value := some v }

/-- `MessageValue._set_checksum`, `rflx/pyrflx/typevalue.py:969-973`. -/
def Msg.setChecksum (m : Msg) (σ : State) (c : Check) : State × Check × Option PyErr :=
  match m.assignTo σ c.field (.int 0) with
  | .error e => (σ, c, some e)
  | .ok σ =>
    let c := { c with calculated := true }
    match m.calculate σ c with
    | .error e => (σ, c, some e)
    | .ok x => ((m.setOnly σ c.field x).1, c, (m.setOnly σ c.field x).2)

/-- One iteration of the loop in `MessageValue.set`, `rflx/pyrflx/typevalue.py:843-847`. -/
def Msg.autoChecksum (m : Msg) (names : List Field) (σ : State) (c : Check) : State × Check × Option PyErr :=
  match (σ.fv c.field).isSet (m.typeOf c.field) with
  | .error e => (σ, c, some e)
  | .ok b =>
    if !b || c.calculated then
      match m.settable names σ c with
      | .error e => (σ, c, some e)
      | .ok (c, false) => (σ, c, none)
      | .ok (c, true) => m.setChecksum σ c
    else (σ, c, none)

/-- The loop in `MessageValue.set`, `rflx/pyrflx/typevalue.py:842-847`. -/
def Msg.autoChecksums (m : Msg) (names : List Field) : State → List Check → State × List Check × Option PyErr
  | σ, [] => (σ, [], none)
  | σ, c :: cs =>
    match m.autoChecksum names σ c with
    | (σ, c, some e) => (σ, c :: cs, some e)
    | (σ, c, none) =>
      let r := autoChecksums m names σ cs
      (r.1, c :: r.2.1, r.2.2)

/-- `MessageValue.__init__`, `rflx/pyrflx/typevalue.py:505-567`, with the given checksums. -/
def CMsg.new (c : CMsg) (checks : List Check) : Py CState := c.base.new.map fun σ => ⟨σ, checks⟩

/-- `MessageValue.set(f, value)`, `rflx/pyrflx/typevalue.py:766-847`. -/
def CMsg.set (c : CMsg) (σ : CState) (f : Field) (x : Input) : CState × Option PyErr :=
  match c.msg.set σ.st f x with
  | (s, some e) => (⟨s, σ.checks⟩, some e)
  | (s, none) =>
    let r := c.msg.autoChecksums c.names s σ.checks
    (⟨r.1, r.2.1⟩, r.2.2)

/-- `MessageValue.update_checksums`, `rflx/pyrflx/typevalue.py:963-967`. -/
def Msg.updateChecksums (m : Msg) (names : List Field) : State → List Check → Py (State × List Check)
  | σ, [] => .ok (σ, [])
  | σ, c :: cs =>
    (m.settable names σ c).bind fun r =>
    (m.calculate σ r.1).bind fun x =>
    (m.assignTo σ c.field x).bind fun σ =>
    (updateChecksums m names σ cs).map fun s => (s.1, r.1 :: s.2)

/-- `MessageValue.update_checksums`, `rflx/pyrflx/typevalue.py:963-967`. -/
def CMsg.updateChecksums (c : CMsg) (σ : CState) : Py CState :=
  (c.msg.updateChecksums c.names σ.st σ.checks).map fun r => ⟨r.1, r.2⟩

/-! ## Validity -/

/-- The comparison of a calculated value with the value of a field, `rflx/pyrflx/typevalue.py:1104`; `value` of an enumeration
is its text (271-274). Lists of elements are not modelled. -/
def Input.eqVal : Input → Val → Py Bool
  | .list _, _ => .error .unmodelled
  | _, .elems _ => .error .unmodelled
  | .int i, .scalar (.int v) => .ok (i == v)
  | .str s, .scalar (.enum txt _) => .ok (s == txt)
  | .bytes b, .bytes b' => .ok (b == b')
  | _, _ => .ok false

/-- The condition for one checksum in `valid_message`, `rflx/pyrflx/typevalue.py:1103-1104`. -/
def Msg.checksumRight (m : Msg) (names : List Field) (σ : State) (c : Check) : Py (Check × Bool) :=
  (m.settable names σ c).bind fun r =>
  if r.2 then (m.calculate σ r.1).bind fun x => (m.get σ c.field).bind fun v => (x.eqVal v).map fun b => (r.1, b)
  else .ok (r.1, false)

/-- `all(...)` in `valid_message`, `rflx/pyrflx/typevalue.py:1102-1105`. -/
def Msg.checksumsRight (m : Msg) (names : List Field) (σ : State) : List Check → Py (List Check × Bool)
  | [] => .ok ([], true)
  | c :: cs => (m.checksumRight names σ c).bind fun r =>
    if r.2 then (checksumsRight m names σ cs).map fun s => (r.1 :: s.1, s.2) else .ok (r.1 :: cs, false)

/-- `MessageValue.valid_message`, `rflx/pyrflx/typevalue.py:1096-1106`. It stores evaluated parameters. -/
def CMsg.validMessage (c : CMsg) (σ : CState) : Py (CState × Bool) :=
  (c.msg.validMessage σ.st).bind fun b =>
  if b then (c.msg.checksumsRight c.names σ.st σ.checks).map fun r => (⟨σ.st, r.1⟩, r.2) else .ok (σ, false)

/-- `MessageValue.bytestring`, `rflx/pyrflx/typevalue.py:1044-1048`. -/
def CMsg.bytestring (c : CMsg) (σ : CState) : Py (List Byte) :=
  (c.validMessage σ).bind fun r => if r.2 then c.msg.uncheckedBytes σ.st else .error .pyrflx

/-! ## Parsing -/

/-- `self.set(...)` with the exception as result. -/
def CMsg.set! (c : CMsg) (σ : CState) (f : Field) (x : Input) : Py CState :=
  match c.set σ f x with
  | (σ, none) => .ok σ
  | (_, some e) => .error e

/-- `set_field_without_size`, `rflx/pyrflx/typevalue.py:706-713`, see `Msg.parseRest`. -/
def CMsg.parseRest (c : CMsg) (σ : CState) (f : Field) (last cur : Nat) (value : Bitstring) : Py (CState × Nat × Nat) :=
  (c.msg.currentPos σ.st f last cur).bind fun pos =>
  (c.msg.getFirst σ.st f).bind fun
    | none => .error .assertion
    | some first => (value.slice pos none).bind fun b =>
      (c.set! { σ with st := σ.st.upd f { σ.st.fv f with first := some first } } f (.bits b)).map fun σ => (σ, pos, pos)

/-- `set_field_with_size`, `rflx/pyrflx/typevalue.py:715-723,739-746`, see `Msg.parseSized`. -/
def CMsg.parseSized (c : CMsg) (σ : CState) (f : Field) (size : Num) (last cur : Nat) (value : Bitstring) :
    Py (CState × Nat × Nat) :=
  (c.msg.currentPos σ.st f last cur).bind fun pos =>
  if size.v < 0 then .error .pyrflx
  else match value.slice pos (some (pos + size.v.toNat)) with
    | .error _ => .error .pyrflx
    | .ok b => (c.set! σ f (.bits b)).map fun σ => (σ, pos, pos + size.v.toNat)

/-- The loop of `MessageValue.parse`, `rflx/pyrflx/typevalue.py:725-747`, see `Msg.parseLoop`. -/
def CMsg.parseLoop (c : CMsg) (value : Bitstring) : Nat → CState → Option Field → Nat → Nat → Py CState
  | _, _, none, _, _ => .error .keyError
  | 0, _, some _, _, _ => .error .fuel
  | k + 1, σ, some f, last, cur =>
    if f = FINAL then .ok σ
    else (c.msg.getSize σ.st f).bind fun size =>
      (match (c.msg.typeOf f).isOpaque, size with
        | true, none => c.parseRest σ f last cur value
        | _, none => .error .assertion
        | _, some s => c.parseSized σ f s last cur value : Py (CState × Nat × Nat)).bind fun r =>
      (c.msg.nextField r.1.st.mapping f).bind fun nxt => parseLoop c value k r.1 nxt r.2.1 r.2.2

/-- `MessageValue.parse` of bytes, `rflx/pyrflx/typevalue.py:684-747`. -/
def CMsg.parseBytes (c : CMsg) (σ : CState) (value : List Byte) : Py CState :=
  (c.msg.nextField σ.st.mapping INITIAL).bind fun nxt =>
  c.parseLoop (Bitstring.fromBytes value) c.msg.fuel σ nxt 0 0

end Verif.PyRFLX
