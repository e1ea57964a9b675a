import Verif.PyRFLX.Array
import Verif.Graph.Model

/-! # Message values of PyRFLX (`rflx/pyrflx/typevalue.py:500-1160`)

Modelled: messages whose fields are scalars, opaque or arrays of scalars, without refinements and checksums (the latter are
added in `Verif.PyRFLX.MessageChecksum`), used with verification (`skip_verification=False`). A field is named by its identifier in lower case as in `Verif.Graph`, so the
conditions and sizes of the links have to use the same spelling. Python's `while` loops may run for ever on cyclic structures;
`Msg.fuel` bounds the number of iterations and the result `PyErr.fuel` stands for no result. -/

namespace Verif.PyRFLX

open Verif Verif.Types Verif.Bits Verif.Graph

/-- The classes of values a field can have here, `TypeValue.construct`, `rflx/pyrflx/typevalue.py:111-127`. The flag is
`imported` (521-522, 467-469). -/
inductive FType
  | scalar (s : Scalar) (imported : Bool)
  | opaque
  | array (s : Scalar) (imported : Bool)

/-- `_value` of an initialized value, `rflx/pyrflx/typevalue.py:150,203,332,399`. -/
inductive Val
  | scalar (v : SVal)
  | bytes (b : List Byte)
  | elems (es : List Elem)

/-- The mutable part of `MessageValue.Field` (`rflx/pyrflx/typevalue.py:1180-1250`): `typeval._value` (`none` if not
initialized), `typeval._expected_size` (297, `none` if not set) and `first` (`none` for `UNDEFINED`). `__last` of a scalar
field (1225-1228) is always the value computed from `first`, because the size of a scalar type never changes. -/
structure FV where
  value : Option Val
  expected : Option Num
  first : Option Num

/-- A message model together with the parts of `MessageValue` that never change: links and fields of the message, types of
the fields, `__type_literals` (`rflx/pyrflx/typevalue.py:540-552`) and the bound of the number of iterations. -/
structure Msg where
  links : List Link
  fields : List Field
  types : Field → FType
  lits : List (Expr × Expr)
  fuel : Nat

/-- The attributes of `MessageValue` that change: `_fields`, `accessible_fields` and `_simplified_mapping`
(`rflx/pyrflx/typevalue.py:516,558,561`). Only the values of `INITIAL` and the fields of the message matter. -/
structure State where
  fv : Field → FV
  accessible : List Field
  mapping : List (Expr × Expr)

/-- The type of a field; `INITIAL` is opaque (`rflx/pyrflx/typevalue.py:520`). -/
def Msg.typeOf (m : Msg) (f : Field) : FType := if f = INITIAL then .opaque else m.types f

/-- The assignment of new attributes to the field `f`. -/
def State.upd (σ : State) (f : Field) (v : FV) : State :=
  { σ with fv := fun g => if g = f then v else σ.fv g }

/-- `isinstance(typeval, OpaqueValue)`. -/
def FType.isOpaque : FType → Bool
  | .opaque => true
  | _ => false

/-- `isinstance(typeval, CompositeValue)`. -/
def FType.isComposite : FType → Bool
  | .scalar .. => false
  | _ => true

/-! ## Attributes of fields -/

/-- `typeval.size`, `rflx/pyrflx/typevalue.py:145-147,361-365,480-484`; `none` stands for `UNDEFINED`. -/
def FV.size (t : FType) (v : FV) : Py (Option Num) :=
  match t, v.value with
  | .scalar s _, _ => s.size.map some
  | .opaque, none => .ok v.expected
  | .opaque, some (.bytes b) => .ok (some ⟨b.length * 8, .b0⟩)
  | .array .., none => .ok v.expected
  | .array .., some (.elems []) => .ok v.expected
  | .array .., some (.elems es) => (arrayBits es).map fun b => some ⟨b.len, .b0⟩
  | _, _ => .error .unmodelled

/-- `Field._last`, `Field.last`, `rflx/pyrflx/typevalue.py:1215-1218,1248-1250`, if it is a number. With an undefined size
the result is no number. -/
def FV.last (t : FType) (v : FV) : Py (Option Num) :=
  match v.first with
  | none => .ok none
  | some f => (v.size t).bind fun
    | none => .ok none
    | some s => (Expr.bin .sub (.add [f.expr, s.expr]) (.n 1)).simplified.map asNum

/-- `Field.set`, `rflx/pyrflx/typevalue.py:1239-1246`. -/
def FV.isSet (t : FType) (v : FV) : Py Bool :=
  if v.value.isNone then .ok false
  else (v.size t).bind fun
    | none => .ok false
    | some _ => if v.first.isNone then .ok false else (v.last t).map Option.isSome

/-- `typeval.expr` of an initialized scalar, `rflx/pyrflx/typevalue.py:159-162,272-275`. -/
def SVal.expr : SVal → Py Expr
  | .int v => .ok (.n v)
  | .enum text _ => (ID.ofStr text).map (Expr.var false false)

/-- `typeval.bitstring` of an initialized value, `rflx/pyrflx/typevalue.py:191-194,281-284,377-385,489-493`. -/
def valBits (t : FType) (v : Val) : Py Bitstring :=
  match t, v with
  | .scalar s imp, .scalar v => Elem.bitstring ⟨s, imp, v⟩
  | .opaque, .bytes b => if b.length = 0 then .ok ⟨[]⟩ else fmtBits ⟨b.length * 8, .b0⟩ (bytesToNat b)
  | .array .., .elems es => arrayBits es
  | _, _ => .error .unmodelled

/-! ## Simplification with the current values -/

/-- `MessageValue.__simplified`, `rflx/pyrflx/typevalue.py:1147-1162`, with the mapping `M`. -/
def Msg.simplifiedIn (m : Msg) (M : List (Expr × Expr)) (e : Expr) : Py Expr :=
  if e.isTru || e.isFls then .ok e
  else (e.substituted (M ++ m.lits)).bind fun e => (e.substituted (M ++ m.lits)).bind Expr.simplified

/-- `self.__simplified(e) == TRUE`. -/
def Msg.holds (m : Msg) (M : List (Expr × Expr)) (e : Expr) : Py Bool := (m.simplifiedIn M e).map Expr.isTru

/-- `all(self.__simplified(o.condition) == FALSE for o in links)`, `rflx/pyrflx/typevalue.py:786-789`. -/
def Msg.allFalse (m : Msg) (M : List (Expr × Expr)) : List Link → Py Bool
  | [] => .ok true
  | l :: ls => (m.simplifiedIn M l.condition).bind fun e => if e.isFls then allFalse m M ls else .ok false

/-- `any(self.__simplified(o.condition) == TRUE for o in links)`, `rflx/pyrflx/typevalue.py:1084-1086`. -/
def Msg.anyTrue (m : Msg) (M : List (Expr × Expr)) : List Link → Py Bool
  | [] => .ok false
  | l :: ls => (m.holds M l.condition).bind fun b => if b then .ok true else anyTrue m M ls

/-- The loop of `_next_field`, `rflx/pyrflx/typevalue.py:616-619`. -/
def Msg.firstTrue (m : Msg) (M : List (Expr × Expr)) : List Link → Py (Option Field)
  | [] => .ok none
  | l :: ls => (m.holds M l.condition).bind fun b => if b then .ok (some l.target) else firstTrue m M ls

/-- `MessageValue._next_field`, `rflx/pyrflx/typevalue.py:607-619`; `none` stands for the empty string. -/
def Msg.nextField (m : Msg) (M : List (Expr × Expr)) (f : Field) : Py (Option Field) :=
  if f = FINAL then .ok none
  else if f = INITIAL then
    match outgoing m.links INITIAL with
    | [] => .ok (some FINAL)
    | l :: _ => .ok (some l.target)
  else m.firstTrue M (outgoing m.links f)

/-- The list `prev` of `_prev_field`, `rflx/pyrflx/typevalue.py:626-630`. -/
def Msg.trueSources (m : Msg) (M : List (Expr × Expr)) : List Link → Py (List Field)
  | [] => .ok []
  | l :: ls => (m.holds M l.condition).bind fun b =>
    (trueSources m M ls).map fun fs => if b then l.source :: fs else fs

/-- `MessageValue._prev_field`, `rflx/pyrflx/typevalue.py:621-637`. -/
def Msg.prevField (m : Msg) (σ : State) (f : Field) : Py (Option Field) :=
  if f = INITIAL then .ok none
  else (m.trueSources σ.mapping (incoming m.links f)).map fun
    | [g] => some g
    | prev => prev.find? fun g => σ.accessible.contains g

/-- The loop of `_get_size`, `rflx/pyrflx/typevalue.py:644-651`. -/
def Msg.linkSize (m : Msg) (σ : State) : List Link → Py (Option Num)
  | [] => .ok none
  | l :: ls =>
    ((σ.fv l.source).isSet (m.typeOf l.source)).bind fun b =>
    if b && !l.size.eq .undefined then
      (m.holds σ.mapping l.condition).bind fun c =>
      if c then (m.simplifiedIn σ.mapping l.size).map asNum else linkSize m σ ls
    else linkSize m σ ls

/-- `MessageValue._get_size`, `rflx/pyrflx/typevalue.py:639-652`. -/
def Msg.getSize (m : Msg) (σ : State) (f : Field) : Py (Option Num) :=
  match m.typeOf f with
  | .scalar s _ => s.size.map some
  | _ => m.linkSize σ (incoming m.links f)

/-- The loop of `_get_first`, `rflx/pyrflx/typevalue.py:655-660`; `none` if it ends without result. -/
def Msg.linkFirst (m : Msg) (σ : State) : List Link → Py (Option (Option Num))
  | [] => .ok none
  | l :: ls =>
    if l.first.eq .undefined then linkFirst m σ ls
    else (m.holds σ.mapping l.condition).bind fun c =>
      if c then (m.simplifiedIn σ.mapping l.first).map fun e => some (asNum e) else linkFirst m σ ls

/-- `MessageValue._get_first`, `rflx/pyrflx/typevalue.py:654-671`. -/
def Msg.getFirst (m : Msg) (σ : State) (f : Field) : Py (Option Num) :=
  (m.linkFirst σ (incoming m.links f)).bind fun
    | some r => .ok r
    | none => (m.prevField σ f).bind fun
      | none => .ok none
      | some prv => ((σ.fv prv).size (m.typeOf prv)).bind fun size =>
        match (σ.fv prv).first, size with
        | some a, some b => (m.simplifiedIn σ.mapping (.add [a.expr, b.expr])).map asNum
        | _, _ => .ok none

/-! ## The mapping -/

/-- `Variable("Message")`. -/
def messageVar : Expr := .var false false ⟨[['M', 'e', 's', 's', 'a', 'g', 'e']]⟩

/-- The entry for the value of a field, `rflx/pyrflx/typevalue.py:1121-1122`. -/
def valueEntry (t : FType) (v : FV) (f : Field) : Py (List (Expr × Expr)) :=
  match t, v.value with
  | .scalar .., some (.scalar x) => (v.isSet t).bind fun b =>
    if b then x.expr.map fun e => [(.var false false f, e)] else .ok []
  | _, _ => .ok []

/-- The entry for the size of a field, `rflx/pyrflx/typevalue.py:1123-1124`. -/
def sizeEntry (t : FType) (v : FV) (f : Field) : Py (List (Expr × Expr)) :=
  (if t.isComposite then v.isSet t else .ok true).bind fun b =>
    if b then (v.size t).map fun
      | some s => [(.attr false .size (.var false false f), s.expr)]
      | none => []
    else .ok []

/-- The entry for the first bit of a field, `rflx/pyrflx/typevalue.py:1125-1126`. -/
def firstEntry (v : FV) (f : Field) : List (Expr × Expr) :=
  match v.first with
  | some n => [(.attr false .first (.var false false f), n.expr)]
  | none => []

/-- The entry for the last bit of a field, `rflx/pyrflx/typevalue.py:1127-1128`. -/
def lastEntry (t : FType) (v : FV) (f : Field) : Py (List (Expr × Expr)) :=
  (v.last t).map fun
    | some n => [(.attr false .last (.var false false f), n.expr)]
    | none => []

/-- The entries of the mapping for one field, `rflx/pyrflx/typevalue.py:1120-1128`. -/
def entries (t : FType) (v : FV) (f : Field) : Py (List (Expr × Expr)) :=
  (valueEntry t v f).bind fun a =>
  (sizeEntry t v f).bind fun b =>
  (lastEntry t v f).map fun d => a ++ b ++ firstEntry v f ++ d

/-- The first part of `__update_simplified_mapping`, `rflx/pyrflx/typevalue.py:1119-1128`, for the given fields. No key
occurs twice, so the order does not matter. -/
def Msg.fieldMapping (m : Msg) (fv : Field → FV) : List Field → Py (List (Expr × Expr))
  | [] => .ok [(.attr false .first messageVar, .n 0)]
  | f :: fs => (entries (m.typeOf f) (fv f) f).bind fun es => (fieldMapping m fv fs).map fun r => es ++ r

/-- The loop of `__update_simplified_mapping`, `rflx/pyrflx/typevalue.py:1130-1141`: the last bit of the message if it gets
assigned. `_fields["Final"]` raises `KeyError`. -/
def Msg.messageLast (m : Msg) (fv : Field → FV) (M : List (Expr × Expr)) : Nat → Option Field → Py (Option Num)
  | _, none => .ok none
  | 0, some _ => .error .fuel
  | k + 1, some f =>
    (m.nextField M f).bind fun nxt =>
    if f = FINAL then .error .keyError
    else ((fv f).last (m.typeOf f)).bind fun last =>
      if nxt = some FINAL then .ok none
      else match last with
        | none => .ok none
        | some n =>
          if nxt.isSome then messageLast m fv M k nxt
          else if (outgoing m.links f).any (fun l => l.target == FINAL) then .ok (some n)
          else .ok none

/-- The assignments to `Message'Last` and `Message'Size`, `rflx/pyrflx/typevalue.py:1140-1141`. -/
def withMessage (M : List (Expr × Expr)) : Option Num → List (Expr × Expr)
  | some n => (.attr false .last messageVar, n.expr) :: (.attr false .size messageVar, .n (n.v + 1)) :: M
  | none => M

/-- `MessageValue.__update_simplified_mapping`, `rflx/pyrflx/typevalue.py:1119-1144`. -/
def Msg.newMapping (m : Msg) (fv : Field → FV) : Py (List (Expr × Expr)) :=
  (m.fieldMapping fv (INITIAL :: m.fields)).bind fun M =>
  (m.nextField M INITIAL).bind fun nxt =>
  (m.messageLast fv M m.fuel nxt).map (withMessage M)

/-! ## Presetting the following fields -/

/-- `isinstance(self._fields[...])`: the field with this name, `v.name in self._fields` (`rflx/pyrflx/typevalue.py:1072`). -/
def Msg.fieldNamed (m : Msg) (i : ID) : Option Field := (INITIAL :: m.fields).find? fun f => f.eq i

/-- `all(... for v in valid_edge.size.variables())`, `rflx/pyrflx/typevalue.py:1071-1074`. -/
def Msg.allSet (m : Msg) (σ : State) : List PyVar → Py Bool
  | [] => .ok true
  | v :: vs =>
    (match m.fieldNamed v.id with
      | some g => (σ.fv g).isSet (m.typeOf g)
      | none => .ok false : Py Bool).bind fun b =>
    if b || messageVar.eq (.var false false v.id) then allSet m σ vs else .ok false

/-- `MessageValue._is_valid_opaque_field`, `rflx/pyrflx/typevalue.py:1055-1074`, for the given incoming links. The variables
of an expression are a list without repetitions, whatever the hash function is. -/
def Msg.validOpaque (m : Msg) (σ : State) : List Link → Py Bool
  | [] => .ok false
  | l :: ls =>
    if l.size.eq .undefined then validOpaque m σ ls
    else ((σ.fv l.source).isSet (m.typeOf l.source)).bind fun b =>
      if b then (m.holds σ.mapping l.condition).bind fun c =>
        if c then m.allSet σ (variables (fun _ => 0) l.size) else validOpaque m σ ls
      else validOpaque m σ ls

/-- Whether `_preset_fields` makes the field accessible, `rflx/pyrflx/typevalue.py:860-864`. -/
def Msg.makesAccessible (m : Msg) (σ : State) (f : Field) (size : Option Num) : Py Bool :=
  (fieldCondition m.links m.fuel f).bind fun c =>
  (m.holds σ.mapping c).bind fun b =>
  if b then
    if (m.typeOf f).isOpaque then m.validOpaque σ (incoming m.links f) else .ok size.isSome
  else .ok false

/-- The new attributes of a field in `_preset_fields` if its position and size are known,
`rflx/pyrflx/typevalue.py:869-871`. -/
def presetFV (t : FType) (v : FV) (first size : Num) : FV :=
  { v with first := some first, expected := if t.isOpaque then some size else v.expected }

/-- The loop of `_preset_fields`, `rflx/pyrflx/typevalue.py:853-878`: the new state and the list `fields`. `_last_field` is
only used without verification. -/
def Msg.presetLoop (m : Msg) : Nat → State → Option Field → List Field → Py (State × List Field)
  | _, σ, none, fs => .ok (σ, fs)
  | 0, _, some _, _ => .error .fuel
  | k + 1, σ, some f, fs =>
    if f = FINAL then .ok (σ, fs)
    else (m.getFirst σ f).bind fun first => (m.getSize σ f).bind fun size =>
      match first with
      | none => .ok (σ, fs)
      | some first => (m.makesAccessible σ f size).bind fun acc =>
        let fs := if acc then fs ++ [f] else fs
        match size with
        | none => .ok (σ, fs)
        | some size =>
          let v := presetFV (m.typeOf f) (σ.fv f) first size
          (if (m.typeOf f).isOpaque then v.isSet (m.typeOf f) else .ok false).bind fun stop =>
          if stop then .ok (σ.upd f { v with first := none, value := none }, fs)
          else (m.nextField σ.mapping f).bind fun nxt => presetLoop m k (σ.upd f v) nxt fs

/-- `l[: l.index(f) + 1] + fs`, or `fs` if `f` is not in the list, `rflx/pyrflx/typevalue.py:880-885`. -/
def replaceAfter (l : List Field) (f : Field) (fs : List Field) : List Field :=
  if f ∈ l then l.take (l.idxOf f + 1) ++ fs else fs

/-- `MessageValue._preset_fields`, `rflx/pyrflx/typevalue.py:849-885`. -/
def Msg.preset (m : Msg) (σ : State) (f : Field) : Py State :=
  (m.nextField σ.mapping f).bind fun nxt =>
  (m.presetLoop m.fuel σ nxt []).map fun r => { r.1 with accessible := replaceAfter r.1.accessible f r.2 }

/-! ## Construction, setting, reading -/

/-- The value of a new field, `rflx/pyrflx/typevalue.py:46,403,1203`, and of `INITIAL` after 553-556. -/
def Msg.newFV (m : Msg) (f : Field) : FV :=
  if f = INITIAL then ⟨some (.bytes []), none, some ⟨0, .b0⟩⟩
  else match m.types f with
    | .array .. => ⟨some (.elems []), none, none⟩
    | _ => ⟨none, none, none⟩

/-- `MessageValue.__init__`, `rflx/pyrflx/typevalue.py:505-567`. -/
def Msg.new (m : Msg) : Py State :=
  m.preset
    ⟨m.newFV, [],
      [(.attr false .size (.var false false INITIAL), .n 0), (.attr false .last (.var false false INITIAL), .n 0),
       (.attr false .first (.var false false INITIAL), .n 0), (.attr false .first messageVar, .n 0)]⟩ INITIAL

/-- The argument `value` of `MessageValue.set`, `rflx/pyrflx/typevalue.py:769`. -/
inductive Input
  | bits (b : Bitstring)
  | int (v : Int)
  | str (s : PyStr)
  | bytes (b : List Byte)
  | list (es : List Elem)

/-- `typeval.parse(value)` or `typeval.assign(value)`, `rflx/pyrflx/typevalue.py:817-825`: the new `_value`. Values that are
no instances of `accepted_type` are rejected. The text of an enumeration value is kept in `SVal.enum`. -/
def assignValue (t : FType) (expected : Option Num) (x : Input) : Py Val :=
  match t, x with
  | .scalar s imp, .bits b => (s.parse imp b true).map fun e => .scalar e.value
  | .scalar (.int t) _, .int v => (IntegerValue.assign t v true).map fun v => .scalar (.int v)
  | .scalar (.enum t) imp, .str s => (EnumValue.assign t imp s true).map fun r => .scalar (.enum r.1 r.2)
  | .opaque, .bits b => (checkSize (expected.map Num.v) b.len).map fun _ => .bytes b.toBytes
  | .opaque, .bytes b => (checkSize (expected.map Num.v) (b.length * 8)).map fun _ => .bytes b
  | .array s imp, .bits b => (ArrayValue.parse s imp (expected.map Num.v) b true).map .elems
  | .array s _, .list es => (ArrayValue.assign s (expected.map Num.v) es true).map .elems
  | _, _ => .error .pyrflx

/-- The first part of `MessageValue.set`, `rflx/pyrflx/typevalue.py:801-814`. -/
def Msg.prepare (m : Msg) (σ : State) (f : Field) : Py FV :=
  (m.getFirst σ f).bind fun first => (m.getSize σ f).bind fun size =>
  match first with
  | none => .error .assertion
  | some first =>
    .ok { σ.fv f with
      first := some first
      expected := if (m.typeOf f).isComposite && size.isSome then size else (σ.fv f).expected }

/-- `MessageValue.set(f, value)`, `rflx/pyrflx/typevalue.py:766-847`: the state afterwards and the exception raised, if any.
Simplified: an exception other than those of 789-796 while the mapping is computed (837) or the following fields are preset
(841) leaves the partial results of these steps behind, here it leaves the state before the step. -/
def Msg.set (m : Msg) (σ : State) (f : Field) (x : Input) : State × Option PyErr :=
  if f ∉ σ.accessible then (σ, some .pyrflx)
  else
    match m.prepare σ f with
    | .error e => (σ, some e)
    | .ok v =>
      match assignValue (m.typeOf f) v.expected x with
      | .error e => (σ.upd f v, some e)
      | .ok value =>
        let σ := σ.upd f { v with value := some value }
        match m.newMapping σ.fv with
        | .error e => (σ, some e)
        | .ok M =>
          let σ := { σ with mapping := M }
          match m.allFalse M (outgoing m.links f) with
          | .error e => (σ, some e)
          | .ok true => (σ.upd f { σ.fv f with value := none }, some .pyrflx)
          | .ok false =>
            match m.preset σ f with
            | .error e => (σ, some e)
            | .ok σ => (σ, none)

/-- Whether the field is in `valid_fields`, `rflx/pyrflx/typevalue.py:1080-1087`. -/
def Msg.isValid (m : Msg) (σ : State) (f : Field) : Py Bool :=
  ((σ.fv f).isSet (m.typeOf f)).bind fun a =>
  if a then (fieldCondition m.links m.fuel f).bind fun c => (m.holds σ.mapping c).bind fun b =>
    if b then m.anyTrue σ.mapping (outgoing m.links f) else .ok false
  else .ok false

/-- `MessageValue.valid_fields`, `rflx/pyrflx/typevalue.py:1076-1088`, for the given accessible fields. -/
def Msg.validFields (m : Msg) (σ : State) : List Field → Py (List Field)
  | [] => .ok []
  | f :: fs => (m.isValid σ f).bind fun b => (validFields m σ fs).map fun r => if b then f :: r else r

/-- `MessageValue.get(f)`, `rflx/pyrflx/typevalue.py:1008-1014`: the `_value` of the field. -/
def Msg.get (m : Msg) (σ : State) (f : Field) : Py Val :=
  (m.validFields σ σ.accessible).bind fun fs =>
  if f ∈ fs then
    match (σ.fv f).value with
    | some v => .ok v
    | none => .error .pyrflx
  else .error .pyrflx

/-- `MessageValue.valid_message`, `rflx/pyrflx/typevalue.py:1096-1106`, without checksums. -/
def Msg.validMessage (m : Msg) (σ : State) : Py Bool :=
  (m.validFields σ σ.accessible).bind fun fs =>
  match fs.getLast? with
  | none => .ok false
  | some f => (m.nextField σ.mapping f).map fun nxt => nxt == some FINAL

/-- The loop of `MessageValue.bitstring`, `rflx/pyrflx/typevalue.py:1018-1029`. A negative position does not occur. -/
def Msg.bitsLoop (m : Msg) (σ : State) : Nat → Option Field → List Bool → Py (List Bool)
  | _, none, bits => .ok bits
  | 0, some _, _ => .error .fuel
  | k + 1, some f, bits =>
    if f = FINAL then .ok bits
    else ((σ.fv f).isSet (m.typeOf f)).bind fun a =>
      match a, (σ.fv f).value, (σ.fv f).first with
      | true, some v, some first =>
        if first.v < 0 then .error .unmodelled
        else if (bits.length : Int) < first.v then .ok bits
        else (valBits (m.typeOf f) v).bind fun b =>
          (m.nextField σ.mapping f).bind fun nxt => bitsLoop m σ k nxt (bits.take first.v.toNat ++ b.bits)
      | _, _, _ => .ok bits

/-- `MessageValue.bitstring`, `rflx/pyrflx/typevalue.py:1016-1031`. -/
def Msg.bitstring (m : Msg) (σ : State) : Py Bitstring :=
  (m.nextField σ.mapping INITIAL).bind fun nxt => (m.bitsLoop σ m.fuel nxt []).map Bitstring.mk

/-- `MessageValue.bytestring`, `rflx/pyrflx/typevalue.py:1037-1048`. -/
def Msg.bytestring (m : Msg) (σ : State) : Py (List Byte) :=
  (m.validMessage σ).bind fun b =>
  if b then (m.bitstring σ).bind fun b => if b.len % 8 = 0 then .ok b.toBytes else .error .assertion
  else .error .pyrflx

/-! ## Parsing -/

/-- `get_current_pos_in_bitstr`, `rflx/pyrflx/typevalue.py:691-704`; `last` and `cur` are `last_field_first_in_bitstr` and
`current_field_first_in_bitstr`. -/
def Msg.currentPos (m : Msg) (σ : State) (f : Field) (last cur : Nat) : Py Nat :=
  (m.prevField σ f).bind fun
    | none => .error .keyError
    | some g =>
      match (σ.fv g).first, (σ.fv f).first with
      | some a, some b => .ok (if a.v = b.v then last else cur)
      | _, _ => .ok cur

/-- `self.set(...)` with the exception as result. -/
def Msg.set! (m : Msg) (σ : State) (f : Field) (x : Input) : Py State :=
  match m.set σ f x with
  | (σ, none) => .ok σ
  | (_, some e) => .error e

/-- `set_field_without_size`, `rflx/pyrflx/typevalue.py:706-713`: the new state and the two positions. -/
def Msg.parseRest (m : Msg) (σ : State) (f : Field) (last cur : Nat) (value : Bitstring) : Py (State × Nat × Nat) :=
  (m.currentPos σ f last cur).bind fun pos =>
  (m.getFirst σ f).bind fun
    | none => .error .assertion
    | some first => (value.slice pos none).bind fun b =>
      (m.set! (σ.upd f { σ.fv f with first := some first }) f (.bits b)).map fun σ => (σ, pos, pos)

/-- `set_field_with_size`, `rflx/pyrflx/typevalue.py:715-723`, with the handler of 739-746. A negative size is rejected by
the check of the size of the value (319). -/
def Msg.parseSized (m : Msg) (σ : State) (f : Field) (size : Num) (last cur : Nat) (value : Bitstring) :
    Py (State × Nat × Nat) :=
  (m.currentPos σ f last cur).bind fun pos =>
  if size.v < 0 then .error .pyrflx
  else match value.slice pos (some (pos + size.v.toNat)) with
    | .error _ => .error .pyrflx
    | .ok b => (m.set! σ f (.bits b)).map fun σ => (σ, pos, pos + size.v.toNat)

/-- The loop of `MessageValue.parse`, `rflx/pyrflx/typevalue.py:725-747`. `_fields[""]` raises `KeyError`. -/
def Msg.parseLoop (m : Msg) (value : Bitstring) : Nat → State → Option Field → Nat → Nat → Py State
  | _, _, none, _, _ => .error .keyError
  | 0, _, some _, _, _ => .error .fuel
  | k + 1, σ, some f, last, cur =>
    if f = FINAL then .ok σ
    else (m.getSize σ f).bind fun size =>
      (match (m.typeOf f).isOpaque, size with
        | true, none => m.parseRest σ f last cur value
        | _, none => .error .assertion
        | _, some s => m.parseSized σ f s last cur value : Py (State × Nat × Nat)).bind fun r =>
      (m.nextField r.1.mapping f).bind fun nxt => parseLoop m value k r.1 nxt r.2.1 r.2.2

/-- `MessageValue.parse` of a bit string, `rflx/pyrflx/typevalue.py:684-747`. -/
def Msg.parse (m : Msg) (σ : State) (value : Bitstring) : Py State :=
  (m.nextField σ.mapping INITIAL).bind fun nxt => m.parseLoop value m.fuel σ nxt 0 0

/-- `MessageValue.parse` of bytes, `rflx/pyrflx/typevalue.py:686-687`. -/
def Msg.parseBytes (m : Msg) (σ : State) (value : List Byte) : Py State := m.parse σ (Bitstring.fromBytes value)

end Verif.PyRFLX
