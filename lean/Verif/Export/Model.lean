import Verif.Types.Model
import Verif.Dot.Model

/-! # Export of a model (`rflx/common.py:24-40`, the `serialize` properties of the model)

`rflx export` writes `model.serialize` with `json.dump`. The model stops at the value given to `json.dump`: numbers,
booleans, strings, lists and dictionaries with strings as keys; its text is that of Python's `json` module, which is
not modelled. -/

namespace Verif.Export

open Verif Verif.Types

/-- The values `serialize` returns, `rflx/common.py:24-40`. Dictionaries are lists of entries in order of insertion. -/
inductive Json
  | bool (b : Bool)
  | int (i : Int)
  | str (s : PyStr)
  | list (l : List Json)
  | dict (d : List (PyStr × Json))
deriving Inhabited

/-- Python objects, as far as `Base.serialize` looks at them: `obj` is an object of a class that inherits
`Base.serialize` with its `__dict__`, `id` an `ID`, `dict` a dictionary, `other` an object that has no attribute
`serialize` (for instance the types of `rflx/typing_.py`). -/
inductive Val
  | none
  | bool (b : Bool)
  | int (i : Int)
  | str (s : PyStr)
  | id (i : ID)
  | list (l : List Val)
  | dict (keys : List ID) (values : List Val)
  | obj (cls : PyStr) (attrs : List (PyStr × Val))
  | other

/-- The attributes that are left out, `rflx/common.py:38`. -/
def excluded : List PyStr :=
  ["location".toList, "error".toList, "type_".toList, "_str".toList, "immutable".toList]

/-- `{"kind": kind, "data": data}`, `rflx/common.py:33-40` and the other `serialize` properties. -/
def tagged (kind : PyStr) (data : List (PyStr × Json)) : Json :=
  .dict [("kind".toList, .str kind), ("data".toList, .dict data)]

/-- `ID.serialize`, `rflx/identifier.py:106-108`. -/
def idJson (i : ID) : Json := .list (i.parts.map .str)

mutual

/-- `v.serialize`: `Base.serialize` (`rflx/common.py:24-40`) and `ID.serialize` (`rflx/identifier.py:106-108`). Other
objects have no such attribute. -/
def Val.serialize : Val → Py Json
  | .id i => .ok (idJson i)
  | .obj cls attrs => do
    let data ← Val.serializeAttrs attrs
    return tagged cls data
  | _ => .error .attributeError

/-- `[e.serialize for e in data]`, `rflx/common.py:28`. -/
def Val.serializeList : List Val → Py (List Json)
  | [] => .ok []
  | v :: l => do
    let j ← v.serialize
    let js ← Val.serializeList l
    return j :: js

/-- `{k: value(v) for k, v in self.__dict__.items() if k not in …}`, `rflx/common.py:26-31,35-39`. The keys of
`__dict__` are different. -/
def Val.serializeAttrs : List (PyStr × Val) → Py (List (PyStr × Json))
  | [] => .ok []
  | (k, .list l) :: r =>
    if excluded.contains k then Val.serializeAttrs r
    else do
      let js ← Val.serializeList l
      let d ← Val.serializeAttrs r
      return (k, .list js) :: d
  | (k, .bool b) :: r =>
    if excluded.contains k then Val.serializeAttrs r
    else do
      let d ← Val.serializeAttrs r
      return (k, .bool b) :: d
  | (k, .int i) :: r =>
    if excluded.contains k then Val.serializeAttrs r
    else do
      let d ← Val.serializeAttrs r
      return (k, .int i) :: d
  | (k, .str s) :: r =>
    if excluded.contains k then Val.serializeAttrs r
    else do
      let d ← Val.serializeAttrs r
      return (k, .str s) :: d
  | (k, v) :: r =>
    if excluded.contains k then Val.serializeAttrs r
    else do
      let j ← v.serialize
      let d ← Val.serializeAttrs r
      return (k, j) :: d

end

/-! ## Expressions -/

/-- `Number.base`, `rflx/expression.py:629`. -/
def baseInt : NBase → Int
  | .b0 => 0
  | .b2 => 2
  | .b8 => 8
  | .b10 => 10
  | .b16 => 16

/-- `self.__class__.__name__` of expressions, the classes of `rflx/expression.py:216-1861`. -/
def clsName : Expr.Cls → PyStr
  | .tru => "BooleanTrue".toList
  | .fls => "BooleanFalse".toList
  | .undefined => "UndefinedExpr".toList
  | .num => "Number".toList
  | .var => "Variable".toList
  | .attr .size => "Size".toList
  | .attr .length => "Length".toList
  | .attr .first => "First".toList
  | .attr .last => "Last".toList
  | .attr .validChecksum => "ValidChecksum".toList
  | .attr .valid => "Valid".toList
  | .attr .present => "Present".toList
  | .attr .head => "Head".toList
  | .attr .opaque => "Opaque".toList
  | .sel => "Selected".toList
  | .call => "Call".toList
  | .not => "Not".toList
  | .bool .and => "And".toList
  | .bool .andThen => "AndThen".toList
  | .bool .or => "Or".toList
  | .bool .orElse => "OrElse".toList
  | .add => "Add".toList
  | .mul => "Mul".toList
  | .bin .sub => "Sub".toList
  | .bin .div => "Div".toList
  | .bin .pow => "Pow".toList
  | .bin .mod => "Mod".toList
  | .rel .lt => "Less".toList
  | .rel .le => "LessEqual".toList
  | .rel .eq => "Equal".toList
  | .rel .ge => "GreaterEqual".toList
  | .rel .gt => "Greater".toList
  | .rel .ne => "NotEqual".toList
  | .rel .isIn => "In".toList
  | .rel .notIn => "NotIn".toList
  | .agg => "Aggregate".toList
  | .quant .allOf => "ForAllOf".toList
  | .quant .allIn => "ForAllIn".toList
  | .quant .someIn => "ForSomeIn".toList

mutual

/-- The object of an expression with its `__dict__` in the order of the assignments in the constructors
(`rflx/expression.py:86-87` and the lines cited at the constructors of `Expr`). Simplifications: `type_`, `location`
and `_str`, which are left out of the export, are shown by `type_` alone; `Call.argument_types` (1336) is empty: only
calls in sessions have types of arguments. -/
def toVal : Expr → Val
  | .tru => .obj (clsName .tru) [("type_".toList, .other)]
  | .fls => .obj (clsName .fls) [("type_".toList, .other)]
  | .undefined => .obj (clsName .undefined)
    [("type_".toList, .other), ("negative".toList, .bool false), ("immutable".toList, .bool false)]
  | .num v b => .obj (clsName .num) [("type_".toList, .other), ("value".toList, .int v), ("base".toList, .int (baseInt b))]
  | .var neg imm i => .obj (clsName .var) [("identifier".toList, .id i), ("type_".toList, .other),
      ("negative".toList, .bool neg), ("immutable".toList, .bool imm)]
  | .attr neg k p => .obj (clsName (.attr k)) [("prefix".toList, toVal p), ("type_".toList, .other),
      ("negative".toList, .bool neg), ("immutable".toList, .bool false)]
  | .sel neg p s => .obj (clsName .sel) [("prefix".toList, toVal p), ("selector".toList, .id s),
      ("type_".toList, .other), ("negative".toList, .bool neg), ("immutable".toList, .bool false)]
  | .call neg i args => .obj (clsName .call) [("identifier".toList, .id i), ("args".toList, .list (toVals args)),
      ("argument_types".toList, .list []), ("type_".toList, .other), ("negative".toList, .bool neg),
      ("immutable".toList, .bool false)]
  | .not e => .obj (clsName .not) [("type_".toList, .other), ("expr".toList, toVal e)]
  | .bool op ts => .obj (clsName (.bool op)) [("type_".toList, .other), ("terms".toList, .list (toVals ts))]
  | .add ts => .obj (clsName .add) [("type_".toList, .other), ("terms".toList, .list (toVals ts))]
  | .mul ts => .obj (clsName .mul) [("type_".toList, .other), ("terms".toList, .list (toVals ts))]
  | .bin op l r => .obj (clsName (.bin op))
      [("type_".toList, .other), ("left".toList, toVal l), ("right".toList, toVal r)]
  | .rel op l r => .obj (clsName (.rel op))
      [("type_".toList, .other), ("left".toList, toVal l), ("right".toList, toVal r)]
  | .agg es => .obj (clsName .agg) [("type_".toList, .other), ("elements".toList, .list (toVals es))]
  | .quant k p it pr => .obj (clsName (.quant k)) [("type_".toList, .other), ("parameter_identifier".toList, .id p),
      ("iterable".toList, toVal it), ("predicate".toList, toVal pr)]

/-- A list of expressions. -/
def toVals : List Expr → List Val
  | [] => []
  | e :: es => toVal e :: toVals es

end

/-- `e.serialize`, `rflx/common.py:24-40`: expressions inherit it. -/
def exprJson (e : Expr) : Py Json := (toVal e).serialize

/-! ## Declarations of types -/

/-- `Field` with its only attribute, `rflx/model/message.py:20-22`. -/
def fieldVal (f : ID) : Val := .obj "Field".toList [("identifier".toList, .id f)]

/-- `Link`, a dataclass with `Base.serialize`, `rflx/model/message.py:49-56`. -/
def linkVal (l : Dot.Link) : Val :=
  .obj "Link".toList [("source".toList, fieldVal l.source), ("target".toList, fieldVal l.target),
    ("condition".toList, toVal l.condition), ("size".toList, toVal l.size), ("first".toList, toVal l.first),
    ("location".toList, .none)]

/-- A message: identifier, sorted structure, the types of the fields by their identifiers, the checksums of
`MessageState` (`rflx/model/message.py:100-104`) and the message a `DerivedMessage` is derived from (1512-1549). -/
structure Message where
  id : ID
  structure_ : List Dot.Link
  types : List (ID × ID)
  checksums : List (ID × List Expr)
  base : Option ID

/-- Types of a model: the classes with a `serialize` property, and `Private`. Types of fields, elements of arrays and
the messages of a refinement are given by their identifiers: that is all `serialize` uses. -/
inductive Decl
  | modular (id : ID) (modulus : Expr)
  | range (id : ID) (firstExpr lastExpr sizeExpr : Expr) (first last : Num)
  | enum (id : ID) (literals : List (ID × Num)) (sizeExpr : Expr) (alwaysValid : Bool)
  | array (id element : ID)
  | opaque
  | «private» (id : ID)
  | message (m : Message)
  | refinement (id pdu field sdu : ID) (condition : Expr)

/-- `d[k] = v` of the dictionary a comprehension fills. An equal key keeps its place. -/
def put : List (PyStr × Json) → PyStr → Json → List (PyStr × Json)
  | [], k, v => [(k, v)]
  | (k', v') :: d, k, v => if k' = k then (k', v) :: d else (k', v') :: put d k v

/-- `{k: v for …}`, `rflx/model/type_.py:463`, `rflx/model/message.py:186`. -/
def comprehension (l : List (PyStr × Json)) : List (PyStr × Json) := l.foldl (fun d kv => put d kv.1 kv.2) []

/-- `[l.serialize for l in self.structure]`, `rflx/model/message.py:185`. -/
def linksJson (ls : List Dot.Link) : Py (List Json) := ls.mapM (fun l => (linkVal l).serialize)

/-- `(str(l), v.serialize)` for the literals, `rflx/model/type_.py:463`. -/
def literalsJson (ls : List (ID × Num)) : Py (List (PyStr × Json)) :=
  ls.mapM fun (l, v) => do
    let j ← exprJson v.expr
    return (l.str, j)

/-- `t.serialize`: `ModularInteger` (`rflx/model/type_.py:153-161`), `RangeInteger` (306-316), `Enumeration`
(457-467), `Array` (529-537), `Opaque` (558-560), `Private` (`rflx/common.py:24-40`), messages
(`rflx/model/message.py:179-188`; `DerivedMessage` inherits it), `Refinement` (1635-1648; `package` is
`identifier.parent`, `rflx/model/type_.py:40-42`). -/
def Decl.serialize : Decl → Py Json
  | .modular i m => do
    let m ← exprJson m
    return tagged "ModularInteger".toList [("identifier".toList, idJson i), ("modulus".toList, m)]
  | .range i _ _ s f l => do
    let f ← exprJson f.expr
    let l ← exprJson l.expr
    let s ← scalarSize s
    let s ← exprJson s.expr
    return tagged "RangeInteger".toList [("identifier".toList, idJson i), ("first".toList, f), ("last".toList, l),
      ("size".toList, s)]
  | .enum i ls s v => do
    let ls ← literalsJson ls
    let s ← scalarSize s
    let s ← exprJson s.expr
    return tagged "Enumeration".toList [("identifier".toList, idJson i), ("literals".toList, .dict (comprehension ls)),
      ("size".toList, s), ("always_valid".toList, .bool v)]
  | .array i e => .ok (tagged "Array".toList [("identifier".toList, idJson i), ("element_type".toList, idJson e)])
  | .opaque => .ok (tagged "Opaque".toList [])
  | .private i => (Val.obj "Private".toList [("error".toList, .other), ("identifier".toList, .id i),
      ("location".toList, .none)]).serialize
  | .message m => do
    let ls ← linksJson m.structure_
    return tagged "Message".toList [("identifier".toList, idJson m.id), ("structure".toList, .list ls),
      ("types".toList, .dict (comprehension (m.types.map fun (f, t) => (f.str, idJson t))))]
  | .refinement i pdu f sdu c => do
    let p ← i.parent
    let f ← (fieldVal f).serialize
    let c ← exprJson c
    return tagged "Refinement".toList [("identifier".toList, idJson i), ("package".toList, idJson p),
      ("pdu".toList, idJson pdu), ("field".toList, f), ("sdu".toList, idJson sdu), ("condition".toList, c)]

/-! ## Sessions and models -/

/-- `Session`, the attributes of `rflx/model/session.py:131-140`. States and declarations are objects whose attributes
are not looked into. -/
structure Session where
  id : ID
  initial : ID
  final : ID
  states : List Val
  declarations : List (ID × Val)
  parameters : List (ID × Val)
  types : List (ID × Val)

/-- The session as an object with `Base.serialize`, `rflx/model/session.py:117-140`: there is no other `serialize`. -/
def Session.toVal (s : Session) : Val :=
  .obj "Session".toList [("identifier".toList, .id s.id), ("initial".toList, .id s.initial), ("final".toList, .id s.final),
    ("states".toList, .list s.states), ("declarations".toList, .dict (s.declarations.map (·.1)) (s.declarations.map (·.2))),
    ("parameters".toList, .dict (s.parameters.map (·.1)) (s.parameters.map (·.2))),
    ("types".toList, .dict (s.types.map (·.1)) (s.types.map (·.2))), ("location".toList, .none), ("error".toList, .other)]

/-- `Model`, `rflx/model/model.py:11-16`. -/
structure Model where
  types : List Decl
  sessions : List Session

/-- `model.serialize`, `rflx/common.py:24-40` with the attributes `__types` and `__sessions`
(`rflx/model/model.py:15-16`; Python prefixes them with the class). -/
def Model.serialize (m : Model) : Py Json := do
  let ts ← m.types.mapM Decl.serialize
  let ss ← m.sessions.mapM (fun s => s.toVal.serialize)
  return tagged "Model".toList [("_Model__types".toList, .list ts), ("_Model__sessions".toList, .list ss)]

end Verif.Export
