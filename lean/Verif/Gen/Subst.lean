import Verif.Verify.Model

/-! # Substitution of names by the code generator (`rflx/generator/common.py:23-218`)

Expressions of the generated code are expressions of RecordFlux here; `ada_expr` maps them one to one
(`rflx/expression.py:226-1251`). Three classes of expressions that only the generator uses are represented by others:
`Indexed(Ctx.Cursors, F_X)` by the immutable variable `Ctx::Cursors::F_X` (`Indexed` is left alone by `substituted`, like an
immutable variable, `rflx/expression.py:167-171,1229-1254`), the slice `Buffer.all (A .. B)` by the call
`Buffer::all (A, B)`, and `Types.Byte'Val (E)` in aggregates by `E` (for numbers `substituted` does not change either,
1206-1209). -/

namespace Verif.Gen
open Verif Verif.Graph Verif.Verify Verif.Types

/-! ## Identifiers of the generated code (`rflx/generator/const.py:36-52`) -/

/-- `Ctx`. -/
def CTX : PyStr := ['C', 't', 'x']
/-- `Cursors`. -/
def CURSORS : PyStr := ['C', 'u', 'r', 's', 'o', 'r', 's']
/-- `First`. -/
def FIRST : PyStr := ['F', 'i', 'r', 's', 't']
/-- `Last`. -/
def LAST : PyStr := ['L', 'a', 's', 't']
/-- `Value`. -/
def VALUE : PyStr := ['V', 'a', 'l', 'u', 'e']
/-- `const.TYPES`. -/
def TYPES : PyStr := ['T', 'y', 'p', 'e', 's']
/-- `const.TYPES_U64`. -/
def U64 : ID := ⟨[TYPES, ['U', '6', '4']]⟩
/-- `const.TYPES_BIT_LENGTH`. -/
def BIT_LENGTH : ID := ⟨[TYPES, ['B', 'i', 't', '_', 'L', 'e', 'n', 'g', 't', 'h']]⟩
/-- `const.TYPES_BIT_INDEX`. -/
def BIT_INDEX : ID := ⟨[TYPES, ['B', 'i', 't', '_', 'I', 'n', 'd', 'e', 'x']]⟩
/-- `const.TYPES_BYTE_INDEX`. -/
def BYTE_INDEX : ID := ⟨[TYPES, ['B', 'y', 't', 'e', '_', 'I', 'n', 'd', 'e', 'x']]⟩
/-- `To_Base`. -/
def TO_BASE : ID := ⟨[['T', 'o', '_', 'B', 'a', 's', 'e']]⟩
/-- `Equal`. -/
def EQUAL : ID := ⟨[['E', 'q', 'u', 'a', 'l']]⟩
/-- `Field_First`. -/
def FIELD_FIRST : ID := ⟨[['F', 'i', 'e', 'l', 'd', '_', 'F', 'i', 'r', 's', 't']]⟩
/-- `Field_Last`. -/
def FIELD_LAST : ID := ⟨[['F', 'i', 'e', 'l', 'd', '_', 'L', 'a', 's', 't']]⟩
/-- `Field_Size`. -/
def FIELD_SIZE : ID := ⟨[['F', 'i', 'e', 'l', 'd', '_', 'S', 'i', 'z', 'e']]⟩
/-- `Buffer.all`. -/
def BUFFER_ALL : ID := ⟨[['B', 'u', 'f', 'f', 'e', 'r'], ['a', 'l', 'l']]⟩

/-- A message with the names of its fields as they are written; `Field` disregards letter case, the text of attributes does
not (`rflx/expression.py:89-92`). -/
structure GMsg where
  msg : Verify.Msg
  spell : Field → PyStr

/-- The options of `substitution`, `rflx/generator/common.py:23-28`. -/
structure Opts where
  embedded : Bool
  pub : Bool
  target : Option ID

/-- `Field.affixed_name`, `rflx/model/message.py:36-38`. -/
def affixed (n : PyStr) : PyStr := 'F' :: '_' :: n

/-- `prefixed`, `rflx/generator/common.py:132-133`; the names are words. -/
def Opts.pref (o : Opts) (n : PyStr) : Expr := .v ⟨if o.embedded then [n] else [CTX, n]⟩

/-- `Indexed(cursors, F_X)`, `rflx/generator/common.py:110-112,137-144`. -/
def Opts.cursor (o : Opts) (n : PyStr) : Expr :=
  .var false true ⟨if o.embedded then [CURSORS, affixed n] else [CTX, CURSORS, affixed n]⟩

/-- `expr.Variable("Ctx")`. -/
def ctxVar : Expr := .v ⟨[CTX]⟩

/-- `expr.Variable(field.affixed_name)`. -/
def fieldVar (n : PyStr) : Expr := .v ⟨[affixed n]⟩

/-- `expr.Call(f"Get_{field.name}", [expr.Variable("Ctx")])`, `rflx/generator/common.py:107-108,173-175,182-183`. -/
def getCall (n : PyStr) : Expr := .call false ⟨['G' :: 'e' :: 't' :: '_' :: n]⟩ [ctxVar]

/-- `field_value`, `rflx/generator/common.py:106-115`. -/
def Opts.rawValue (o : Opts) (n : PyStr) : Expr :=
  if o.pub then getCall n
  else .sel false (o.cursor n) ⟨[VALUE, n ++ ['_', 'V', 'a', 'l', 'u', 'e']]⟩

/-- `field_first`, `rflx/generator/common.py:139-144`. -/
def Opts.fieldFirst (o : Opts) (n : PyStr) : Expr :=
  if o.pub then .call false FIELD_FIRST [ctxVar, fieldVar n] else .sel false (o.cursor n) ⟨[FIRST]⟩

/-- `field_last`, `rflx/generator/common.py:146-151`. -/
def Opts.fieldLast (o : Opts) (n : PyStr) : Expr :=
  if o.pub then .call false FIELD_LAST [ctxVar, fieldVar n] else .sel false (o.cursor n) ⟨[LAST]⟩

/-- `field_size`, `rflx/generator/common.py:153-164`. -/
def Opts.fieldSize (o : Opts) (n : PyStr) : Expr :=
  if o.pub then .call false FIELD_SIZE [ctxVar, fieldVar n]
  else .add [.bin .sub (.sel false (o.cursor n) ⟨[LAST]⟩) (.sel false (o.cursor n) ⟨[FIRST]⟩), .n 1]

/-- `field_value`, `rflx/generator/common.py:166-191`. -/
def Opts.fieldValue (o : Opts) (n : PyStr) : FTy → Expr
  | .enum _ => if o.pub then .call false TO_BASE [getCall n] else o.rawValue n
  | .int _ => o.rawValue n
  | .array .. | .opaque | .message _ => .v ⟨[n]⟩

/-- `type_conversion`, `rflx/generator/common.py:193-194`. -/
def Opts.conv (o : Opts) (e : Expr) : Expr :=
  match o.target with
  | some t => .call false t [e]
  | none => e

/-- The enumeration types among the types of the fields, `rflx/generator/common.py:208-209`. -/
def enums : List (Field × FTy) → List Enum
  | [] => []
  | (_, .enum t) :: ts => t :: enums ts
  | _ :: ts => enums ts

/-- The entry of an enumeration literal, `rflx/generator/common.py:207,213-215`. -/
def Opts.literal (o : Opts) (l : ID) : Expr × Expr := (.v l, o.conv (.call false TO_BASE [.v l]))

/-- `substitution_facts`, `rflx/generator/common.py:126-218`: the entries in the order of the dictionary display; of equal
keys the last one counts. -/
def facts (o : Opts) (m : GMsg) : Py (List (Expr × Expr)) := do
  let es := enums m.msg.types
  let qualified ← es.mapM fun t => do
    let p ← t.id.parent
    t.literals.mapM fun l => do return o.literal (← p.mul l.1)
  return [(at' .first MESSAGE, o.conv (o.pref FIRST)),
      (at' .last MESSAGE, o.conv (o.pref LAST)),
      (at' .size MESSAGE, o.conv (.add [o.pref LAST, .var true false ⟨if o.embedded then [FIRST] else [CTX, FIRST]⟩, .n 1]))] ++
    m.msg.fields.map (fun f => (at' .first ⟨[m.spell f]⟩, o.conv (o.fieldFirst (m.spell f)))) ++
    m.msg.fields.map (fun f => (at' .last ⟨[m.spell f]⟩, o.conv (o.fieldLast (m.spell f)))) ++
    m.msg.fields.map (fun f => (at' .size ⟨[m.spell f]⟩, o.conv (o.fieldSize (m.spell f)))) ++
    m.msg.types.map (fun e => (.v ⟨[m.spell e.1]⟩, o.conv (o.fieldValue (m.spell e.1) e.2))) ++
    es.flatMap (fun t => t.literals.map fun l => o.literal l.1) ++
    qualified.flatten ++
    m.msg.checksums.map (fun c => (at' .validChecksum c.1, .tru))

/-- `Field(expression.left.name)` for a variable, `rflx/generator/common.py:43,49,120-121`: the part of its name, if the
field is one of the message. Names of fields have one part. -/
def GMsg.field? (m : GMsg) (id : ID) : Option PyStr :=
  if (⟨id.key⟩ : Field) ∈ m.msg.fields then
    match id.parts with
    | [n] => some n
    | _ => none
  else none

/-- The comparison of a field with an aggregate, `rflx/generator/common.py:51-103`. -/
def Opts.aggregate (o : Opts) (n : PyStr) (equal : Bool) (es : List Expr) : Expr :=
  if o.embedded then
    .rel .eq (.call false BUFFER_ALL [.call false BYTE_INDEX [.sel false (o.cursor n) ⟨[FIRST]⟩],
      .call false BYTE_INDEX [.sel false (o.cursor n) ⟨[LAST]⟩]]) (.agg es)
  else if equal then .call false EQUAL [ctxVar, fieldVar n, .agg es]
  else .not (.call false EQUAL [ctxVar, fieldVar n, .agg es])

/-- The part of `func` about relations, `rflx/generator/common.py:38-120`. Simplification: an aggregate compared with a
variable that is no field raises `AssertionError` (52); here the relation stays. -/
def Opts.relation (o : Opts) (m : GMsg) (op : RelOp) (l r : Expr) : Expr :=
  match l, r with
  | .var _ _ id, .agg es =>
    match m.field? id with
    | some n => if op = .eq ∨ op = .ne then o.aggregate n (op = .eq) es else .rel op l r
    | none => .rel op l r
  | .agg es, .var _ _ id =>
    match m.field? id with
    | some n => if op = .eq ∨ op = .ne then o.aggregate n (op = .eq) es else .rel op l r
    | none => .rel op l r
  | .var _ _ id, .num v b =>
    match m.field? id with
    | some n => .rel op (o.rawValue n) (.num v b)
    | none => .rel op l r
  | .num v b, .var _ _ id =>
    match m.field? id with
    | some n => .rel op (.num v b) (o.rawValue n)
    | none => .rel op l r
  | _, _ => .rel op l r

/-- `func`, `rflx/generator/common.py:31-122`. -/
def Opts.func (o : Opts) (m : GMsg) (fs : List (Expr × Expr)) (e : Expr) : Expr :=
  if e.isName then
    match fs.reverse.find? (fun kv => kv.1.eq e) with
    | some kv => kv.2
    | none => e
  else
    match e with
    | .rel op l r => o.relation m op l r
    | e => e

/-- `e.substituted(func)` for a function, `rflx/expression.py:155-171`; the number of steps suffices for the functions used
here. -/
def substitutedBy (f : Expr → Expr) (e : Expr) : Py Expr := subst (depth e + 4) f e

/-- `e.substituted(substitution(message, ...)).simplified()`, as in `rflx/generator/common.py:237-243,512-516`,
`rflx/generator/generator.py:911-914,966-970,1043-1046,1283-1285`. -/
def Opts.generate (o : Opts) (m : GMsg) (e : Expr) : Py Expr := do
  let fs ← facts o m
  (← substitutedBy (o.func m fs) e).simplified

end Verif.Gen
