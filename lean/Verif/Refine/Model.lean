import Verif.Ctx.Model
import Verif.Common.Model

/-! # Refinements in the generated code
(`rflx/generator/generator.py:2303-2388,2674-2858,3026-3037,3061-3112`)

The function `X_In_Y_F (Ctx)` and the procedure `Switch_To_F` that are generated for a refinement `for Y use (F => X) if C`. The
expression of the function is generated as in the code; what its compilation and execution do is modelled by `Ref.ty` and
`Ref.exec`. The state of contexts and the subprograms of the generated packages of messages are those of `Verif/Ctx/Model.lean`. -/

namespace Verif.Refine
open Verif Verif.Graph Verif.Verify Verif.Types Verif.Gen Verif.Spark Verif.Ctx

/-- `Refinement`, `rflx/model/message.py:1551-1575`: the package, the refined message `pdu` with its identifier and that of the
message it is derived from (itself if it is not derived), the field, the message `sdu` in the field, the condition. The
generated packages of both messages are given instead of the messages. -/
structure Ref where
  package : PyStr
  pduId : ID
  baseId : ID
  pdu : Pkg
  field : Field
  sduId : ID
  sdu : Pkg
  condition : Expr

/-- `Type.package`, `rflx/model/type_.py:36-38`: the parent of an identifier with two parts. -/
def packageOf (i : ID) : PyStr := i.parts.headD []

/-- `flat_name(refinement.pdu.full_name)`, `rflx/generator/generator.py:2678,3064`. -/
def Ref.prefix (r : Ref) : PyStr := flatName r.pduId.str

/-- `null_sdu`, `rflx/generator/generator.py:2328`. -/
def Ref.nullSdu (r : Ref) : Bool := r.sdu.m.msg.fields.isEmpty

mutual
/-- `item in self`, `rflx/expression.py:124-125` (default), 326-327 (`BinExpr`: the operands are compared, but not searched),
389-390 (`AssExpr`). -/
def inExpr (item : Expr) : Expr → Bool
  | .bin op l r => item.eq (.bin op l r) || item.eq l || item.eq r
  | .rel op l r => item.eq (.rel op l r) || item.eq l || item.eq r
  | .bool op ts => item.eq (.bool op ts) || inAny item ts
  | .add ts => item.eq (.add ts) || inAny item ts
  | .mul ts => item.eq (.mul ts) || inAny item ts
  | e => item.eq e
/-- `any(item in term for term in self.terms)`, `rflx/expression.py:390`. -/
def inAny (item : Expr) : List Expr → Bool
  | [] => false
  | e :: es => inExpr item e || inAny item es
end

/-- `condition_fields`, `rflx/generator/generator.py:2380-2384`. -/
def Ref.conditionFields (r : Ref) : List (Field × FTy) :=
  r.pdu.m.msg.types.filter fun e => inExpr (.v ⟨[r.pdu.m.spell e.1]⟩) r.condition

/-- `isinstance(t, Enumeration) and t.always_valid`, `rflx/generator/generator.py:2681,2692`. -/
def alwaysValid : FTy → Bool
  | .enum t => t.alwaysValid
  | _ => false

/-- `Get_`. -/
def GET : PyStr := ['G', 'e', 't', '_']
/-- `Known`. -/
def KNOWN : ID := ⟨[['K', 'n', 'o', 'w', 'n']]⟩
/-- `Enum`. -/
def ENUM : ID := ⟨[['E', 'n', 'u', 'm']]⟩
/-- `Has_Buffer`. -/
def HAS_BUFFER : PyStr := ['H', 'a', 's', '_', 'B', 'u', 'f', 'f', 'e', 'r']
/-- `Present`. -/
def PRESENT : PyStr := ['P', 'r', 'e', 's', 'e', 'n', 't']
/-- `Valid`. -/
def VALID : PyStr := ['V', 'a', 'l', 'i', 'd']
/-- `Structural_Valid`. -/
def STRUCTURAL_VALID : PyStr := ['S', 't', 'r', 'u', 'c', 't', 'u', 'r', 'a', 'l', '_', 'V', 'a', 'l', 'i', 'd']

/-- `expr.Call(pdu_identifier * f"Get_{f.name}", [expr.Variable("Ctx")])`, `rflx/generator/generator.py:2684,2691-2693`. -/
def Ref.getter (r : Ref) (f : Field) : Expr := .call false ⟨[r.prefix, GET ++ r.pdu.m.spell f]⟩ [ctxVar]

/-- `Selected(Get_X (Ctx), "Known")`, `rflx/generator/generator.py:2683-2685`. -/
def Ref.known (r : Ref) (f : Field) : Expr := .sel false (r.getter f) KNOWN

/-- What replaces the name of a field, `rflx/generator/generator.py:2690-2693`. -/
def Ref.fieldValue (r : Ref) (f : Field) (t : FTy) : Expr :=
  if alwaysValid t then .sel false (r.getter f) ENUM else r.getter f

/-- The loop over the condition fields, `rflx/generator/generator.py:2679-2687`. -/
def Ref.guarded (r : Ref) : Expr :=
  r.conditionFields.foldl (fun c e => if alwaysValid e.2 then .bool .andThen [r.known e.1, c] else c) r.condition

/-- `condition`, `rflx/generator/generator.py:2688-2697`. -/
def Ref.replaced (r : Ref) : Py Expr := do
  let c ← r.guarded.substituted (r.conditionFields.map fun e => (.v ⟨[r.pdu.m.spell e.1]⟩, r.fieldValue e.1 e.2))
  c.simplified

/-- A call of a function of the package of the refined message with a field as argument, `rflx/generator/generator.py:3073-3109`. -/
def Ref.fieldCall (r : Ref) (name : PyStr) (f : Field) : Expr :=
  .call false ⟨[r.prefix, name]⟩ [ctxVar, .v ⟨[r.prefix, affixed (r.pdu.m.spell f)]⟩]

/-- `refinement_conditions`, `rflx/generator/generator.py:3061-3112`. Simplification: the name of the context is `Ctx`, also in
the precondition of `Switch_To_F`. -/
def Ref.conditions (r : Ref) (nullSdu : Bool) : List Expr :=
  [.call false ⟨[r.prefix, HAS_BUFFER]⟩ [ctxVar]] ++
  (if nullSdu then [r.fieldCall STRUCTURAL_VALID r.field, .not (r.fieldCall PRESENT r.field)]
    else [r.fieldCall PRESENT r.field]) ++
  r.conditionFields.map fun e => r.fieldCall VALID e.1

/-- The expression of the generated function, `rflx/generator/generator.py:2708-2712`. -/
def Ref.expression (r : Ref) : Py Expr := do
  let c ← r.replaced
  (Expr.bool .andThen (r.conditions r.nullSdu ++ [c])).simplified

/-! ## Compilation -/

/-- Types of Ada expressions: `Boolean`, integer literals, the type generated for an integer or enumeration type, the record type
of an always valid enumeration (`rflx/generator/generator.py:3003-3016`; the type of its component `Enum` is `enum`), names of
enumeration literals (whose type depends on the context), contexts, `Field`. -/
inductive ATy
  | bool
  | universal
  | int (t : IntType)
  | enum (t : Enum)
  | record (t : Enum)
  | literal (k : List PyStr)
  | context
  | field

/-- The packages whose declarations are directly visible in the package of the refinement: its parent, those in `use` clauses
(`rflx/generator/generator.py:2320-2326,2336-2348`) and `Standard`. -/
def Ref.visible (r : Ref) : List (List PyStr) :=
  [[r.package.lower], [['_', '_', 'b', 'u', 'i', 'l', 't', 'i', 'n', 's', '_', '_']]] ++
  (if (packageOf r.pduId).lower = r.package.lower then [] else [[(packageOf r.baseId).lower]]) ++
  ((variables (fun _ => 0) r.condition).filter fun v => v.id.parts.length == 2).map fun v => v.id.key.dropLast

/-- The operators of a type are visible. -/
def Ref.operators (r : Ref) (i : ID) : Bool := r.visible.contains i.key.dropLast

/-- A name denotes a literal of the enumeration: the simple name if the package of the type is visible, or the expanded name. -/
def Ref.denotes (r : Ref) (t : Enum) (k : List PyStr) : Bool :=
  t.literals.any fun l => (k == l.1.key && r.operators t.id) || k == t.id.key.dropLast ++ l.1.key

/-- Whether two expressions can be compared. Types declared in different places are different. Static range checks of integer
literals are not modelled. -/
def Ref.comparable (r : Ref) : ATy → ATy → Bool
  | .bool, .bool => true
  | .universal, .universal => true
  | .int a, .int b => (FTy.int a).id.key == (FTy.int b).id.key && r.operators (FTy.int a).id
  | .int a, .universal => r.operators (FTy.int a).id
  | .universal, .int a => r.operators (FTy.int a).id
  | .enum a, .enum b => a.id.key == b.id.key && r.operators a.id
  | .enum a, .literal k => r.denotes a k && r.operators a.id
  | .literal k, .enum a => r.denotes a k && r.operators a.id
  | _, _ => false

/-- The field of the name `Prefix.F_X`. -/
def Ref.fieldNamed (r : Ref) (k : List PyStr) : Option Field :=
  r.pdu.m.msg.fields.find? fun f => k == [r.prefix.lower, PyStr.lower (affixed (r.pdu.m.spell f))]

/-- The field and the type of the function `Prefix.Get_X`, which exists for scalar fields
(`rflx/generator/parser.py:630-676`). -/
def Ref.getterNamed (r : Ref) (k : List PyStr) : Option (Field × FTy) :=
  r.pdu.m.msg.types.find? fun e => e.2.isScalar && k == [r.prefix.lower, PyStr.lower (GET ++ r.pdu.m.spell e.1)]

/-- The result type of `Get_X`, `rflx/generator/parser.py:631-639`. -/
def resultTy : FTy → Option ATy
  | .int t => some (.int t)
  | .enum t => some (if t.alwaysValid then .record t else .enum t)
  | _ => none

/-- A function of the package of the message is called. -/
def Ref.named (r : Ref) (k : List PyStr) (name : PyStr) : Bool := k == [r.prefix.lower, PyStr.lower name]

/-- `List.mapM` for types: the types of all expressions are the expected one. -/
def allTy (p : ATy → Bool) : List (Option ATy) → Bool
  | [] => true
  | some t :: ts => p t && allTy p ts
  | none :: _ => false

/-- `Boolean`. -/
def ATy.isBool : ATy → Bool
  | .bool => true
  | _ => false

/-- An integer literal. -/
def ATy.isUniversal : ATy → Bool
  | .universal => true
  | _ => false

/-- The type of a function call given those of the arguments. -/
def Ref.callTy (r : Ref) (k : List PyStr) : List (Option ATy) → Option ATy
  | [some .context] =>
    if r.named k HAS_BUFFER then some .bool
    else (r.getterNamed k).bind fun e => resultTy e.2
  | [some .context, some .field] =>
    if r.named k PRESENT || r.named k VALID || r.named k STRUCTURAL_VALID then some .bool else none
  | _ => none

mutual
/-- The type of an expression; `none`: the code is not legal. Arithmetic is between integer literals only, no other expressions are
generated as operators. -/
def Ref.ty (r : Ref) : Expr → Option ATy
  | .tru | .fls => some .bool
  | .num .. => some .universal
  | .var ng _ id =>
    if ng then none
    else if id.key = [PyStr.lower CTX] then some .context
    else if (r.fieldNamed id.key).isSome then some .field
    else if (enums r.pdu.m.msg.types).any fun t => r.denotes t id.key then some (.literal id.key)
    else none
  | .call ng id args => if ng then none else r.callTy id.key (r.tyL args)
  | .sel ng pre s =>
    if ng then none
    else
      match r.ty pre with
      | some (.record t) => if s.key = KNOWN.key then some .bool else if s.key = ENUM.key then some (.enum t) else none
      | _ => none
  | .not e => if allTy ATy.isBool [r.ty e] then some .bool else none
  | .bool _ ts => if allTy ATy.isBool (r.tyL ts) then some .bool else none
  | .add ts => if allTy ATy.isUniversal (r.tyL ts) then some .universal else none
  | .mul ts => if allTy ATy.isUniversal (r.tyL ts) then some .universal else none
  | .bin _ a b => if allTy ATy.isUniversal [r.ty a, r.ty b] then some .universal else none
  | .rel op a b =>
    match r.ty a, r.ty b with
    | some s, some t => if op.isCmp && r.comparable s t then some .bool else none
    | _, _ => none
  | _ => none
/-- The types of a list of expressions. -/
def Ref.tyL (r : Ref) : List Expr → List (Option ATy)
  | [] => []
  | e :: es => r.ty e :: r.tyL es
end

/-! ## Execution -/

/-- Values: truth values, numbers (also those of enumeration literals, see `Verif/Gen/View.lean`), values of the record type of an
always valid enumeration, contexts, fields. -/
inductive AV
  | bool (b : Bool)
  | num (i : Int)
  | known (i : Int)
  | raw (i : Int)
  | context
  | field (f : Field)
deriving DecidableEq

/-- `Present`, `rflx/generator/parser.py:416-440`. -/
def present (c : Context) (f : Field) : Bool := (c.cursors f).sv && decide ((c.cursors f).first < (c.cursors f).last + 1)

/-- `Valid`, `rflx/generator/parser.py:473-521`. -/
def valid (c : Context) (f : Field) : Bool := (c.cursors f).ok && decide ((c.cursors f).first < (c.cursors f).last + 1)

/-- `Get_X`, `rflx/generator/parser.py:630-676`, with the conversion `To_Actual` (`rflx/generator/generator.py:2583-2672,2931-2954`,
see C32). -/
def Ref.get (r : Ref) (c : Context) (f : Field) (t : FTy) : Run AV := do
  need (valid c f)
  let v := (c.cursors f).value
  need (← r.pdu.validValue f v)
  match t with
  | .enum t => return if t.alwaysValid then (if t.literals.any (fun l => l.2 == v) then .known v else .raw v) else .num v
  | _ => return .num v

/-- A function call. -/
def Ref.callFn (r : Ref) (c : Context) (k : List PyStr) : List AV → Run AV
  | [.context] =>
    if r.named k HAS_BUFFER then .ok (.bool c.hasBuffer)
    else
      match r.getterNamed k with
      | some e => r.get c e.1 e.2
      | none => .error .illegal
  | [.context, .field f] =>
    if r.named k PRESENT then .ok (.bool (present c f))
    else if r.named k VALID then .ok (.bool (valid c f))
    else if r.named k STRUCTURAL_VALID then .ok (.bool (c.cursors f).sv)
    else .error .illegal
  | _ => .error .illegal

/-- The component of a record: the discriminant is checked. -/
def component (s : ID) : AV → Run AV
  | .known v => if s.key = KNOWN.key then .ok (.bool true) else if s.key = ENUM.key then .ok (.num v) else .error (.ada .range)
  | .raw _ => if s.key = KNOWN.key then .ok (.bool false) else .error (.ada .range)
  | _ => .error .illegal

/-- Relations. -/
def relate (op : RelOp) : AV → AV → Run AV
  | .num a, .num b => .ok (.bool (op.intOp a b))
  | .bool a, .bool b =>
    match op with
    | .eq => .ok (.bool (a == b))
    | .ne => .ok (.bool (a != b))
    | _ => .error .illegal
  | _, _ => .error .illegal

/-- The truth value of an operand. -/
def AV.truth : AV → Run Bool
  | .bool b => .ok b
  | _ => .error .illegal

/-- The number of an operand. -/
def AV.number : AV → Run Int
  | .num i => .ok i
  | _ => .error .illegal

/-- Operators on integers. -/
def arith (op : ArithOp) (a b : Int) : Run AV :=
  match op.eval .ada a b with
  | some x => .ok (.num x)
  | none => .error (.ada .overflow)

mutual
/-- The value of an expression in the generated function. `and then` and `or else` evaluate operands from left to right until one
decides, the other operators evaluate all operands. -/
def Ref.exec (r : Ref) (c : Context) : Expr → Run AV
  | .tru => .ok (.bool true)
  | .fls => .ok (.bool false)
  | .num v _ => .ok (.num v)
  | .var _ _ id =>
    if id.key = [PyStr.lower CTX] then .ok .context
    else
      match r.fieldNamed id.key with
      | some f => .ok (.field f)
      | none => .ok (.num (litVal r.pdu.m id.key))
  | .call _ id args => do r.callFn c id.key (← r.execL c args)
  | .sel _ pre s => do component s (← r.exec c pre)
  | .not e => do return .bool (!(← (← r.exec c e).truth))
  | .bool op ts =>
    match op with
    | .andThen => do return .bool (← r.execThen c ts)
    | .orElse => do return .bool (← r.execElse c ts)
    | .and => do return .bool ((← (← r.execL c ts).mapM AV.truth).all id)
    | .or => do return .bool ((← (← r.execL c ts).mapM AV.truth).any id)
  | .add ts => do return .num (intSum (← (← r.execL c ts).mapM AV.number))
  | .mul ts => do return .num (intProd (← (← r.execL c ts).mapM AV.number))
  | .bin op a b => do
    let x ← (← r.exec c a).number
    let y ← (← r.exec c b).number
    arith op x y
  | .rel op a b => do
    let x ← r.exec c a
    let y ← r.exec c b
    relate op x y
  | _ => .error .illegal
/-- The values of a list of expressions. -/
def Ref.execL (r : Ref) (c : Context) : List Expr → Run (List AV)
  | [] => .ok []
  | e :: es => do
    let x ← r.exec c e
    let xs ← r.execL c es
    return x :: xs
/-- The operands of `and then`. -/
def Ref.execThen (r : Ref) (c : Context) : List Expr → Run Bool
  | [] => .ok true
  | e :: es => do
    if ← (← r.exec c e).truth then r.execThen c es else return false
/-- The operands of `or else`. -/
def Ref.execElse (r : Ref) (c : Context) : List Expr → Run Bool
  | [] => .ok false
  | e :: es => do
    if ← (← r.exec c e).truth then return true else r.execElse c es
end

/-- The generated function `X_In_Y_F (Ctx)`, `rflx/generator/generator.py:2674-2717`. -/
def Ref.contains (r : Ref) (c : Context) : Run Bool := do
  let e ← ofPy r.expression
  if allTy ATy.isBool [r.ty e] then (← r.exec c e).truth else .error .illegal

/-- `Switch_To_F`, `rflx/generator/generator.py:2719-2858`: the contexts of the refined message and of the message in the field
after the call. `not X'Constrained` is about the declaration of the objects. There is no such procedure if the message in the field
has no fields (2387). -/
def Ref.switch (r : Ref) (c : Context) : Run (Context × Context) := do
  if r.nullSdu then .error .illegal
  else do
    let pre ← (← r.execL c (r.conditions false)).mapM AV.truth
    need (pre.all id)
    need (← r.contains c)
    let first ← r.pdu.fieldFirst c r.field
    let last ← r.pdu.fieldLast c r.field
    let (c', b) ← r.pdu.takeBuffer c
    return (c', ← r.sdu.initialize b first last)

/-- The part of `contains_function_name` for a message, `rflx/generator/generator.py:3027-3036`. -/
def shortName (package : PyStr) (i : ID) : PyStr :=
  if (packageOf i).lower = package.lower then i.parts.getLastD [] else i.str

/-- `contains_function_name`, `rflx/generator/generator.py:3026-3037`. -/
def Ref.functionName (r : Ref) : PyStr :=
  flatName (shortName r.package r.sduId ++ ['_', 'I', 'n', '_'] ++ shortName r.package r.pduId ++ ['_'] ++ r.pdu.m.spell r.field)

end Verif.Refine
