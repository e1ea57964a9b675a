import Verif.Typing.Model
import Verif.Expr.Syntax

/-! # Type checking of expressions (`_check_type_subexpr`, `check_type`, `check_type_instance`)

In the code, names get their types by `substituted` before an expression is checked (`rflx/model/message.py:658-669`,
`rflx/model/session.py:388-420`), and a check changes the attribute `type_` of expressions. In the model, a context gives the types of
names; `ctorTy` is `type_` after construction and `afterTy` is `type_` after the check. `Not` has no `substituted`
(`rflx/expression.py:259-308`, inherited from 170-174), so names below it get no types. Only the presence of errors is
modelled: `true` means no error. -/

namespace Verif.Typing
open Verif

variable {M : Type} [DecidableEq M]

/-- Types of names, functions (result and arguments) and fields of messages. Names that are not declared have the type
`Undefined`. -/
structure Ctx (M : Type) where
  var : List PyStr → Ty M
  call : List PyStr → Ty M × List (Ty M)
  field : M → PyStr → Option (Ty M)

/-- The types of names below `Not`: `Expr.substituted` is applied to the whole expression only,
`rflx/expression.py:170-174`. -/
def Ctx.blind (Γ : Ctx M) : Ctx M := { Γ with var := fun _ => .undefined, call := fun _ => (.undefined, []) }

/-- `typify_variable`, `rflx/expression.py:1760-1766`. -/
def Ctx.bind (Γ : Ctx M) (p : List PyStr) (t : Ty M) : Ctx M := { Γ with var := fun x => if x = p then t else Γ.var x }

/-- `BOOLEAN`, `rflx/typing_.py:112`. -/
def BOOLEAN : Ty M := .enumeration "__BUILTINS__::Boolean"

/-- `OPAQUE`, `rflx/typing_.py:250`. -/
def OPAQUE : Ty M := .array "Opaque" (.integer "Byte" ⟨some 0, some 255⟩)

/-- `self.prefix.type_.element if isinstance(self.prefix.type_, (rty.Aggregate, rty.Array)) else rty.Any()`,
`rflx/expression.py:1167-1171,1762-1765`. -/
def Ty.element : Ty M → Ty M
  | .aggregate e => e
  | .array _ e => e
  | _ => .any

/-- The type of sums and products, `rflx/expression.py:737-743` (`MathAssExpr.__init__`). -/
def mathTy (t : Ty M) : Ty M := if t = .undefined then .undefinedInteger else t

mutual

/-- `type_` after construction: `rflx/expression.py:203,245,261,326-329,627,741-745,845,1014-1022,1069,1267,1325-1339,1409,
1431,1518,1749`. -/
def ctorTy (Γ : Ctx M) : Expr → Ty M
  | .tru => BOOLEAN
  | .fls => BOOLEAN
  | .undefined => .undefined
  | .num v _ => .universal ⟨some v, some v⟩
  | .var _ imm id => if imm then .undefined else Γ.var id.key
  | .attr _ _ _ => .undefined
  | .sel _ _ _ => .undefined
  | .call _ id _ => (Γ.call id.key).1
  | .not _ => BOOLEAN
  | .bool _ _ => BOOLEAN
  | .add ts => mathTy (commonType (ctorTyL Γ ts))
  | .mul ts => mathTy (commonType (ctorTyL Γ ts))
  | .bin _ l r => commonType [ctorTy Γ l, ctorTy Γ r]
  | .rel _ _ _ => BOOLEAN
  | .agg es => .aggregate (commonType (ctorTyL Γ es))
  | .quant _ _ _ _ => BOOLEAN

/-- The types of a list of expressions. -/
def ctorTyL (Γ : Ctx M) : List Expr → List (Ty M)
  | [] => []
  | e :: es => ctorTy Γ e :: ctorTyL Γ es

end

/-- `type_` after `_check_type_subexpr`: `MathBinExpr` (`rflx/expression.py:847-853`), attributes (1109-1182), `Selected`
(1273-1293); all other expressions keep their types. -/
def afterTy (Γ : Ctx M) : Expr → Ty M
  | .attr _ k pre =>
    match k with
    | .size => .universal ⟨none, none⟩
    | .length => .universal ⟨none, none⟩
    | .first => .universal ⟨none, none⟩
    | .last => .universal ⟨none, none⟩
    | .validChecksum => BOOLEAN
    | .valid => BOOLEAN
    | .present => BOOLEAN
    | .head => (afterTy Γ pre).element
    | .opaque => OPAQUE
  | .sel _ pre s =>
    match ctorTy Γ pre with
    | .message _ b => (Γ.field b s.str).getD .any
    | _ => .any
  | .bin _ l r => commonType [afterTy Γ l, afterTy Γ r]
  | e => ctorTy Γ e

/-- The classes used with `check_type_instance` in `rflx/expression.py`. -/
inductive TyCls | any | anyInteger | composite | message | arrayOrMessage

/-- `isinstance(actual, expected)`, `rflx/typing_.py:69-301`. -/
def Ty.isInstance : TyCls → Ty M → Bool
  | .any, t => decide (t ≠ .undefined)
  | .anyInteger, t => t.isInteger
  | .composite, .aggregate _ => true
  | .composite, .array _ _ => true
  | .composite, _ => false
  | .message, .message _ _ => true
  | .message, _ => false
  | .arrayOrMessage, .array _ _ => true
  | .arrayOrMessage, .message _ _ => true
  | .arrayOrMessage, _ => false

/-- `check_type_instance`, `rflx/typing_.py:350-380`; whether the resulting error is empty. -/
def checkInstance (actual : Ty M) (c : TyCls) : Bool :=
  if actual = .undefined then false
  else if !actual.isInstance c && decide (actual ≠ .any) then false else true

/-- What is expected of an expression: a type (`check_type`, `rflx/expression.py:140-144`) or a class of types
(`check_type_instance`, `rflx/expression.py:146-152`). -/
inductive Want (M : Type)
  | ty (t : Ty M)
  | cls (c : TyCls)

/-- `rty.check_type` or `rty.check_type_instance` for the type of an expression. -/
def meets (t : Ty M) : Want M → Py Bool
  | .ty u => checkType t (.one u)
  | .cls c => .ok (checkInstance t c)

/-- The check of the type of the selector, `rflx/expression.py:1275-1290`. -/
def selectorOk (Γ : Ctx M) (pre : Expr) (s : ID) : Bool :=
  match ctorTy Γ pre with
  | .message _ b => (Γ.field b s.str).isSome
  | _ => true

/-- The check of the number of arguments, `rflx/expression.py:1350-1366`. -/
def arityOk (t : Ty M) (args : List Expr) (ts : List (Ty M)) : Bool :=
  decide (t = .undefined) || decide (args.length = ts.length)

/-- What an attribute other than `Present` expects of its prefix, `rflx/expression.py:1109-1182`. -/
def prefixWant : AttrKind → Want M
  | .size | .length | .first | .last | .validChecksum => .cls .any
  | .valid => .cls .arrayOrMessage
  | .present => .cls .message
  | .head => .cls .composite
  | .opaque => .cls .message

/-- What a relation expects of its left operand, `rflx/expression.py:1530-1737`. -/
def leftWant : RelOp → Want M
  | .lt | .le | .ge | .gt => .cls .anyInteger
  | .eq | .ne | .isIn | .notIn => .cls .any

/-- What a relation expects of its right operand for the type of its left operand, `rflx/expression.py:1530-1737`. -/
def rightWant (left : Ty M) : RelOp → Want M
  | .lt | .le | .ge | .gt => .cls .anyInteger
  | .eq | .ne => .ty left
  | .isIn | .notIn => .ty (.aggregate left)

mutual

/-- `_check_type_subexpr`, whether the resulting error is empty: literals (`rflx/expression.py:209-210,651-652`), `Not`
(266-267), `BoolAssExpr` (528-532), `MathAssExpr` (747-751), `MathBinExpr` (847-853), `Variable` (1041-1042), attributes
(1109-1182), `Selected` (1273-1293), `Call` (1341-1367), `UNDEFINED` (1415-1416), `Aggregate` (1437-1441), relations
(1530-1737), quantified expressions (1759-1775). -/
def subOk (Γ : Ctx M) : Expr → Py Bool
  | .tru => .ok true
  | .fls => .ok true
  | .undefined => .error .notImplemented
  | .num _ _ => .ok true
  | .var _ _ _ => .ok true
  | .attr _ .present (.sel _ p _) => do
    let a ← subOk Γ p
    let b ← meets (afterTy Γ p) (.cls .message)
    return a && b
  | .attr _ .present _ => .ok false
  | .attr _ k pre => do
    let a ← subOk Γ pre
    let b ← meets (afterTy Γ pre) (prefixWant k)
    return a && b
  | .sel _ pre s => do
    let a ← subOk Γ pre
    let b ← meets (afterTy Γ pre) (.cls .message)
    return selectorOk Γ pre s && a && b
  | .call _ id args => do
    let a ← argsOk Γ args (Γ.call id.key).2
    return a && arityOk (Γ.call id.key).1 args (Γ.call id.key).2
  | .not e => do
    let a ← subOk Γ.blind e
    let b ← meets (afterTy Γ.blind e) (.ty BOOLEAN)
    return a && b
  | .bool _ ts => allOk Γ (.ty BOOLEAN) ts
  | .add ts => allOk Γ (.cls .anyInteger) ts
  | .mul ts => allOk Γ (.cls .anyInteger) ts
  | .bin _ l r => do
    let a ← subOk Γ l
    let b ← meets (afterTy Γ l) (.cls .anyInteger)
    let c ← subOk Γ r
    let d ← meets (afterTy Γ r) (.cls .anyInteger)
    return a && b && c && d
  | .rel op l r => do
    let a ← subOk Γ l
    let b ← meets (afterTy Γ l) (leftWant op)
    let c ← subOk Γ r
    let d ← meets (afterTy Γ r) (rightWant (afterTy Γ l) op)
    return a && b && c && d
  | .agg es => allOk Γ (.cls .any) es
  | .quant _ p it pr => do
    let a ← subOk Γ it
    let b ← meets (afterTy Γ it) (.cls .composite)
    let c ← subOk (Γ.bind p.key (afterTy Γ it).element) pr
    let d ← meets (afterTy (Γ.bind p.key (afterTy Γ it).element) pr) (.ty BOOLEAN)
    return a && b && c && d

/-- The check of all expressions of a list. -/
def allOk (Γ : Ctx M) (w : Want M) : List Expr → Py Bool
  | [] => .ok true
  | e :: es => do
    let a ← subOk Γ e
    let b ← meets (afterTy Γ e) w
    let c ← allOk Γ w es
    return a && b && c

/-- The check of arguments, `rflx/expression.py:1344-1348`. Arguments without argument types may have any type. -/
def argsOk (Γ : Ctx M) : List Expr → List (Ty M) → Py Bool
  | [], _ => .ok true
  | e :: es, ts => do
    let a ← subOk Γ e
    let b ← meets (afterTy Γ e) (.ty (ts.headD .any))
    let c ← argsOk Γ es ts.tail
    return a && b && c

end

/-- `check_type` and `check_type_instance`, `rflx/expression.py:140-152`, of an expression whose names have been given
types; whether the resulting error is empty. -/
def check (Γ : Ctx M) (e : Expr) (w : Want M) : Py Bool := do
  let a ← subOk Γ e
  let b ← meets (afterTy Γ e) w
  return a && b

end Verif.Typing
