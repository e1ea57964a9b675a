import Verif.Session.Model
import Verif.Typing.Check
import Verif.Expr.Subst

/-! # Model of the validation of declarations and actions of sessions

`rflx/model/session.py`, `rflx/declaration.py`, `rflx/statement.py` and the parts of `rflx/expression.py` that occur in sessions
only. As types are immutable and an error is raised at the end if any was recorded, the model computes whether all checks
succeed (`true`: no error has been recorded). Exceptions other than `RecordFluxError` are errors of `Py`. -/

namespace Verif.Session
open Verif Verif.Typing

variable {M : Type} [DecidableEq M]

/-! ## Types -/

/-- `Message`, `rflx/typing_.py:253-267`: the contents of message types. -/
structure Body (M : Type) where
  /-- `field_types` -/
  field : M → PyStr → Option (Ty M)
  /-- `field_combinations` -/
  combinations : M → List (List PyStr)
  /-- `refinements` -/
  refinements : M → List (PyStr × Ty M)

/-- The types in `self.types`: messages with `type_` and `refined_type` (`rflx/model/message.py:190-209`), refinements with the
names of pdu and sdu, the name of the field, and the types of pdu and sdu (`rflx/model/message.py:1419-1470`), and others. -/
inductive MType (M : Type)
  | message (type : Ty M) (refined : List (PyStr × Ty M) → Ty M)
  | refinement (type : Ty M) (pdu : ID) (field : PyStr) (sdu : ID) (pduType sduType : Ty M)
  | other (type : Ty M)

/-- `type_`. -/
def MType.type : MType M → Ty M
  | .message t _ => t
  | .refinement t _ _ _ _ _ => t
  | .other t => t

/-- A dictionary with identifiers as keys, in the order of insertion. -/
abbrev Dict (α : Type) := List (ID × α)

/-- `d[k] = v`. -/
def Dict.set {α : Type} (k : ID) (v : α) : Dict α → Dict α
  | [] => [(k, v)]
  | e :: d => if e.1.eq k then (e.1, v) :: d else e :: Dict.set k v d

/-- `d.get(k)`. -/
def Dict.get {α : Type} (d : Dict α) (k : ID) : Option α := (d.find? fun e => e.1.eq k).map (·.2)

/-- `{**d, **e}`. -/
def Dict.merge {α : Type} (d e : Dict α) : Dict α := e.foldl (fun d x => Dict.set x.1 x.2 d) d

/-- `[t for t in self.types.values() if isinstance(t, Refinement) and t.pdu.identifier == identifier]`,
`rflx/model/session.py:341-346,455-459`, with the name of the field and the type of the sdu. -/
def refinementsOf (types : Dict (MType M)) (id : ID) : List (PyStr × Ty M) :=
  types.filterMap fun e => match e.2 with
    | .refinement _ pdu f _ _ t => if pdu.eq id then some (f, t) else none
    | _ => none

/-- `[t.pdu.type_ for t in self.types.values() if isinstance(t, Refinement) and t.sdu.identifier == identifier]`,
`rflx/model/session.py:445-449`. -/
def pdusOf (types : Dict (MType M)) (id : ID) : List (Ty M) :=
  types.filterMap fun e => match e.2 with
    | .refinement _ _ _ sdu t _ => if sdu.eq id then some t else none
    | _ => none

/-! ## Expressions -/

/-- Expressions of sessions. Simplified: comprehensions, message aggregates and conversions occur only at the top of an
expression; bindings, strings and ranges are not modelled. As `field_values` is a dictionary, the names in `values` differ. -/
inductive SExpr
  | plain (e : Expr)
  /-- `Comprehension`, `rflx/expression.py:1999-2013` -/
  | comprehension (iterator : ID) (array selector condition : Expr)
  /-- `MessageAggregate`, `rflx/expression.py:2086-2096` -/
  | aggregate (identifier : ID) (values : List (ID × Expr))
  /-- `Conversion`, `rflx/expression.py:1909-1921` -/
  | conversion (identifier : ID) (argument : Expr)

/-- `variables`, `rflx/expression.py:1995-1996,2078-2083,2206-2210`. -/
def SExpr.variables (h : List PyStr → Int) : SExpr → List PyVar
  | .plain e => Verif.variables h e
  | .comprehension i a s c =>
    (Verif.variables h a ++ Verif.variables h s ++ Verif.variables h c).filter fun v => !v.id.eq i
  | .aggregate _ vs => vs.flatMap fun v => Verif.variables h v.2
  | .conversion _ e => Verif.variables h e

mutual

/-- The variables (`false`) and calls (`true`) to which `substituted` applies its function,
`rflx/expression.py:170-174,344-355,438-447,993-999,1081-1089,1302-1314,1390-1404,1450-1458,1806-1818`. -/
def touched : Expr → List (Bool × ID)
  | .var _ imm id => if imm then [] else [(false, id)]
  | .attr _ _ p => touched p
  | .sel _ p _ => touched p
  | .call _ id args => (true, id) :: touchedL args
  | .bool _ ts => touchedL ts
  | .add ts => touchedL ts
  | .mul ts => touchedL ts
  | .bin _ l r => touched l ++ touched r
  | .rel _ l r => touched l ++ touched r
  | .agg es => touchedL es
  | .quant _ _ it pr => touched it ++ touched pr
  | _ => []

/-- The names of a list of expressions. -/
def touchedL : List Expr → List (Bool × ID)
  | [] => []
  | e :: es => touched e ++ touchedL es

end

/-- The names of an expression of a session, `rflx/expression.py:1964-1977,2052-2066,2181-2193`. -/
def SExpr.touched : SExpr → List (Bool × ID)
  | .plain e => Session.touched e
  | .comprehension _ a s c => Session.touched a ++ Session.touched s ++ Session.touched c
  | .aggregate _ vs => vs.flatMap fun v => Session.touched v.2
  | .conversion _ e => Session.touched e

/-! ## Declarations -/

/-- `rflx/declaration.py`. -/
inductive Decl (M : Type)
  /-- `VariableDeclaration`, 76-90 -/
  | variable (id typeId : ID) (expression : Option SExpr)
  /-- `RenamingDeclaration`, 114-126, of the expression `prefix.selector` -/
  | renaming (id typeId : ID) (negative : Bool) (pre : Expr) (selector : ID)
  /-- `FunctionDeclaration`, 190-204 -/
  | function (id : ID) (arguments : List ID) (returnId : ID)
  /-- `ChannelDeclaration`, 224-237 -/
  | channel (id : ID) (readable writable : Bool)
  /-- `TypeDeclaration`, 251-256 -/
  | type (id : ID) (definition : MType M)

/-- `identifier`. -/
def Decl.id : Decl M → ID
  | .variable i _ _ => i
  | .renaming i _ _ _ _ => i
  | .function i _ _ => i
  | .channel i _ _ => i
  | .type i _ => i

/-- `type_identifier` of a `TypeCheckableDeclaration`, `rflx/declaration.py:57-59`. -/
def Decl.typeId : Decl M → Option ID
  | .variable _ t _ => some t
  | .renaming _ t _ _ _ => some t
  | .function _ _ t => some t
  | _ => none

/-- `variables`, `rflx/declaration.py:108-111,160-161,165-166`. -/
def Decl.variables (h : List PyStr → Int) : Decl M → List PyVar
  | .variable _ _ (some e) => e.variables h
  | .renaming _ _ ng p s => Verif.variables h (.sel ng p s)
  | _ => []

/-- A declaration that has been checked: its type (`none` for types, where `type_` raises `NotImplementedError`,
`rflx/declaration.py:262-264`), the types of the arguments of a function, and whether it is a declaration of a state. -/
structure Entry (M : Type) where
  type : Option (Ty M)
  arguments : Option (List (Ty M))
  isLocal : Bool

/-- `CHANNEL_FUNCTIONS`, `rflx/model/session.py:14-16`. -/
def dataAvailable : ID := ⟨[['D', 'a', 't', 'a', '_', 'A', 'v', 'a', 'i', 'l', 'a', 'b', 'l', 'e']]⟩

/-- `__typify_variable` for one name, `rflx/model/session.py:428-443`: whether the assertion holds and `type_` is defined. -/
def typify (ds : Dict (Entry M)) : Bool × ID → Py Unit
  | (false, id) => (match ds.get id with
    | some ⟨none, _, _⟩ => .error .notImplemented
    | _ => .ok ())
  | (true, id) => (match ds.get id with
    | some ⟨none, _, _⟩ => .error .notImplemented
    | some ⟨_, none, _⟩ => .error .assertion
    | _ => .ok ())

/-- `__typify_variable` for all names. -/
def typifyAll (ds : Dict (Entry M)) : List (Bool × ID) → Py Unit
  | [] => .ok ()
  | x :: xs => do typify ds x; typifyAll ds xs

/-- The type of a declaration of a variable. -/
def Entry.ty (e : Entry M) : Ty M := e.type.getD .undefined

/-- The lookup of a name given by its key. -/
def Dict.getKey {α : Type} (d : Dict α) (k : List PyStr) : Option α := (d.find? fun e => e.1.key == k).map (·.2)

/-- The types of names given by `__typify_variable`, `rflx/model/session.py:419-443`. -/
def ctx (B : Body M) (literals : Dict (Ty M)) (ds : Dict (Entry M)) : Ctx M where
  var := fun x => match literals.getKey x, ds.getKey x with
    | some t, _ => t
    | none, some e => e.ty
    | none, none => .undefined
  call := fun x => if x = dataAvailable.key then (BOOLEAN, [.channel true false]) else (match ds.getKey x with
    | some e => (e.ty, e.arguments.getD [])
    | none => (.undefined, []))
  field := B.field

/-! ## Checks of expressions -/

/-- `Comprehension._check_type_subexpr`, `rflx/expression.py:2019-2040`; the resulting type and whether there is no error. -/
def checkComprehension (Γ : Ctx M) (i : ID) (a s c : Expr) : Py (Ty M × Bool) := do
  let ok ← check Γ a (.cls .composite)
  let Δ := Γ.bind i.key (afterTy Γ a).element
  let oks ← check Δ s (.cls .any)
  let okc ← check Δ c (.ty BOOLEAN)
  return (.aggregate (afterTy Δ s), ok && oks && okc)

/-- `expr.type_` before the check of `expr`: names have got their types. -/
def valueCompatible (Γ : Ctx M) (B : Body M) (m : M) (f : PyStr) (e : Expr) : Bool :=
  (B.refinements m).any fun r => r.1 == f && (ctorTy Γ e).isCompatible r.2

/-- The check of the value of a field, `rflx/expression.py:2131-2140`. -/
def checkValue (Γ : Ctx M) (B : Body M) (m : M) (f : PyStr) (t : Ty M) (e : Expr) : Py Bool :=
  if t = OPAQUE ∧ valueCompatible Γ B m f e then .ok true else check Γ e (.ty t)

/-- The loop of `MessageAggregate._check_type_subexpr`, `rflx/expression.py:2119-2153`: the remaining combinations and
whether there is no error. -/
def checkValues (Γ : Ctx M) (B : Body M) (m : M) : Nat → List (ID × Expr) → List (List PyStr) → Py (List (List PyStr) × Bool)
  | _, [], cs => .ok (cs, true)
  | i, (f, e) :: vs, cs => match B.field m f.str with
    | none => do
      let r ← checkValues Γ B m (i + 1) vs cs
      return (r.1, false)
    | some t => do
      let ok ← checkValue Γ B m f.str t e
      let cs' := cs.filter fun c => c[i]? == some f.str
      if cs'.isEmpty then return ([], false)
      let r ← checkValues Γ B m (i + 1) vs cs'
      return (r.1, ok && r.2)

/-- `MessageAggregate._check_type_subexpr`, `rflx/expression.py:2106-2170`. -/
def checkAggregate (Γ : Ctx M) (B : Body M) (t : Ty M) (vs : List (ID × Expr)) : Py Bool :=
  match t with
  | .message _ m => do
    let r ← checkValues Γ B m 0 vs (B.combinations m)
    return r.2 && (r.1.isEmpty || !r.1.all fun c => decide (c.length > vs.length))
  | _ => allOk Γ (.cls .any) (vs.map (·.2))

/-- The type of a message aggregate, `rflx/model/session.py:450-460`. -/
def aggregateType (types : Dict (MType M)) (id : ID) : Py (Ty M) :=
  match types.get id with
  | none => .ok .undefined
  | some (.message _ r) => .ok (r (refinementsOf types id))
  | some _ => .error .assertion

/-- `argument_types` of a conversion, `rflx/model/session.py:443-449`. -/
def conversionTypes (types : Dict (MType M)) (id : ID) : List (Ty M) :=
  if (types.get id).isSome then pdusOf types id else []

/-- The check of the prefix of the argument of a conversion, `rflx/expression.py:1929-1945`. -/
def checkPrefix (Γ : Ctx M) (ts : List (Ty M)) (p : Expr) : Py Bool :=
  if ts.isEmpty then .ok false else do
    let a ← subOk Γ p
    let b ← checkType (afterTy Γ p) (.tuple ts)
    return a && b

/-- `Conversion._check_type_subexpr`, `rflx/expression.py:1926-1954`. -/
def checkConversion (Γ : Ctx M) (types : Dict (MType M)) (id : ID) (e : Expr) : Py Bool :=
  match e with
  | .sel ng p s => do
    let ok ← check Γ (.sel ng p s) (.ty OPAQUE)
    let c ← checkPrefix Γ (conversionTypes types id) p
    return ok && c
  | e => do
    let _ ← check Γ e (.ty OPAQUE)
    .ok false

/-- `check_type` and `check_type_instance` of expressions of sessions; whether there is no error. -/
def scheck (B : Body M) (types : Dict (MType M)) (Γ : Ctx M) (e : SExpr) (w : Want M) : Py Bool :=
  match e with
  | .plain e => check Γ e w
  | .comprehension i a s c => do
    let r ← checkComprehension Γ i a s c
    let b ← meets r.1 w
    return r.2 && b
  | .aggregate id vs => do
    let t ← aggregateType types id
    let ok ← checkAggregate Γ B t vs
    let b ← meets t w
    return ok && b
  | .conversion id e => do
    let ok ← checkConversion Γ types id e
    let b ← meets (((types.get id).map MType.type).getD .undefined) w
    return ok && b

/-! ## Declarations -/

/-- `mty.BUILTIN_TYPES`, `rflx/model/type_.py:583-600`: the name of the only built-in type. -/
def booleanName : ID := ⟨[['B', 'o', 'o', 'l', 'e', 'a', 'n']]⟩
/-- `mty.INTERNAL_TYPES`, `rflx/model/type_.py:578-582`: the name of the only internal type. -/
def opaqueName : ID := ⟨[['O', 'p', 'a', 'q', 'u', 'e']]⟩
/-- `const.BUILTINS_PACKAGE * "Boolean"`. -/
def booleanId : ID := ⟨[['_', '_', 'B', 'U', 'I', 'L', 'T', 'I', 'N', 'S', '_', '_'], ['B', 'o', 'o', 'l', 'e', 'a', 'n']]⟩
/-- `const.INTERNAL_PACKAGE * "Opaque"`. -/
def opaqueId : ID := ⟨[['_', '_', 'I', 'N', 'T', 'E', 'R', 'N', 'A', 'L', '_', '_'], ['O', 'p', 'a', 'q', 'u', 'e']]⟩

/-- `qualified_type_identifier`, `rflx/model/type_.py:600-624`. -/
def qualified (id package : ID) : ID :=
  if id.eq booleanId || id.eq booleanName then booleanId
  else if id.eq opaqueId || id.eq opaqueName then opaqueId
  else if id.parts.length == 1 then ⟨package.parts ++ id.parts⟩
  else id

/-- The type of a declaration, `rflx/model/session.py:335-352`. -/
def declType (types : Dict (MType M)) (package typeId : ID) : Option (Ty M) :=
  (types.get (qualified typeId package)).map fun t => match t with
    | .message _ r => r (refinementsOf types typeId)
    | t => t.type

/-- The check of a refinement for a renaming, `rflx/declaration.py:140-158`. -/
def renamable (B : Body M) (t : Ty M) (m : M) (selector : ID) : Bool :=
  (B.refinements m).any fun r => ID.eq ⟨[r.1]⟩ selector && r.2.isCompatible t

/-- `RenamingDeclaration.check_type`, `rflx/declaration.py:128-158`. -/
def checkRenaming (B : Body M) (Γ : Ctx M) (t : Ty M) (p : Expr) (s : ID) : Py Bool := do
  let ok ← check Γ p (.cls .message)
  if !ok then return false
  match afterTy Γ p with
    | .message _ m => do
      let c ← check Γ (.sel false p s) (.ty OPAQUE)
      return renamable B t m s && c
    | _ => .error .assertion

/-- `check_type` of declarations for a declaration type, `rflx/declaration.py:95-106,128-158,206-210`. -/
def checkDecl (B : Body M) (types : Dict (MType M)) (literals : Dict (Ty M)) (ds : Dict (Entry M)) (t : Ty M) : Decl M → Py Bool
  | .variable _ _ (some e) => do
    typifyAll ds e.touched
    scheck B types (ctx B literals ds) e (.ty t)
  | .renaming _ _ _ p s => do
    typifyAll ds (touched p)
    checkRenaming B (ctx B literals ds) t p s
  | _ => .ok true

/-- The types of arguments; `none` is an undefined type, `rflx/model/session.py:357-368`. -/
def argumentTypes (types : Dict (MType M)) (package : ID) (args : List ID) : List (Option (Ty M)) :=
  args.map fun a => (types.get (qualified a package)).map MType.type

/-- The entry of a declaration. -/
def entry (types : Dict (MType M)) (package : ID) (isLocal : Bool) : Decl M → Entry M
  | .variable _ t _ => ⟨some ((declType types package t).getD .any), none, isLocal⟩
  | .renaming _ t _ _ _ => ⟨some ((declType types package t).getD .any), none, isLocal⟩
  | .function _ as t => ⟨some ((declType types package t).getD .any), some ((argumentTypes types package as).map (·.getD .any)), isLocal⟩
  | .channel _ r w => ⟨some (.channel r w), none, isLocal⟩
  | .type _ _ => ⟨none, none, isLocal⟩

/-- `str(x).upper() == str(y).upper()` for identifiers, `rflx/model/session.py:306`. Simplified: `ID.__eq__` is used, which compares in lower
case; there is no difference for ASCII characters. -/
def sameName (x y : ID) : Bool := x.eq y

/-- The checks of one declaration, `rflx/model/session.py:305-370`: whether there is no error. -/
def validDecl (B : Body M) (literals : Dict (Ty M)) (package : ID) (types : Dict (MType M)) (ds : Dict (Entry M)) (d : Decl M) : Py Bool :=
  let fresh := !sameName d.id dataAvailable && (ds.get d.id).isNone
  match d with
  | .channel _ _ _ => .ok fresh
  | .type id _ => .ok (fresh && (types.get (qualified id package)).isNone)
  | .variable _ t _ | .renaming _ t _ _ _ => match declType types package t with
    | some t => do
      let b ← checkDecl B types literals ds t d
      return fresh && b
    | none => .ok false
  | .function _ as t => .ok (fresh && (declType types package t).isSome && (argumentTypes types package as).all (·.isSome))

/-- `self.types[type_identifier] = d.type_definition`, `rflx/model/session.py:335`. -/
def declareType (package : ID) (types : Dict (MType M)) : Decl M → Dict (MType M)
  | .type id t => Dict.set (qualified id package) t types
  | _ => types

/-- Names of declarations that are referenced. -/
abbrev Refs := List ID

/-- Whether a name is declared in the state or in the session. -/
def declaredIn (ds : Dict (Entry M)) (isLocal : Bool) (id : ID) : Bool :=
  match ds.get id with
  | some e => e.isLocal == isLocal
  | none => false

/-- `__reference_variable_declaration`, `rflx/model/session.py:464-471`: the declarations of the session or those of the state
that are referenced. -/
def references (ds : Dict (Entry M)) (isLocal : Bool) (vs : List PyVar) : Refs := (vs.map PyVar.id).filter (declaredIn ds isLocal)

/-- The state of the validation of declarations: types, visible declarations, references, and whether there is no error. -/
structure DState (M : Type) where
  types : Dict (MType M)
  visible : Dict (Entry M)
  globals : Refs
  locals : Refs
  ok : Bool

/-- One iteration of the loop of `__validate_declarations`, `rflx/model/session.py:305-373`. -/
def declStep (B : Body M) (literals : Dict (Ty M)) (package : ID) (h : List PyStr → Int) (isLocal : Bool) (s : DState M) (d : Decl M) :
    Py (DState M) := do
  let ok ← validDecl B literals package s.types s.visible d
  return ⟨declareType package s.types d, Dict.set d.id (entry s.types package isLocal d) s.visible,
    s.globals ++ references s.visible false (d.variables h) ++ d.typeId.toList,
    s.locals ++ references s.visible true (d.variables h), s.ok && ok⟩

/-- `__validate_declarations`, `rflx/model/session.py:286-373`. -/
def validateDecls (B : Body M) (literals : Dict (Ty M)) (package : ID) (h : List PyStr → Int) (isLocal : Bool) :
    List (Decl M) → DState M → Py (DState M)
  | [], s => .ok s
  | d :: ds, s => do
    let s' ← declStep B literals package h isLocal s d
    validateDecls B literals package h isLocal ds s'

/-! ## Actions -/

/-- `rflx/statement.py`. -/
inductive Action
  /-- `Assignment`, 29-33 -/
  | assign (id : ID) (e : SExpr)
  /-- `Append`, 82-107 -/
  | append (id : ID) (e : SExpr)
  /-- `Extend`, 110-118 -/
  | extend (id : ID) (e : SExpr)
  /-- `Reset`, 121-133 -/
  | reset (id : ID)
  /-- `Read`, 159-161 -/
  | read (id : ID) (e : SExpr)
  /-- `Write`, 164-166 -/
  | write (id : ID) (e : SExpr)

/-- `identifier`. -/
def Action.id : Action → ID
  | .assign i _ | .append i _ | .extend i _ | .reset i | .read i _ | .write i _ => i

/-- The expression of an action. -/
def Action.expr : Action → Option SExpr
  | .assign _ e | .append _ e | .extend _ e | .read _ e | .write _ e => some e
  | .reset _ => none

/-- `variables`, `rflx/statement.py:46-47,71-72,135-136`. -/
def Action.variables (h : List PyStr → Int) (a : Action) : List PyVar :=
  ⟨false, a.id⟩ :: ((a.expr.map (SExpr.variables h)).getD [])

/-- `isinstance(self.parameters[0], Variable)`. -/
def SExpr.isVariable : SExpr → Bool
  | .plain (.var _ _ _) => true
  | _ => false

/-- `isinstance(t, rty.Array)`, `rflx/statement.py:88-92`. -/
def isArray : Ty M → Bool
  | .array _ _ => true
  | _ => false

/-- `rty.check_type_instance(statement_type, rty.Array, ...)`. -/
def checkArray (t : Ty M) : Bool := isArray t || decide (t = .any)

/-- `isinstance(statement_type.element, rty.Message)`. -/
def isMessage : Ty M → Bool
  | .message _ _ => true
  | _ => false

/-- `check_type` of statements, `rflx/statement.py:38-44,83-107,111-118,125-133,143-153`: whether there is no error. -/
def checkAction (B : Body M) (types : Dict (MType M)) (Γ : Ctx M) (t : Ty M) : Action → Py Bool
  | .assign _ e => do
    let b ← scheck B types Γ e (.ty t)
    return checkInstance t .any && b
  | .append _ e => (match t with
    | .array _ u => do
      let b ← scheck B types Γ e (.ty u)
      return b && !(isMessage u && e.isVariable)
    | t => .ok (checkArray t))
  | .extend _ e => do
    let b ← scheck B types Γ e (.ty t)
    return checkArray t && b
  | .reset _ => .ok (checkInstance t .arrayOrMessage)
  | .read _ e => do
    let a ← checkType t (.one (.channel true false))
    let b ← scheck B types Γ e (.cls .message)
    return a && b
  | .write _ e => do
    let a ← checkType t (.one (.channel false true))
    let b ← scheck B types Γ e (.cls .message)
    return a && b

/-- `declarations[a.identifier].type_`, `rflx/model/session.py:379-382`. -/
def actionType (ds : Dict (Entry M)) (id : ID) : Py (Ty M) :=
  match ds.get id with
  | some ⟨some t, _, _⟩ => .ok t
  | some ⟨none, _, _⟩ => .error .notImplemented
  | none => .ok .undefined

/-- One iteration of the loop of `__validate_actions`, `rflx/model/session.py:378-392`. -/
def validAction (B : Body M) (types : Dict (MType M)) (literals : Dict (Ty M)) (ds : Dict (Entry M)) (a : Action) : Py Bool := do
  let t ← actionType ds a.id
  typifyAll ds ((a.expr.map SExpr.touched).getD [])
  checkAction B types (ctx B literals ds) t a

/-- All elements of a list pass a check. -/
def allM {α : Type} (f : α → Py Bool) : List α → Py Bool
  | [] => .ok true
  | x :: xs => do
    let a ← f x
    let b ← allM f xs
    return a && b

/-- The check of a transition, `rflx/model/session.py:397-400`. -/
def validCondition (B : Body M) (literals : Dict (Ty M)) (ds : Dict (Entry M)) (c : Expr) : Py Bool := do
  typifyAll ds (touched c)
  check (ctx B literals ds) c (.ty BOOLEAN)

/-- The class of an expression that may raise an exception, `rflx/model/session.py:104-115`. -/
def SExpr.isExceptional : SExpr → Bool
  | .plain (.sel _ _ _) => true
  | .plain (.attr _ .head _) => true
  | .comprehension _ _ _ _ => true
  | .aggregate _ _ => true
  | _ => false

/-- `has_exceptions`, `rflx/model/session.py:103-115`, for one action. -/
def Action.isExceptional : Action → Bool
  | .append _ _ | .extend _ _ => true
  | .assign _ e => e.isExceptional
  | _ => false

/-! ## Sessions -/

/-- `State`, `rflx/model/session.py:45-76`, with transitions (targets and conditions), exception transition, actions and
declarations. -/
structure FullState (M : Type) where
  identifier : ID
  transitions : List (ID × Expr)
  exception : Option ID := none
  actions : List Action
  declarations : List (Decl M)

/-- `AbstractSession`, `rflx/model/session.py:118-163`. -/
structure FullSession (M : Type) where
  identifier : ID
  initial : ID
  final : ID
  states : List (FullState M)
  declarations : List (Decl M)
  parameters : List (Decl M)
  types : Dict (MType M)

/-- `{d.identifier: d for d in declarations}`, `rflx/model/session.py:70,137-138`. -/
def declDict (ds : List (Decl M)) : Dict (Decl M) := Dict.merge [] (ds.map fun d => (d.id, d))

/-- `self._global_declarations`, `rflx/model/session.py:145-148`. -/
def FullSession.globals (s : FullSession M) : Dict (Decl M) := (declDict s.parameters).merge (declDict s.declarations)

/-- The part of a session that is relevant for `__validate_states`. -/
def FullSession.skeleton (s : FullSession M) : Session :=
  ⟨s.initial, s.final, s.states.map fun t => ⟨t.identifier, t.transitions.map (·.1), t.exception⟩⟩

/-- What is known after the declarations of the session: types and declarations with references, and whether there is no error. -/
structure VState (M : Type) where
  types : Dict (MType M)
  globals : Refs
  ok : Bool

/-- Everything that is referenced in a state after its declarations, `rflx/model/session.py:392,400`. -/
def stateVariables (h : List PyStr → Int) (t : FullState M) : List PyVar :=
  t.actions.flatMap (Action.variables h) ++ t.transitions.flatMap fun c => Verif.variables h c.2

/-- All declarations of a dictionary are referenced, `rflx/model/session.py:417-424`. -/
def allReferenced (ds : Dict (Decl M)) (rs : Refs) : Bool := ds.all fun d => isIn d.1 rs

/-- One iteration of the loop of `__validate`, `rflx/model/session.py:496-502`, and the check of the local declarations
in `__validate_usage`, 414-424. -/
def stateStep (B : Body M) (literals : Dict (Ty M)) (package : ID) (h : List PyStr → Int) (visible : Dict (Entry M)) (s : VState M)
    (t : FullState M) : Py (VState M) := do
  let d ← validateDecls B literals package h true ((declDict t.declarations).map (·.2)) ⟨s.types, visible, s.globals, [], true⟩
  let a ← allM (validAction B d.types literals d.visible) t.actions
  let c ← allM (fun c => validCondition B literals d.visible c.2) t.transitions
  return ⟨d.types, d.globals ++ references d.visible false (stateVariables h t),
    s.ok && d.ok && a && c && (t.exception.isSome == t.actions.any Action.isExceptional) &&
      allReferenced (declDict t.declarations) (d.locals ++ references d.visible true (stateVariables h t))⟩

/-- The loop over the states. -/
def stateLoop (B : Body M) (literals : Dict (Ty M)) (package : ID) (h : List PyStr → Int) (visible : Dict (Entry M)) :
    List (FullState M) → VState M → Py (VState M)
  | [], s => .ok s
  | t :: ts, s => do
    let s' ← stateStep B literals package h visible s t
    stateLoop B literals package h visible ts s'

/-- `package`, `rflx/model/session.py:175-177`, and the check of the name, 150-156. -/
def FullSession.package (s : FullSession M) : Py ID :=
  if s.identifier.parts.length ≠ 2 then .error .recordFlux else s.identifier.parent

/-- `Session.__init__`, `rflx/model/session.py:183-199,492-504`. `literals` are `self._literals` (`rflx/model/session.py:158-161`)
with their types. -/
def FullSession.new (B : Body M) (literals : Dict (Ty M)) (h : List PyStr → Int) (s : FullSession M) : Py (FullSession M) := do
  let package ← s.package
  let d ← validateDecls B literals package h false (s.globals.map (·.2)) ⟨s.types, [], [], [], true⟩
  let v ← stateLoop B literals package h d.visible s.states ⟨d.types, d.globals, d.ok⟩
  if (validateStates s.skeleton).isEmpty && v.ok && allReferenced s.globals v.globals then .ok s
  else .error .recordFlux

end Verif.Session
