import Verif.SpecParser.Package
import Verif.Session.Decl

/-! # Sessions from specifications: `rflx/specification/parser.py:110-236, 494-569, 588-635, 662-678`

The syntax trees have the data the functions read. The result is a session as it is modelled in `Session/Decl.lean`. Not modelled: locations,
descriptions, the node `Binding`; comprehensions, conversions and message aggregates within other expressions (as in `Session.SExpr`). -/

namespace Verif.SpecParser
open Verif

variable {M : Type}

/-! ## Syntax trees -/

/-- Expressions of sessions: `Comprehension`, `Conversion` and `MessageAggregate` (`none` for `NullMessageAggregate`) may be put in parentheses,
but are not part of other expressions. -/
inductive STree
  | plain (t : Tree)
  | paren (e : STree)
  | comprehension (iterator : PyStr) (array selector : Tree) (condition : Option Tree)
  | conversion (target : IdNode) (argument : Tree)
  | aggregate (id : IdNode) (values : Option (List (PyStr × Tree)))

/-- `Transition` (without condition) and `ConditionalTransition`. -/
structure TransitionTree where
  target : PyStr
  condition : Option Tree

/-- `Reset`, `Assignment` and `ListAttribute`. -/
inductive StatementTree
  | reset (id : PyStr)
  | assignment (id : PyStr) (e : STree)
  | attribute (id attr : PyStr) (e : STree)

/-- `VariableDecl` and `RenamingDecl`. -/
inductive LocalTree
  | variable (id : PyStr) (type : IdNode) (initializer : Option STree)
  | renaming (id : PyStr) (type : IdNode) (e : STree)

/-- `FormalChannelDecl` (`true` for `Readable`, `false` for `Writable`), `FormalFunctionDecl` (with names and types of the parameters) and
`FormalPrivateTypeDecl`. -/
inductive FormalTree
  | channel (id : PyStr) (parameters : List Bool)
  | function (id : PyStr) (parameters : List (PyStr × IdNode)) (result : IdNode)
  | privateType (id : PyStr)

/-- `StateBody`. -/
structure BodyTree where
  conditional : List TransitionTree
  final : TransitionTree
  exception : Option TransitionTree
  actions : List StatementTree
  declarations : List LocalTree
  endName : PyStr

/-- `State`; the body is `none` for `NullStateBody`. -/
structure StateTree where
  name : PyStr
  body : Option BodyTree

/-- `SessionDecl`. -/
structure SessionTree where
  name : PyStr
  endName : PyStr
  initial : PyStr
  final : PyStr
  states : List StateTree
  declarations : List LocalTree
  parameters : List FormalTree

/-! ## Expressions -/

/-- `[f(x) for x in l]`. -/
def createAll {α β : Type} (f : α → Py β) : List α → Py (List β)
  | [] => .ok []
  | x :: l => (f x).bind fun y => (createAll f l).map fun r => y :: r

/-- `f(x) if x else None`. -/
def createOpt {α β : Type} (f : α → Py β) : Option α → Py (Option β)
  | none => .ok none
  | some x => (f x).map some

/-- `create_bool_expression(x) if x else expr.TRUE`. -/
def createOrTrue : Option Tree → Py Expr
  | none => .ok .tru
  | some t => create .bool t

/-- `create_id(c.f_identifier, filename): create_expression(c.f_expression, filename)`. -/
def createAssociation (c : PyStr × Tree) : Py (ID × Expr) := do
  let i ← createId (.unqualified c.1)
  let e ← create .any c.2
  return (i, e)

/-- `create_expression` with `create_comprehension`, `create_conversion` and `create_message_aggregate`,
`rflx/specification/parser.py:392-394, 588-600, 611-635, 658-659`. -/
def createS : STree → Py Session.SExpr
  | .plain t => (create .any t).map .plain
  | .paren e => createS e
  | .comprehension it a s c => do
    let c ← createOrTrue c
    let i ← createId (.unqualified it)
    let a ← create .any a
    let s ← create .any s
    return .comprehension i a s c
  | .conversion id a => do
    let i ← createId id
    let e ← create .any a
    return .conversion i e
  | .aggregate id vs => do
    let vs ← createAll createAssociation (vs.getD [])
    let i ← createId id
    return .aggregate i (Session.Dict.merge [] vs)

/-! ## Statements and transitions -/

/-- `create_transition`, `rflx/specification/parser.py:110-118`. -/
def createTransition (t : TransitionTree) : Py (ID × Expr) := do
  let i ← createId (.unqualified t.target)
  let c ← createOrTrue t.condition
  return (i, c)

/-- `attrs`, `rflx/specification/parser.py:136-142`. -/
def attributes : List (PyStr × (ID → Session.SExpr → Session.Action)) :=
  [(['A', 'p', 'p', 'e', 'n', 'd'], .append), (['E', 'x', 't', 'e', 'n', 'd'], .extend), (['R', 'e', 'a', 'd'], .read),
   (['W', 'r', 'i', 't', 'e'], .write)]

/-- `create_statement`, `rflx/specification/parser.py:121-157`. -/
def createStatement : StatementTree → Py Session.Action
  | .reset id => do
    let i ← createId (.unqualified id)
    return .reset i
  | .assignment id e => do
    let i ← createId (.unqualified id)
    let e ← createS e
    return .assign i e
  | .attribute id attr e =>
    match attributes.lookup attr with
    | none => .error .keyError
    | some constructor => do
      let i ← createId (.unqualified id)
      let e ← createS e
      return constructor i e

/-! ## Declarations -/

/-- `qualified_type_identifier` without package, `rflx/model/type_.py:614-624`. -/
def qualifiedBuiltin (i : ID) : Py ID :=
  if isBuiltin i then do ID.mul ⟨[builtinsName]⟩ (← i.name)
  else if isInternal i then do ID.mul ⟨[internalName]⟩ (← i.name)
  else .ok i

/-- `create_declaration`, `rflx/specification/parser.py:494-505, 540-548, 662-668`. -/
def createLocal : LocalTree → Py (Session.Decl M)
  | .variable id type init => do
    let e ← createOpt createS init
    let i ← createId (.unqualified id)
    let t ← createId type
    let t ← qualifiedBuiltin t
    return .variable i t e
  | .renaming id type e => do
    let e ← createS e
    match e with
    | .plain (.sel ng p s) => do
      let i ← createId (.unqualified id)
      let t ← createId type
      let t ← qualifiedBuiltin t
      return .renaming i t ng p s
    | _ => .error .assertion

/-- `decl.Argument(create_id(p.f_identifier, filename), create_id(p.f_type_identifier, filename))`; only the type is used by the model. -/
def createParameter (p : PyStr × IdNode) : Py ID := do
  let _ ← createId (.unqualified p.1)
  createId p.2

/-- `create_formal_declaration`, `rflx/specification/parser.py:508-537, 551-569, 671-678`, with the assertion of `ChannelDeclaration.__init__`
(`rflx/declaration.py:225`). The error of `Private` for a name without package (`rflx/model/type_.py:21-27`) is never raised. -/
def createFormal : FormalTree → Py (Session.Decl M)
  | .channel id ps => do
    let i ← createId (.unqualified id)
    if ps.any (· == true) || ps.any (· == false) then return .channel i (ps.any (· == true)) (ps.any (· == false))
    else .error .assertion
  | .function id ps r => do
    let as ← createAll createParameter ps
    let i ← createId (.unqualified id)
    let r ← createId r
    return .function i as r
  | .privateType id => do
    let i ← createId (.unqualified id)
    return .type i (.other (.priv (String.ofList i.str)))

/-! ## States and sessions -/

/-- `t.condition == expr.TRUE`: `TRUE` is equal to itself only (`rflx/expression.py:204-234`, `rflx/common.py:7-18`). -/
def isTrue : Expr → Bool
  | .tru => true
  | _ => false

/-- `{d.identifier: d for d in declarations}`, `rflx/model/session.py:70,137-138`, as a list of the values. -/
def unique (ds : List (Session.Decl M)) : List (Session.Decl M) := (Session.declDict ds).map (·.2)

/-- The assertion on the transitions, `rflx/model/session.py:58-61`: the last transition has no condition, a state without transitions has neither
actions nor declarations. -/
def hasDefault (transitions : List (ID × Expr)) (actions : List Session.Action) (declarations : List (Session.Decl M)) : Bool :=
  match transitions.getLast? with
  | some t => isTrue t.2
  | none => actions.isEmpty && declarations.isEmpty

/-- The assertion on the exception transition, `rflx/model/session.py:63`. -/
def isUnconditional : Option (ID × Expr) → Bool
  | some t => isTrue t.2
  | none => true

/-- `State.__init__`, `rflx/model/session.py:46-73`. -/
def newState (i : ID) (transitions : List (ID × Expr)) (exception : Option (ID × Expr)) (actions : List Session.Action)
    (declarations : List (Session.Decl M)) : Py (Session.FullState M) :=
  if hasDefault transitions actions declarations && isUnconditional exception then
    .ok ⟨i, transitions, exception.map (·.1), actions, unique declarations⟩
  else .error .assertion

/-- `create_state`, `rflx/specification/parser.py:160-197`. -/
def createState (s : StateTree) : Py (Session.FullState M) := do
  let i ← createId (.unqualified s.name)
  match s.body with
  | none => newState i [] none [] []
  | some b =>
    if s.name ≠ b.endName then .error .recordFlux else do
    let ts ← createAll createTransition b.conditional
    let f ← createTransition b.final
    let x ← createOpt createTransition b.exception
    let as ← createAll createStatement b.actions
    let ds ← createAll createLocal b.declarations
    newState i (ts ++ [f]) x as ds

/-- `create_unproven_session`, `rflx/specification/parser.py:200-227`, with `AbstractSession.__init__` (`rflx/model/session.py:121-163`). -/
def createUnproven (package : ID) (s : SessionTree) (types : Session.Dict (Session.MType M)) : Py (Session.FullSession M) := do
  if s.name ≠ s.endName then .error .recordFlux else do
  let n ← createId (.unqualified s.name)
  let n ← package.mul n
  let initial ← createId (.unqualified s.initial)
  let final ← createId (.unqualified s.final)
  let states ← createAll createState s.states
  let ds ← createAll createLocal s.declarations
  let ps ← createAll createFormal s.parameters
  let r : Session.FullSession M := ⟨n, initial, final, states, unique ds, unique ps, types⟩
  let _ ← r.package
  return r

variable [DecidableEq M]

/-- `create_session`, `rflx/specification/parser.py:230-236`, with `proven` (`rflx/model/session.py:522-532`). -/
def createSession (B : Session.Body M) (literals : Session.Dict (Typing.Ty M)) (h : List PyStr → Int) (package : ID) (s : SessionTree)
    (types : Session.Dict (Session.MType M)) : Py (Session.FullSession M) := do
  let r ← createUnproven package s types
  Session.FullSession.new B literals h r

end Verif.SpecParser
