import Verif.Verify.Model

/-! # Merging of embedded messages (`rflx/model/message.py:318-354,1359-1476`)

Errors are recorded in an object shared by all copies of a message (`rflx/model/message.py:1328-1346`) and raised by the caller
(`rflx/specification/parser.py:778-791`): where an error is recorded the model stops with it. Simplified: the recorded error
might be preceded by another exception. Aspects (checksums) are not modelled. -/

namespace Verif.Merge
open Verif Verif.Graph Verif.Types Verif.Verify

/-- The type of a field: a message with its links and the types of its fields, or another type. -/
inductive UTy
  | plain (t : FTy)
  | msg (id : ID) (links : List Link) (types : List (Field × UTy))

/-- `UnprovenMessage`, `rflx/model/message.py:1328`: the identifier, `structure` and `types`, in the order of the fields. -/
structure UMsg where
  id : ID
  links : List Link
  types : List (Field × UTy)

/-- The message as the type of a field. -/
def UMsg.toTy (m : UMsg) : UTy := .msg m.id m.links m.types

/-- The type as it is used in constraints. -/
def UTy.flat : UTy → FTy
  | .plain t => t
  | .msg id _ _ => .message id

/-- `isinstance(t, AbstractMessage)`, `rflx/model/message.py:1384`. -/
def UTy.asMsg : UTy → Option UMsg
  | .plain _ => none
  | .msg id links types => some ⟨id, links, types⟩

/-- The message as it is used by `type_constraints`. -/
def UMsg.verifyMsg (m : UMsg) : Verify.Msg := ⟨m.id, m.links, m.types.map (·.1), m.types.map fun e => (e.1, e.2.flat), []⟩

/-- `self.__types = {f: self.__types[f] for f in self._state.fields}`, `rflx/model/message.py:134`; fields that occur
repeatedly have one entry. -/
def reorder (types : List (Field × UTy)) : List Field → Py (List (Field × UTy))
  | [] => .ok []
  | f :: fs =>
    match types.find? (fun e => e.1 == f) with
    | some e => do return e :: (← reorder types fs)
    | none => .error .keyError

/-- The constructor, `rflx/model/message.py:104-139`, see `Verif.Graph.Def.construct`. The first argument counts the steps of the
topological sort. -/
def create (k : Nat) (id : ID) (links : List Link) (types : List (Field × UTy)) : Py UMsg := do
  let literals ← enumLiterals (← id.parent) (types.map fun e => e.2.flat)
  let fields ← (⟨links, types.map (·.1), literals⟩ : Def).construct k
  return ⟨id, links, ← reorder types (dedup fields)⟩

/-- `ID("True")` and `ID("False")`, `mty.BUILTIN_LITERALS`, `rflx/model/type_.py:559-599`. -/
def builtinLiterals : List ID := [⟨[['T', 'r', 'u', 'e']]⟩, ⟨[['F', 'a', 'l', 's', 'e']]⟩]

/-- The entries of the mapping in `prefixed_expression`, `rflx/model/message.py:325-341`, for a variable: `ID(prefix) + v.name`
for fields, `self.package * v.name` for names of a single part that are neither fields nor builtin literals nor `Message`. -/
def prefixEntry (pre : PyStr) (package : ID) (fields : List Field) (v : PyVar) : Py (List (Expr × Expr)) := do
  if fields.any (fun f => f.eq v.id) then
    return [(.var v.neg false v.id, .var false false (← (← ID.ofStr pre).addStr v.id.str))]
  else if v.id.parts.length == 1 && !builtinLiterals.any (fun l => l.eq v.id) && !v.id.eq MESSAGE then
    return [(.var v.neg false v.id, .var false false (← package.mulStr v.id.str))]
  else return []

/-- `prefixed_expression`, `rflx/model/message.py:321-342`. The hash function of tuples is a parameter. -/
def prefixedExpr (h : List PyStr → Int) (pre : PyStr) (package : ID) (fields : List Field) (e : Expr) : Py Expr := do
  let entries ← (variables h e).mapM (prefixEntry pre package fields)
  (← e.substituted entries.flatten).simplified

/-- `Field(prefix + f.identifier)`, `rflx/model/message.py:347-348,354`. The prefix is in lower case like the fields. -/
def prefixField (pre : PyStr) (f : Field) : Py Field := f.raddStr pre

/-- The loop of `prefixed`, `rflx/model/message.py:346-352`. -/
def prefixLink (h : List PyStr → Int) (pre : PyStr) (package : ID) (fields : List Field) (l : Link) : Py Link := do
  return ⟨← (if l.source = INITIAL then .ok INITIAL else prefixField pre l.source),
    ← (if l.target = FINAL then .ok FINAL else prefixField pre l.target),
    ← prefixedExpr h pre package fields l.condition,
    ← prefixedExpr h pre package fields l.size,
    ← prefixedExpr h pre package fields l.first⟩

/-- `prefixed`, `rflx/model/message.py:318-356`. -/
def UMsg.prefixed (h : List PyStr → Int) (k : Nat) (m : UMsg) (pre : PyStr) : Py UMsg := do
  let package ← m.id.parent
  let links ← m.links.mapM (prefixLink h pre package (m.types.map (·.1)))
  let types ← m.types.mapM fun e => do return (← prefixField pre e.1, e.2)
  create k m.id links types

/-- The links created for a link into the field, `rflx/model/message.py:1419-1430`. -/
def enterLink (l i : Link) : Link := ⟨l.source, i.target, l.condition, i.size, l.first⟩

/-- The condition of a link out of the field, `rflx/model/message.py:1433`. -/
def exitCondition (l q : Link) : Expr := .bool .and [l.condition, q.condition]

/-- The facts for the proof, `rflx/model/message.py:1434-1439`. -/
def exitFacts (k : Nat) (inner : UMsg) (l q : Link) : Py (List Expr) := do
  let cs ← inner.verifyMsg.typeConstraints (exitCondition l q)
  return cs ++ [← fieldCondition inner.links k q.source]

/-- The body of the loop over the links into `FINAL`, `rflx/model/message.py:1432-1450`. -/
def exitLink (s : Solver) (k : Nat) (inner : UMsg) (l q : Link) : Py (List Link) := do
  let r ← s.check (exitCondition l q :: (← exitFacts k inner l q))
  if r == .unsat then return []
  else return [⟨q.source, l.target, ← (exitCondition l q).simplified, l.size, l.first⟩]

/-- The results for the elements of a list, concatenated. -/
def concatMap {α : Type} (f : α → Py (List Link)) : List α → Py (List Link)
  | [] => .ok []
  | a :: as => do return (← f a) ++ (← concatMap f as)

/-- The body of the loop over the links of the outer message, `rflx/model/message.py:1417-1452`. -/
def linkImages (s : Solver) (k : Nat) (f : Field) (inner : UMsg) (l : Link) : Py (List Link) :=
  if l.target = f then
    match outgoing inner.links INITIAL with
    | [] => .error .indexError
    | i :: _ => .ok [enterLink l i]
  else if l.source = f then concatMap (exitLink s k inner l) (incoming inner.links FINAL)
  else .ok [l]

/-- `{x for l in structure for x in (l.source, l.target) if x != FINAL}` without outgoing links,
`rflx/model/message.py:1368-1372`. -/
def dangling (links : List Link) : List Field :=
  (structureFields links).filter fun f => f != FINAL && links.all (fun l => l.source != f)

/-- The loop of `prune_dangling_fields`, `rflx/model/message.py:1364-1373`: the remaining links and the dangling fields. The first
argument counts the iterations. -/
def pruneLoop : Nat → List Link → List Field → Py (List Link × List Field)
  | 0, _, _ => .error .fuel
  | n + 1, links, d =>
    let new := dangling links
    let links' := links.filter fun l => !(d ++ new).contains l.target
    if new.isEmpty then .ok (links', d) else pruneLoop n links' (d ++ new)

/-- `prune_dangling_fields`, `rflx/model/message.py:1361-1378`. -/
def prune (links : List Link) (types : List (Field × UTy)) : Py (List Link × List (Field × UTy)) := do
  let (links', d) ← pruneLoop (links.length + 1) links []
  return (links', types.filter fun e => !d.contains e.1)

/-- The name of the field with an underscore, `rflx/model/message.py:1392`. -/
def fieldPrefix (f : Field) : PyStr := f.str ++ ['_']

/-- The body of the loop of `merged`, `rflx/model/message.py:1391-1474`, for a field and its type. The dictionary of types
(1458-1461) is a concatenation as there are no name conflicts. -/
def mergeField (s : Solver) (h : List PyStr → Int) (k : Nat) (m : UMsg) (f : Field) (innerMessage : UMsg) : Py UMsg := do
  let inner ← innerMessage.prefixed h k (fieldPrefix f)
  if m.types.any (fun e => inner.types.any fun e' => e.1 == e'.1) then .error .recordFlux
  let outer ← concatMap (linkImages s k f inner) m.links
  let links := outer ++ inner.links.filter fun l => l.target != FINAL && l.source != INITIAL
  let types := m.types.filter (fun e => e.1 != f) ++ inner.types
  let (links, types) ← prune links types
  if links.isEmpty || types.isEmpty then .error .recordFlux
  create k m.id links types

/-- `inner_messages`, `rflx/model/message.py:1383-1389`: the first field of message type. -/
def firstMessage : List (Field × UTy) → Option (Field × UMsg)
  | [] => none
  | (f, t) :: ts =>
    match t.asMsg with
    | some m => some (f, m)
    | none => firstMessage ts

/-- `merged`, `rflx/model/message.py:1380-1476`. The first argument counts the iterations. -/
def mergeLoop (s : Solver) (h : List PyStr → Int) (k : Nat) : Nat → UMsg → Py UMsg
  | 0, _ => .error .fuel
  | n + 1, m =>
    match firstMessage m.types with
    | none => .ok m
    | some (f, inner) => do mergeLoop s h k n (← mergeField s h k m f inner)

mutual
/-- Proof device: the number of messages in a type. -/
def UTy.count : UTy → Nat
  | .plain _ => 0
  | .msg _ _ types => 1 + countL types
/-- Proof device: the number of messages in the types of the fields. -/
def countL : List (Field × UTy) → Nat
  | [] => 0
  | (_, t) :: ts => t.count + countL ts
end

/-- `merged`, `rflx/model/message.py:1359-1476`: the number of iterations suffices (see `C21_terminates`). -/
def UMsg.merged (s : Solver) (h : List PyStr → Int) (k : Nat) (m : UMsg) : Py UMsg := mergeLoop s h k (countL m.types + 1) m

end Verif.Merge
