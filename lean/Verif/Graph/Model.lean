import Verif.Expr.Mono
import Verif.Expr.Subst

/-! # Message structures (`rflx/model/message.py:20-579`)

`self.structure` is `sorted(structure)` (line 116), a rearrangement of the given links; the model takes the links in any
order, so statements about all lists of links cover every outcome of the sorting. Of the types of the fields only the
names of the fields and of the enumeration literals matter here. Error messages are not modelled, only their
presence. -/

namespace Verif.Graph
open Verif

/-- `Field`, `rflx/model/message.py:20-42`. Fields compare and hash like their identifiers, that is without regard to
case (`rflx/identifier.py:34-47`); a field is represented by its identifier in lower case, so that equality of fields is
equality in Lean. -/
abbrev Field := ID

/-- `INITIAL`, `rflx/model/message.py:45`. -/
def INITIAL : Field := ⟨[['i', 'n', 'i', 't', 'i', 'a', 'l']]⟩

/-- `FINAL`, `rflx/model/message.py:46`. -/
def FINAL : Field := ⟨[['f', 'i', 'n', 'a', 'l']]⟩

/-- `Link`, `rflx/model/message.py:49-56`, without its location. -/
structure Link where
  source : Field
  target : Field
  condition : Expr
  size : Expr
  first : Expr

/-- `Link.__eq__`, `rflx/model/message.py:71-80`. -/
def Link.eq (a b : Link) : Bool :=
  a.source == b.source && a.target == b.target && a.condition.eq b.condition && a.size.eq b.size && a.first.eq b.first

/-- `incoming`, `rflx/model/message.py:248-249`. -/
def incoming (s : List Link) (f : Field) : List Link := s.filter (fun l => l.target == f)

/-- `outgoing`, `rflx/model/message.py:251-252`. -/
def outgoing (s : List Link) (f : Field) : List Link := s.filter (fun l => l.source == f)

/-- The arguments of the constructor of a message: links, keys of `types` and the names of the enumeration literals
visible in the message (`self._enum_literals`, `rflx/model/message.py:125`). -/
structure Def where
  links : List Link
  typed : List Field
  literals : List ID

/-- `structure_fields`, `rflx/model/message.py:416`. -/
def structureFields (s : List Link) : List Field := s.map Link.source ++ s.map Link.target

/-- `type_fields`, `rflx/model/message.py:415`. -/
def Def.typeFields (m : Def) : List Field := m.typed ++ [INITIAL, FINAL]

/-- The first part of `__validate`, `rflx/model/message.py:412-476`; the value tells whether there is an error.
`initial_links[0]` (449) raises `IndexError` if there is no initial link. -/
def Def.validate1 (m : Def) : Py Bool :=
  let missing := (structureFields m.links).any (fun f => !m.typeFields.contains f)
  let unused := m.typeFields.any (fun f => !(structureFields m.links).contains f && f != FINAL)
  match outgoing m.links INITIAL with
  | [] => .error .indexError
  | l :: ls =>
    .ok (missing || unused || !ls.isEmpty || !l.first.eq .undefined ||
      m.typeFields.any (fun f => m.literals.any (fun i => f.eq i)))

/-- `f in (INITIAL, l.target)` for no link, `rflx/model/message.py:478-489`. -/
def hasUnreachable (s : List Link) : Bool :=
  (structureFields s).any fun f => s.all fun l => !(f == INITIAL || f == l.target)

/-- Equality of the keys `(link.source, link.target, link.condition)` of the dictionary `duplicate_links`,
`rflx/model/message.py:491-493`: keys are compared only if their hashes are equal; the hash of an expression is that of
the name of its class (`rflx/expression.py:101-102`; equal numbers and equal variables have equal hashes, 650, 1029). -/
def sameKey (a b : Link) : Bool :=
  a.source == b.source && a.target == b.target && a.condition.cls == b.condition.cls && a.condition.eq b.condition

/-- Some entry of `duplicate_links` has more than one link, `rflx/model/message.py:491-515`. -/
def hasDuplicates : List Link → Bool
  | [] => false
  | l :: ls => ls.any (sameKey l) || hasDuplicates ls

/-- `isinstance(x, expr.Pow)`, `rflx/model/message.py:519`. -/
def isPow : Expr → Bool
  | .bin .pow _ _ => true
  | _ => false

/-- `isinstance(x, expr.Variable)`, `rflx/model/message.py:523`. -/
def isVar : Expr → Bool
  | .var .. => true
  | _ => false

/-- `e.right` has a variable, for `e` an exponentiation, `rflx/model/message.py:521-524`. -/
def varExponent : Expr → Bool
  | .bin .pow _ r => !(findall isVar r).isEmpty
  | _ => false

/-- The check of exponentiations, `rflx/model/message.py:517-538`. -/
def hasVarExponent (s : List Link) : Bool :=
  s.any fun l => [l.condition, l.first, l.size].any fun e => (findall isPow e).any varExponent

/-- `set(self.incoming(f)) <= visited`, `rflx/model/message.py:550`. -/
def complete (s visited : List Link) (f : Field) : Bool := (incoming s f).all fun l => visited.any l.eq

/-- The inner loop of `__compute_topological_sorting`, `rflx/model/message.py:548-551`. -/
def visit (s : List Link) : List Link → List Field → List Link → List Field × List Link
  | [], fields, visited => (fields, visited)
  | e :: es, fields, visited =>
    let visited := e :: visited
    visit s es (if complete s visited e.target then fields ++ [e.target] else fields) visited

/-- The loop of `__compute_topological_sorting`, `rflx/model/message.py:545-551`: the order and the visited links. It
need not end; the first argument counts steps. -/
def kahn (s : List Link) : Nat → List Field → List Field → List Link → Py (List Field × List Link)
  | _, [], result, visited => .ok (result, visited)
  | 0, _ :: _, _, _ => .error .fuel
  | k + 1, n :: fields, result, visited =>
    let (fields', visited') := visit s (outgoing s n) fields visited
    kahn s k fields' (result ++ [n]) visited'

/-- `AbstractMessage.__init__`, `rflx/model/message.py:104-139`, followed by `error.propagate()`: the value of
`message.fields`, or `RecordFluxError` if some error was recorded. The first argument counts the steps of the topological
sort. A message without links and types is the null message. -/
def Def.construct (k : Nat) (m : Def) : Py (List Field) :=
  if m.links.isEmpty && m.typed.isEmpty then .ok []
  else do
    if ← m.validate1 then .error .recordFlux
    let (result, visited) ← kahn m.links k [INITIAL] [] []
    let unreachable := hasUnreachable m.links
    let cycle := !unreachable && m.links.any (fun l => !visited.any l.eq)
    if unreachable || hasDuplicates m.links || hasVarExponent m.links || cycle then .error .recordFlux
    else return result.filter (fun f => f != INITIAL && f != FINAL)

/-- `predecessors`, `rflx/model/message.py:254-259`; `fields` is `message.fields`. `index` raises `ValueError` for an
unknown field. -/
def predecessors (fields : List Field) (f : Field) : Py (List Field) :=
  if f = INITIAL then .ok []
  else if f = FINAL then .ok fields
  else if f ∈ fields then .ok (fields.take (fields.idxOf f))
  else .error .valueError

/-- `successors`, `rflx/model/message.py:261-266`. -/
def successors (fields : List Field) (f : Field) : Py (List Field) :=
  if f = INITIAL then .ok fields
  else if f = FINAL then .ok []
  else if f ∈ fields then .ok (fields.drop (fields.idxOf f + 1))
  else .error .valueError

/-- `dict.fromkeys(l)` as a list, used at `rflx/model/message.py:268-272`. -/
def dedup : List Field → List Field
  | [] => []
  | f :: fs => f :: (dedup fs).filter (· != f)

/-- `direct_predecessors`, `rflx/model/message.py:268-269`. -/
def directPredecessors (s : List Link) (f : Field) : List Field := dedup ((incoming s f).map Link.source)

/-- `direct_successors`, `rflx/model/message.py:271-272`. -/
def directSuccessors (s : List Link) (f : Field) : List Field := dedup ((outgoing s f).map Link.target)

/-- `p == q` for tuples of links. -/
def pathEq : List Link → List Link → Bool
  | [], [] => true
  | a :: as, b :: bs => a.eq b && pathEq as bs
  | _, _ => false

/-- `result.add(p)` for a set of tuples of links, `rflx/model/message.py:311,313`. -/
def addPath (r : List (List Link)) (p : List Link) : List (List Link) := if r.any (pathEq p) then r else r ++ [p]

/-- The body of the loop in `paths`, `rflx/model/message.py:309-313`; `source` is the result for the source of the
link. -/
def addPaths (r : List (List Link)) (l : Link) (source : List (List Link)) : List (List Link) :=
  let r := source.foldl (fun r s => addPath r (s ++ [l])) r
  if source.isEmpty then addPath r [l] else r

/-- `paths`, `rflx/model/message.py:301-316`: a set, in the order of insertion. The results are cached in the message
(304-305, 315), which does not change them. The recursion follows links backwards; the first argument bounds its
depth. -/
def paths (s : List Link) : Nat → Field → Py (List (List Link))
  | 0, _ => .error .fuel
  | k + 1, f =>
    if f = INITIAL then .ok []
    else (incoming s f).foldlM (fun r l => do return addPaths r l (← paths s k l.source)) []

/-- `__compute_definite_predecessors`, `rflx/model/message.py:563-568`. -/
def definitePredecessors (s : List Link) (k : Nat) (fields : List Field) (f : Field) : Py (List Field) := do
  let ps ← paths s k f
  return fields.filter fun g => ps.all fun p => p.any fun l => g == l.source

/-- `__compute_field_condition`, `rflx/model/message.py:570-579`. -/
def computeFieldCondition (s : List Link) : Nat → Field → Py Expr
  | 0, _ => .error .fuel
  | k + 1, f =>
    if f = INITIAL then .ok .tru
    else do
      let ts ← (incoming s f).mapM fun l => do return .bool .and [← computeFieldCondition s k l.source, l.condition]
      return .bool .or ts

/-- `field_condition`, `rflx/model/message.py:282-287`. -/
def fieldCondition (s : List Link) (k : Nat) (f : Field) : Py Expr := do
  (← computeFieldCondition s k f).simplified

end Verif.Graph
