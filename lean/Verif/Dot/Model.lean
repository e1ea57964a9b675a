import Verif.Session.Decl
import Verif.Expr.Print
import Verif.Ident.Model

/-! # Model of `rflx/graph.py`: drawings of messages and sessions

Graphs of the library `pydotplus` are lists of nodes and edges in the order of their creation. Of the attributes of nodes and edges only labels,
tooltips and the colour of the nodes of states are modelled; sizes, fonts and the shape of nodes are left out. -/

namespace Verif.Dot
open Verif Verif.Session

/-- `pydotplus.Node`, `rflx/graph.py:81-103,168-170,184-203,206-208`: name, `label` and `fillcolor`. -/
structure Node where
  name : PyStr
  label : Option PyStr := none
  fill : Option PyStr := none

/-- `pydotplus.Edge`, `rflx/graph.py:111-113,135-149,204-205`: `src`, `dst` and `tooltip`. -/
structure Edge where
  src : PyStr
  dst : PyStr
  tooltip : Option PyStr := none

/-- `pydotplus.Dot`, the nodes and edges added so far. -/
structure Graph where
  nodes : List Node
  edges : List Edge

/-! ## Messages -/

/-- `Link`, `rflx/model/message.py:49-56`; fields are identifiers as they are written. -/
structure Link where
  source : ID
  target : ID
  condition : Expr
  size : Expr
  first : Expr

/-- The parts of a message that are drawn. `types` has the sizes of scalar types, `none` for other types. -/
structure Message where
  structure_ : List Link
  fields : List ID
  types : List (ID × Option Expr)

/-- `INITIAL`, `rflx/model/message.py:45`. -/
def INITIAL : ID := ⟨[['I', 'n', 'i', 't', 'i', 'a', 'l']]⟩

/-- `FINAL`, `rflx/model/message.py:46`. -/
def FINAL : ID := ⟨[['F', 'i', 'n', 'a', 'l']]⟩

/-- `str(self.field_size(field))`, `rflx/graph.py:29-31`, `rflx/model/message.py:289-299`. -/
def targetSize (m : Message) (field : ID) : Py PyStr :=
  if field.eq FINAL then .ok (Expr.num 0 .b0).str
  else if !m.fields.any (·.eq field) then .error .assertion
  else match m.types.find? (·.1.eq field) with
    | none => .error .keyError
    | some (_, some s) => .ok s.str
    | some (_, none) => .ok Expr.undefined.str

/-- `__edge_label`, `rflx/graph.py:33-40`. -/
def edgeLabel (m : Message) (l : Link) : Py PyStr := do
  let size ← (if l.size.eq .undefined then targetSize m l.target else .ok l.size.str : Py PyStr)
  return '(' :: (if l.condition.eq .tru then ['⊤'] else l.condition.str) ++ [','] ++
    (if l.condition.eq .tru || l.size.eq .undefined then [' '] else ['\n']) ++ size ++ [','] ++
    (if l.first.eq .undefined then [' '] else ['\n']) ++ (if l.first.eq .undefined then ['⋆'] else l.first.str) ++ [')']

/-- `f"intermediate_{i}"`, `rflx/graph.py:190`. -/
def intermediate (i : Nat) : PyStr := ['i', 'n', 't', 'e', 'r', 'm', 'e', 'd', 'i', 'a', 't', 'e', '_'] ++ digits 10 i

/-- The loop over the links, `rflx/graph.py:189-205`. -/
def addLinks (m : Message) : Nat → List Link → Graph → Py Graph
  | _, [], g => .ok g
  | i, l :: ls, g => do
    let label ← edgeLabel m l
    addLinks m (i + 1) ls ⟨g.nodes ++ [⟨intermediate i, some label, none⟩],
      g.edges ++ [⟨l.source.str, intermediate i, none⟩, ⟨intermediate i, l.target.str, none⟩]⟩

/-- `__get_message`, `rflx/graph.py:174-209`. -/
def getMessage (m : Message) : Py Graph := do
  let s := if m.structure_.isEmpty then [⟨INITIAL, FINAL, .tru, .undefined, .undefined⟩] else m.structure_
  let g ← addLinks m 0 s ⟨⟨['I', 'n', 'i', 't', 'i', 'a', 'l'], some [], some ['#', 'f', 'f', 'f', 'f', 'f', 'f']⟩ ::
    m.fields.map (fun f => ⟨f.str, none, none⟩), []⟩
  return ⟨g.nodes ++ [⟨['F', 'i', 'n', 'a', 'l'], some [], some ['#', '6', 'f', '6', 'f', '6', 'f']⟩], g.edges⟩

/-! ## Sessions -/

variable {M : Type}

/-- `collections.Counter.update`: the keys in the order of insertion. The numbers are only used for the size of nodes and left out. -/
def count (keys : List ID) : List ID → List ID
  | [] => keys
  | i :: is => count (if keys.any (·.eq i) then keys else keys ++ [i]) is

/-- The node of a state, `rflx/graph.py:81-103`. -/
def stateNode (s : FullSession M) (state : FullState M) (name : PyStr) : Node :=
  if state.identifier.eq s.initial then ⟨name, none, some ['#', 'f', 'f', 'f', 'f', 'f', 'f']⟩
  else if state.identifier.eq s.final then ⟨name, none, some ['#', '6', 'f', '6', 'f', '6', 'f']⟩
  else ⟨name, none, none⟩

/-- The tooltip of a transition, `rflx/graph.py:106-110`. -/
def transitionLabel (source target : PyStr) (index : Nat) (condition : Expr) : PyStr :=
  if condition.eq .tru then []
  else source ++ [' ', '→', ' '] ++ target ++ ['\n', '\n', '['] ++ digits 10 index ++ [']', ' '] ++ condition.str

/-- The names of variables that the state does not declare, `rflx/graph.py:114-120,123-124,126-132`. -/
def notDeclared (state : FullState M) (is : List ID) : List ID := is.filter fun i => !isIn i ((declDict state.declarations).map (·.1))

/-- The loop over the transitions, `rflx/graph.py:105-120`: edges and the keys of `variables_read`. -/
def transitions (h : List PyStr → Int) (state : FullState M) (source : PyStr) : Nat → List (ID × Expr) → List Edge → List ID → Py (List Edge × List ID)
  | _, [], es, reads => .ok (es, reads)
  | i, (t, c) :: ts, es, reads => do
    let target ← t.name
    transitions h state source (i + 1) ts (es ++ [⟨source, target.str, some (transitionLabel source target.str i c)⟩])
      (count reads (notDeclared state ((Verif.variables h c).map PyVar.id)))

/-- The loop over the actions, `rflx/graph.py:122-132`: the keys of `variables_read` and `variables_write`. -/
def actions (h : List PyStr → Int) (state : FullState M) : List Action → List ID → List ID → List ID × List ID
  | [], reads, writes => (reads, writes)
  | a :: as, reads, writes =>
    let writes := count writes (notDeclared state [a.id])
    match a with
    | .assign _ e => actions h state as (count reads (notDeclared state ((e.variables h).map PyVar.id))) writes
    | _ => actions h state as reads writes

/-- `__add_state`, `rflx/graph.py:72-152`: the graph and the keys of `variables`. -/
def addState (h : List PyStr → Int) (s : FullSession M) (state : FullState M) (g : Graph) (vars : List ID) : Py (Graph × List ID) := do
  let name ← state.identifier.name
  let r ← transitions h state name.str 0 state.transitions [] []
  let rw := actions h state state.actions r.2 []
  return (⟨g.nodes ++ [stateNode s state name.str],
    g.edges ++ r.1 ++
      rw.1.map (fun v => ⟨v.str, name.str, some (name.str ++ [':', ' ', 'r', 'e', 'a', 'd', ' '] ++ v.str)⟩) ++
      rw.2.map (fun v => ⟨name.str, v.str, some (name.str ++ [':', ' ', 'w', 'r', 'i', 't', 'e', ' '] ++ v.str)⟩)⟩,
    count (count vars rw.1) rw.2)

/-- The loop over the states, `rflx/graph.py:162-163`. -/
def addStates (h : List PyStr → Int) (s : FullSession M) : List (FullState M) → Graph → List ID → Py (Graph × List ID)
  | [], g, vars => .ok (g, vars)
  | t :: ts, g, vars => do
    let r ← addState h s t g vars
    addStates h s ts r.1 r.2

/-- `__get_session`, `rflx/graph.py:154-172`. -/
def getSession (h : List PyStr → Int) (s : FullSession M) : Py Graph := do
  let r ← addStates h s s.states ⟨[], []⟩ []
  return ⟨r.1.nodes ++ r.2.map (fun v => ⟨v.str, none, some ['#', '7', 'e', '8', 'a', 'b', '8']⟩), r.1.edges⟩

end Verif.Dot
