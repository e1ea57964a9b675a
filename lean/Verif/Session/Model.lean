import Verif.Ident.Props

/-! # Model of the validation of session states: `rflx/model/session.py` -/

namespace Verif.Session
open Verif

/-- `State`, `rflx/model/session.py:45-76`: the name, the targets of the transitions in order and the target of the
exception transition. Conditions, actions and declarations do not matter for the functions below and are left out. -/
structure State where
  identifier : ID
  targets : List ID
  exception : Option ID := none

/-- `AbstractSession`, `rflx/model/session.py:118-163`: the attributes used by `__validate_states`. -/
structure Session where
  initial : ID
  final : ID
  states : List State

/-- The messages recorded by `__validate_states`; locations are left out. -/
inductive Err where
  | emptyStates
  | noInitial
  | noFinal
  | noTarget (state target : ID)
  | duplicate (state : ID)
  | unreachable (state : ID)
  | detached (state : ID)
deriving DecidableEq

/-- `i in l` for a list of `ID`s or the keys of a dictionary. -/
def isIn (i : ID) (l : List ID) : Bool := l.any fun j => i.eq j

/-- `__validate_state_existence`, `rflx/model/session.py:214-239`. -/
def existence (s : Session) : List Err :=
  let ids := s.states.map State.identifier
  (if isIn s.initial ids then [] else [.noInitial]) ++
  (if isIn s.final ids then [] else [.noFinal]) ++
  s.states.flatMap fun st => st.targets.flatMap fun t => if isIn t ids then [] else [.noTarget st.identifier t]

/-- `identifier_states[s.identifier].append(s)`, `rflx/model/session.py:242-244`: a dictionary in the order of
insertion. -/
def addState (d : List (ID × List State)) (s : State) : List (ID × List State) :=
  match d with
  | [] => [(s.identifier, [s])]
  | (i, ss) :: d => if s.identifier.eq i then (i, ss ++ [s]) :: d else (i, ss) :: addState d s

/-- `__validate_duplicate_states`, `rflx/model/session.py:241-260`, without the messages of severity `INFO`. -/
def duplicates (s : Session) : List Err :=
  let d := s.states.foldl addState []
  d.flatMap fun (i, ss) => if ss.length ≥ 2 then (ss.drop 1).map fun _ => .duplicate i else []

/-- The loop of `__validate_state_reachability`, `rflx/model/session.py:263-285`. Of the dictionary `inputs` only the
keys are used. -/
def reachLoop (initial final : ID) : List State → List ID → List Err
  | [], _ => []
  | s :: ss, inputs =>
    let inputs := s.targets.foldl (fun k t => if isIn t k then k else k ++ [t]) inputs
    (if !s.identifier.eq initial && !isIn s.identifier inputs then [.unreachable s.identifier] else []) ++
    (if !s.identifier.eq final && s.targets.isEmpty then [.detached s.identifier] else []) ++
    reachLoop initial final ss inputs

/-- `__validate_state_reachability`, `rflx/model/session.py:262-285`. -/
def reachability (s : Session) : List Err := reachLoop s.initial s.final s.states []

/-- `__validate_states`, `rflx/model/session.py:201-212`. -/
def validateStates (s : Session) : List Err :=
  (if s.states.isEmpty then [.emptyStates] else []) ++ existence s ++ duplicates s ++ reachability s

/-- `Session.__init__`, `rflx/model/session.py:183-199`. `rest` stands for the remaining validation (declarations,
actions, types of conditions, `rflx/model/session.py:492-502`): whether it records an error or raises an exception. -/
def new (s : Session) (rest : Bool) : Py Session :=
  if (validateStates s).isEmpty && !rest then .ok s else .error .recordFlux

end Verif.Session
