import Verif.Graph.Model

/-! # Model of the structure of a message: `create_message_structure`, `rflx/specification/parser.py:814-954`

The syntax tree of a message type is represented by the data the function reads. Names are identifiers as written; reserved
words, for which `create_id` (`rflx/specification/parser.py:239-249`) raises an exception, and syntax errors are left out. -/

namespace Verif.SpecParser.Structure
open Verif Verif.Graph

/-- An aspect of a component or a `then` clause: its name and its value (`create_math_expression`). -/
structure Aspect where
  name : PyStr
  value : Expr

/-- `ThenNode`: the target (`none` for `null`), the condition (`create_bool_expression`) if there is one, and the aspects. -/
structure Then where
  target : Option ID
  condition : Option Expr
  aspects : List Aspect

/-- A component of a message type: name, condition, aspects, `then` clauses. Its type is not read here. -/
structure Component where
  name : ID
  condition : Option Expr
  aspects : List Aspect
  thens : List Then

/-- The errors appended by the function. -/
inductive Err
  | invalidAspect (name : PyStr)
  | reserved (name : ID)
  | firstConflict (name : ID)
  | sizeConflict (name : ID)
  | undefinedField (name : ID)

/-- The loop of `extract_aspect`, `rflx/specification/parser.py:822-834`. -/
def aspectLoop : List Aspect → Expr × Expr × List Err → Expr × Expr × List Err
  | [], r => r
  | a :: as, (size, first, errs) =>
    aspectLoop as
      (if a.name = ['S', 'i', 'z', 'e'] then (a.value, first, errs)
       else if a.name = ['F', 'i', 'r', 's', 't'] then (size, a.value, errs)
       else (size, first, errs ++ [.invalidAspect a.name]))

/-- `extract_aspect`, `rflx/specification/parser.py:819-835`: size, first and errors. -/
def extractAspect (as : List Aspect) : Expr × Expr × List Err := aspectLoop as (.undefined, .undefined, [])

/-- `extract_then` and the construction of the link, `rflx/specification/parser.py:837-849,855,949`. -/
def extractThen (source : ID) (t : Then) : Link × List Err :=
  let a := extractAspect t.aspects
  (⟨source, t.target.getD FINAL, t.condition.getD .tru, a.1, a.2.1⟩, a.2.2)

/-- The body of the loop over the links to the component, `rflx/specification/parser.py:896-937`, with the values of
`condition`, `size` and `first`. -/
def amendLink (name : ID) (condition size first : Expr) (l : Link) : Link × List Err :=
  let r1 : Link × List Err :=
    if !first.eq .undefined then
      if l.first.eq .undefined then ({ l with first := first }, []) else (l, [.firstConflict name])
    else (l, [])
  let r2 : Link × List Err :=
    if !size.eq .undefined then
      if r1.1.size.eq .undefined then ({ r1.1 with size := size }, r1.2) else (r1.1, r1.2 ++ [.sizeConflict name])
    else r1
  if !condition.eq .tru then
    ({ r2.1 with
        condition := if !r2.1.condition.eq .tru then .bool .and [condition, r2.1.condition] else condition }, r2.2)
  else r2

/-- `for l in (l for l in structure if l.target.identifier == component_identifier)`,
`rflx/specification/parser.py:896-937`. -/
def amendLinks (name : ID) (condition size first : Expr) : List Link → List Link × List Err
  | [] => ([], [])
  | l :: ls =>
    let r := if l.target.eq name then amendLink name condition size first l else (l, [])
    let rs := amendLinks name condition size first ls
    (r.1 :: rs.1, r.2 ++ rs.2)

/-- The loop over the `then` clauses, `rflx/specification/parser.py:939-949`: the new links and errors. -/
def thenLoop (names : List ID) (source : ID) : List Then → List Link × List Err
  | [] => ([], [])
  | t :: ts =>
    let rs := thenLoop names source ts
    match t.target with
    | none =>
      let r := extractThen source t
      (r.1 :: rs.1, r.2 ++ rs.2)
    | some f =>
      if f ∈ names then
        let r := extractThen source t
        (r.1 :: rs.1, r.2 ++ rs.2)
      else (rs.1, .undefinedField f :: rs.2)

/-- The link to the next component, `rflx/specification/parser.py:879-886`. -/
def defaultLink (c : Component) (rest : List Component) : List Link :=
  match c.thens with
  | [] => [⟨c.name, match rest with
      | [] => FINAL
      | d :: _ => d.name, .tru, .undefined, .undefined⟩]
  | _ => []

/-- The condition of a component, `rflx/specification/parser.py:888-892`. -/
def Component.cond (c : Component) : Expr := c.condition.getD .tru

/-- `component.f_identifier.text.lower() == "message"`, `rflx/specification/parser.py:870`. -/
def isMessage (i : ID) : Bool := i.str.lower == ['m', 'e', 's', 's', 'a', 'g', 'e']

/-- The loop over the components, `rflx/specification/parser.py:863-949`, with the list `structure`: the links and the errors.
`names` are the names of all components. -/
def componentLoop (names : List ID) : List Component → List Link → List Link × List Err
  | [], links => (links, [])
  | c :: rest, links =>
    if isMessage c.name then
      let r := componentLoop names rest links
      (r.1, .reserved c.name :: r.2)
    else
      let links := links ++ defaultLink c rest
      let a := extractAspect c.aspects
      let amended :=
        if !a.2.1.eq .undefined || !a.1.eq .undefined || !c.cond.eq .tru then amendLinks c.name c.cond a.1 a.2.1 links
        else (links, [])
      let thens := thenLoop names c.name c.thens
      let r := componentLoop names rest (amended.1 ++ thens.1)
      (r.1, a.2.2 ++ amended.2 ++ thens.2 ++ r.2)

/-- `create_message_structure`, `rflx/specification/parser.py:814-951`: the links and the errors that are appended. The first
argument is the `then` clause of the initial component, if there is one. Without it and without components the access to the
first component raises an exception. -/
def createStructure (initial : Option Then) (components : List Component) : Py (List Link × List Err) :=
  match initial, components with
  | some t, cs =>
    let s := extractThen INITIAL t
    let r := componentLoop (cs.map Component.name) cs [s.1]
    .ok (r.1, s.2 ++ r.2)
  | none, [] => .error .indexError
  | none, c :: cs =>
    .ok (componentLoop ((c :: cs).map Component.name) (c :: cs) [⟨INITIAL, c.name, .tru, .undefined, .undefined⟩])

end Verif.SpecParser.Structure
