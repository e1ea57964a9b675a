import Verif.Ident.Props

/-! # Model of reading and ordering specification files: `rflx/specification/parser.py:1188-1306` -/

namespace Verif.SpecParser
open Verif

/-- A path: directory and file name. -/
structure Path where
  dir : PyStr
  name : PyStr
deriving DecidableEq

/-- What matters of a parsed specification: the name of the package as written, the packages in the `with` clauses
(`create_id(context.f_item, filename)`; reserved words, which raise an exception there, are left out) and whether
`check_naming` (`rflx/specification/parser.py:1145-1185`) finds an error other than a wrong file name. -/
structure Spec where
  package : PyStr
  context : List ID
  naming : Bool := false

/-- The result of `AnalysisContext().get_from_file`, an external library: diagnostics (including a missing file), no
root node, or a specification. -/
inductive File where
  | bad
  | empty
  | spec (s : Spec)

/-- The file system, which does not change while the parser runs. -/
abbrev Files := Path → File

/-- `SpecificationNode`, `rflx/specification/parser.py:1188-1192`. -/
structure Node where
  filename : Path
  spec : Spec
  withed : List PyStr

/-- `Parser.__specifications`, an `OrderedDict`, `rflx/specification/parser.py:1198`. -/
abbrev Specs := List (PyStr × Node)

/-- The keys of the dictionary. -/
def Specs.keys (d : Specs) : List PyStr := d.map Prod.fst

/-- `d[k]`. -/
def Specs.get? (d : Specs) (k : PyStr) : Option Node := (d.find? fun e => e.1 == k).map Prod.snd

/-- `d[k] = n`: the position of an existing key does not change. -/
def Specs.set (d : Specs) (k : PyStr) (n : Node) : Specs :=
  match d with
  | [] => [(k, n)]
  | e :: d => if e.1 == k then (k, n) :: d else e :: Specs.set d k n

/-- The errors recorded while reading files, without locations and messages of severity `INFO`. -/
inductive Err where
  | diagnostics (f : Path)
  | naming (f : Path)
  | cycle (first : ID)
  | duplicate (package : PyStr)

/-- `f"{name.lower()}.rflx"`, `rflx/specification/parser.py:1215,1239,1163`. -/
def rflx (name : PyStr) : PyStr := name.lower ++ ['.', 'r', 'f', 'l', 'x']

/-- `item in transitions`. -/
def isIn (i : ID) (l : List ID) : Bool := l.any fun j => i.eq j

/-- The loop over the context clause, `rflx/specification/parser.py:1216-1242`. `rec` is `__parse_specfile`. The results
are the errors, `withed_files` and the dictionary. -/
def contextLoop (rec : Path → List ID → Specs → Py (List Err × Specs)) (dir : PyStr) (transitions : List ID) :
    List ID → List Err → List PyStr → Specs → Py (List Err × List PyStr × Specs)
  | [], errs, withed, specs => .ok (errs, withed, specs)
  | item :: items, errs, withed, specs =>
    if isIn item transitions then
      contextLoop rec dir transitions items (errs ++ [.cycle (transitions.headD item)]) withed specs
    else
      let file : Path := ⟨dir, rflx item.str⟩
      let withed := withed ++ [file.name]
      if file.name ∈ specs.keys then contextLoop rec dir transitions items errs withed specs
      else do
        let (es, specs) ← rec file (transitions ++ [item]) specs
        contextLoop rec dir transitions items (errs ++ es) withed specs

/-- `check_naming`, `rflx/specification/parser.py:1145-1185`, for a file. -/
def checkNaming (s : Spec) (f : Path) : List Err :=
  (if s.naming then [.naming f] else []) ++ (if f.name != rflx s.package then [.naming f] else [])

/-- `__parse_specfile` and `__convert_unit`, `rflx/specification/parser.py:1206-1273`. The first argument bounds the
depth of the recursion. -/
def parseFile (fs : Files) : Nat → Path → List ID → Specs → Py (List Err × Specs)
  | 0, _, _, _ => .error .fuel
  | k + 1, f, transitions, specs =>
    match fs f with
    | .bad => .ok ([.diagnostics f], specs)
    | .empty => .ok ([], specs)
    | .spec s => do
      let (errs, withed, specs) ← contextLoop (parseFile fs k) f.dir transitions s.context (checkNaming s f) [] specs
      let key := rflx s.package
      let dup : List Err := match specs.get? key with
        | some n => if f ≠ n.filename then [.duplicate s.package] else []
        | none => []
      return (errs ++ dup, specs.set key ⟨f, s, withed⟩)

/-- `incoming[d]`, `rflx/specification/parser.py:1281-1285`. -/
def incoming (d : Specs) (e : PyStr) : List PyStr := Specs.keys (d.filter fun n => e ∈ n.2.withed)

/-- The loop over the withed files in `__sort_specs_topologically`, `rflx/specification/parser.py:1293-1296`. -/
def visitAll (d : Specs) : List PyStr → List PyStr → List PyStr → List PyStr × List PyStr
  | [], specs, visited => (specs, visited)
  | e :: es, specs, visited =>
    let visited := e :: visited
    visitAll d es (if e ∈ d.keys ∧ ∀ i ∈ incoming d e, i ∈ visited then specs ++ [e] else specs) visited

/-- The loop of `__sort_specs_topologically`, `rflx/specification/parser.py:1290-1296`: the value of `result`. The first
argument counts steps. A missing key cannot occur, the elements of `specs` are keys. -/
def sortLoop (d : Specs) : Nat → List PyStr → List PyStr → List PyStr → Py (List PyStr)
  | _, [], result, _ => .ok result
  | 0, _ :: _, _, _ => .error .fuel
  | k + 1, s :: specs, result, visited =>
    match d.get? s with
    | none => .error .keyError
    | some n =>
      let (specs, visited) := visitAll d n.withed specs visited
      sortLoop d k specs (s :: result) visited

/-- Keys of `OrderedDict((f, ...) for f in l)`: first occurrences. -/
def firsts : List PyStr → List PyStr
  | [] => []
  | f :: fs => f :: (firsts fs).filter (· != f)

/-- `__sort_specs_topologically`, `rflx/specification/parser.py:1275-1298`. -/
def sortSpecs (d : Specs) (k : Nat) : Py Specs := do
  let specs := d.keys.filter fun f => (incoming d f).isEmpty
  let result ← sortLoop d k specs [] specs
  (firsts result).mapM fun f => match d.get? f with
    | some n => .ok (f, n)
    | none => .error .keyError

/-- The loop of `parse` over the given files, `rflx/specification/parser.py:1303-1304`. -/
def parseFiles (fs : Files) (k : Nat) : List Path → List Err → Specs → Py (List Err × Specs)
  | [], errs, specs => .ok (errs, specs)
  | f :: files, errs, specs => do
    let (es, specs) ← parseFile fs k f [] specs
    parseFiles fs k files (errs ++ es) specs

/-- `parse`, `rflx/specification/parser.py:1300-1306`, for a new parser: the value of `__specifications` afterwards. -/
def parse (fs : Files) (k : Nat) (files : List Path) : Py Specs := do
  let (errs, specs) ← parseFiles fs k files [] []
  let specs ← sortSpecs specs k
  if errs.isEmpty then return specs else .error .recordFlux

end Verif.SpecParser
