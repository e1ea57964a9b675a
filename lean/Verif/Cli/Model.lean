import Verif.Export.Model
import Verif.Errors.Model
import Verif.Common.Model

/-! # The command line (`rflx/cli.py`)

The commands with arguments that `argparse` has accepted. Parser, generator and graphs are parameters: what they
return or raise. The effects on the file system are recorded as writes of whole files in the order they happen;
`open(…, "w")` is a write of an empty file. Logging (`rflx/cli.py:83-84`) and `argparse` (23-81) are not modelled, nor are
exceptions of the file system. -/

namespace Verif.Cli

open Verif Verif.Errors Verif.Export

/-- What a call returns or raises: a value, a `RecordFluxError` with its entries, or another exception. -/
inductive Outcome (α : Type)
  | ok (a : α)
  | failed (es : List Entry)
  | crashed (e : PyErr)

/-- Sequencing: exceptions are passed on. -/
def Outcome.bind {α β : Type} (x : Outcome α) (f : α → Outcome β) : Outcome β :=
  match x with
  | .ok a => f a
  | .failed es => .failed es
  | .crashed e => .crashed e

/-- The location of a message or session, `rflx/error.py:12-46`. -/
structure Location where
  source : Option PyStr
  start : Int × Int
  stop : Option (Int × Int)

/-- A message or session to be drawn. -/
structure Item where
  id : ID
  location : Option Location

/-- A unit of the generated code: `unit.name`, `unit.ads`, `unit.adb`, `rflx/ada.py:1639-1703`. -/
structure Unit where
  name : PyStr
  ads : PyStr
  adb : PyStr

/-- A model: `[*model.messages, *model.sessions]` and `model.serialize`. -/
structure Model where
  messages : List Item
  sessions : List Item
  serialize : Py Json

/-- A path: a directory as given on the command line and the name of a file in it, or an output file as given. -/
inductive Path
  | given (p : PyStr)
  | inDir (dir name : PyStr)
deriving DecidableEq

/-- The contents of a written file: text, a document written by `json.dump`, or the output of `pydotplus`. -/
inductive Content
  | empty
  | text (s : PyStr)
  | json (j : Json)
  | drawing (g : PyStr)

/-- The surroundings of the program.
* `isFile`, `isDir`: `Path.is_file`, `Path.is_dir`;
* `parse`, `create`: `parser.parse` and `parser.create_model` of a new parser with this argument for
  `skip_verification` and these files (`rflx/specification/parser.py:1194-1340`);
* `header`: `__license_header()` (`rflx/generator/generator.py:2886-2898`), empty if the output is reproducible;
* `units`: `Generator(model, prefix)`, the units in order of their creation (`rflx/generator/generator.py:140-154`);
* `template`: the lines of a template; `format`: `l.format(prefix=prefix)`;
* `draw`: the graph of a message or session in a format (`rflx/graph.py:211-215`). -/
structure Env where
  isFile : PyStr → Bool
  isDir : PyStr → Bool
  parse : Bool → List PyStr → Outcome PUnit
  create : Bool → List PyStr → Outcome Model
  header : PyStr
  units : Model → PyStr → Outcome (List Unit)
  template : PyStr → List PyStr
  format : PyStr → PyStr → PyStr
  draw : Item → PyStr → Py PyStr

/-- The subcommands with their arguments, `rflx/cli.py:33-79`. -/
inductive Command
  | check (files : List PyStr)
  | «export» (files : List PyStr) (output : PyStr)
  | generate (pre : PyStr) (noLibrary : Bool) (directory : PyStr) (files : List PyStr)
  | graph (fmt : PyStr) (files : List PyStr) (directory : PyStr) (noVerification : Bool)

/-- Writes of files and the outcome. -/
abbrev Run := List (Path × Content) × Outcome PUnit

/-- `'file not found: "{f}"'`, `rflx/cli.py:129`. -/
def notFound (f : PyStr) : Entry := ⟨"file not found: \"".toList ++ f ++ "\"".toList, .cli, .error, none⟩

/-- The loop over the files in `parse`, `rflx/cli.py:127-132`: errors and present files. -/
def present (env : Env) : List PyStr → List Entry × List PyStr
  | [] => ([], [])
  | f :: fs =>
    let r := present env fs
    if env.isFile f then (r.1, f :: r.2) else (notFound f :: r.1, r.2)

/-- `parse`, `rflx/cli.py:122-145`. -/
def parse (env : Env) (files : List PyStr) (skip : Bool) : Outcome Model :=
  let r := present env files
  match env.parse skip r.2 with
  | .crashed e => .crashed e
  | .ok _ =>
    match env.create skip r.2 with
    | .crashed e => .crashed e
    | .failed es => .failed (r.1 ++ es)
    | .ok m => if r.1.isEmpty then .ok m else .failed r.1
  | .failed es' =>
    match env.create skip r.2 with
    | .crashed e => .crashed e
    | .failed es => .failed (r.1 ++ es' ++ es)
    | .ok m => if (r.1 ++ es').isEmpty then .ok m else .failed (r.1 ++ es')

/-- `check`, `rflx/cli.py:94-95`. -/
def check (env : Env) (files : List PyStr) : Run :=
  ([], (parse env files false).bind fun _ => .ok ⟨⟩)

/-- `prefix.split(".")`, `rflx/cli.py:102`. -/
def splitDot : PyStr → List PyStr
  | [] => [[]]
  | '.' :: s => [] :: splitDot s
  | c :: s =>
    match splitDot s with
    | [] => [[c]]
    | p :: ps => (c :: p) :: ps

/-- `write_units`, `rflx/generator/generator.py:183-190`. -/
def writeUnits (env : Env) (dir : PyStr) : List Unit → List (Path × Content)
  | [] => []
  | u :: us =>
    (.inDir dir (u.name ++ ".ads".toList), .text (env.header ++ u.ads)) ::
      (if u.adb.isEmpty then [] else [(.inDir dir (u.name ++ ".adb".toList), .text (env.header ++ u.adb))]) ++
      writeUnits env dir us

/-- `const.LIBRARY_FILES`, `rflx/generator/const.py:14-36`. -/
def libraryFiles : List PyStr :=
  ["rflx_arithmetic.ads".toList, "rflx_builtin_types-conversions.ads".toList, "rflx_builtin_types.ads".toList,
    "rflx_generic_types.ads".toList, "rflx_message_sequence.ads".toList, "rflx_scalar_sequence.ads".toList,
    "rflx_types.ads".toList, "rflx_arithmetic.adb".toList, "rflx_generic_types.adb".toList,
    "rflx_message_sequence.adb".toList, "rflx_scalar_sequence.adb".toList]

/-- `p in l` for strings. -/
def isIn (p : PyStr) : PyStr → Bool
  | [] => p.isEmpty
  | c :: s => p.isPrefixOf (c :: s) || isIn p s

/-- `"  --  WORKAROUND" not in l`, `rflx/generator/generator.py:171`. -/
def kept (l : PyStr) : Bool := !isIn "  --  WORKAROUND".toList l

/-- `write_library_files`, `rflx/generator/generator.py:156-174`. -/
def writeLibrary (env : Env) (pre dir : PyStr) : List (Path × Content) :=
  let p := if pre.isEmpty then [] else pre ++ ".".toList
  libraryFiles.map fun t =>
    (.inDir dir (fileName p ++ t), .text (env.header ++ ((env.template t).filter kept).flatMap (fun l => env.format l p)))

/-- `write_top_level_package`, `rflx/generator/generator.py:176-181`. -/
def writeTopLevel (env : Env) (pre dir : PyStr) : List (Path × Content) :=
  if pre.isEmpty then []
  else [(.inDir dir (fileName pre ++ ".ads".toList),
    .text (env.header ++ ("package ".toList ++ pre ++ " is\n\nend ".toList ++ pre ++ ";".toList)))]

/-- `fail(message, subsystem)`, `rflx/error.py:161-169`. -/
def failed (message : PyStr) (s : Subsystem) : Outcome PUnit := .failed [⟨message, s, .error, none⟩]

/-- `generate`, `rflx/cli.py:98-119`. -/
def generate (env : Env) (pre : PyStr) (noLibrary : Bool) (dir : PyStr) (files : List PyStr) : Run :=
  let pre := if pre != " ".toList then pre else []
  if !pre.isEmpty && (splitDot pre).contains [] then
    ([], failed ("invalid prefix: \"".toList ++ pre ++ "\"".toList) .cli)
  else if !env.isDir dir then ([], failed ("directory not found: \"".toList ++ dir ++ "\"".toList) .cli)
  else match (parse env files false).bind fun m => env.units m pre with
    | .failed es => ([], .failed es)
    | .crashed e => ([], .crashed e)
    | .ok us =>
      (writeUnits env dir us ++ (if !noLibrary then writeLibrary env pre dir else []) ++
        (if pre = "RFLX".toList then writeTopLevel env pre dir else []), .ok ⟨⟩)

/-- `locations[source][name] = value`, `rflx/cli.py:169-172`, for a `defaultdict(dict)`. -/
def setLocation (d : List (PyStr × Json)) (source name : PyStr) (v : Json) : List (PyStr × Json) :=
  match d.lookup source with
  | some (.dict e) => put d source (.dict (put e name v))
  | _ => put d source (.dict (put [] name v))

/-- The position of a message or session, `rflx/cli.py:169-172`. -/
def position (start stop : Int × Int) : Json :=
  .dict [("start".toList, .dict [("line".toList, .int start.1), ("column".toList, .int start.2)]),
    ("end".toList, .dict [("line".toList, .int stop.1), ("column".toList, .int stop.2)])]

/-- The loop in `graph`, `rflx/cli.py:155-172`: the files, the locations and an exception. The file is opened before the
graph is computed (`rflx/graph.py:214-215`). -/
def drawAll (env : Env) (fmt dir : PyStr) :
    List Item → List (PyStr × Json) → List (Path × Content) × Py (List (PyStr × Json))
  | [], d => ([], .ok d)
  | i :: is, d =>
    let name := flatName i.id.str
    let file := Path.inDir dir (name ++ ".".toList ++ fmt)
    match env.draw i fmt with
    | .error e => ([(file, .empty)], .error e)
    | .ok g =>
      match i.location with
      | some ⟨some source, start, some stop⟩ =>
        let r := drawAll env fmt dir is (setLocation d source name (position start stop))
        ((file, .drawing g) :: r.1, r.2)
      | _ => ([(file, .drawing g)], .error .assertion)

/-- `graph`, `rflx/cli.py:148-176`. -/
def graph (env : Env) (fmt : PyStr) (files : List PyStr) (dir : PyStr) (noVerification : Bool) : Run :=
  if !env.isDir dir then ([], failed ("directory not found: \"".toList ++ dir ++ "\"".toList) .graph)
  else match parse env files noVerification with
    | .failed es => ([], .failed es)
    | .crashed e => ([], .crashed e)
    | .ok m =>
      let r := drawAll env fmt dir (m.messages ++ m.sessions) []
      match r.2 with
      | .error e => (r.1, .crashed e)
      | .ok d => (r.1 ++ [(.inDir dir "locations.json".toList, .json (.dict d))], .ok ⟨⟩)

/-- `export`, `rflx/cli.py:179-182`: the output is opened before `model.serialize` is evaluated. -/
def «export» (env : Env) (files : List PyStr) (output : PyStr) : Run :=
  match parse env files false with
  | .failed es => ([], .failed es)
  | .crashed e => ([], .crashed e)
  | .ok m =>
    match m.serialize with
    | .error e => ([(.given output, .empty)], .crashed e)
    | .ok j => ([(.given output, .json j)], .ok ⟨⟩)

/-- The subcommand, `rflx/cli.py:86-87`. -/
def run (env : Env) : Command → Run
  | .check fs => check env fs
  | .export fs o => «export» env fs o
  | .generate p n d fs => generate env p n d fs
  | .graph f fs d v => graph env f fs d v

/-- What `main` does in the end, `rflx/cli.py:86-91`: it returns 0 or the text of the error, or an exception escapes. -/
inductive Exit
  | zero
  | message (es : List Entry)
  | exception (e : PyErr)

/-- `main`, `rflx/cli.py:86-91`: files written and the end of the program. -/
def main (env : Env) (c : Command) : List (Path × Content) × Exit :=
  let r := run env c
  match r.2 with
  | .ok _ => (r.1, .zero)
  | .failed es => (r.1, .message es)
  | .crashed e => (r.1, .exception e)

end Verif.Cli
