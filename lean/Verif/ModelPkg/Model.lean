import Verif.Ident.Props

/-! # Model of `rflx/model/model.py`: the checks of a whole model -/

namespace Verif.ModelPkg
open Verif

/-- A type of the model: the attributes that `Model` looks at. `literals` are the keys of `Enumeration.literals`
(`rflx/model/type_.py:275`), `none` for types of other classes. -/
structure Ty where
  identifier : ID
  literals : Option (List ID) := none

/-- The errors recorded by `Model.__validate`; locations and messages of severity `INFO` are left out. -/
inductive Err where
  | typeConflict (t : ID)
  | sessionConflict (s : ID)
  | literals (ls : List ID)
  | literalType (l t : ID)
deriving DecidableEq

/-- `i in d` for a dictionary, a set or a list of `ID`s. -/
def isIn (i : ID) (l : List ID) : Bool := l.any fun j => i.eq j

/-- First loop of `__check_duplicates`, `rflx/model/model.py:53-74`: the errors and the keys of `types`. -/
def checkTypes : List Ty → List ID → List Err × List ID
  | [], types => ([], types)
  | t :: ts, types =>
    let (es, types') := checkTypes ts (types ++ [t.identifier])
    (if isIn t.identifier types then (.typeConflict t.identifier :: es, types') else (es, types'))

/-- Second loop of `__check_duplicates`, `rflx/model/model.py:76-92`. -/
def checkSessions (types : List ID) : List ID → List ID → List Err
  | [], _ => []
  | s :: ss, sessions =>
    (if isIn s types || isIn s sessions then [.sessionConflict s] else []) ++
      checkSessions types ss (sessions ++ [s])

/-- `__check_duplicates`, `rflx/model/model.py:51-94`. -/
def checkDuplicates (types : List Ty) (sessions : List ID) : List Err :=
  let (es, keys) := checkTypes types []
  es ++ checkSessions keys sessions []

/-- `const.BUILTINS_PACKAGE`, `rflx/const.py:3`. -/
def BUILTINS : ID := ⟨[['_', '_', 'B', 'U', 'I', 'L', 'T', 'I', 'N', 'S', '_', '_']]⟩

/-- The name of the only predefined type, `rflx/model/type_.py:584-597`. -/
def BOOLEAN : PyStr := ['B', 'o', 'o', 'l', 'e', 'a', 'n']

/-- `is_builtin_type`, `rflx/model/type_.py:608-611`. -/
def isBuiltinType (i : ID) : Bool := i.eq ⟨BUILTINS.parts ++ [BOOLEAN]⟩ || i.eq ⟨[BOOLEAN]⟩

/-- `Type.package`, `rflx/model/type_.py:40-42`. -/
def Ty.package (t : Ty) : Py ID := t.identifier.parent

/-- `set(e2.literals) & set(e1.literals)`, `rflx/model/model.py:114`. -/
def commonLiterals (l1 l2 : List ID) : List ID := l2.filter fun l => isIn l l1

/-- The condition on the packages of two enumerations, `rflx/model/model.py:107-111`. -/
def related (p1 p2 : ID) : Bool := p1.eq p2 || p1.eq BUILTINS || p2.eq BUILTINS

/-- The pairs of `e1` with the later types, `rflx/model/model.py:99-136`. -/
def literalConflicts (e1 : Ty) : List Ty → Py (List Err)
  | [] => .ok []
  | e2 :: ts =>
    match e1.literals, e2.literals with
    | some l1, some l2 => do
      let p1 ← e1.package
      let p2 ← e2.package
      let es ← literalConflicts e1 ts
      if related p1 p2 && !(commonLiterals l1 l2).isEmpty then return .literals (commonLiterals l1 l2) :: es
      else return es
    | _, _ => literalConflicts e1 ts

/-- First part of `__check_conflicts`, `rflx/model/model.py:99-136`: all pairs `i1 < i2`. -/
def allLiteralConflicts : List Ty → Py (List Err)
  | [] => .ok []
  | e1 :: ts => do return (← literalConflicts e1 ts) ++ (← allLiteralConflicts ts)

/-- The qualified literals, `rflx/model/model.py:138-143`. -/
def qualifiedLiterals : List Ty → Py (List ID)
  | [] => .ok []
  | t :: ts => do
    let ls ← (match t.literals with
      | some ls => ls.mapM fun l => do (← t.package).mul l
      | none => .ok [] : Py (List ID))
    return ls ++ (← qualifiedLiterals ts)

/-- The condition of `name_conflicts`, `rflx/model/model.py:148-149`. -/
def nameConflict (l : ID) (t : Ty) : Py Bool := do
  if (← l.parent).eq (← t.package) || isBuiltinType t.identifier then
    return (← l.name).eq (← t.identifier.name)
  else return false

/-- The conflicts of one literal, `rflx/model/model.py:147-162`. -/
def literalTypeConflicts (l : ID) : List Ty → Py (List Err)
  | [] => .ok []
  | t :: ts => do
    let c ← nameConflict l t
    let es ← literalTypeConflicts l ts
    return if c then .literalType l t.identifier :: es else es

/-- Second part of `__check_conflicts`, `rflx/model/model.py:144-163`. -/
def nameConflicts (types : List Ty) : List ID → Py (List Err)
  | [] => .ok []
  | l :: ls => do return (← literalTypeConflicts l types) ++ (← nameConflicts types ls)

/-- `Model.__validate`, `rflx/model/model.py:46-49`: all errors, or an exception raised by an ill-formed identifier. -/
def validate (types : List Ty) (sessions : List ID) : Py (List Err) := do
  let d := checkDuplicates types sessions
  let c ← allLiteralConflicts types
  let ls ← qualifiedLiterals types
  let n ← nameConflicts types ls
  return d ++ c ++ n

/-- `Model.__init__`, `rflx/model/model.py:12-18`. -/
def new (types : List Ty) (sessions : List ID) : Py Unit := do
  if (← validate types sessions).isEmpty then return () else .error .recordFlux

end Verif.ModelPkg
