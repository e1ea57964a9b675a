import Verif.SpecParser.Package
import Verif.SpecParser.Imports

/-! # Model of the checks of names: `check_naming`, `rflx/specification/parser.py:1145-1185`

`SpecParser/Imports` only knows whether these checks find an error (`Spec.naming`); here they are modelled. -/

namespace Verif.SpecParser
open Verif

/-- What `check_naming` reads of a `PackageNode`: the texts of `f_identifier`, of `f_end_identifier` and of the identifiers of
the declarations that are a `TypeDecl`, `rflx/specification/parser.py:1145-1177`. -/
structure NameTree where
  identifier : PyStr
  endIdentifier : PyStr
  types : List PyStr

/-- The errors of `check_naming`, without locations and messages of severity `INFO`, `rflx/specification/parser.py:1147-1185`. -/
inductive NameErr where
  | illegalPrefix
  | inconsistent
  | fileName
  | redefinition (text : PyStr)
deriving DecidableEq

/-- `"RFLX"`, `rflx/specification/parser.py:1147`. -/
def rflxPrefix : PyStr := ['R', 'F', 'L', 'X']

/-- The loop over the declarations, `rflx/specification/parser.py:1177-1184`; `create_id` raises an exception for a reserved
word. -/
def redefinitions : List PyStr → Py (List NameErr)
  | [] => .ok []
  | t :: ts => do
    let i ← createId (.unqualified t)
    let b := isBuiltin (← i.name)
    return (if b then [.redefinition t] else []) ++ (← redefinitions ts)

/-- `check_naming`, `rflx/specification/parser.py:1145-1185`. The name of the file is absent for `STDIN`, for which it is not
checked. -/
def namingErrors (p : NameTree) (file : Option PyStr) : Py (List NameErr) := do
  let a := if rflxPrefix.isPrefixOf p.identifier then [NameErr.illegalPrefix] else []
  let b := if p.identifier != p.endIdentifier then [NameErr.inconsistent] else []
  let c := match file with
    | none => []
    | some f => if f != rflx p.identifier then [NameErr.fileName] else []
  return a ++ b ++ c ++ (← redefinitions p.types)

end Verif.SpecParser
