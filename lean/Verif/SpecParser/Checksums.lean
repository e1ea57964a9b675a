import Verif.SpecParser.Tree
import Verif.Verify.Model

/-! # Model of the checksum aspects of a message: `create_message_aspects`, `rflx/specification/parser.py:957-977` -/

namespace Verif.SpecParser
open Verif Verif.Verify

/-- What a checksum covers: `ChecksumVal` and `ChecksumValueRange`, `rflx/specification/parser.py:965-975`. There are no other kinds of
nodes. -/
inductive CoverTree
  | value (data : Tree)
  | range (first last : Tree)

/-- An association of a checksum aspect: `f_identifier` and `f_covered_fields`. -/
structure SumTree where
  id : IdNode
  covered : List CoverTree

/-- An expression of a checksum definition, `rflx/specification/parser.py:965-975`. -/
def createCover : CoverTree → Py ChkExpr
  | .value t => (create .math t).map .plain
  | .range a b => (create .math a).bind fun l => (create .math b).map fun u => .range l u

/-- The loop over `f_covered_fields`, `rflx/specification/parser.py:964-975`. -/
def createCovers : List CoverTree → Py (List ChkExpr)
  | [] => .ok []
  | t :: ts => (createCover t).bind fun e => (createCovers ts).map fun es => e :: es

/-- `result[i] = exprs`, `rflx/specification/parser.py:976`: the dictionary keeps the key that it has. -/
def setSum (i : ID) (es : List ChkExpr) : List (ID × List ChkExpr) → List (ID × List ChkExpr)
  | [] => [(i, es)]
  | c :: cs => if c.1.eq i then (c.1, es) :: cs else c :: setSum i es cs

/-- The loop over `f_associations`, `rflx/specification/parser.py:962-976`. -/
def sumLoop : List SumTree → List (ID × List ChkExpr) → Py (List (ID × List ChkExpr))
  | [], d => .ok d
  | a :: as, d => (createCovers a.covered).bind fun es => (createId a.id).bind fun i => sumLoop as (setSum i es d)

/-- `create_message_aspects`, `rflx/specification/parser.py:957-977`; `none` if there is no checksum aspect. -/
def createSums : Option (List SumTree) → Py (List (ID × List ChkExpr))
  | none => .ok []
  | some as => sumLoop as []

end Verif.SpecParser
