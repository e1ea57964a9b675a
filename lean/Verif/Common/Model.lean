import Verif.Ident.Model
import Verif.Expr.Print

/-! # Model of the helpers in `rflx/common.py` (`indent` and `indent_next` are in `Verif.Expr.Print`) -/

namespace Verif

/-- `e in seen` for a Python set: an element with the same hash that compares equal. The parameters
are `__hash__` and `__eq__` of the elements. -/
def inSet {α : Type} (hash : α → Int) (eq : α → α → Bool) (seen : List α) (e : α) : Bool :=
  seen.any (fun s => hash s == hash e && eq s e)

/-- The loop of `unique`, `rflx/common.py:80-83`. -/
def uniqueLoop {α : Type} (hash : α → Int) (eq : α → α → Bool) (seen : List α) : List α → List α
  | [] => []
  | e :: es =>
    if inSet hash eq seen e then uniqueLoop hash eq seen es
    else e :: uniqueLoop hash eq (e :: seen) es

/-- `unique`, `rflx/common.py:78-83`. -/
def unique {α : Type} (hash : α → Int) (eq : α → α → Bool) (l : List α) : List α :=
  uniqueLoop hash eq [] l

/-- `re.sub(r"(?:\.|::)", r, name)` for a single character `r`, `rflx/common.py:67-72`: leftmost,
non-overlapping matches. -/
def subSep (r : Char) : PyStr → PyStr
  | [] => []
  | ':' :: ':' :: s => r :: subSep r s
  | c :: s => (if c = '.' then r else c) :: subSep r s

/-- `flat_name`, `rflx/common.py:67-68`. -/
def flatName (s : PyStr) : PyStr := subSep '_' s

/-- `file_name`, `rflx/common.py:71-72`. -/
def fileName (s : PyStr) : PyStr := subSep '-' s.lower

end Verif
