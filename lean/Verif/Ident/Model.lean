import Verif.Py.Basic

/-! # Model of `rflx/identifier.py`

Python strings are lists of characters. `str.lower` is modelled by `Char.toLower`, which agrees with
Python on ASCII; identifiers of specifications are ASCII. Source locations are not modelled: they do
not take part in comparison, hashing or printing. -/

namespace Verif

/-- A Python string. -/
abbrev PyStr := List Char

/-- `str.lower`. Simplification: ASCII letters only. -/
def PyStr.lower (s : PyStr) : PyStr := s.map Char.toLower

/-- `s.split("::")` as used in `rflx/identifier.py:14`: leftmost, non-overlapping separators. -/
def splitSep : PyStr → List PyStr
  | [] => [[]]
  | ':' :: ':' :: s => [] :: splitSep s
  | c :: s =>
    match splitSep s with
    | [] => [[c]]
    | p :: ps => (c :: p) :: ps

/-- `"::".join(parts)`, `rflx/identifier.py:53`. -/
def joinSep : List PyStr → PyStr
  | [] => []
  | [p] => p
  | p :: q :: ps => p ++ ':' :: ':' :: joinSep (q :: ps)

/-- The object built by `ID.__init__` (`rflx/identifier.py:7-32`), without its location. -/
structure ID where
  parts : List PyStr
deriving DecidableEq, Repr

namespace ID

/-- The checks of `ID.__init__`, `rflx/identifier.py:23-32`. -/
def checked (parts : List PyStr) : Py ID :=
  if parts.isEmpty then .error .recordFlux
  else if parts.contains [] then .error .recordFlux
  else if [' ', '.', ':'].any (fun c => parts.any (fun p => p.contains c)) then .error .recordFlux
  else .ok ⟨parts⟩

/-- `ID(identifier)` for a string, `rflx/identifier.py:13-14`. -/
def ofStr (s : PyStr) : Py ID := checked (splitSep s)

/-- `ID(identifier)` for a list, `rflx/identifier.py:15-16`. -/
def ofList (l : List PyStr) : Py ID := checked l

/-- `ID(identifier)` for an `ID`, `rflx/identifier.py:17-19`. -/
def ofID (i : ID) : Py ID := checked i.parts

/-- `ID.__eq__`, `rflx/identifier.py:34-39`. -/
def eq (a b : ID) : Bool :=
  if a.parts.length != b.parts.length then false
  else (a.parts.zip b.parts).all (fun (s, o) => s.lower == o.lower)

/-- The tuple hashed by `ID.__hash__`, `rflx/identifier.py:46-47`. -/
def key (a : ID) : List PyStr := a.parts.map PyStr.lower

/-- `ID.__hash__`, `rflx/identifier.py:46-47`; the hash function of tuples is a parameter. -/
def hash (h : List PyStr → Int) (a : ID) : Int := h a.key

/-- `ID.__str__`, `rflx/identifier.py:52-53`. -/
def str (a : ID) : PyStr := joinSep a.parts

/-- Python's lexicographic comparison of strings by code point. -/
def strLt : PyStr → PyStr → Bool
  | _, [] => false
  | [], _ :: _ => true
  | a :: as, b :: bs => a.toNat < b.toNat || (a == b && strLt as bs)

/-- `ID.__lt__`, `rflx/identifier.py:41-44`. -/
def lt (a b : ID) : Bool := strLt a.str b.str

/-- `ID.__add__` with a string, `rflx/identifier.py:55-58`. -/
def addStr (a : ID) (s : PyStr) : Py ID := ofStr (a.str ++ s)

/-- `ID.__radd__` with a string, `rflx/identifier.py:60-63`. -/
def raddStr (s : PyStr) (a : ID) : Py ID := ofStr (s ++ a.str)

/-- `ID.__mul__` with a string, `rflx/identifier.py:65-70`. -/
def mulStr (a : ID) (s : PyStr) : Py ID :=
  if s.isEmpty then ofID a else ofStr (a.str ++ [':', ':'] ++ s)

/-- `ID.__rmul__` with a string, `rflx/identifier.py:72-77`. -/
def rmulStr (s : PyStr) (a : ID) : Py ID :=
  if s.isEmpty then ofID a else ofStr (s ++ [':', ':'] ++ a.str)

/-- `ID.__mul__` with an `ID`, `rflx/identifier.py:65-70`. -/
def mul (a b : ID) : Py ID := mulStr a b.str

/-- `ID.name`, `rflx/identifier.py:94-96`. The parts of an identifier are never empty, `[]` stands
for the `IndexError` of an impossible case. The argument of the constructor is a string. -/
def name (a : ID) : Py ID :=
  match a.parts.getLast? with
  | some p => ofStr p
  | none => .error .indexError

/-- `ID.parent`, `rflx/identifier.py:98-100`. -/
def parent (a : ID) : Py ID := ofList a.parts.dropLast

end ID
end Verif
