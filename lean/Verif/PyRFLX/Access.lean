import Verif.Ident.Props

/-! # Model of the access to messages by names: `rflx/pyrflx/pyrflx.py:15-57`, `rflx/pyrflx/package.py`

The messages are abstract (`M`); `MessageValue(m)` and the copy made by `clone` are in `PyRFLX/Message` and `PyRFLX/Nested`. -/

namespace Verif.PyRFLX.Access
open Verif

variable {α M : Type}

/-- A dictionary with strings as keys, in the order of insertion. -/
abbrev Dict (α : Type) := List (PyStr × α)

/-- `d.get(k)`. -/
def dget (d : Dict α) (k : PyStr) : Option α := (d.find? fun e => e.1 == k).map Prod.snd

/-- `d[k] = v`: the position of an existing key does not change. -/
def dset (d : Dict α) (k : PyStr) (v : α) : Dict α :=
  match d with
  | [] => [(k, v)]
  | e :: d => if e.1 == k then (k, v) :: d else e :: dset d k v

/-- `PyRFLX.__packages` with `Package.__messages`, `rflx/pyrflx/pyrflx.py:20`, `rflx/pyrflx/package.py:8-10`. -/
abbrev Packages (M : Type) := Dict (Dict (ID × M))

/-- The body of the loop over the messages, `rflx/pyrflx/pyrflx.py:23-29`, `rflx/pyrflx/package.py:19-20`. `m.package` and `m.name` are the parent and
the last part of the identifier, `rflx/model/type_.py:32-43`. -/
def addMessage (d : Packages M) (m : ID × M) : Py (Packages M) := do
  let p := (← m.1.parent).str
  let d := if (dget d p).isSome then d else dset d p []
  let n := (← m.1.name).str
  match dget d p with
  | some ms => return dset d p (dset ms n m)
  | none => .error .keyError

/-- The loop over the messages, `rflx/pyrflx/pyrflx.py:23-29`. -/
def addMessages : Packages M → List (ID × M) → Py (Packages M)
  | d, [] => .ok d
  | d, m :: ms => do addMessages (← addMessage d m) ms

/-- `messages[identifier]`, `rflx/pyrflx/pyrflx.py:21-35`: whether there is a message of this identifier. -/
def known (ms : List (ID × M)) (i : ID) : Bool := ms.any fun m => m.1.eq i

/-- The loop over the refinements, of which only the identifiers of the messages matter here, `rflx/pyrflx/pyrflx.py:31-34`. -/
def addRefinements (ms : List (ID × M)) : List (ID × ID) → Py Unit
  | [] => .ok ()
  | r :: rs => if known ms r.1 && known ms r.2 then addRefinements ms rs else .error .keyError

/-- `PyRFLX.__init__`, `rflx/pyrflx/pyrflx.py:15-34`, for the messages and refinements (identifiers of PDU and SDU) of a model. -/
def init (ms : List (ID × M)) (rs : List (ID × ID)) : Py (Packages M) := do
  let d ← addMessages [] ms
  addRefinements ms rs
  return d

/-- `pyrflx[p][n]`, `rflx/pyrflx/pyrflx.py:53-54`, `rflx/pyrflx/package.py:16-17`. -/
def getMessage (d : Packages M) (p n : PyStr) : Py (ID × M) :=
  match dget d p with
  | none => .error .keyError
  | some ms =>
    match dget ms n with
    | none => .error .keyError
    | some m => .ok m

/-- Iteration over the packages and the messages of each, `rflx/pyrflx/pyrflx.py:56-57`, `rflx/pyrflx/package.py:12-14,22-23`. -/
def iterate (d : Packages M) : List (PyStr × List (ID × M)) := d.map fun e => (e.1, e.2.map Prod.snd)

/-- `Package.set_checksum_functions`, `rflx/pyrflx/package.py:25-27`. `set` is `MessageValue.set_checksum_function`; it changes the message that later
copies are made of. -/
def setChecksumFunctions {F : Type} (set : ID × M → F → Py (ID × M)) : Dict (ID × M) → List (PyStr × F) → Py (Dict (ID × M))
  | ms, [] => .ok ms
  | ms, f :: fs =>
    match dget ms f.1 with
    | none => .error .keyError
    | some m => do setChecksumFunctions set (dset ms f.1 (← set m f.2)) fs

end Verif.PyRFLX.Access
