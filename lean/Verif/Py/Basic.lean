/-!
# Python runtime values used by every part of the model

Exceptions are values. `PyErr` lists the exception classes the modelled code can raise
(Python built-ins, `rflx/pyrflx/error.py:4-7` `PyRFLXError`, `rflx/error.py:70` `RecordFluxError`).
Exception texts are dropped; only the class (and for PyRFLX a short tag) is kept.
-/

namespace Verif

/-- Exception classes raised by the modelled functions (Python built-ins,
`rflx/pyrflx/error.py:4-7`, `rflx/error.py:70`). Messages are dropped. -/
inductive PyErr where
  | indexError
  | valueError
  | keyError
  | typeError
  | overflowError
  | zeroDivision
  | assertion
  | attributeError
  | notImplemented
  | pyrflx
  | recordFlux
  /-- The model's step counter ran out; termination theorems exclude it. -/
  | fuel
  /-- The Python code leaves the modelled domain (for instance integers become floats). -/
  | unmodelled
  deriving DecidableEq, Repr

/-- A Python computation that may raise. Modelling device, no counterpart in /repo. -/
abbrev Py (α : Type) := Except PyErr α

end Verif
