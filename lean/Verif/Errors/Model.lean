import Verif.Ident.Model

/-! # Model of `rflx/error.py`: `RecordFluxError`

Error objects are mutable and shared, so they live in a heap; an object is the index of its deque.
`__repr__` and `__str__` are not modelled. -/

namespace Verif.Errors

/-- `Subsystem`, `rflx/error.py:48-55`. -/
inductive Subsystem | parser | model | cli | graph | pyrflx | id
deriving DecidableEq, Repr

/-- `Severity`, `rflx/error.py:61-65`. -/
inductive Severity | none | info | warning | error
deriving DecidableEq, Repr

/-- `RecordFluxError.Entry`, `rflx/error.py:71-94`. The location is an opaque number here. -/
structure Entry where
  message : PyStr
  subsystem : Subsystem
  severity : Severity
  location : Option Nat
deriving DecidableEq, Repr

/-- The contents of the deques `__errors` (`rflx/error.py:98`) of all error objects. -/
abbrev Heap := List (List Entry)

/-- `self.errors`, `rflx/error.py:127-129`. -/
def errors (h : Heap) (i : Nat) : List Entry := h.getD i []

/-- The operations on error objects; `i` and `j` denote objects. -/
inductive Op
  /-- `RecordFluxError()`, `rflx/error.py:96-98`. -/
  | new
  /-- `self.append(...)`, `rflx/error.py:131-134`. -/
  | append (i : Nat) (e : Entry)
  /-- `self.appendleft(...)`, `rflx/error.py:136-139`. -/
  | appendleft (i : Nat) (e : Entry)
  /-- `self.extend(entries)` with a list, `rflx/error.py:149-151`. -/
  | extendList (i : Nat) (es : List Entry)
  /-- `self.extend(other)`, `rflx/error.py:147-148`. -/
  | extend (i j : Nat)
  /-- `self + other`, `rflx/error.py:113-119`. -/
  | add (i j : Nat)
  /-- `self += other`, `rflx/error.py:121-125`. -/
  | iadd (i j : Nat)
deriving Repr

/-- The loop of `extend` over a list, `rflx/error.py:150-151`. -/
def extendLoop (d : List Entry) : List Entry → List Entry
  | [] => d
  | e :: es => extendLoop (d ++ [e]) es

/-- One operation. The new object of `new` and `add` gets the next index. -/
def step (h : Heap) : Op → Heap
  | .new => h ++ [[]]
  | .append i e => h.set i (errors h i ++ [e])
  | .appendleft i e => h.set i (e :: errors h i)
  | .extendList i es => h.set i (extendLoop (errors h i) es)
  | .extend i j => h.set i (errors h i ++ errors h j)
  | .add i j =>
    let h1 := h ++ [[]]
    let h2 := h1.set h.length (errors h1 h.length ++ errors h1 i)
    h2.set h.length (errors h2 h.length ++ errors h2 j)
  | .iadd i j => h.set i (errors h i ++ errors h j)

/-- A program: a sequence of operations. -/
def run (h : Heap) : List Op → Heap
  | [] => h
  | o :: os => run (step h o) os

/-- `self.check()`, `rflx/error.py:153-154`. -/
def check (h : Heap) (i : Nat) : Bool := (errors h i).length > 0

/-- `self.propagate()`, `rflx/error.py:156-158`: the raised object, if any. -/
def propagate (h : Heap) (i : Nat) : Option Nat := if check h i then some i else none

/-- `fail(...)`, `rflx/error.py:161-169`: the entries of the raised error. -/
def fail (e : Entry) : Option (List Entry) :=
  let h := run [] [.new, .append 0 e]
  (propagate h 0).map (errors h)

end Verif.Errors
