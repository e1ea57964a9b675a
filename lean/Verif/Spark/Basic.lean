/-! # Ada: run-time checks and 64-bit arithmetic -/

namespace Verif.Spark

/-- What makes an execution erroneous: a violated precondition, an overflow of `U64` (the type is annotated
`No_Wrap_Around`, `rflx/templates/rflx_arithmetic.ads:7-8`), an index outside of the bounds of an array, a value outside
of the range of a type, a violated type predicate, and fuel exhausted by the model. -/
inductive AdaErr | precondition | overflow | index | range | predicate | access | fuel
deriving DecidableEq, Repr

abbrev Ada := Except AdaErr

/-- A precondition. -/
def pre (p : Prop) [Decidable p] : Ada Unit := if p then .ok () else .error .precondition

/-- A range check. -/
def inRange (p : Prop) [Decidable p] : Ada Unit := if p then .ok () else .error .range

/-- A result of an operation of type `U64`. -/
def u64 (n : Nat) : Ada Nat := if n < 2 ^ 64 then .ok n else .error .overflow

/-- `type Bytes is array (Index range <>) of Byte`, `rflx/templates/rflx_generic_types.ads:10`: the bounds and the
positions of the elements. The index of the first element is at least 1 (`rflx/templates/rflx_generic_types.ads:18`). -/
structure Bytes where
  first : Nat
  data : List Nat
deriving DecidableEq, Repr

/-- `B'Last`. -/
def Bytes.last (b : Bytes) : Int := b.first + b.data.length - 1

/-- `B'Length`. -/
def Bytes.length (b : Bytes) : Nat := b.data.length

/-- `B (I)`. -/
def Bytes.get (b : Bytes) (i : Int) : Ada Nat :=
  if b.first ≤ i ∧ i ≤ b.last then
    match b.data[(i - b.first).toNat]? with
    | some x => .ok x
    | none => .error .index
  else .error .index

/-- `B (I) := X`. -/
def Bytes.set (b : Bytes) (i : Int) (x : Nat) : Ada Bytes :=
  if b.first ≤ i ∧ i ≤ b.last then .ok { b with data := b.data.set (i - b.first).toNat x } else .error .index

end Verif.Spark
