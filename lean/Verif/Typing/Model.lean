import Verif.Py.Basic

/-! # Types of expressions (`rflx/typing_.py`)

The dataclasses compare equal if they are of the same class and all fields are equal. The field combinations, field types and
refinements of a message type are only compared, never inspected, so they are modelled by one value of a type with decidable
equality. `IndependentType` and `Composite` are base classes without direct instances. Descriptions, locations and the text of
errors are not modelled. -/

namespace Verif.Typing

/-- `Bounds`, `rflx/typing_.py:9-12`. -/
structure Bounds where
  lower : Option Int
  upper : Option Int
deriving DecidableEq, Repr

/-- `Bounds.__post_init__`, `rflx/typing_.py:14-15`. -/
def Bounds.make (l u : Option Int) : Py Bounds :=
  match l, u with
  | some a, some b => if a ≤ b then .ok ⟨l, u⟩ else .error .assertion
  | _, _ => .ok ⟨l, u⟩

/-- `Bounds.__bool__`, `rflx/typing_.py:17-18`. -/
def Bounds.defined (b : Bounds) : Bool := b.lower.isSome && b.upper.isSome

/-- `Bounds.__contains__` for an integer, `rflx/typing_.py:21-24`. -/
def Bounds.containsInt (b : Bounds) (i : Int) : Bool :=
  match b.lower, b.upper with
  | some l, some u => decide (l ≤ i ∧ i ≤ u)
  | _, _ => false

/-- `Bounds.__contains__` for bounds, `rflx/typing_.py:25-35`. -/
def Bounds.contains (b item : Bounds) : Bool :=
  if !b.defined && !item.defined then true
  else match b.lower, b.upper, item.lower, item.upper with
    | some l, some u, some il, some iu => decide (l ≤ il ∧ iu ≤ u)
    | _, _, _, _ => false

/-- `Bounds.union`, `rflx/typing_.py:44-48`; the check of `__post_init__` is left out, it holds if it holds for both
arguments (`union_make`). -/
def Bounds.union (a b : Bounds) : Bounds :=
  match a.lower, a.upper, b.lower, b.upper with
  | some al, some au, some bl, some bu => ⟨some (min al bl), some (max au bu)⟩
  | _, _, _, _ => ⟨none, none⟩

/-- The classes of types, `rflx/typing_.py:69-301`. -/
inductive Ty (M : Type) where
  | undefined
  | any
  | enumeration (name : String)
  | anyInteger
  | undefinedInteger
  | universal (bounds : Bounds)
  | integer (name : String) (bounds : Bounds)
  | aggregate (element : Ty M)
  | array (name : String) (element : Ty M)
  | message (name : String) (body : M)
  | priv (name : String)
  | channel (readable writable : Bool)
deriving DecidableEq

variable {M : Type} [DecidableEq M]

/-- `isinstance (other, AnyInteger)`. -/
def Ty.isInteger : Ty M → Bool
  | .anyInteger | .undefinedInteger | .universal _ | .integer _ _ => true
  | _ => false

mutual

/-- `is_compatible`: `Undefined` (`rflx/typing_.py:73-74`), `Any` (84-85), `IndependentType` (95-96), `AnyInteger` (119-120),
`Aggregate` (205-210), `Array` (230-239), `Channel` (291-296). -/
def Ty.isCompatible : Ty M → Ty M → Bool
  | .undefined, _ => false
  | .any, o => decide (o ≠ .undefined)
  | .enumeration n, o =>
    match o with
    | .any => true
    | .enumeration n' => n == n'
    | _ => false
  | .message n _, o =>
    match o with
    | .any => true
    | .message n' _ => n == n'
    | _ => false
  | .priv n, o =>
    match o with
    | .any => true
    | .priv n' => n == n'
    | _ => false
  | .anyInteger, o => decide (o = .any) || o.isInteger
  | .undefinedInteger, o => decide (o = .any) || o.isInteger
  | .universal _, o => decide (o = .any) || o.isInteger
  | .integer _ _, o => decide (o = .any) || o.isInteger
  | .aggregate e, o =>
    match o with
    | .any => true
    | .aggregate _ => true
    | .array _ e' => e.isCompatibleStrong e'
    | _ => false
  | .array n e, o =>
    match o with
    | .any => true
    | .aggregate e' => e'.isCompatibleStrong e
    | .array n' e' => n == n' && decide (e = e')
    | _ => false
  | .channel r w, o =>
    match o with
    | .any => true
    | .channel r' w' => (r || !r') && (w || !w')
    | _ => false
termination_by a b => 2 * (sizeOf a + sizeOf b)

/-- `is_compatible_strong`: `Type` (`rflx/typing_.py:61-62`), `UniversalInteger` (145-148), `Integer` (174-177). -/
def Ty.isCompatibleStrong : Ty M → Ty M → Bool
  | .universal b, o =>
    match o with
    | .universal _ => true
    | .integer _ b' => b'.contains b
    | _ => false
  | .integer n b, o =>
    match o with
    | .integer n' b' => n == n' && decide (b = b')
    | .universal b' => b.contains b'
    | _ => false
  | t, o => t.isCompatible o
termination_by a b => 2 * (sizeOf a + sizeOf b) + 1

end

/-- `common_type` of two types: `Undefined` (`rflx/typing_.py:76-77`), `Any` (87-88), `IndependentType` (98-101), `AnyInteger`
(122-127), `UndefinedInteger` (132-135), `UniversalInteger` (150-162), `Integer` (179-190), `Aggregate` (212-219), `Array`
(241-246), `Channel` (298-301). -/
def Ty.common : Ty M → Ty M → Ty M
  | .undefined, _ => .undefined
  | .any, o => o
  | .enumeration n, o => if o = .any ∨ o = .enumeration n then .enumeration n else .undefined
  | .message n b, o => if o = .any ∨ o = .message n b then .message n b else .undefined
  | .priv n, o => if o = .any ∨ o = .priv n then .priv n else .undefined
  | .anyInteger, o => if o = .any ∨ o = .anyInteger then .anyInteger else if o.isInteger then o else .undefined
  | .undefinedInteger, o => if o = .any ∨ o.isInteger then .undefinedInteger else .undefined
  | .universal b, o =>
    match o with
    | .undefinedInteger => .undefinedInteger
    | .universal b' => if b ≠ b' then .universal (b.union b') else .universal b
    | .integer n b' => if b'.contains b then .integer n b' else .undefinedInteger
    | .any => .universal b
    | .anyInteger => .universal b
    | _ => .undefined
  | .integer n b, o =>
    match o with
    | .undefinedInteger => .undefinedInteger
    | .universal b' => if !b.contains b' then .undefinedInteger else .integer n b
    | .integer n' b' => if n ≠ n' ∨ b ≠ b' then .undefinedInteger else .integer n b
    | .any => .integer n b
    | .anyInteger => .integer n b
    | _ => .undefined
  | .aggregate e, o =>
    match o with
    | .array n e' => if e.isCompatibleStrong e' then .array n e' else .undefined
    | .aggregate e' => if e ≠ e' then .aggregate (e.common e') else .aggregate e
    | .any => .aggregate e
    | _ => .undefined
  | .array n e, o =>
    match o with
    | .aggregate e' => if e.isCompatibleStrong e' then .array n e else .undefined
    | .any => .array n e
    | .array n' e' => if n = n' ∧ e = e' then .array n e else .undefined
    | _ => .undefined
  | .channel r w, o => if o = .any ∨ o = .channel r w then .channel r w else .undefined

/-- `common_type` of a sequence, `rflx/typing_.py:304-310`. -/
def commonType (ts : List (Ty M)) : Ty M := ts.foldl Ty.common .any

/-- The expected type or types of `check_type`. -/
inductive Expected (M : Type) where
  | one (t : Ty M)
  | tuple (ts : List (Ty M))

/-- `check_type`, `rflx/typing_.py:313-347`; whether the resulting error is empty. -/
def checkType (actual : Ty M) (expected : Expected M) : Py Bool :=
  match expected with
  | .tuple [] => .error .assertion
  | .one t =>
    if actual = .undefined then .ok false
    else if t ≠ .undefined ∧ actual.isCompatible t = false then .ok false else .ok true
  | .tuple ts =>
    if actual = .undefined then .ok false
    else if ts.all (fun t => !actual.isCompatible t) then .ok false else .ok true

end Verif.Typing
