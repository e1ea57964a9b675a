import Verif.Verify.Model
import Verif.Verify.Translate
import Verif.Graph.Spec
import Verif.Types.ConstraintProps

/-! # Specification: assignments and layouts of messages

Nothing here refers to the facts that the verification uses. -/

namespace Verif.Verify
open Verif Verif.Graph Verif.Types

/-- A value is represented by a number (`False` by 0 and `True` by 1). -/
def Denotes (x : Val) (v : Int) : Prop := x = .int v ∨ (x = .bool true ∧ v = 1) ∨ (x = .bool false ∧ v = 0)

/-- The numbers that belong to a scalar type. -/
def FTy.Contains : FTy → Int → Prop
  | .int t, v => ∃ f l, t.first = .ok f ∧ t.last = .ok l ∧ f.v ≤ v ∧ v ≤ l.v
  | .enum t, v => ∃ l, (l, v) ∈ t.literals
  | _, _ => False

/-- The types come from accepted declarations in packages; moduli are constant and understood by the solver. -/
def FTy.Ok : FTy → Prop
  | .int t => t.Accepted ∧ t.ConstModulus ∧
    (match t with
      | .modular t => t.id.Valid ∧ ∀ D ρ, Plain D ρ t.modulus
      | .range t => t.id.Valid)
  | .enum t => t.Accepted ∧ t.Simple
  | _ => True

/-- The package of an identifier (in lower case). -/
def packageKey (i : ID) : List PyStr := i.key.dropLast

/-- The name of a type in expressions. -/
def FTy.typeName (t : FTy) : List PyStr :=
  if packageKey t.id = builtinsPackage.key then t.id.key.drop (t.id.key.length - 1) else t.id.key

/-- An assignment of values to the names of a message that the types allow, for a message in a buffer of whole bytes. -/
structure Allowed (m : Msg) (ρ : Env) : Prop where
  start : ∃ F, ρ.attr .first MESSAGE.key = .int F ∧ F % 8 = 1
  total : ∃ S, ρ.attr .size MESSAGE.key = .int S ∧ S % 8 = 0
  value : ∀ e ∈ m.types, e.2.isScalar = true → ∃ v, Denotes (ρ.var e.1.key) v ∧ e.2.Contains v
  size : ∀ e ∈ m.types, ∀ s, e.2.size = .ok s → ρ.attr .size e.1.key = .int s.v
  literals : ∀ e ∈ m.types, ∀ t, e.2 = .enum t → ∀ n v,
    t.Visible (decide (packageKey m.id = packageKey t.id)) n v → Denotes (ρ.var n) v
  typeSize : ∀ e ∈ m.types, ∀ s, e.2.size = .ok s → ρ.attr .size e.2.typeName = .int s.v

/-- The first bit of the target of a link: the first bit of the message, the value of the aspect `First`, or the bit
after the source. -/
def Starts (D : Division) (ρ : Env) (F : Int) (l : Link) (a : Int) : Prop :=
  (l.source = INITIAL ∧ a = F) ∨
  (l.source ≠ INITIAL ∧ l.first = .undefined ∧ ∃ b, ρ.attr .last l.source.key = .int b ∧ a = b + 1) ∨
  (l.source ≠ INITIAL ∧ l.first ≠ .undefined ∧ eval D ρ l.first = some (.int a))

/-- The number of bits of the target of a link: the value of the aspect `Size`, or the size of its type. The end of the
message takes no bits. -/
def Spans (D : Division) (m : Msg) (ρ : Env) (l : Link) (n : Int) : Prop :=
  (l.size ≠ .undefined ∧ eval D ρ l.size = some (.int n)) ∨
  (l.size = .undefined ∧ l.target = FINAL ∧ n = 0) ∨
  (l.size = .undefined ∧ l.target ≠ FINAL ∧ ∃ t s, m.type? l.target = some t ∧ t.size = .ok s ∧ n = s.v)

/-- The target of a link occupies `n` bits from bit `a` on. -/
structure At (D : Division) (m : Msg) (ρ : Env) (F : Int) (l : Link) (a n : Int) : Prop where
  starts : Starts D ρ F l a
  spans : Spans D m ρ l n
  first : ρ.attr .first l.target.key = .int a
  size : ρ.attr .size l.target.key = .int n
  last : ρ.attr .last l.target.key = .int (a + n - 1)

/-- An assignment describes a message between the bits `F` and `L` that follows the links `p`: fields are placed one
after another and lie within the message, and all conditions are true. -/
structure Layout (D : Division) (m : Msg) (ρ : Env) (F L : Int) (p : List Link) : Prop where
  first : ρ.attr .first MESSAGE.key = .int F
  last : ρ.attr .last MESSAGE.key = .int L
  size : ρ.attr .size MESSAGE.key = .int (L - F + 1)
  nonneg : 0 ≤ F
  nonempty : F ≤ L
  field : ∀ l ∈ p, ∃ a n, At D m ρ F l a n ∧ a + n - 1 ≤ L
  condition : ∀ l ∈ p, eval D ρ l.condition = some (.bool true)

/-- The conditions and aspects of links are understood by the solver. -/
def PlainLink (D : Division) (ρ : Env) (l : Link) : Prop :=
  Plain D ρ l.condition ∧ (l.size ≠ .undefined → Plain D ρ l.size) ∧ (l.first ≠ .undefined → Plain D ρ l.first)

/-- A message that is created without error. -/
def Msg.Accepted (s : Solver) (m : Msg) : Prop :=
  ∃ ty k, Msg.new s ty m.id m.links m.types m.checksums k = .ok m

end Verif.Verify
