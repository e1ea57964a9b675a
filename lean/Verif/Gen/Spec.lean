import Verif.Gen.View
import Verif.Expr.WF

/-! # Conditions and contexts: what is to be proved of the substitution by the code generator -/

namespace Verif.Gen
open Verif Verif.Graph Verif.Verify Verif.Types

/-- The name of an enumeration literal, with or without the package. -/
def LitName (m : GMsg) (id : ID) : Prop :=
  ∃ t ∈ enums m.msg.types, ∃ l ∈ t.literals, id.key = l.1.key ∨ id.key = t.id.key.dropLast ++ l.1.key

/-- No name that the generated code uses for something else. -/
def Plain (embedded : Bool) (k : List PyStr) : Prop :=
  k ≠ (if embedded then [['f', 'i', 'r', 's', 't']] else [['c', 't', 'x'], ['f', 'i', 'r', 's', 't']]) ∧
  k ≠ (if embedded then [['l', 'a', 's', 't']] else [['c', 't', 'x'], ['l', 'a', 's', 't']]) ∧
  k ≠ [['c', 't', 'x']] ∧ k ≠ [['s', 'i', 'z', 'e']] ∧ k.head? ≠ some ['v', 'a', 'l'] ∧ ∀ w, k = [w] → unaffixed w = none

/-- The names of a message: fields are words, have one type each, and differ from enumeration literals and from `Message`
and `Ctx`; literals differ from the names that the generated code uses otherwise. -/
structure Names (m : GMsg) (o : Opts) : Prop where
  field : ∀ f ∈ m.msg.fields, (⟨[m.spell f]⟩ : ID).Lex ∧ f = ⟨[PyStr.lower (m.spell f)]⟩
  typed : ∀ e ∈ m.msg.types, e.1 ∈ m.msg.fields
  once : (m.msg.types.map (·.1)).Nodup
  enum : ∀ t ∈ enums m.msg.types, t.id.Lex ∧ 2 ≤ t.id.parts.length ∧ ∀ l ∈ t.literals, l.1.Lex
  literal : ∀ id, LitName m id → ⟨id.key⟩ ∉ m.msg.fields ∧ Plain o.embedded id.key
  checksum : ∀ c ∈ m.msg.checksums, c.1.Lex
  message : ⟨MESSAGE.key⟩ ∉ m.msg.fields
  ctx : ⟨[['c', 't', 'x']]⟩ ∉ m.msg.fields

/-- Types whose values are numbers. -/
def Scalar : FTy → Prop
  | .int _ | .enum _ => True
  | _ => False

/-- The fields `S` are known. The values of a message, its length and position are those that the generated code reads: in
the context (`pub = false`), or by the functions of the package (`pub = true`). -/
structure Represents (m : GMsg) (o : Opts) (V : View) (S : Field → Prop) (σ : Env) : Prop where
  first : σ.attr .first MESSAGE.key = .int V.first
  last : σ.attr .last MESSAGE.key = .int V.last
  size : σ.attr .size MESSAGE.key = .int (V.last - V.first + 1)
  literal : ∀ id, LitName m id → σ.var id.key = .int (V.lit id.key)
  fieldFirst : ∀ f n, S f → f.parts = [n] → σ.attr .first [n] = .int (if o.pub then V.fFirst n else V.cFirst n)
  fieldLast : ∀ f n, S f → f.parts = [n] → σ.attr .last [n] = .int (if o.pub then V.fLast n else V.cLast n)
  fieldSize : ∀ f n, S f → f.parts = [n] →
    σ.attr .size [n] = .int (if o.pub then V.fSize n else V.cLast n - V.cFirst n + 1)
  scalar : ∀ f n t, S f → f.parts = [n] → (f, t) ∈ m.msg.types → Scalar t →
    σ.var [n] = .int (if o.pub then V.get n else V.cValue n)
  composite : ∀ f n t, S f → f.parts = [n] → (f, t) ∈ m.msg.types → ¬ Scalar t →
    ∃ ds, σ.var [n] = .seq ds ∧
      if o.embedded then V.slice (byteIndex (V.cFirst n)) (byteIndex (V.cLast n)) = ds else ∀ es, V.equal n es = decide (ds = es)

/-- The value of a known field of a scalar type. -/
def ScalarField (m : GMsg) (S : Field → Prop) (id : ID) : Prop :=
  S ⟨id.key⟩ ∧ ∃ t, (⟨id.key⟩, t) ∈ m.msg.types ∧ Scalar t

/-- The comparison of a known field of a composite type with a list of numbers. The comparisons in the predicate of the
context (`embedded`) are `=` only, see `C43_embedded_inequality_counterexample`. -/
def Comparison (m : GMsg) (o : Opts) (S : Field → Prop) (op : RelOp) (ng : Bool) (id : ID) (es : List Expr) : Prop :=
  ng = false ∧ (S ⟨id.key⟩ ∧ ∃ t, (⟨id.key⟩, t) ∈ m.msg.types ∧ ¬ Scalar t) ∧ (∀ e ∈ es, ∃ v b, e = .num v b) ∧
  (op = .eq ∨ (op = .ne ∧ o.embedded = false))

/-- Attributes of the message and of known fields, written as in the declaration. The negation of the size of a field must be
converted to a type, as `-` is wrong on differences (`C13_sub_counterexample`). -/
def Attribute (m : GMsg) (o : Opts) (S : Field → Prop) (ng : Bool) (a : AttrKind) (id : ID) : Prop :=
  (a = .first ∨ a = .last ∨ a = .size) ∧
  (id = MESSAGE ∨ ∃ f ∈ m.msg.fields, S f ∧ id = ⟨[m.spell f]⟩ ∧ (a = .size → ng = true → o.target = none → o.pub = true))

mutual
/-- Expressions over the known fields `S`: numbers, truth values, enumeration literals, values of scalar fields, attributes,
arithmetic, relations, comparisons of composite fields with aggregates, `and`, `or`. A minus sign before the name of a field
must not be compared with a number, see `C43_negative_counterexample`. -/
def Cond (m : GMsg) (o : Opts) (S : Field → Prop) : Expr → Prop
  | .tru | .fls | .num .. => True
  | .var _ imm id => imm = false ∧ (ScalarField m S id ∨ LitName m id)
  | .attr ng a pre =>
    match pre with
    | .var ng' imm id => ng' = false ∧ imm = false ∧ Attribute m o S ng a id
    | _ => False
  | .bool _ ts => CondL m o S ts
  | .add ts => CondL m o S ts
  | .mul ts => CondL m o S ts
  | .bin _ l r => Cond m o S l ∧ Cond m o S r
  | .rel op l r =>
    match l, r with
    | .var ng _ id, .agg es => Comparison m o S op ng id es
    | .agg es, .var ng _ id => Comparison m o S op ng id es
    | .var ng imm id, .num .. => imm = false ∧ ((ng = false ∧ ScalarField m S id) ∨ LitName m id)
    | .num .., .var ng imm id => imm = false ∧ ((ng = false ∧ ScalarField m S id) ∨ LitName m id)
    | l, r => Cond m o S l ∧ Cond m o S r
  | _ => False
def CondL (m : GMsg) (o : Opts) (S : Field → Prop) : List Expr → Prop
  | [] => True
  | e :: es => Cond m o S e ∧ CondL m o S es
end

end Verif.Gen
