import Verif.Refine.Props
import Verif.Refine.Names
import Verif.Ctx.HistoryExample

/-! # C58: examples and counterexamples -/

namespace Verif.Refine
open Verif Verif.Graph Verif.Verify Verif.Types Verif.Gen Verif.Spark Verif.Ctx

/-- `for P::M use (Data => P::M) if Tag = A and Len >= 2 - 1` in the package `M`. -/
def exR : Ref where
  package := ['M']
  pduId := ⟨[['P'], ['M']]⟩
  baseId := ⟨[['P'], ['M']]⟩
  pdu := exP
  field := exData
  sduId := ⟨[['P'], ['M']]⟩
  sdu := exP
  condition := .bool .and [.rel .eq exTagV (.v ⟨[['A']]⟩), .rel .ge exLenV (.bin .sub (.n 2) (.n 1))]

theorem exR_tag : IsField exR exTagV exTag (.enum exT) := ⟨⟨[['T', 'a', 'g']]⟩, rfl, by decide, by simp [exR, exP, Gen.exMsg], trivial⟩
theorem exR_len : IsField exR exLenV exLen exU8 := ⟨⟨[['L', 'e', 'n']]⟩, rfl, by decide, by simp [exR, exP, Gen.exMsg], trivial⟩
theorem exR_visible : Visible exR exT.id := .inr (.inr (.inl (by decide)))

theorem exR_supported : Supported exR where
  field := ⟨.opaque, by simp [exR, exP, Gen.exMsg], by simp [Scalar]⟩
  condition := by
    refine ⟨⟨rfl, .inl (.literal exR_tag ?_ exR_visible)⟩, ⟨rfl, .inl (.number exR_len ?_ (.inl (by decide)))⟩, trivial⟩
    · exact ⟨⟨[['A']]⟩, rfl, (⟨[['A']]⟩, 1), by simp [exT], rfl, .inl ⟨rfl, exR_visible⟩⟩
    · exact ⟨⟨by decide, trivial, trivial⟩, ⟨trivial, trivial⟩, 1, fun _ => rfl⟩
  packages := by
    intro f t h
    have : t = exT := by
      rcases exTypes_iff.1 h with ⟨_, h⟩ | ⟨_, h⟩ | ⟨_, h⟩
      · cases h; rfl
      · cases h
      · cases h
    subst this
    decide

/-- A message with the tag `A`, the length 2 and the data `[2, 3]`, which start with a message with the tag `B`. -/
def exNested : Bytes := ⟨5, [1, 2, 2, 3]⟩

theorem exNested_inBuffer : InBuffer exP exNested 33 64 := ⟨by decide, by decide, by decide, by decide, by decide⟩

theorem exNested_message : IsMessage exP.m.msg exNested 33 64 [⟨exData, 49, 64, 0⟩, ⟨exLen, 41, 48, 2⟩, ⟨exTag, 33, 40, 1⟩] := by
  have h1 : Follows exP.m.msg exNested 33 64 [⟨exTag, 33, 40, 1⟩] exTag 41 :=
    Follows.scalar .start (l := exL1) (t := .enum exT) (n := Num.n 8) (by simp [exP]) rfl (by decide) rfl (by simp [exP, Gen.exMsg, exL1]) trivial exT_size
      (by decide) (.inr (by decide))
  have h2 : Follows exP.m.msg exNested 33 64 [⟨exLen, 41, 48, 2⟩, ⟨exTag, 33, 40, 1⟩] exLen 49 :=
    Follows.scalar h1 (l := exL2) (t := exU8) (n := Num.n 8) (by simp [exP]) rfl (by decide) rfl (by simp [exP, Gen.exMsg, exL2]) trivial exU8_size
      (by decide) ⟨Num.n 0, Num.n 255, rfl, rfl, by decide, by decide⟩
  have h3 : Follows exP.m.msg exNested 33 64 [⟨exData, 49, 64, 0⟩, ⟨exLen, 41, 48, 2⟩, ⟨exTag, 33, 40, 1⟩] exData 65 :=
    Follows.composite h2 (l := exL4) (t := .opaque) (n := 16) (by simp [exP]) rfl (by decide) rfl (by simp [exP, Gen.exMsg, exL4]) (by simp [Scalar]) rfl
      (by decide) (by decide)
  exact ⟨_, _, exL5, h3, by simp [exP], rfl, rfl, rfl⟩

theorem exNested_inner : IsMessage exP.m.msg exNested 49 64 [⟨exTag, 49, 56, 2⟩] := by
  have h1 : Follows exP.m.msg exNested 49 64 [⟨exTag, 49, 56, 2⟩] exTag 57 :=
    Follows.scalar .start (l := exL1) (t := .enum exT) (n := Num.n 8) (by simp [exP]) rfl (by decide) rfl (by simp [exP, Gen.exMsg, exL1]) trivial exT_size
      (by decide) (.inr (by decide))
  exact ⟨_, _, exL3, h1, by simp [exP], rfl, rfl, rfl⟩

theorem exR_applies : Applies exR exNested 33 64 [⟨exData, 49, 64, 0⟩, ⟨exLen, 41, 48, 2⟩, ⟨exTag, 33, 40, 1⟩] where
  field := ⟨_, List.mem_cons_self, rfl, by simp, by intro h; simp [exR, exP, Gen.exMsg] at h⟩
  fields := by
    rintro f t hf ⟨id, hid, hk⟩
    have : id = ⟨[['T', 'a', 'g']]⟩ ∨ id = ⟨[['A']]⟩ ∨ id = ⟨[['L', 'e', 'n']]⟩ := by
      simpa [exR, namesOf, namesOfL, exTagV, exLenV, Expr.v, Expr.n] using hid
    rcases exTypes_iff.1 hf with ⟨rfl, rfl⟩ | ⟨rfl, rfl⟩ | ⟨rfl, rfl⟩
    · exact ⟨⟨exTag, 33, 40, 1⟩, by simp, rfl, (⟨[['A']]⟩, 1), by simp [exT], rfl⟩
    · exact ⟨⟨exLen, 41, 48, 2⟩, by simp, rfl, trivial⟩
    · exfalso
      revert hk
      rcases this with rfl | rfl | rfl <;> decide
  condition := rfl

/-- The function is true for the nested message, and both messages are parsed. -/
example : ∃ c c' d d', exP.parse exNested 33 64 = .ok c ∧ exR.contains c = .ok true ∧ exR.switch c = .ok (c', d) ∧ exP.verifyMessage d = .ok d' ∧
    exP.structuralValidMessage d' = .ok true ∧ Reflects exP d' [⟨exTag, 49, 56, 2⟩] := by
  obtain ⟨c, x, h1, h2, h3, h4⟩ := C58_parse_partial (r := exR) exWellFormed exNested_inBuffer (exDeterministic _ _ _) (exSizes exNested_inBuffer)
    exR_supported rfl exNested_message
  obtain rfl := h3.2 exR_applies
  obtain ⟨e, he, hef, h5⟩ := h4 rfl exWellFormed
  obtain rfl : e = ⟨exData, 49, 64, 0⟩ := by
    simp only [List.mem_cons, List.not_mem_nil, or_false] at he
    rcases he with rfl | rfl | rfl
    · rfl
    · exact absurd hef (by decide)
    · exact absurd hef (by decide)
  have I : InBuffer exP exNested 49 64 := ⟨by decide, by decide, by decide, by decide, by decide⟩
  obtain ⟨c', d, d', y, h6, h7, h8, h9, h10⟩ := h5 (exDeterministic _ _ _) (exSizes I)
  obtain rfl := h9.2 ⟨_, exNested_inner⟩
  exact ⟨c, c', d, d', h1, h2, h6, h7, h8, h10 _ exNested_inner⟩

/-- A history in which the function is true, and the switch succeeds. -/
example : ∃ c c' d, exP.history exZeros 33 64 [.setScalar exTag 1, .setScalar exLen 2, .setOpaque exData [1, 3]] = .ok c ∧
    exR.contains c = .ok true ∧ exR.switch c = .ok (c', d) ∧ c' = { c with buffer := none } ∧ d.first = 49 ∧ d.last = 64 := by
  obtain ⟨c, h1, h2, h3⟩ : ∃ c, exP.history exZeros 33 64 [.setScalar exTag 1, .setScalar exLen 2, .setOpaque exData [1, 3]] = .ok c ∧
      exR.contains c = .ok true ∧ (c.cursors exData).first = 49 ∧ (c.cursors exData).last = 64 :=
    ⟨_, by with_unfolding_all rfl, by with_unfolding_all rfl, by with_unfolding_all rfl, by with_unfolding_all rfl⟩
  obtain ⟨b', es, hs, x, hx, hiff⟩ := C58_contains_partial (r := exR) exWellFormed exVerified exZeros_inBuffer h1 exR_supported
  obtain ⟨b2, es2, hs2, h4, h5⟩ := C58_switch_partial (r := exR) exWellFormed exVerified exZeros_inBuffer h1 exR_supported rfl
  obtain ⟨c', d, h6⟩ : ∃ c' d, exR.switch c = .ok (c', d) := by
    have : ∃ s, (exP.history exZeros 33 64 [.setScalar exTag 1, .setScalar exLen 2, .setOpaque exData [1, 3]] >>= exR.switch) = .ok s :=
      ⟨_, by with_unfolding_all rfl⟩
    rw [h1] at this
    obtain ⟨⟨c', d⟩, h⟩ := this
    exact ⟨c', d, h⟩
  obtain ⟨h7, e, he, hef, _, _, h8, h9, _⟩ := h5 c' d h6
  obtain ⟨_, h10, h11, _⟩ := hs2.valid e he
  rw [hef] at h10 h11
  have g1 : (c.cursors exData).first = e.first := h10
  have g2 : (c.cursors exData).last = e.last := h11
  rw [h3.1] at g1
  rw [h3.2] at g2
  exact ⟨c, c', d, h1, h2, h6, h7, by rw [h8, ← g1], by rw [h9, ← g2]⟩

/-- Fields inside of arithmetic expressions are not found: their names are left as they are, and the generated code is not legal. The
condition is `Len + 1 = 3`. -/
theorem C58_contains_counterexample : ∃ r : Ref, WellFormed r.pdu ∧ (∀ σ, Typed r.pdu.m σ → ∃ x, eval .ada σ r.condition = some (.bool x)) ∧
    (∃ f t, (f, t) ∈ r.pdu.m.msg.types ∧ Scalar t ∧ Visible r t.id ∧ Occurs f r.condition) ∧ ∀ c, r.contains c = .error .illegal := by
  refine ⟨{ exR with condition := .rel .eq (.add [exLenV, .n 1]) (.n 3) }, exWellFormed, ?_, ?_, ?_⟩
  · intro σ T
    obtain ⟨i, hi⟩ := T.scalar exLen exU8 (by simp [exR, exP, Gen.exMsg]) trivial
    have : σ.var (ID.key ⟨[['L', 'e', 'n']]⟩) = .int i := hi
    simp [exLenV, Expr.v, Expr.n, eval, evalL, this, Val.negIf, allSome, Val.int?, RelOp.eval]
  · exact ⟨exLen, exU8, by simp [exR, exP, Gen.exMsg], trivial, .inl (by decide), ⟨[['L', 'e', 'n']]⟩, by simp [namesOf, namesOfL, exLenV, Expr.v], by decide⟩
  · intro c
    with_unfolding_all rfl

/-- Conditions are not checked for types. The condition is `Tag = 1`. -/
theorem C58_types_counterexample : ∃ r : Ref, WellFormed r.pdu ∧ (∃ t, (r.field, t) ∈ r.pdu.m.msg.types ∧ ¬ Scalar t) ∧
    (∃ f t, (f, FTy.enum t) ∈ r.pdu.m.msg.types ∧ ∃ id, id.key = f.parts ∧ r.condition = .rel .eq (.v id) (.n 1)) ∧
    ∀ c, r.contains c = .error .illegal :=
  ⟨{ exR with condition := .rel .eq exTagV (.n 1) }, exWellFormed, exR_supported.field,
    ⟨exTag, exT, by simp [exR, exP, Gen.exMsg], ⟨[['T', 'a', 'g']]⟩, by decide, rfl⟩, fun c => by with_unfolding_all rfl⟩

/-- The operators of types of other packages are not visible. The condition is `Len >= 1`; the refinement is in the package `R`, the refined
message in the package `P`, and the type of the field in the package `M`. -/
theorem C58_operators_counterexample : ∃ r : Ref, WellFormed r.pdu ∧ (∃ t, (r.field, t) ∈ r.pdu.m.msg.types ∧ ¬ Scalar t) ∧
    (∃ f t, IsField r (.v f) ⟨f.key⟩ (.int t) ∧ r.condition = .rel .ge (.v f) (.n 1)) ∧ ∀ c, r.contains c = .error .illegal :=
  ⟨{ exR with package := ['R'], condition := .rel .ge exLenV (.n 1) }, exWellFormed, exR_supported.field,
    ⟨⟨[['L', 'e', 'n']]⟩, _, ⟨⟨[['L', 'e', 'n']]⟩, rfl, rfl, by
      show (⟨ID.key ⟨[['L', 'e', 'n']]⟩⟩, _) ∈ exP.m.msg.types
      have : (⟨ID.key ⟨[['L', 'e', 'n']]⟩⟩ : Field) = exLen := by decide
      rw [this]
      exact List.mem_cons_of_mem _ List.mem_cons_self, trivial⟩, rfl⟩, fun c => by with_unfolding_all rfl⟩

/-- `exP` with an always valid type of the first field, which is followed by the second one whatever its value is. -/
def exPV : Pkg where
  m := { exP.m with msg := { exP.m.msg with
    types := [(exTag, .enum { exT with alwaysValid := true }), (exLen, exU8), (exData, .opaque)]
    links := [exL1, ⟨exTag, exLen, .tru, .undefined, .undefined⟩, exL4, ⟨exData, FINAL, .tru, .undefined, .undefined⟩] } }
  bitLast := exP.bitLast

/-- The refinement of `exPV` with the condition `Tag /= A`. -/
def exRV : Ref := { exR with pdu := exPV, condition := .rel .ne exTagV (.v ⟨[['A']]⟩) }

/-- The result for the value 7 of the first field. -/
def exPV_check : Bool :=
  match exPV.parse ⟨5, [7, 2, 2, 3]⟩ 33 64 with
  | .ok c => (exPV.structuralValidMessage c matches .ok true) && (exRV.contains c matches .ok false)
  | .error _ => false

/-- An unknown value of an always valid enumeration is different from all literals, but the function is false. The condition is `Tag /= A`,
the value of the field is 7. -/
theorem C58_unknown_counterexample : ∃ (r : Ref) (b : Bytes) (c : Context) (es : List Item), IsMessage r.pdu.m.msg b 33 64 es ∧
    r.pdu.parse b 33 64 = .ok c ∧ r.pdu.structuralValidMessage c = .ok true ∧ (∃ e ∈ es, e.f = r.field ∧ e.first ≤ e.last) ∧
    r.sdu.m.msg.fields ≠ [] ∧ IsTrue r.pdu.m.msg b 33 64 es r.condition ∧ r.contains c = .ok false := by
  have hm : IsMessage exPV.m.msg ⟨5, [7, 2, 2, 3]⟩ 33 64 [⟨exData, 49, 64, 0⟩, ⟨exLen, 41, 48, 2⟩, ⟨exTag, 33, 40, 7⟩] := by
    have h1 : Follows exPV.m.msg ⟨5, [7, 2, 2, 3]⟩ 33 64 [⟨exTag, 33, 40, 7⟩] exTag 41 :=
      Follows.scalar .start (l := exL1) (t := .enum { exT with alwaysValid := true }) (n := Num.n 8) (by simp [exPV]) rfl (by decide) rfl
        (by simp [exPV, exL1]) trivial exT_size (by decide) (.inl rfl)
    have h2 : Follows exPV.m.msg ⟨5, [7, 2, 2, 3]⟩ 33 64 [⟨exLen, 41, 48, 2⟩, ⟨exTag, 33, 40, 7⟩] exLen 49 :=
      Follows.scalar h1 (l := ⟨exTag, exLen, .tru, .undefined, .undefined⟩) (t := exU8) (n := Num.n 8) (by simp [exPV]) rfl (by decide) rfl
        (by simp [exPV]) trivial exU8_size (by decide) ⟨Num.n 0, Num.n 255, rfl, rfl, by decide, by decide⟩
    have h3 : Follows exPV.m.msg ⟨5, [7, 2, 2, 3]⟩ 33 64 [⟨exData, 49, 64, 0⟩, ⟨exLen, 41, 48, 2⟩, ⟨exTag, 33, 40, 7⟩] exData 65 :=
      Follows.composite h2 (l := exL4) (t := .opaque) (n := 16) (by simp [exPV]) rfl (by decide) rfl (by simp [exPV, exL4]) (by simp [Scalar]) rfl
        (by decide) (by decide)
    exact ⟨_, _, ⟨exData, FINAL, .tru, .undefined, .undefined⟩, h3, by simp [exPV], rfl, rfl, rfl⟩
  have hc : exPV_check = true := by decide +kernel
  cases hp : exPV.parse ⟨5, [7, 2, 2, 3]⟩ 33 64 with
  | error e =>
    rw [exPV_check, hp] at hc
    cases hc
  | ok c =>
    rw [exPV_check, hp] at hc
    simp only [Bool.and_eq_true] at hc
    have h1 : exPV.structuralValidMessage c = .ok true := by
      revert hc
      rcases exPV.structuralValidMessage c with _ | _ | _ <;> simp
    have h2 : exRV.contains c = .ok false := by
      revert hc
      rcases exRV.contains c with _ | _ | _ <;> simp
    exact ⟨exRV, ⟨5, [7, 2, 2, 3]⟩, c, _, hm, hp, h1, ⟨_, List.mem_cons_self, rfl, by decide⟩, by simp [exRV, exR, exP, Gen.exMsg], rfl, h2⟩

theorem exR_simple : SimpleId exR.sduId ∧ SimpleId exR.pduId ∧ Simple (exR.pdu.m.spell exR.field) :=
  ⟨⟨['P'], ['M'], rfl, by unfold Simple; decide, by unfold Simple; decide⟩, ⟨['P'], ['M'], rfl, by unfold Simple; decide, by unfold Simple; decide⟩,
    by unfold Simple; decide⟩

/-- Another refinement of the field has a function with another name. -/
example (r : Ref) (hp : r.package = exR.package) (h1 : r.sduId = ⟨[['P'], ['X']]⟩) (h2 : r.pduId = exR.pduId) (h3 : r.field = exR.field)
    (h4 : r.pdu = exR.pdu) : exR.functionName ≠ r.functionName := by
  intro h
  have := (C58_names_partial (r := exR) (r' := r) (by rw [hp]) exR_simple.1 exR_simple.2.1 exR_simple.2.2
    (by rw [h1]; exact ⟨['P'], ['X'], rfl, by unfold Simple; decide, by unfold Simple; decide⟩) (by rw [h2]; exact exR_simple.2.1)
    (by rw [h3, h4]; exact exR_simple.2.2) (by rw [h])).1
  rw [h1] at this
  revert this
  decide

/-- Different refinements of a field have functions with the same name: for the messages `A::B` and `M::A_B` if the refinements are in the
package `M`. -/
theorem C58_name_counterexample : ∃ r r' : Ref, r.package = r'.package ∧ r.pduId = r'.pduId ∧ r.field = r'.field ∧ r.sduId ≠ r'.sduId ∧
    r.functionName = r'.functionName :=
  ⟨{ exR with sduId := ⟨[['A'], ['B']]⟩ }, { exR with sduId := ⟨[['M'], ['A', '_', 'B']]⟩ }, rfl, rfl, rfl, by decide, by decide⟩

end Verif.Refine
