import Verif.Verify.ExprTypesExample
import Verif.Verify.InstanceProps

/-! # C72: a link that can never be taken

```
type T is
   message
      A : U8
         then B
            if A <= 255
         then C
            if A > 255;
      B : U8;
      C : U8;
   end message;
``` -/

namespace Verif.Verify
open Verif Verif.Graph Verif.Types Verif.Typing

set_option linter.unusedSimpArgs false

def wA : Expr := .v ⟨[['A']]⟩
def wLe : Expr := .rel .le wA (.n 255)
def wGt : Expr := .rel .gt wA (.n 255)

def w1 : Link := lnk INITIAL (fld 'a')
def w2 : Link := lnk (fld 'a') (fld 'b') wLe
def w3 : Link := lnk (fld 'a') (fld 'c') wGt
def w4 : Link := lnk (fld 'b') (fld 'c')
def w5 : Link := lnk (fld 'c') FINAL

def wMsgWith (fields : List Field) : Msg :=
  ⟨⟨[['M'], ['T']]⟩, [w1, w2, w3, w4, w5], fields, [(fld 'a', exU8), (fld 'b', exU8), (fld 'c', exU8)], []⟩

def wMsg : Msg := wMsgWith [fld 'a', fld 'b', fld 'c']

/-- A message with the value `x` of the field `A`; the field `B` is there if `x` is 1. -/
def wModel (x : Int) : ZModel :=
  let b : Int := if x = 1 then 8 else 0
  ⟨fun
    | .var k => if k = [['a']] then x else 0
    | .attr .first _ k => if k = [['b']] then 9 else if k = [['c']] then 9 + b else if k = FINAL.key then 17 + b else 1
    | .attr .size _ k => if k = MESSAGE.key then 16 + b else if k = FINAL.key then 0 else 8
    | .attr .last _ k => if k = [['a']] then 8 else if k = [['b']] then 16 else 16 + b
    | _ => 0, fun _ => 0, fun _ => 0, fun _ _ => 0⟩

/-- Sets of formulas that cannot be satisfied. -/
def wUnsat : List (List Expr) :=
  let first := at' .first MESSAGE
  let last := at' .last MESSAGE
  let lastA := at' .last (fld 'a')
  let lastB := at' .last (fld 'b')
  let endA := Expr.bin .sub (.add [first, .n 8]) (.n 1)
  let nextA := Expr.add [lastA, .n 1]
  let nextB := Expr.add [lastB, .n 1]
  let endN := fun n => Expr.bin .sub (.add [n, .n 8]) (.n 1)
  let out := fun a b => Expr.not (.bool .and [.rel .ge bitVar a, .rel .le bitVar b])
  let size := fun c => at' .size (fld c)
  [[.bool .and [wLe, wGt]], [wGt, .rel .lt (.v (fld 'a')) (.n 256)],
   [.rel .lt (.n 8) (.n 0)], [.rel .lt (.n 0) (.n 0)],
   [.rel .ge bitVar first, .rel .le bitVar last, out first endA, out nextA (endN nextA), .rel .eq (endN nextA) last, .rel .eq lastA endA],
   [.rel .ge bitVar first, .rel .le bitVar last, out first endA, out nextA (endN nextA), out nextB (endN nextB), .rel .eq (endN nextB) last,
    .rel .eq lastA endA, .rel .eq lastB (endN nextA)],
   [.rel .ne (.bin .mod (.add [size 'a', size 'c']) (.n 8)) (.n 0), .rel .eq (size 'a') (.n 8), .rel .eq (size 'c') (.n 8)],
   [.rel .ne (.bin .mod (.add [size 'a', size 'b', size 'c']) (.n 8)) (.n 0), .rel .eq (size 'a') (.n 8), .rel .eq (size 'b') (.n 8),
    .rel .eq (size 'c') (.n 8)]]

theorem wUnsat_unsat : ∀ u ∈ wUnsat, ¬ ∃ M, Holds M u := by
  intro u hu
  simp only [wUnsat, List.mem_cons, List.not_mem_nil, or_false] at hu
  have hk : ID.key ⟨[['A']]⟩ = ID.key (fld 'a') := by decide
  rcases hu with rfl | rfl | rfl | rfl | rfl | rfl | rfl | rfl <;>
  · rintro ⟨M, h⟩
    simp [Holds, zeval, zevalL, at', bitVar, wLe, wGt, wA, Expr.v, Expr.n, Bind.bind, Except.bind, pure, Except.pure, ZVal.int?,
      ZVal.bool?, zRel, zArith, zEqual, ZVal.cast, intSum, intProd, BoolOp.isAnd, hk] at h
    try omega

def wSolver : Solver := tableSolver (wModel 1) [wModel 1, wModel 256] wUnsat wUnsat_unsat

theorem wMsg_accepted : Msg.new wSolver (fun _ => .ok false) wMsg.id wMsg.links wMsg.types wMsg.checksums 20 = .ok wMsg := rfl

theorem w_typeErrors {Γ : Ctx Unit} (ha : Γ.var (ID.key ⟨[['A']]⟩) = .integer "M::U8" ⟨some 0, some 255⟩) :
    typeErrorIn Γ wLe = .ok false ∧ typeErrorIn Γ wGt = .ok false := by
  have h1 : check Γ wLe (.ty .any) = .ok true := by
    simp only [check, wLe, wA, Expr.v, Expr.n, subOk, allOk, afterTy, ctorTy, ctorTyL, meets, leftWant, rightWant, ha]
    simp [commonType, Ty.common, mathTy, checkInstance, checkType, Ty.isInstance, Ty.isInteger, Ty.isCompatible, BOOLEAN,
      Bounds.contains, Bounds.defined]
    rfl
  have h2 : check Γ wGt (.ty .any) = .ok true := by
    simp only [check, wGt, wA, Expr.v, Expr.n, subOk, allOk, afterTy, ctorTy, ctorTyL, meets, leftWant, rightWant, ha]
    simp [commonType, Ty.common, mathTy, checkInstance, checkType, Ty.isInstance, Ty.isInteger, Ty.isCompatible, BOOLEAN,
      Bounds.contains, Bounds.defined]
    rfl
  exact ⟨by rw [typeErrorIn, if_neg (fun h => by cases (undef_eq _).mp h), h1]; rfl,
    by rw [typeErrorIn, if_neg (fun h => by cases (undef_eq _).mp h), h2]; rfl⟩

/-- The context after some fields has their types. -/
theorem w_ctx (fields : List Field) :
    (∃ Γ, (wMsgWith fields).ctx [] = .ok Γ) ∧
    (∃ Γ, (wMsgWith fields).ctx [(fld 'a', exU8)] = .ok Γ ∧ Γ.var (ID.key ⟨[['A']]⟩) = .integer "M::U8" ⟨some 0, some 255⟩) ∧
    (∃ Γ, (wMsgWith fields).ctx [(fld 'c', exU8), (fld 'a', exU8)] = .ok Γ) ∧
    (∃ Γ, (wMsgWith fields).ctx [(fld 'b', exU8), (fld 'a', exU8)] = .ok Γ) ∧
    ∃ Γ, (wMsgWith fields).ctx [(fld 'c', exU8), (fld 'b', exU8), (fld 'a', exU8)] = .ok Γ := by
  with_unfolding_all exact ⟨⟨_, rfl⟩, ⟨_, rfl, rfl⟩, ⟨_, rfl⟩, ⟨_, rfl⟩, ⟨_, rfl⟩⟩

theorem w_pathTypes (fields : List Field) : (wMsgWith fields).pathTypes [] [w1, w3, w5] = .ok false ∧
    (wMsgWith fields).pathTypes [] [w1, w2, w4, w5] = .ok false := by
  obtain ⟨⟨Γ0, c0⟩, ⟨Γ1, c1, a1⟩, ⟨Γ2, c2⟩, ⟨Γ3, c3⟩, ⟨Γ4, c4⟩⟩ := w_ctx fields
  have s1 : (wMsgWith fields).see [] w1 = [] := rfl
  have s2 : (wMsgWith fields).see [] w2 = [(fld 'a', exU8)] := rfl
  have s3 : (wMsgWith fields).see [] w3 = [(fld 'a', exU8)] := rfl
  have s4 : (wMsgWith fields).see [(fld 'a', exU8)] w4 = [(fld 'b', exU8), (fld 'a', exU8)] := rfl
  have s5 : (wMsgWith fields).see [(fld 'b', exU8), (fld 'a', exU8)] w5 = [(fld 'c', exU8), (fld 'b', exU8), (fld 'a', exU8)] := rfl
  have s6 : (wMsgWith fields).see [(fld 'a', exU8)] w5 = [(fld 'c', exU8), (fld 'a', exU8)] := rfl
  constructor
  · rw [Msg.pathTypes, s1, c0, Msg.pathTypes, s3, c1, Msg.pathTypes, s6, c2, Msg.pathTypes]
    simp [w1, w3, w5, lnk, (w_typeErrors a1).2, typeErrorIn_tru, typeErrorIn_undefined, Bind.bind, Except.bind]
    rfl
  · rw [Msg.pathTypes, s1, c0, Msg.pathTypes, s2, c1, Msg.pathTypes, s4, c3, Msg.pathTypes, s5, c4, Msg.pathTypes]
    simp [w1, w2, w4, w5, lnk, (w_typeErrors a1).1, typeErrorIn_tru, typeErrorIn_undefined, Bind.bind, Except.bind]
    rfl

theorem wMsg_types_ok (fields : List Field) : (wMsgWith fields).verifyExpressionTypes wSolver 20 = .ok false := by
  have hp : paths (wMsgWith fields).links 20 FINAL = .ok [[w1, w3, w5], [w1, w2, w4, w5]] := by
    with_unfolding_all rfl
  obtain ⟨h1, h2⟩ := w_pathTypes fields
  have c1 : ∃ b, (wMsgWith fields).contradictory wSolver [w1, w3, w5] = .ok b := by with_unfolding_all exact ⟨_, rfl⟩
  have c2 : (wMsgWith fields).contradictory wSolver [w1, w2, w4, w5] = .ok false := by with_unfolding_all rfl
  obtain ⟨b, c1⟩ := c1
  rw [Msg.verifyExpressionTypes, hp]
  show anyM' _ _ = _
  simp only [anyM', Msg.pathTypeError, c1, c2]
  cases b <;> (simp [h1, h2]; rfl)

theorem wMsg_acceptedTyped : wMsg.AcceptedTyped wSolver := by
  refine ⟨20, ?_⟩
  rw [new_congr (g := fun _ => .ok false) wMsg_types_ok]
  exact wMsg_accepted

theorem wMsg_simple : wMsg.Simple where
  link := by
    intro l hl
    have hl : l ∈ [w1, w2, w3, w4, w5] := hl
    simp only [List.mem_cons, List.not_mem_nil, or_false] at hl
    have hc : Condition wLe ∧ Condition wGt := by simp [Condition, Numeric, wLe, wGt, wA, Expr.v, Expr.n]
    rcases hl with rfl | rfl | rfl | rfl | rfl
    · exact ⟨trivial, fun h => absurd rfl h, fun h => absurd rfl h⟩
    · exact ⟨hc.1, fun h => absurd rfl h, fun h => absurd rfl h⟩
    · exact ⟨hc.2, fun h => absurd rfl h, fun h => absurd rfl h⟩
    · exact ⟨trivial, fun h => absurd rfl h, fun h => absurd rfl h⟩
    · exact ⟨trivial, fun h => absurd rfl h, fun h => absurd rfl h⟩
  modulus := by
    intro e he t ht
    have he : e ∈ [(fld 'a', exU8), (fld 'b', exU8), (fld 'c', exU8)] := he
    simp only [List.mem_cons, List.not_mem_nil, or_false] at he
    rcases he with rfl | rfl | rfl <;> (cases ht; simp [Numeric, Expr.n])

/-- C72 (links, as opposed to fields): an accepted message may contain a link that cannot be taken for any values of the types of the
fields. Such a link is reported only if all links of a field are of this kind. -/
theorem C72_dead_link_counterexample : ∃ (s : Solver) (m : Msg) (l : Link), s.Decides ∧ m.AcceptedTyped s ∧ m.Regular ∧
    (∀ e ∈ m.types, e.2.Ok) ∧ m.Simple ∧ l ∈ m.links ∧
    ∀ D ρ, Valued m ρ → eval D ρ l.condition ≠ some (.bool true) := by
  refine ⟨wSolver, wMsg, w3, tableSolver_decides, wMsg_acceptedTyped, ?_, ?_, wMsg_simple, ?_, ?_⟩
  · simp only [Msg.Regular]; decide
  · intro e he
    have h8 : exU8.Ok := exMsg_types (fld 'l', exU8) (by simp [exMsg])
    have he : e ∈ [(fld 'a', exU8), (fld 'b', exU8), (fld 'c', exU8)] := he
    simp only [List.mem_cons, List.not_mem_nil, or_false] at he
    rcases he with rfl | rfl | rfl <;> exact h8
  · show w3 ∈ [w1, w2, w3, w4, w5]; simp
  · intro D ρ hv he
    obtain ⟨v, h1, f, l, h2, h3, h4, h5⟩ := hv.value (fld 'a', exU8) (by show _ ∈ [_, _, _]; simp) rfl (by decide) (by decide)
    have h3 : Except.ok (Num.n 255) = Except.ok l := h3
    cases h3
    have hk : ID.key ⟨[['A']]⟩ = ID.key (fld 'a') := by decide
    have he : eval D ρ wGt = some (.bool true) := he
    simp only [wGt, wA, eval, Expr.v, Expr.n, hk, h1, Val.negIf] at he
    simp [RelOp.eval] at he
    simp [Num.n] at h5
    omega

end Verif.Verify
