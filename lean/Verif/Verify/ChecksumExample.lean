import Verif.Verify.ChecksumProps
import Verif.Verify.DeadLink

/-! # C73: a checksum that is not checked in every message

```
type P is
   message
      T : U8;
      C : U8
         then null
            if T = 1 and C'Valid_Checksum
         then null
            if T /= 1;
   end message
      with Checksum => (C => (Z'First .. Z'Last, Message'First .. C'First - 1));
``` -/

namespace Verif.Verify
open Verif Verif.Graph Verif.Types Verif.Typing

set_option linter.unusedSimpArgs false

def kT : Expr := .v ⟨[['T']]⟩
def kValid : Expr := .attr false .validChecksum (.v ⟨[['C']]⟩)
def kEq : Expr := .rel .eq kT (.n 1)
def kCheck : Expr := .bool .and [kEq, kValid]
def kNe : Expr := .rel .ne kT (.n 1)

def k1 : Link := lnk INITIAL (fld 't')
def k2 : Link := lnk (fld 't') (fld 'c')
def k3 : Link := lnk (fld 'c') FINAL kCheck
def k4 : Link := lnk (fld 'c') FINAL kNe

def kRange : ChkExpr := .range (.attr false .first (.v MESSAGE)) (.bin .sub (.attr false .first (.v ⟨[['C']]⟩)) (.n 1))
def kUnknown : ChkExpr := .range (.attr false .first (.v ⟨[['Z']]⟩)) (.attr false .last (.v ⟨[['Z']]⟩))

def kMsgWith (fields : List Field) : Msg :=
  ⟨⟨[['M'], ['P']]⟩, [k1, k2, k3, k4], fields, [(fld 't', exU8), (fld 'c', exU8)], [(⟨[['C']]⟩, [kUnknown, kRange])]⟩

def kMsg : Msg := kMsgWith [fld 't', fld 'c']

/-- A message with the value `x` of the field `T`. -/
def kModel (x : Int) : ZModel :=
  ⟨fun
    | .var k => if k = [['t']] then x else 0
    | .attr .first _ k => if k = [['c']] then 9 else if k = FINAL.key then 17 else 1
    | .attr .size _ k => if k = MESSAGE.key then 16 else if k = FINAL.key then 0 else 8
    | .attr .last _ k => if k = [['t']] then 8 else 16
    | _ => 0, fun _ => 0, fun _ => 0, fun _ _ => 0⟩

/-- Sets of formulas that cannot be satisfied. -/
def kUnsat : List (List Expr) :=
  let first := at' .first MESSAGE
  let last := at' .last MESSAGE
  let lastT := at' .last (fld 't')
  let endT := Expr.bin .sub (.add [first, .n 8]) (.n 1)
  let nextT := Expr.add [lastT, .n 1]
  let endN := fun n => Expr.bin .sub (.add [n, .n 8]) (.n 1)
  let out := fun a b => Expr.not (.bool .and [.rel .ge bitVar a, .rel .le bitVar b])
  let size := fun c => at' .size (fld c)
  [[.bool .and [kCheck, kNe]], [.rel .lt (.n 8) (.n 0)], [.rel .lt (.n 0) (.n 0)],
   [.rel .ge bitVar first, .rel .le bitVar last, out first endT, out nextT (endN nextT), .rel .eq (endN nextT) last, .rel .eq lastT endT],
   [.rel .ne (.bin .mod (.add [size 't', size 'c']) (.n 8)) (.n 0), .rel .eq (size 't') (.n 8), .rel .eq (size 'c') (.n 8)]]

theorem kUnsat_unsat : ∀ u ∈ kUnsat, ¬ ∃ M, Holds M u := by
  intro u hu
  simp only [kUnsat, List.mem_cons, List.not_mem_nil, or_false] at hu
  rcases hu with rfl | rfl | rfl | rfl | rfl <;>
  · rintro ⟨M, h⟩
    simp [Holds, zeval, zevalL, at', bitVar, kCheck, kEq, kNe, kT, kValid, Expr.v, Expr.n, Bind.bind, Except.bind, pure, Except.pure,
      ZVal.int?, ZVal.bool?, zRel, zArith, zEqual, ZVal.cast, intSum, intProd, BoolOp.isAnd] at h
    try omega

def kSolver : Solver := tableSolver (kModel 1) [kModel 1, kModel 2] kUnsat kUnsat_unsat

theorem kMsg_accepted : Msg.new kSolver (fun _ => .ok false) kMsg.id kMsg.links kMsg.types kMsg.checksums 20 = .ok kMsg := by
  with_unfolding_all rfl

theorem k_typeErrors {Γ : Ctx Unit} (ht : Γ.var (ID.key ⟨[['T']]⟩) = .integer "M::U8" ⟨some 0, some 255⟩)
    (hc : Γ.var (ID.key ⟨[['C']]⟩) = .integer "M::U8" ⟨some 0, some 255⟩) :
    typeErrorIn Γ kCheck = .ok false ∧ typeErrorIn Γ kNe = .ok false := by
  have h1 : check Γ kCheck (.ty .any) = .ok true := by
    simp only [check, kCheck, kEq, kValid, kT, Expr.v, Expr.n, subOk, allOk, afterTy, ctorTy, ctorTyL, meets, leftWant, rightWant, prefixWant, ht, hc]
    simp [commonType, Ty.common, mathTy, checkInstance, checkType, Ty.isInstance, Ty.isInteger, Ty.isCompatible, BOOLEAN,
      Bounds.contains, Bounds.defined]
    rfl
  have h2 : check Γ kNe (.ty .any) = .ok true := by
    simp only [check, kNe, kT, Expr.v, Expr.n, subOk, allOk, afterTy, ctorTy, ctorTyL, meets, leftWant, rightWant, ht]
    simp [commonType, Ty.common, mathTy, checkInstance, checkType, Ty.isInstance, Ty.isInteger, Ty.isCompatible, BOOLEAN,
      Bounds.contains, Bounds.defined]
    rfl
  exact ⟨by rw [typeErrorIn, if_neg (fun h => by cases (undef_eq _).mp h), h1]; rfl,
    by rw [typeErrorIn, if_neg (fun h => by cases (undef_eq _).mp h), h2]; rfl⟩

/-- The context after some fields has their types. -/
theorem k_ctx (fields : List Field) :
    (∃ Γ, (kMsgWith fields).ctx [] = .ok Γ) ∧ (∃ Γ, (kMsgWith fields).ctx [(fld 't', exU8)] = .ok Γ) ∧
    ∃ Γ, (kMsgWith fields).ctx [(fld 'c', exU8), (fld 't', exU8)] = .ok Γ ∧
      Γ.var (ID.key ⟨[['T']]⟩) = .integer "M::U8" ⟨some 0, some 255⟩ ∧
      Γ.var (ID.key ⟨[['C']]⟩) = .integer "M::U8" ⟨some 0, some 255⟩ := by
  with_unfolding_all exact ⟨⟨_, rfl⟩, ⟨_, rfl⟩, ⟨_, rfl, rfl, rfl⟩⟩

theorem k_pathTypes (fields : List Field) : (kMsgWith fields).pathTypes [] [k1, k2, k3] = .ok false ∧
    (kMsgWith fields).pathTypes [] [k1, k2, k4] = .ok false := by
  obtain ⟨⟨Γ0, c0⟩, ⟨Γ1, c1⟩, ⟨Γ2, c2, a1, a2⟩⟩ := k_ctx fields
  have s1 : (kMsgWith fields).see [] k1 = [] := rfl
  have s2 : (kMsgWith fields).see [] k2 = [(fld 't', exU8)] := rfl
  have s3 : (kMsgWith fields).see [(fld 't', exU8)] k3 = [(fld 'c', exU8), (fld 't', exU8)] := rfl
  have s4 : (kMsgWith fields).see [(fld 't', exU8)] k4 = [(fld 'c', exU8), (fld 't', exU8)] := rfl
  constructor
  · rw [Msg.pathTypes, s1, c0, Msg.pathTypes, s2, c1, Msg.pathTypes, s3, c2, Msg.pathTypes]
    simp [k1, k2, k3, lnk, (k_typeErrors a1 a2).1, typeErrorIn_tru, typeErrorIn_undefined, Bind.bind, Except.bind]
    rfl
  · rw [Msg.pathTypes, s1, c0, Msg.pathTypes, s2, c1, Msg.pathTypes, s4, c2, Msg.pathTypes]
    simp [k1, k2, k4, lnk, (k_typeErrors a1 a2).2, typeErrorIn_tru, typeErrorIn_undefined, Bind.bind, Except.bind]
    rfl

theorem kMsg_types_ok (fields : List Field) : (kMsgWith fields).verifyExpressionTypes kSolver 20 = .ok false := by
  have hp : paths (kMsgWith fields).links 20 FINAL = .ok [[k1, k2, k3], [k1, k2, k4]] := by
    with_unfolding_all rfl
  obtain ⟨h1, h2⟩ := k_pathTypes fields
  have c1 : (kMsgWith fields).contradictory kSolver [k1, k2, k3] = .ok false := by with_unfolding_all rfl
  have c2 : (kMsgWith fields).contradictory kSolver [k1, k2, k4] = .ok false := by with_unfolding_all rfl
  rw [Msg.verifyExpressionTypes, hp]
  show anyM' _ _ = _
  simp only [anyM', Msg.pathTypeError, c1, c2]
  simp [h1, h2]; rfl

theorem kMsg_acceptedTyped : kMsg.AcceptedTyped kSolver := by
  refine ⟨20, ?_⟩
  rw [new_congr (g := fun _ => .ok false) kMsg_types_ok]
  exact kMsg_accepted

theorem kMsg_regular : kMsg.Regular := by simp only [Msg.Regular]; decide

theorem kMsg_links : kMsg.links ≠ [] := by simp [kMsg, kMsgWith]

/-- The hypotheses of the theorems are satisfiable: the checksum belongs to a field, the range ends behind its start, and there is a
link that checks the checksum. -/
example : (fld 'c' : Field) ∈ kMsg.fields ∧ Covers kMsg kRange ∧ (∃ k ∈ [k1, k2], k.source = INITIAL) ∧
    ∃ l ∈ kMsg.links, Checks ⟨[['C']]⟩ l.condition := by
  have ha : kMsg.Accepted kSolver := (acceptedTyped kMsg_acceptedTyped).1
  have hc : ((⟨[['C']]⟩, [kUnknown, kRange]) : ID × List ChkExpr) ∈ kMsg.checksums := by simp [kMsg, kMsgWith]
  obtain ⟨h1, h2⟩ := C73_defined ha kMsg_links _ hc
  have hr : Lower MESSAGE (.attr false .first (.v MESSAGE)) := .first
  have hu : Upper ⟨[['C']]⟩ (.bin .sub (.attr false .first (.v ⟨[['C']]⟩)) (.n 1)) := .before
  refine ⟨h1, h2 kRange (by simp) ?_, ?_, C73_checked_partial ha kMsg_links _ hc⟩
  · intro ng a pre h
    rcases h with h | h
    · cases h with
      | refl => exact ⟨_, _, _, rfl⟩
      | attr h => cases h
    · cases h with
      | binL h => cases h with
        | refl => exact ⟨_, _, _, rfl⟩
        | attr h => cases h
      | binR h => cases h
  · refine C73_range_partial ha kMsg_regular kMsg_links hc (l := .attr false .first (.v MESSAGE))
      (u := .bin .sub (.attr false .first (.v ⟨[['C']]⟩)) (.n 1)) (by simp [kRange]) hr hu (by decide) ?_ (by simp)
    exact Path.snoc (p := [k1]) (Path.snoc (p := []) Path.nil (by simp [kMsg, kMsgWith])) (by simp [kMsg, kMsgWith])

/-- C73 (check): not every message is checked. The condition with the checksum may belong to some of the messages only, though the
checksum is part of all. -/
theorem C73_unchecked_counterexample : ∃ (s : Solver) (m : Msg) (c : ID × List ChkExpr) (p : List Link) (ρ : Env), s.Decides ∧
    m.AcceptedTyped s ∧ m.Regular ∧ c ∈ m.checksums ∧ Path m.links INITIAL p FINAL ∧ (∃ l ∈ p, l.target = ⟨c.1.key⟩) ∧
    (∀ D, ∀ l ∈ p, eval D ρ l.condition = some (.bool true)) ∧ ∀ l ∈ p, ¬ Checks c.1 l.condition := by
  refine ⟨kSolver, kMsg, (⟨[['C']]⟩, [kUnknown, kRange]), [k1, k2, k4], ⟨fun _ => .int 2, fun _ _ => .int 0, fun _ _ => .int 0, fun _ _ => .int 0⟩,
    tableSolver_decides, kMsg_acceptedTyped, kMsg_regular, by simp [kMsg, kMsgWith], ?_, ⟨k2, by simp, rfl⟩, ?_, ?_⟩
  · exact Path.snoc (p := [k1, k2]) (Path.snoc (p := [k1]) (Path.snoc (p := []) Path.nil (by simp [kMsg, kMsgWith])) (by simp [kMsg, kMsgWith]))
      (by simp [kMsg, kMsgWith])
  · intro D l hl
    simp only [List.mem_cons, List.not_mem_nil, or_false] at hl
    rcases hl with rfl | rfl | rfl <;> rfl
  · intro l hl
    simp only [List.mem_cons, List.not_mem_nil, or_false] at hl
    rintro ⟨ng, pre, h, _⟩
    rcases hl with rfl | rfl | rfl
    · cases h
    · cases h
    · have h : Subexpr _ (Expr.rel .ne (.v ⟨[['T']]⟩) (.n 1)) := h
      cases h with
      | relL h => cases h
      | relR h => cases h

/-- C73 (definition): the fields of a range do not have to exist. -/
theorem C73_range_counterexample : ∃ (s : Solver) (m : Msg) (c : ID × List ChkExpr) (l u : Expr) (x : ID), s.Decides ∧
    m.AcceptedTyped s ∧ m.Regular ∧ c ∈ m.checksums ∧ .range l u ∈ c.2 ∧ Lower x l ∧ Upper x u ∧ (⟨x.key⟩ : Field) ∉ m.fields ∧
    x.key ≠ MESSAGE.key :=
  ⟨kSolver, kMsg, (⟨[['C']]⟩, [kUnknown, kRange]), _, _, ⟨[['Z']]⟩, tableSolver_decides, kMsg_acceptedTyped, kMsg_regular,
    by simp [kMsg, kMsgWith], List.mem_cons_self .., .first, .last, by decide, by decide⟩

end Verif.Verify
