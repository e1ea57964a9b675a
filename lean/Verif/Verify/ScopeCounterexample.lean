import Verif.Verify.ExprTypesExample

/-! # C48: a condition that names a field which is not read

```
type T is
   message
      A : U8
         then B
            if A = 1
         then C
            if A > 1;
      B : U8;
      C : U8
         then null
            if B = 3 and A = 1
         then null
            if A > 1;
   end message;
``` -/

namespace Verif.Verify
open Verif Verif.Graph Verif.Types Verif.Typing

set_option linter.unusedSimpArgs false

def uA : Expr := .v ⟨[['A']]⟩
def uB : Expr := .v ⟨[['B']]⟩
def uOne : Expr := .rel .eq uA (.n 1)
def uMore : Expr := .rel .gt uA (.n 1)
def uBoth : Expr := .bool .and [.rel .eq uB (.n 3), uOne]

def u1 : Link := lnk INITIAL (fld 'a')
def u2 : Link := lnk (fld 'a') (fld 'b') uOne
def u3 : Link := lnk (fld 'a') (fld 'c') uMore
def u4 : Link := lnk (fld 'b') (fld 'c')
def u5 : Link := lnk (fld 'c') FINAL uBoth
def u6 : Link := lnk (fld 'c') FINAL uMore

def uMsgWith (fields : List Field) : Msg :=
  ⟨⟨[['M'], ['T']]⟩, [u1, u2, u3, u4, u5, u6], fields, [(fld 'a', exU8), (fld 'b', exU8), (fld 'c', exU8)], []⟩

def uMsg : Msg := uMsgWith [fld 'a', fld 'b', fld 'c']

/-- A message with the value `x` of the field `A` and 3 as value of the field `B`, which is there if `x` is 1; it starts with bit 1. -/
def uModel (x : Int) : ZModel :=
  let b : Int := if x = 1 then 8 else 0
  ⟨fun
    | .var k => if k = [['a']] then x else if k = [['b']] then 3 else 0
    | .attr .first _ k => if k = [['b']] then 9 else if k = [['c']] then 9 + b else if k = FINAL.key then 17 + b else 1
    | .attr .size _ k => if k = MESSAGE.key then 16 + b else if k = FINAL.key then 0 else 8
    | .attr .last _ k => if k = [['a']] then 8 else if k = [['b']] then 16 else 16 + b
    | _ => 0, fun _ => 0, fun _ => 0, fun _ _ => 0⟩

/-- Sets of formulas that cannot be satisfied. -/
def uUnsat : List (List Expr) :=
  let first := at' .first MESSAGE
  let last := at' .last MESSAGE
  let lastA := at' .last (fld 'a')
  let lastB := at' .last (fld 'b')
  let endA := Expr.bin .sub (.add [first, .n 8]) (.n 1)
  let nextA := Expr.add [lastA, .n 1]
  let nextB := Expr.add [lastB, .n 1]
  let endN := fun n => Expr.bin .sub (.add [n, .n 8]) (.n 1)
  let out := fun a b => Expr.not (.bool .and [.rel .ge bitVar a, .rel .le bitVar b])
  let size := fun c => at' .size (fld c)
  [[uOne, uMore], [uBoth, uMore], [.bool .and [uOne, uMore]], [.bool .and [uBoth, uMore]],
   [.rel .lt (.n 8) (.n 0)], [.rel .lt (.n 0) (.n 0)],
   [.rel .ge bitVar first, .rel .le bitVar last, out first endA, out nextA (endN nextA), .rel .eq (endN nextA) last, .rel .eq lastA endA],
   [.rel .ge bitVar first, .rel .le bitVar last, out first endA, out nextA (endN nextA), out nextB (endN nextB), .rel .eq (endN nextB) last,
    .rel .eq lastA endA, .rel .eq lastB (endN nextA)],
   [.rel .ne (.bin .mod (.add [size 'a', size 'c']) (.n 8)) (.n 0), .rel .eq (size 'a') (.n 8), .rel .eq (size 'c') (.n 8)],
   [.rel .ne (.bin .mod (.add [size 'a', size 'b', size 'c']) (.n 8)) (.n 0), .rel .eq (size 'a') (.n 8), .rel .eq (size 'b') (.n 8),
    .rel .eq (size 'c') (.n 8)]]

theorem uUnsat_unsat : ∀ u ∈ uUnsat, ¬ ∃ M, Holds M u := by
  intro u hu
  simp only [uUnsat, List.mem_cons, List.not_mem_nil, or_false] at hu
  rcases hu with rfl | rfl | rfl | rfl | rfl | rfl | rfl | rfl | rfl | rfl <;>
  · rintro ⟨M, h⟩
    simp [Holds, zeval, zevalL, at', bitVar, uOne, uMore, uBoth, uA, uB, Expr.v, Expr.n, Bind.bind, Except.bind, pure, Except.pure, ZVal.int?,
      ZVal.bool?, zRel, zArith, zEqual, ZVal.cast, intSum, intProd, BoolOp.isAnd] at h
    try omega

def uSolver : Solver := tableSolver (uModel 1) [uModel 1, uModel 2] uUnsat uUnsat_unsat

theorem uMsg_accepted : Msg.new uSolver (fun _ => .ok false) uMsg.id uMsg.links uMsg.types uMsg.checksums 20 = .ok uMsg := rfl

theorem u_check {Γ : Ctx Unit} (ha : Γ.var (ID.key ⟨[['A']]⟩) = .integer "M::U8" ⟨some 0, some 255⟩) :
    check Γ uOne (.ty .any) = .ok true ∧ check Γ uMore (.ty .any) = .ok true ∧
    (Γ.var (ID.key ⟨[['B']]⟩) = .integer "M::U8" ⟨some 0, some 255⟩ → check Γ uBoth (.ty .any) = .ok true) := by
  refine ⟨?_, ?_, fun hb => ?_⟩
  · simp only [check, uOne, uA, Expr.v, Expr.n, subOk, allOk, afterTy, ctorTy, ctorTyL, meets, leftWant, rightWant, ha]
    simp [commonType, Ty.common, mathTy, checkInstance, checkType, Ty.isInstance, Ty.isInteger, Ty.isCompatible, BOOLEAN,
      Bounds.contains, Bounds.defined]
    rfl
  · simp only [check, uMore, uA, Expr.v, Expr.n, subOk, allOk, afterTy, ctorTy, ctorTyL, meets, leftWant, rightWant, ha]
    simp [commonType, Ty.common, mathTy, checkInstance, checkType, Ty.isInstance, Ty.isInteger, Ty.isCompatible, BOOLEAN,
      Bounds.contains, Bounds.defined]
    rfl
  · simp only [check, uBoth, uOne, uB, uA, Expr.v, Expr.n, subOk, allOk, afterTy, ctorTy, ctorTyL, meets, leftWant, rightWant, ha, hb]
    simp [commonType, Ty.common, mathTy, checkInstance, checkType, Ty.isInstance, Ty.isInteger, Ty.isCompatible, BOOLEAN,
      Bounds.contains, Bounds.defined]
    rfl

theorem u_typeErrors {Γ : Ctx Unit} (ha : Γ.var (ID.key ⟨[['A']]⟩) = .integer "M::U8" ⟨some 0, some 255⟩) :
    typeErrorIn Γ uOne = .ok false ∧ typeErrorIn Γ uMore = .ok false ∧
    (Γ.var (ID.key ⟨[['B']]⟩) = .integer "M::U8" ⟨some 0, some 255⟩ → typeErrorIn Γ uBoth = .ok false) := by
  obtain ⟨h1, h2, h3⟩ := u_check ha
  refine ⟨?_, ?_, fun hb => ?_⟩
  · rw [typeErrorIn, if_neg (fun h => by cases (undef_eq _).mp h), h1]; rfl
  · rw [typeErrorIn, if_neg (fun h => by cases (undef_eq _).mp h), h2]; rfl
  · rw [typeErrorIn, if_neg (fun h => by cases (undef_eq _).mp h), h3 hb]; rfl

/-- The context after some fields has their types. -/
theorem u_ctx (fields : List Field) :
    (∃ Γ, (uMsgWith fields).ctx [] = .ok Γ) ∧
    (∃ Γ, (uMsgWith fields).ctx [(fld 'a', exU8)] = .ok Γ ∧ Γ.var (ID.key ⟨[['A']]⟩) = .integer "M::U8" ⟨some 0, some 255⟩) ∧
    (∃ Γ, (uMsgWith fields).ctx [(fld 'c', exU8), (fld 'a', exU8)] = .ok Γ ∧ Γ.var (ID.key ⟨[['A']]⟩) = .integer "M::U8" ⟨some 0, some 255⟩) ∧
    (∃ Γ, (uMsgWith fields).ctx [(fld 'b', exU8), (fld 'a', exU8)] = .ok Γ) ∧
    ∃ Γ, (uMsgWith fields).ctx [(fld 'c', exU8), (fld 'b', exU8), (fld 'a', exU8)] = .ok Γ ∧
      Γ.var (ID.key ⟨[['A']]⟩) = .integer "M::U8" ⟨some 0, some 255⟩ ∧ Γ.var (ID.key ⟨[['B']]⟩) = .integer "M::U8" ⟨some 0, some 255⟩ := by
  with_unfolding_all exact ⟨⟨_, rfl⟩, ⟨_, rfl, rfl⟩, ⟨_, rfl, rfl⟩, ⟨_, rfl⟩, ⟨_, rfl, rfl, rfl⟩⟩

theorem u_pathTypes (fields : List Field) : (uMsgWith fields).pathTypes [] [u1, u3, u6] = .ok false ∧
    (uMsgWith fields).pathTypes [] [u1, u2, u4, u5] = .ok false := by
  obtain ⟨⟨Γ0, c0⟩, ⟨Γ1, c1, a1⟩, ⟨Γ2, c2, a2⟩, ⟨Γ3, c3⟩, ⟨Γ4, c4, a4, b4⟩⟩ := u_ctx fields
  have s1 : (uMsgWith fields).see [] u1 = [] := rfl
  have s2 : (uMsgWith fields).see [] u2 = [(fld 'a', exU8)] := rfl
  have s3 : (uMsgWith fields).see [] u3 = [(fld 'a', exU8)] := rfl
  have s4 : (uMsgWith fields).see [(fld 'a', exU8)] u4 = [(fld 'b', exU8), (fld 'a', exU8)] := rfl
  have s5 : (uMsgWith fields).see [(fld 'b', exU8), (fld 'a', exU8)] u5 = [(fld 'c', exU8), (fld 'b', exU8), (fld 'a', exU8)] := rfl
  have s6 : (uMsgWith fields).see [(fld 'a', exU8)] u6 = [(fld 'c', exU8), (fld 'a', exU8)] := rfl
  constructor
  · rw [Msg.pathTypes, s1, c0, Msg.pathTypes, s3, c1, Msg.pathTypes, s6, c2, Msg.pathTypes]
    simp [u1, u3, u6, lnk, (u_typeErrors a1).2.1, (u_typeErrors a2).2.1, typeErrorIn_tru, typeErrorIn_undefined, Bind.bind, Except.bind]
    rfl
  · rw [Msg.pathTypes, s1, c0, Msg.pathTypes, s2, c1, Msg.pathTypes, s4, c3, Msg.pathTypes, s5, c4, Msg.pathTypes]
    simp [u1, u2, u4, u5, lnk, (u_typeErrors a1).1, (u_typeErrors a4).2.2 b4, typeErrorIn_tru, typeErrorIn_undefined, Bind.bind, Except.bind]
    rfl

theorem uMsg_types_ok (fields : List Field) : (uMsgWith fields).verifyExpressionTypes uSolver 20 = .ok false := by
  have hp : paths (uMsgWith fields).links 20 FINAL = .ok [[u1, u3, u5], [u1, u2, u4, u5], [u1, u3, u6], [u1, u2, u4, u6]] := by
    with_unfolding_all rfl
  obtain ⟨h1, h2⟩ := u_pathTypes fields
  have c1 : (uMsgWith fields).contradictory uSolver [u1, u3, u5] = .ok true := by with_unfolding_all rfl
  have c2 : (uMsgWith fields).contradictory uSolver [u1, u2, u4, u5] = .ok false := by with_unfolding_all rfl
  have c3 : (uMsgWith fields).contradictory uSolver [u1, u3, u6] = .ok false := by with_unfolding_all rfl
  have c4 : (uMsgWith fields).contradictory uSolver [u1, u2, u4, u6] = .ok true := by with_unfolding_all rfl
  rw [Msg.verifyExpressionTypes, hp]
  show anyM' _ _ = _
  simp only [anyM', Msg.pathTypeError, c1, c2, c3, c4]
  simp [h1, h2]
  rfl

theorem uMsg_acceptedTyped : uMsg.AcceptedTyped uSolver := by
  refine ⟨20, ?_⟩
  rw [new_congr (g := fun _ => .ok false) uMsg_types_ok]
  exact uMsg_accepted

/-- A message with 2 as value of the field `A`. -/
def uEnv : Env :=
  ⟨fun _ => .int 2, fun
    | .first, _ => .int 1
    | .size, k => .int (if k = MESSAGE.key then 16 else 8)
    | _, _ => .int 16, fun _ _ => .int 0, fun _ _ => .int 0⟩

theorem uTypes {e : Field × FTy} : e ∈ uMsg.types ↔ e = (fld 'a', exU8) ∨ e = (fld 'b', exU8) ∨ e = (fld 'c', exU8) := by
  show e ∈ [_, _, _] ↔ _
  simp

theorem uEnv_allowed : Allowed uMsg uEnv where
  start := ⟨1, rfl, rfl⟩
  total := ⟨16, rfl, rfl⟩
  value := by
    intro e he hs
    rcases uTypes.mp he with rfl | rfl | rfl <;> exact ⟨2, .inl rfl, ⟨0, .b0⟩, ⟨255, .b0⟩, rfl, rfl, by decide, by decide⟩
  size := by
    intro e he s hs
    rcases uTypes.mp he with rfl | rfl | rfl <;> (cases hs; rfl)
  literals := by
    intro e he t ht
    rcases uTypes.mp he with rfl | rfl | rfl <;> cases ht
  typeSize := by
    intro e he s hs
    rcases uTypes.mp he with rfl | rfl | rfl <;> (cases hs; rfl)

theorem uConsistent : Consistent uMsg [u1, u3, u6] := by
  refine ⟨.floor, uEnv, uEnv_allowed, ?_⟩
  intro l hl
  have hm : Plain .floor uEnv uMore := by
    simp [Plain, uMore, uA, Expr.v, Expr.n, uEnv, Atomic]
  simp only [List.mem_cons, List.not_mem_nil, or_false] at hl
  rcases hl with rfl | rfl | rfl
  · exact ⟨trivial, rfl, fun h => absurd rfl h⟩
  · exact ⟨hm, rfl, fun h => absurd rfl h⟩
  · exact ⟨hm, rfl, fun h => absurd rfl h⟩

/-- C48 (the restriction to consistent paths): in an accepted message, the field `C` may follow `A` (for `A = 2`), and the condition of a
link of `C`, which has to be evaluated then, names the field `B`, which has not been read. The path over that link is contradictory, so it is
not checked. -/
theorem C48_message_scope_counterexample : ∃ (s : Solver) (m : Msg) (q : List Link) (l l' : Link) (x : List PyStr),
    s.Decides ∧ m.AcceptedTyped s ∧ m.Regular ∧ (∀ e ∈ m.types, e.2.Ok) ∧ (∀ e ∈ m.types, e.2.id.Valid) ∧
    Path m.links INITIAL (q ++ [l']) FINAL ∧ Consistent m (q ++ [l']) ∧ l ∈ m.links ∧ l.source = l'.source ∧ Free x l.condition ∧
    ¬ ∃ t, Named m (fun f => ∃ l' ∈ q ++ [l], l'.source = f) x t := by
  refine ⟨uSolver, uMsg, [u1, u3], u5, u6, ID.key ⟨[['B']]⟩, tableSolver_decides, uMsg_acceptedTyped, ?_, ?_, ?_, ?_, uConsistent, ?_, rfl, ?_, ?_⟩
  · simp only [Msg.Regular]; decide
  · intro e he
    have h8 : exU8.Ok := exMsg_types (fld 'l', exU8) (by simp [exMsg])
    rcases uTypes.mp he with rfl | rfl | rfl <;> exact h8
  · intro e he
    have h8 : exU8.id.Valid := exMsg_valid (fld 'l', exU8) (by simp [exMsg])
    rcases uTypes.mp he with rfl | rfl | rfl <;> exact h8
  · have hm : ∀ l ∈ [u1, u2, u3, u4, u5, u6], l ∈ uMsg.links := fun _ h => h
    have p1 : Path uMsg.links INITIAL [u1] (fld 'a') := Path.snoc (l := u1) .nil (hm _ (by simp))
    have p2 : Path uMsg.links INITIAL [u1, u3] (fld 'c') := Path.snoc (l := u3) p1 (hm _ (by simp))
    exact Path.snoc (l := u6) p2 (hm _ (by simp))
  · show u5 ∈ [u1, u2, u3, u4, u5, u6]; simp
  · exact .bool (t := .rel .eq uB (.n 3)) (by simp) (.relLeft (.var rfl))
  · rintro ⟨t, ht⟩
    generalize hx : ID.key ⟨[['B']]⟩ = x at ht
    cases ht with
    | message => revert hx; decide
    | field hS hm =>
      obtain ⟨l, hl, rfl⟩ := hS
      simp only [List.cons_append, List.nil_append, List.mem_cons, List.not_mem_nil, or_false] at hl
      rcases hl with rfl | rfl | rfl <;> (revert hx; decide)
    | literal hm hv => rcases uTypes.mp hm with h | h | h <;> cases h
    | typeName hm => rcases uTypes.mp hm with h | h | h <;> (cases h; revert hx; decide)

end Verif.Verify
