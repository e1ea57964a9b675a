import Verif.Verify.ExprTypesProps
import Verif.Verify.Example

/-! # A message that meets the hypotheses of the theorems of `Verif/Verify/ExprTypesProps.lean` -/

namespace Verif.Verify
open Verif Verif.Graph Verif.Types Verif.Typing

/-- The context in which the expressions of a link from `L` are checked. -/
def exCtxL : Ctx Unit := typedCtx [([['l']], .integer "M::U8" ⟨some 0, some 255⟩), ([['m'], ['u', '8']], .integer "M::U8" ⟨some 0, some 255⟩),
  ([['_', '_', 'i', 'n', 't', 'e', 'r', 'n', 'a', 'l', '_', '_'], ['o', 'p', 'a', 'q', 'u', 'e']], OPAQUE)]

theorem exMsg_ctx (fields : List Field) : (⟨exMsg.id, exMsg.links, fields, exMsg.types, exMsg.checksums⟩ : Msg).ctx [(fld 'l', exU8)] = .ok exCtxL := by
  with_unfolding_all rfl

theorem exMsg_check : check exCtxL (.rel .gt exL (.n 0)) (.ty .any) = .ok true ∧ check exCtxL (.mul [exL, .n 8]) (.ty .any) = .ok true ∧
    check exCtxL (.rel .eq exL (.n 0)) (.ty .any) = .ok true := by
  have hv : exCtxL.var (ID.key ⟨[['L']]⟩) = .integer "M::U8" ⟨some 0, some 255⟩ := by rfl
  have hk : ¬ (ID.mk [['L']]).key = MESSAGE.key := by decide
  refine ⟨?_, ?_, ?_⟩ <;>
  · simp only [check, exL, Expr.v, Expr.n, subOk, allOk, afterTy, ctorTy, ctorTyL, meets, leftWant, rightWant, hv]
    simp [commonType, Ty.common, mathTy, checkInstance, checkType, Ty.isInstance, Ty.isInteger, Ty.isCompatible, BOOLEAN,
      Bounds.contains, Bounds.defined]
    rfl

theorem typeErrorIn_tru (Γ : Ctx Unit) : typeErrorIn Γ .tru = .ok false := by
  have h : check Γ .tru (.ty .any) = .ok true := by
    simp only [check, subOk, afterTy, ctorTy, meets]
    simp [checkType, Ty.isCompatible, BOOLEAN]
    rfl
  rw [typeErrorIn, if_neg (fun h => by cases (undef_eq _).mp h), h]
  rfl

theorem typeErrorIn_undefined (Γ : Ctx Unit) : typeErrorIn Γ .undefined = .ok false := rfl

/-- The message with some fields. -/
def exMsgWith (fields : List Field) : Msg := ⟨exMsg.id, exMsg.links, fields, exMsg.types, exMsg.checksums⟩

theorem exMsg_typeErrors : typeErrorIn exCtxL (.rel .gt exL (.n 0)) = .ok false ∧ typeErrorIn exCtxL (.mul [exL, .n 8]) = .ok false ∧
    typeErrorIn exCtxL (.rel .eq exL (.n 0)) = .ok false := by
  obtain ⟨h1, h2, h3⟩ := exMsg_check
  refine ⟨?_, ?_, ?_⟩
  · rw [typeErrorIn, if_neg (fun h => by cases (undef_eq _).mp h), h1]; rfl
  · rw [typeErrorIn, if_neg (fun h => by cases (undef_eq _).mp h), h2]; rfl
  · rw [typeErrorIn, if_neg (fun h => by cases (undef_eq _).mp h), h3]; rfl

theorem exMsg_pathTypes (fields : List Field) :
    (exMsgWith fields).pathTypes [] [lnk INITIAL (fld 'l'), ⟨fld 'l', fld 'v', .rel .gt exL (.n 0), .mul [exL, .n 8], .undefined⟩,
      lnk (fld 'v') FINAL] = .ok false ∧
    (exMsgWith fields).pathTypes [] [lnk INITIAL (fld 'l'), lnk (fld 'l') FINAL (.rel .eq exL (.n 0))] = .ok false := by
  obtain ⟨h1, h2, h3⟩ := exMsg_typeErrors
  have c0 : ∃ Γ, (exMsgWith fields).ctx ((exMsgWith fields).see [] (lnk INITIAL (fld 'l'))) = .ok Γ := by
    with_unfolding_all exact ⟨_, rfl⟩
  have c1 : (exMsgWith fields).ctx ((exMsgWith fields).see [] ⟨fld 'l', fld 'v', .rel .gt exL (.n 0), .mul [exL, .n 8], .undefined⟩) = .ok exCtxL :=
    exMsg_ctx fields
  have c2 : (exMsgWith fields).ctx ((exMsgWith fields).see [] (lnk (fld 'l') FINAL (.rel .eq exL (.n 0)))) = .ok exCtxL := exMsg_ctx fields
  have c3 : ∃ Γ, (exMsgWith fields).ctx ((exMsgWith fields).see [(fld 'l', exU8)] (lnk (fld 'v') FINAL)) = .ok Γ := by
    with_unfolding_all exact ⟨_, rfl⟩
  obtain ⟨Γ0, c0⟩ := c0
  obtain ⟨Γ3, c3⟩ := c3
  have s0 : (exMsgWith fields).see [] (lnk INITIAL (fld 'l')) = [] := rfl
  have s1 : (exMsgWith fields).see [] ⟨fld 'l', fld 'v', .rel .gt exL (.n 0), .mul [exL, .n 8], .undefined⟩ = [(fld 'l', exU8)] := rfl
  constructor
  · rw [Msg.pathTypes, c0, s0, Msg.pathTypes, c1, s1, Msg.pathTypes, c3, Msg.pathTypes]
    simp [lnk, h1, h2, typeErrorIn_tru, typeErrorIn_undefined, Bind.bind, Except.bind]
    rfl
  · rw [Msg.pathTypes, c0, s0, Msg.pathTypes, c2, Msg.pathTypes]
    simp [lnk, h3, typeErrorIn_tru, typeErrorIn_undefined, Bind.bind, Except.bind]
    rfl

theorem exMsg_types_ok (fields : List Field) : (exMsgWith fields).verifyExpressionTypes exSolver 20 = .ok false := by
  have hp : paths (exMsgWith fields).links 20 FINAL =
      .ok [[lnk INITIAL (fld 'l'), lnk (fld 'l') FINAL (.rel .eq exL (.n 0))],
        [lnk INITIAL (fld 'l'), ⟨fld 'l', fld 'v', .rel .gt exL (.n 0), .mul [exL, .n 8], .undefined⟩, lnk (fld 'v') FINAL]] := by
    with_unfolding_all rfl
  obtain ⟨h1, h2⟩ := exMsg_pathTypes fields
  have c1 : (exMsgWith fields).contradictory exSolver
      [lnk INITIAL (fld 'l'), ⟨fld 'l', fld 'v', .rel .gt exL (.n 0), .mul [exL, .n 8], .undefined⟩, lnk (fld 'v') FINAL] = .ok false := by
    with_unfolding_all rfl
  have c2 : (exMsgWith fields).contradictory exSolver
      [lnk INITIAL (fld 'l'), lnk (fld 'l') FINAL (.rel .eq exL (.n 0))] = .ok false := by
    with_unfolding_all rfl
  rw [Msg.verifyExpressionTypes, hp]
  show anyM' _ _ = _
  simp only [anyM', Msg.pathTypeError, c1, c2]
  simp [h1, h2]
  rfl

theorem new_congr {s : Solver} {f g : Msg → Py Bool} {id : ID} {ls : List Link} {ts : List (Field × FTy)}
    {cs : List (ID × List ChkExpr)} {k : Nat} (h : ∀ fields, f ⟨id, ls, fields, ts, cs⟩ = g ⟨id, ls, fields, ts, cs⟩) :
    Msg.new s f id ls ts cs k = Msg.new s g id ls ts cs k := by
  simp only [Msg.new, h]

theorem exMsg_acceptedTyped : exMsg.AcceptedTyped exSolver := by
  refine ⟨20, ?_⟩
  rw [new_congr (g := fun _ => .ok false) exMsg_types_ok]
  exact rfl

theorem exMsg_valid : ∀ e ∈ exMsg.types, e.2.id.Valid := by
  intro e he
  simp only [exMsg, List.mem_cons, List.not_mem_nil, or_false] at he
  rcases he with rfl | rfl <;> (simp only [ID.Valid]; decide)

theorem exMsg_consistent : Consistent exMsg (exPath ++ [lnk (fld 'v') FINAL]) := by
  refine ⟨.floor, exEnv 0, exEnv_allowed 0, ?_⟩
  intro l hl
  simp only [exPath, List.cons_append, List.nil_append, List.mem_cons, List.not_mem_nil, or_false] at hl
  rcases hl with rfl | rfl | rfl
  · exact ⟨trivial, rfl, fun h => absurd rfl h⟩
  · refine ⟨(exLinks_plain _ 0 _ (by simp [exMsg, exLinks])).1, rfl, fun _ => ⟨?_, 16, rfl, rfl⟩⟩
    simp [Plain, PlainL, exL, Expr.v, Expr.n, exEnv, Atomic]
    exact trivial
  · exact ⟨trivial, rfl, fun h => absurd rfl h⟩

/-- The hypotheses of `C48_message_scope_partial`: `L` in `L * 8`. -/
example : ∃ t, Named exMsg (fun f => ∃ l' ∈ exPath, l'.source = f) (ID.key ⟨[['L']]⟩) t :=
  C48_message_scope_partial exMsg_acceptedTyped exMsg_regular exMsg_types exMsg_valid (q := [lnk INITIAL (fld 'l')])
    (r := [lnk (fld 'v') FINAL]) (l := ⟨fld 'l', fld 'v', .rel .gt exL (.n 0), .mul [exL, .n 8], .undefined⟩) exPath_path
    exMsg_consistent (e := .mul [exL, .n 8]) (.inr (.inl rfl)) (by simp) (.mul (t := exL) (by simp) (.var rfl))

/-- The hypotheses of `C48_message_value_partial`. -/
example (D : Division) (ρ : Env) (hρ : WellKinded exMsg ρ) : (∃ v, eval D ρ (.mul [exL, .n 8]) = some v) ∨ Faults D ρ (.mul [exL, .n 8]) := by
  refine C48_message_value_partial exMsg_acceptedTyped exMsg_regular exMsg_types exMsg_valid ?_ (q := [lnk INITIAL (fld 'l')])
    (r := [lnk (fld 'v') FINAL]) (l := ⟨fld 'l', fld 'v', .rel .gt exL (.n 0), .mul [exL, .n 8], .undefined⟩) exPath_path
    exMsg_consistent (e := .mul [exL, .n 8]) (.inr (.inl rfl)) (by simp) (.mul (by simp) ?_) D hρ
  · intro e he
    simp only [exMsg, List.mem_cons, List.not_mem_nil, or_false] at he
    rcases he with rfl | rfl <;> rfl
  · intro e he
    simp only [List.mem_cons, List.not_mem_nil, or_false] at he
    rcases he with rfl | rfl
    · exact .var
    · exact .num

/-- Values of all names: 2 for integers. -/
example : WellKinded exMsg ⟨fun x => if x = MESSAGE.key ∨ x = [['v']] ∨ x = FTy.typeName .opaque then .seq [] else .int 2,
    fun a _ => (match a with
      | .validChecksum | .valid | .present => .bool true
      | .opaque => .seq []
      | _ => .int 8), fun _ _ => .int 0, fun _ _ => .int 0⟩ := by
  have hn : ∀ {x t}, Named exMsg (fun _ => True) x t → (t = exU8 ∧ (x = [['l']] ∨ x = FTy.typeName exU8)) ∨
      (t = .opaque ∧ (x = MESSAGE.key ∨ x = [['v']] ∨ x = FTy.typeName .opaque)) := by
    intro x t h
    cases h with
    | message => exact .inr ⟨rfl, .inl rfl⟩
    | field _ hm =>
      simp only [exMsg, List.mem_cons, List.not_mem_nil, or_false, Prod.mk.injEq] at hm
      rcases hm with ⟨rfl, rfl⟩ | ⟨rfl, rfl⟩
      · exact .inl ⟨rfl, .inl rfl⟩
      · exact .inr ⟨rfl, .inr (.inl rfl)⟩
    | literal hm _ =>
      simp only [exMsg, exU8, List.mem_cons, List.not_mem_nil, or_false, Prod.mk.injEq] at hm
      rcases hm with ⟨_, h⟩ | ⟨_, h⟩ <;> cases h
    | typeName hm =>
      simp only [exMsg, List.mem_cons, List.not_mem_nil, or_false, Prod.mk.injEq] at hm
      rcases hm with ⟨_, rfl⟩ | ⟨_, rfl⟩
      · exact .inl ⟨rfl, .inr rfl⟩
      · exact .inr ⟨rfl, .inr (.inr rfl)⟩
  constructor
  · intro x t k h hk
    rcases hn h with ⟨rfl, rfl | rfl⟩ | ⟨rfl, hx⟩
    · cases hk; rfl
    · cases hk; rfl
    · cases hk
      simp only [hx, if_true]
      rfl
  · intro x t a k h hk
    rcases hn h with ⟨rfl, _⟩ | ⟨rfl, _⟩ <;> cases a <;> cases hk <;> rfl

/-! ## What is missing -/

/-- The name of a type is accepted as a value: `L = M::U8`. -/
theorem C48_type_name_counterexample : ∃ Γ, exMsg.ctx [(fld 'l', exU8)] = .ok Γ ∧
    typeErrorIn Γ (.rel .eq exL (.v ⟨[['M'], ['U', '8']]⟩)) = .ok false := by
  refine ⟨exCtxL, exMsg_ctx _, ?_⟩
  have hv : exCtxL.var (ID.key ⟨[['L']]⟩) = .integer "M::U8" ⟨some 0, some 255⟩ := by rfl
  have hw : exCtxL.var (ID.key ⟨[['M'], ['U', '8']]⟩) = .integer "M::U8" ⟨some 0, some 255⟩ := by rfl
  have h : check exCtxL (.rel .eq exL (.v ⟨[['M'], ['U', '8']]⟩)) (.ty .any) = .ok true := by
    simp only [check, exL, Expr.v, subOk, afterTy, ctorTy, meets, leftWant, rightWant, hv, hw]
    simp [checkInstance, checkType, Ty.isInstance, Ty.isInteger, Ty.isCompatible, BOOLEAN]
    rfl
  rw [typeErrorIn, if_neg (fun h => by cases (undef_eq _).mp h), h]
  rfl

end Verif.Verify
