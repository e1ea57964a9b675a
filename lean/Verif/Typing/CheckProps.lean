import Verif.Typing.CheckSound

/-! # Property C48: type checking of expressions is sound -/

namespace Verif.Typing
open Verif

variable {M : Type} [DecidableEq M]

/-- **C48**: an expression without type errors has a value, unless a division by zero or a negative power has to be
computed. Missing: expressions outside `Regular`, see the counterexamples below. -/
theorem C48_value_partial (D : Division) (Γ : Ctx M) (e : Expr) (w : Want M) (h : check Γ e w = .ok true)
    (hr : Regular Γ [] e) (ρ : Env) (hρ : Respects Γ ρ) : (∃ v, eval D ρ e = some v) ∨ Faults D ρ e := by
  obtain ⟨h1, h2⟩ := and_true h
  obtain ⟨k, _, hv⟩ := sound (D := D) hr hρ h1 (meets_defined h2)
  exact hv.imp (fun ⟨v, hv, _⟩ => ⟨v, hv⟩) id

/-- **C48**: the value is of the kind of the expected type. -/
theorem C48_kind_partial (D : Division) (Γ : Ctx M) (e : Expr) (t : Ty M) (k : Kind) (ht : t.kind = some k)
    (h : check Γ e (.ty t) = .ok true) (hr : Regular Γ [] e) (ρ : Env) (hρ : Respects Γ ρ) :
    (∃ v, eval D ρ e = some v ∧ kindOf v = k) ∨ Faults D ρ e := by
  obtain ⟨h1, h2⟩ := and_true h
  obtain ⟨l, hl, hv⟩ := sound (D := D) hr hρ h1 (meets_defined h2)
  have := compatible_kind (meets_ty h2 (by rintro rfl; cases ht)) hl ht
  subst this
  exact hv

/-- **C48**: the value is an integer if an integer is expected. -/
theorem C48_integer_partial (D : Division) (Γ : Ctx M) (e : Expr) (h : check Γ e (.cls .anyInteger) = .ok true)
    (hr : Regular Γ [] e) (ρ : Env) (hρ : Respects Γ ρ) : (∃ i, eval D ρ e = some (.int i)) ∨ Faults D ρ e := by
  obtain ⟨h1, h2⟩ := and_true h
  obtain ⟨l, hl, hv⟩ := sound (D := D) hr hρ h1 (meets_defined h2)
  rcases meets_cls h2 with hi | hi
  · rw [isInteger_kind hi] at hl
    cases hl
    rcases hv with ⟨v, hv, hk⟩ | hf
    · obtain ⟨i, rfl⟩ := kindOf_int hk
      exact .inl ⟨i, hv⟩
    · exact .inr hf
  · rw [hi] at hl; cases hl

theorem subOk_attr {Γ : Ctx M} {ng : Bool} {k : AttrKind} {pre : Expr} (h : subOk Γ (.attr ng k pre) = .ok true) :
    (∃ n p s, pre = .sel n p s ∧ subOk Γ p = .ok true ∧ afterTy Γ p ≠ .undefined) ∨
    (subOk Γ pre = .ok true ∧ afterTy Γ pre ≠ .undefined) := by
  by_cases hk : k = .present
  · subst hk
    cases pre with
    | sel n p s =>
      rw [subOk] at h
      obtain ⟨h1, h2⟩ := and_true h
      exact .inl ⟨n, p, s, rfl, h1, meets_defined h2⟩
    | _ => cases h
  · rw [subOk.eq_8 Γ ng k pre (fun _ _ _ h _ => hk h) hk] at h
    obtain ⟨h1, h2⟩ := and_true h
    exact .inr ⟨h1, meets_defined h2⟩

theorem scope {x : List PyStr} {e : Expr} (hx : Free x e) :
    ∀ Γ : Ctx M, (subOk Γ e = .ok true → afterTy Γ e ≠ .undefined → Γ.var x ≠ .undefined) ∧
      (∀ n p s, e = .sel n p s → subOk Γ p = .ok true → afterTy Γ p ≠ .undefined → Γ.var x ≠ .undefined) := by
  induction hx with
  | @var ng imm id hx =>
    intro Γ
    refine ⟨fun _ h => ?_, fun _ _ _ h => by cases h⟩
    simp only [afterTy, ctorTy] at h
    subst hx
    cases imm with
    | true => exact absurd rfl h
    | false => simpa using h
  | attr _ ih =>
    intro Γ
    refine ⟨fun h _ => ?_, fun _ _ _ h => by cases h⟩
    rcases subOk_attr h with ⟨n, p, s, rfl, h1, h2⟩ | ⟨h1, h2⟩
    · exact (ih Γ).2 n p s rfl h1 h2
    · exact (ih Γ).1 h1 h2
  | sel _ ih =>
    intro Γ
    refine ⟨fun h _ => ?_, fun n p s h h1 h2 => by cases h; exact (ih Γ).1 h1 h2⟩
    rw [subOk] at h
    obtain ⟨a, ha, h⟩ := bind_true h
    obtain ⟨b, hb, h⟩ := bind_true h
    have h := Except.ok.inj h
    simp only [Bool.and_eq_true] at h
    rw [h.1.2] at ha
    rw [h.2] at hb
    exact (ih Γ).1 ha (meets_defined hb)
  | call ha _ ih =>
    intro Γ
    refine ⟨fun h _ => ?_, fun _ _ _ h => by cases h⟩
    rw [subOk] at h
    obtain ⟨a, hok, h2⟩ := bind_true h
    have h2 := Except.ok.inj h2
    simp only [Bool.and_eq_true] at h2
    rw [h2.1] at hok
    obtain ⟨h3, h4⟩ := argsOk_mem hok _ ha
    exact (ih Γ).1 h3 h4
  | not _ ih =>
    intro Γ
    refine ⟨fun h _ => ?_, fun _ _ _ h => by cases h⟩
    rw [subOk] at h
    obtain ⟨h1, h2⟩ := and_true h
    exact absurd rfl ((ih Γ.blind).1 h1 (meets_defined h2))
  | bool ht _ ih =>
    intro Γ
    refine ⟨fun h _ => ?_, fun _ _ _ h => by cases h⟩
    rw [subOk] at h
    obtain ⟨h1, h2⟩ := allOk_mem h _ ht
    exact (ih Γ).1 h1 (meets_defined h2)
  | add ht _ ih =>
    intro Γ
    refine ⟨fun h _ => ?_, fun _ _ _ h => by cases h⟩
    rw [subOk] at h
    obtain ⟨h1, h2⟩ := allOk_mem h _ ht
    exact (ih Γ).1 h1 (meets_defined h2)
  | mul ht _ ih =>
    intro Γ
    refine ⟨fun h _ => ?_, fun _ _ _ h => by cases h⟩
    rw [subOk] at h
    obtain ⟨h1, h2⟩ := allOk_mem h _ ht
    exact (ih Γ).1 h1 (meets_defined h2)
  | agg ht _ ih =>
    intro Γ
    refine ⟨fun h _ => ?_, fun _ _ _ h => by cases h⟩
    rw [subOk] at h
    obtain ⟨h1, h2⟩ := allOk_mem h _ ht
    exact (ih Γ).1 h1 (meets_defined h2)
  | binLeft _ ih =>
    intro Γ
    refine ⟨fun h _ => ?_, fun _ _ _ h => by cases h⟩
    rw [subOk] at h
    obtain ⟨h1, h2, h3, h4⟩ := and4_true h
    exact (ih Γ).1 h1 (meets_defined h2)
  | binRight _ ih =>
    intro Γ
    refine ⟨fun h _ => ?_, fun _ _ _ h => by cases h⟩
    rw [subOk] at h
    obtain ⟨h1, h2, h3, h4⟩ := and4_true h
    exact (ih Γ).1 h3 (meets_defined h4)
  | relLeft _ ih =>
    intro Γ
    refine ⟨fun h _ => ?_, fun _ _ _ h => by cases h⟩
    rw [subOk] at h
    obtain ⟨h1, h2, h3, h4⟩ := and4_true h
    exact (ih Γ).1 h1 (meets_defined h2)
  | relRight _ ih =>
    intro Γ
    refine ⟨fun h _ => ?_, fun _ _ _ h => by cases h⟩
    rw [subOk] at h
    obtain ⟨h1, h2, h3, h4⟩ := and4_true h
    exact (ih Γ).1 h3 (meets_defined h4)
  | iterable _ ih =>
    intro Γ
    refine ⟨fun h _ => ?_, fun _ _ _ h => by cases h⟩
    rw [subOk] at h
    obtain ⟨h1, h2, h3, h4⟩ := and4_true h
    exact (ih Γ).1 h1 (meets_defined h2)
  | predicate hp _ ih =>
    intro Γ
    refine ⟨fun h _ => ?_, fun _ _ _ h => by cases h⟩
    rw [subOk] at h
    obtain ⟨h1, h2, h3, h4⟩ := and4_true h
    have := (ih _).1 h3 (meets_defined h4)
    simpa [Ctx.bind, hp] using this

/-- **C48**: in an expression without type errors, all names are declared. -/
theorem C48_scope (Γ : Ctx M) (e : Expr) (w : Want M) (h : check Γ e w = .ok true) (x : List PyStr) (hx : Free x e) :
    Γ.var x ≠ .undefined := by
  obtain ⟨h1, h2⟩ := and_true h
  exact (scope hx Γ).1 h1 (meets_defined h2)

/-! ## A case that meets the hypotheses -/

/-- `L`, an integer. -/
def exL : ID := ⟨[['l']]⟩
/-- `X`, a parameter. -/
def exX : ID := ⟨[['x']]⟩

/-- The type of `L`. -/
def exCtx : Ctx Unit := ⟨fun x => if x = exL.key then .integer "T" ⟨some 0, some 9⟩ else .undefined, fun _ => (.undefined, []), fun _ _ => none⟩

/-- `for all X in [1, L] => L'Size / X > 0`. -/
def exExpr : Expr :=
  .quant .allIn exX (.agg [.n 1, .v exL]) (.rel .gt (.bin .div (.attr false .size (.v exL)) (.v exX)) (.n 0))

/-- A value of `L`. -/
def exEnv : Env := ⟨fun _ => .int 0, fun a _ => (match a with
  | .validChecksum | .valid | .present => .bool true
  | .opaque => .seq []
  | _ => .int 8), fun _ _ => .int 0, fun _ _ => .int 0⟩

theorem exNames : exL.key ≠ exX.key := by decide

theorem exElement : (afterTy exCtx (.agg [.n 1, .v exL])).element = .integer "T" ⟨some 0, some 9⟩ := by with_unfolding_all rfl

theorem exExpr_ok : check exCtx exExpr (.ty BOOLEAN) = .ok true := by
  simp only [check, exExpr, subOk, allOk, exElement, afterTy, ctorTy, ctorTyL, meets, leftWant, rightWant, prefixWant]
  simp [commonType, Ty.common, checkInstance, checkType, Ty.isInstance, Ty.isInteger, Ty.isCompatible, BOOLEAN, exCtx, Ctx.bind,
    Ty.element, Bounds.contains, Bounds.defined, exNames]
  rfl

theorem exExpr_regular : Regular exCtx [] exExpr := by
  refine .quant (.agg ?_ ?_) (by rw [exElement]; rfl) (.rel (.bin (.attr (by decide) ?_ ?_) (.var ?_ ?_)) .num ?_)
  · intro e he
    simp only [List.mem_cons, List.not_mem_nil, or_false] at he
    rcases he with rfl | rfl
    · exact .num
    · exact .var (.inr rfl) (fun h => by cases h)
  · intro e he
    simp only [List.mem_cons, List.not_mem_nil, or_false] at he
    rcases he with rfl | rfl <;> rfl
  · exact .inr rfl
  · exact fun h => by cases h
  · exact .inr (by rw [exElement]; rfl)
  · exact fun h => by cases h
  · exact fun h => by rcases h with h | h <;> cases h

theorem exEnv_respects : Respects exCtx exEnv := by
  refine ⟨?_, ?_, ?_, ?_, ?_⟩
  · intro x k h
    simp only [exCtx] at h
    split at h <;> cases h
    rfl
  · intro x a k _ hu h
    by_cases hx : x = exL.key
    · subst hx
      cases a <;> cases h <;> rfl
    · simp [exCtx, hx] at hu
  · intro x s n b t k h
    simp only [exCtx] at h
    split at h <;> cases h
  · intro f vs k h; cases h
  · intro f k _ h; cases h

/-- For `L = 0` the expression has a fault, as its second element is zero. -/
example (D : Division) : Faults D exEnv exExpr :=
  .predicate (xs := [1, 0]) (x := 0) (by simp [eval, evalL, exEnv, allSome, Val.negIf, Val.int?]) (by simp)
    (.relLeft (.here (a := 8) (b := 0) rfl (by simp [eval, Env.set, Val.negIf]) rfl))

example (D : Division) : (∃ v, eval D exEnv exExpr = some v) ∨ Faults D exEnv exExpr :=
  C48_value_partial D exCtx exExpr _ exExpr_ok exExpr_regular exEnv exEnv_respects

example (D : Division) : (∃ v, eval D exEnv exExpr = some v ∧ kindOf v = .bool) ∨ Faults D exEnv exExpr :=
  C48_kind_partial D exCtx exExpr BOOLEAN .bool rfl exExpr_ok exExpr_regular exEnv exEnv_respects

example (D : Division) : (∃ i, eval D exEnv (.mul [.v exL, .n 8]) = some (.int i)) ∨ Faults D exEnv (.mul [.v exL, .n 8]) := by
  refine C48_integer_partial D exCtx _ ?_ (.mul (by simp) ?_) exEnv exEnv_respects
  · with_unfolding_all rfl
  · intro e he
    simp only [List.mem_cons, List.not_mem_nil, or_false] at he
    rcases he with rfl | rfl
    · exact .var (.inr rfl) (fun h => by cases h)
    · exact .num

example : exCtx.var exL.key ≠ .undefined :=
  C48_scope exCtx exExpr _ exExpr_ok _ (.iterable (.agg (e := .v exL) (by simp) (.var rfl)))

/-! ## What is missing -/

/-- `True in [1]` is accepted: two aggregates are always compatible (`rflx/typing_.py:205-210`). The value is not in a
sequence of integers for want of the same kind. -/
theorem C48_member_counterexample (D : Division) (Γ : Ctx M) (ρ : Env) :
    check Γ (.rel .isIn .tru (.agg [.n 1])) (.ty BOOLEAN) = .ok true ∧
    eval D ρ (.rel .isIn .tru (.agg [.n 1])) = none ∧ ¬ Faults D ρ (.rel .isIn .tru (.agg [.n 1])) := by
  refine ⟨?_, by simp [eval, evalL, allSome, Val.int?, RelOp.eval], ?_⟩
  · simp only [check, subOk, allOk, afterTy, ctorTy, ctorTyL, meets, leftWant, rightWant]
    simp [commonType, Ty.common, checkInstance, checkType, Ty.isInstance, Ty.isCompatible, BOOLEAN]
    rfl
  · intro h
    cases h with
    | relLeft h => cases h
    | relRight h =>
      cases h with
      | agg h1 h2 =>
        obtain rfl := List.mem_singleton.mp h1
        cases h2

/-- `-B and True` is accepted for a truth value `B`: the sign of a name is not checked (`rflx/expression.py:1041-1042`). -/
theorem C48_sign_counterexample (D : Division) (ρ : Env) (x : ID) (b : Bool) (hρ : ρ.var x.key = .bool b) :
    let Γ : Ctx M := ⟨fun y => if y = x.key then BOOLEAN else .undefined, fun _ => (.undefined, []), fun _ _ => none⟩
    let e : Expr := .bool .and [.var true false x, .tru]
    check Γ e (.ty BOOLEAN) = .ok true ∧ eval D ρ e = none ∧ ¬ Faults D ρ e := by
  refine ⟨?_, ?_, ?_⟩
  · simp only [check, subOk, allOk, afterTy, ctorTy, meets]
    simp [checkType, Ty.isCompatible, BOOLEAN]
    rfl
  · simp [eval, evalL, hρ, Val.negIf, Val.int?]
  · intro h
    cases h with
    | bool h1 h2 =>
      simp only [List.mem_cons, List.not_mem_nil, or_false] at h1
      rcases h1 with rfl | rfl <;> cases h2

/-- `not B` is rejected for a truth value `B`: names below `Not` get no types, as `Not` does not define `substituted`
(`rflx/expression.py:259-308`). -/
theorem C48_not_counterexample (x : ID) :
    let Γ : Ctx M := ⟨fun y => if y = x.key then BOOLEAN else .undefined, fun _ => (.undefined, []), fun _ _ => none⟩
    check Γ (.v x) (.ty BOOLEAN) = .ok true ∧ check Γ (.not (.v x)) (.ty BOOLEAN) = .ok false := by
  refine ⟨?_, ?_⟩
  · simp only [check, subOk, afterTy, ctorTy, meets]
    simp [checkType, Ty.isCompatible, BOOLEAN]
    rfl
  · simp only [check, subOk, afterTy, ctorTy, meets, Ctx.blind]
    simp [checkType, Ty.isCompatible, BOOLEAN]
    rfl

end Verif.Typing
