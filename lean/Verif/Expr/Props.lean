import Verif.Expr.Parse
import Verif.Expr.Mono

/-! # Properties C08, C09, C11, C13: meaning of expressions under simplification, comparison, negation

Specification: `eval` in `Verif/Expr/Semantics.lean`; classes of expressions (`WF`, `Good`, `Neg`,
`HQ`) in `Verif/Expr/WF.lean`. `D` is any interpretation of division that agrees on exact
quotients; `D.Odd` says that it truncates towards zero (as in Ada). -/

namespace Verif

variable {D : Division}

/-! ## Termination -/

/-- `simplified` always terminates: the fuel of `Expr.simplified` suffices for every expression. -/
theorem C08_terminates (e : Expr) : e.simplified ≠ .error .fuel := by
  have := (fuelOK (4 * weight e)).simp e (Nat.le_refl _)
  intro h
  rw [Expr.simplified] at h
  rw [h] at this
  exact this rfl

/-- The result of `simplified` does not depend on the amount of fuel. -/
theorem C08_fuel_irrelevant (e : Expr) (k : Nat) (h : simplify k e ≠ .error .fuel) :
    simplify k e = e.simplified := by
  rcases Nat.le_total k (4 * weight e) with hk | hk
  · rcases simplify_mono hk e with h1 | h1
    · exact absurd h1 h
    · exact h1
  · rcases simplify_mono hk e with h1 | h1
    · exact absurd h1 (C08_terminates e)
    · exact h1.symm

/-- `-` always terminates. -/
theorem C13_terminates (e : Expr) : e.negated ≠ .error .fuel := by
  have := (fuelOK (4 * weight e + 5)).ng e (Nat.le_refl _)
  intro h
  rw [Expr.negated] at h
  rw [h] at this
  exact this rfl

/-- The result of `-` does not depend on the amount of fuel. -/
theorem C13_fuel_irrelevant (e : Expr) (k : Nat) (h : neg k e ≠ .error .fuel) :
    neg k e = e.negated := by
  rcases Nat.le_total k (4 * weight e + 5) with hk | hk
  · rcases neg_mono hk e with h1 | h1
    · exact absurd h1 h
    · exact h1
  · rcases neg_mono hk e with h1 | h1
    · exact absurd h1 (C13_terminates e)
    · exact h1.symm

/-! ## C08, C09: simplification -/

/-- If `simplified` returns an expression, it has every value the original has (also under
quantifiers). Missing: expressions outside `Good`, for which it is false, see the counterexamples. -/
theorem C08_C09_simplified_value_partial (e e' : Expr) (hg : e.Good D.Odd false) (hw : e.WF)
    (h : e.simplified = .ok e') (ρ : Env) (v : Val) (hv : eval D ρ e = some v) : eval D ρ e' = some v := by
  have := (soundOK (eqSound D) (4 * weight e)).simp false e hg hw
  rw [Expr.simplified] at h
  rw [h] at this
  exact this.2.2.2 ρ v hv

/-- If an expression without quantifiers has a value, `simplified` does not raise an exception. -/
theorem C08_C09_simplified_returns_partial (e : Expr) (hg : e.Good D.Odd false) (hw : e.WF) (hq : ¬ e.HQ)
    (ρ : Env) (v : Val) (hv : eval D ρ e = some v) : ∃ e', e.simplified = .ok e' := by
  have := (soundOK (eqSound D) (4 * weight e)).simp false e hg hw
  have ht := C08_terminates e
  rw [Expr.simplified] at ht ⊢
  cases h : simplify (4 * weight e) e with
  | ok e' => exact ⟨e', rfl⟩
  | error er =>
    rw [h] at this
    rcases this with rfl | hn | hn
    · exact absurd h ht
    · exact absurd hn hq
    · rw [hn ρ] at hv; cases hv

/-- C08 for arithmetic expressions. Missing: expressions outside `Good` (`**`, `mod`, or rounding
division as a summand), for which it is false. -/
theorem C08_arithmetic_partial (e : Expr) (hg : e.Good D.Odd false) (hw : e.WF) (hq : ¬ e.HQ)
    (ρ : Env) (x : Int) (hv : eval D ρ e = some (.int x)) :
    ∃ e', e.simplified = .ok e' ∧ eval D ρ e' = some (.int x) := by
  obtain ⟨e', h⟩ := C08_C09_simplified_returns_partial e hg hw hq ρ _ hv
  exact ⟨e', h, C08_C09_simplified_value_partial e e' hg hw h ρ _ hv⟩

/-- C09: the simplified condition is true exactly if the condition is true. Missing: as for C08;
conditions without a value because some operand of `and then`/`or else` has none. -/
theorem C09_boolean_partial (e : Expr) (hg : e.Good D.Odd false) (hw : e.WF) (hq : ¬ e.HQ)
    (ρ : Env) (b : Bool) (hv : eval D ρ e = some (.bool b)) :
    ∃ e', e.simplified = .ok e' ∧ (eval D ρ e' = some (.bool true) ↔ eval D ρ e = some (.bool true)) := by
  obtain ⟨e', h⟩ := C08_C09_simplified_returns_partial e hg hw hq ρ _ hv
  refine ⟨e', h, ?_⟩
  rw [C08_C09_simplified_value_partial e e' hg hw h ρ _ hv, hv]

/-- Constant arithmetic folds to a single number, its value. -/
theorem C08_constant_folds (e e' : Expr) (hc : e.Const) (hw : e.WF) (h : e.simplified = .ok e')
    (ρ : Env) (x : Int) (hv : eval D ρ e = some (.int x)) : ∃ b, e' = .num x b := by
  have hv' := C08_C09_simplified_value_partial e e' (Const.good _ e hc false) hw h ρ _ hv
  obtain ⟨v, b, rfl⟩ := (constOK (4 * weight e)).1 e e' hc h
  simp only [eval, Option.some.injEq, Val.int.injEq] at hv'
  exact ⟨b, by rw [hv']⟩

/-! ### The hypotheses can be met -/

/-- A variable. -/
def exVar (c : Char) : Expr := .var false false ⟨[[c]]⟩

/-- An assignment for the examples: `X = 5`, every other variable `Y = 3`. -/
def exEnv : Env :=
  ⟨fun k => if k = [['x']] then .int 5 else .int 3, fun _ _ => .int 8, fun _ _ => .int 1, fun _ _ => .int 2⟩

/-- `X + (Y * 2 - X'Size) + 2 ** 3`. -/
def exArith : Expr :=
  .add [exVar 'X', .bin .sub (.mul [exVar 'Y', .n 2]) (.attr false .size (exVar 'X')), .bin .pow (.n 2) (.n 3)]

example : exArith.Good D.Odd false ∧ exArith.WF ∧ ¬ exArith.HQ ∧ eval D exEnv exArith = some (.int 11) ∧
    exArith.simplified.toOption.map (fun e => String.ofList e.str) = some "X + Y * 2 - X'Size + 8" := by
  refine ⟨?_, ?_, ?_, rfl, by decide⟩
  · simp [exArith, Expr.Good, Expr.GoodL, exVar, Expr.n, Expr.Const]
  · simp only [exArith, Expr.WF, Expr.WFL, exVar, Expr.headOK, Expr.n]; decide
  · simp [exArith, Expr.HQ, Expr.HQL, exVar, Expr.n]

/-- `X > 3 and not (Y = 4) and True`. -/
def exBool : Expr :=
  .bool .and [.rel .gt (exVar 'X') (.n 3), .not (.rel .eq (exVar 'Y') (.n 4)), .tru]

example : exBool.Good D.Odd false ∧ exBool.WF ∧ ¬ exBool.HQ ∧ eval D exEnv exBool = some (.bool true) ∧
    exBool.simplified.toOption.map (fun e => String.ofList e.str) = some "X > 3\nand Y /= 4" := by
  refine ⟨?_, ?_, ?_, rfl, by decide⟩
  · simp [exBool, Expr.Good, Expr.GoodL, exVar, Expr.n]
  · simp only [exBool, Expr.WF, Expr.WFL, exVar, Expr.n]; decide
  · simp [exBool, Expr.HQ, Expr.HQL, exVar, Expr.n]

example : (Expr.add [.n 2, .bin .pow (.n 2) (.n 10)]).Const := by simp [Expr.Const, Expr.ConstL]

/-! ### Where it fails -/

/-- `5 - X mod 3`: the sign is pushed into the dividend. With `X = 5` the value is 3, after
simplification it is 6. -/
theorem C08_mod_counterexample :
    ∃ e e' : Expr, ∃ ρ : Env, e.WF ∧ e.simplified = .ok e' ∧
      eval .ada ρ e = some (.int 3) ∧ eval .ada ρ e' = some (.int 6) := by
  refine ⟨.bin .sub (.n 5) (.bin .mod (exVar 'X') (.n 3)),
    .add [.n 5, .bin .mod (.var true false ⟨[['X']]⟩) (.n 3)], exEnv, ?_, rfl, rfl, rfl⟩
  simp only [Expr.WF, exVar]; decide

/-- `1 - X ** 2`: with `X = 5` the value is -24, after simplification it is 26. -/
theorem C08_pow_counterexample :
    ∃ e e' : Expr, ∃ ρ : Env, e.WF ∧ e.simplified = .ok e' ∧
      eval .ada ρ e = some (.int (-24)) ∧ eval .ada ρ e' = some (.int 26) := by
  refine ⟨.bin .sub (.n 1) (.bin .pow (exVar 'X') (.n 2)),
    .add [.n 1, .bin .pow (.var true false ⟨[['X']]⟩) (.n 2)], exEnv, ?_, rfl, rfl, rfl⟩
  simp only [Expr.WF, exVar]; decide

/-- `1 - X / 2` under a division that rounds down: with `X = 5` the value is -1, after simplification
it is -2. -/
theorem C08_floor_division_counterexample :
    ∃ e e' : Expr, ∃ ρ : Env, e.WF ∧ e.simplified = .ok e' ∧
      eval .floor ρ e = some (.int (-1)) ∧ eval .floor ρ e' = some (.int (-2)) := by
  refine ⟨.bin .sub (.n 1) (.bin .div (exVar 'X') (.n 2)),
    .add [.n 1, .bin .div (.var true false ⟨[['X']]⟩) (.n 2)], exEnv, ?_, rfl, rfl, rfl⟩
  simp only [Expr.WF, exVar]; decide

/-- Evaluation order: a guard of `and then` can move behind the guarded operand.
`(Y /= 0 and then Y = Y) and then X / Y = 1` becomes `X / Y = 1 and then Y /= 0 and then Y = Y` (the
nested operation is flattened at the end of the list). -/
theorem C09_guard_order_counterexample :
    ∃ g h p : Expr, (Expr.bool .andThen [.bool .andThen [g, h], p]).simplified = .ok (.bool .andThen [p, g, h]) ∧
      (∃ ρ, eval D ρ g = some (.bool false)) ∧ (∀ ρ, eval D ρ g = some (.bool false) → eval D ρ p = none) := by
  refine ⟨.rel .ne (exVar 'Y') (.n 0), .rel .gt (exVar 'Y') (exVar 'Z'),
    .rel .eq (.bin .div (exVar 'X') (exVar 'Y')) (.n 1), rfl, ⟨⟨fun _ => .int 0, fun _ _ => .int 0, fun _ _ => .int 0, fun _ _ => .int 0⟩, rfl⟩, ?_⟩
  intro ρ h
  simp only [eval, exVar, Val.negIf, Bool.false_eq_true, if_false] at h ⊢
  cases hx : ρ.var (ID.key ⟨[['X']]⟩) <;> cases hy : ρ.var (ID.key ⟨[['Y']]⟩) <;>
    simp_all [RelOp.eval, ArithOp.eval]

/-- A quantified expression that has a value for which `simplified` raises `ZeroDivisionError`:
`for all X in [] => 1 / 0 = 1`. -/
theorem C09_quantifier_counterexample :
    ∃ e : Expr, e.WF ∧ e.Good D.Odd false ∧ (∀ ρ, eval D ρ e = some (.bool true)) ∧
      e.simplified = .error .zeroDivision := by
  refine ⟨.quant .allIn ⟨[['X']]⟩ (.agg []) (.rel .eq (.bin .div (.n 1) (.n 0)) (.n 1)), ?_, ?_, fun ρ => rfl, rfl⟩
  · simp only [Expr.WF, Expr.WFL]; decide
  · simp [Expr.Good, Expr.GoodL]

/-! ## C11: comparison -/

/-- Expressions that compare equal have the same value whenever both have one. -/
theorem C11_eq_same_value (a b : Expr) (ha : a.WF) (hb : b.WF) (h : a.eq b = true)
    (ρ : Env) (x y : Val) (hx : eval D ρ a = some x) (hy : eval D ρ b = some y) : x = y :=
  eqSound D a b ha hb h ρ x y hx hy

/-- Expressions with the same text have the same value whenever both have one: the printed form is
unambiguous. -/
theorem C11_text_unambiguous (a b : Expr) (ha : a.WF) (hb : b.WF) (h : a.str = b.str)
    (ρ : Env) (x y : Val) (hx : eval D ρ a = some x) (hy : eval D ρ b = some y) : x = y :=
  str_sound ha hb h hx hy

/-- Comparison is reflexive. -/
theorem C11_eq_refl (a : Expr) : a.eq a = true := Expr.eq_refl a

/-- Two different expressions that compare equal. -/
example : (Expr.add [.add [exVar 'X', exVar 'Y'], .n 1]).eq (.add [exVar 'X', exVar 'Y', .n 1]) = true ∧
    (Expr.add [.add [exVar 'X', exVar 'Y'], .n 1]).WF ∧ (Expr.add [exVar 'X', exVar 'Y', .n 1]).WF := by
  refine ⟨by decide, ?_, ?_⟩ <;> simp only [Expr.WF, Expr.WFL, exVar, Expr.headOK, Expr.n] <;> decide

/-- Without well-formedness it fails: the empty disjunction prints as `True`. -/
theorem C11_empty_or_counterexample :
    ∃ a b : Expr, a.eq b = true ∧ ∀ ρ, eval D ρ a = some (.bool true) ∧ eval D ρ b = some (.bool false) :=
  ⟨.bool .and [.bool .and []], .bool .and [.bool .or []], by decide, fun _ => ⟨rfl, rfl⟩⟩

/-- A sum starting with a relation is printed like a relation with a sum. -/
theorem C11_sum_counterexample :
    ∃ a b : Expr, a.str = b.str ∧ (∃ ρ v, eval D ρ b = some v) ∧ ∀ ρ, eval D ρ a = none := by
  refine ⟨.add [.rel .lt (exVar 'X') (exVar 'Y'), .n 1], .rel .lt (exVar 'X') (.add [exVar 'Y', .n 1]), by decide,
    ⟨exEnv, _, rfl⟩, fun ρ => ?_⟩
  simp only [eval, evalL, exVar, Val.negIf, Bool.false_eq_true, if_false]
  cases ρ.var (ID.key ⟨[['X']]⟩) <;> cases ρ.var (ID.key ⟨[['Y']]⟩) <;>
    simp [RelOp.eval, allSome, Val.int?]

/-! ## C13: negation -/

/-- `-e` has the negated value. Missing: `-` (subtraction), `**`, `mod` and rounding division, for
which it is false. -/
theorem C13_arithmetic_partial (e : Expr) (hn : e.Neg D.Odd) (hw : e.WF) (hq : ¬ e.HQ) (ρ : Env) (x : Int)
    (hv : eval D ρ e = some (.int x)) : ∃ e', e.negated = .ok e' ∧ eval D ρ e' = some (.int (-x)) := by
  have := (soundOK (eqSound D) (4 * weight e + 5)).ng e hn hw
  have ht := C13_terminates e
  rw [Expr.negated] at ht ⊢
  cases h : neg (4 * weight e + 5) e with
  | ok e' =>
    rw [h] at this
    exact ⟨e', rfl, this.2.2.2 ρ x hv⟩
  | error er =>
    rw [h] at this
    rcases this with rfl | hn | hn
    · exact absurd h ht
    · exact absurd hn hq
    · rw [hn ρ] at hv; cases hv

/-- `-e` of a relation, `not` or boolean literal has the opposite truth value. -/
theorem C13_boolean (e : Expr) (he : e = .tru ∨ e = .fls ∨ (∃ a, e = .not a) ∨ ∃ op l r, e = .rel op l r)
    (ρ : Env) (b : Bool) (hv : eval D ρ e = some (.bool b)) :
    ∃ e', e.negated = .ok e' ∧ eval D ρ e' = some (.bool (!b)) := by
  rcases he with rfl | rfl | ⟨a, rfl⟩ | ⟨op, l, r, rfl⟩
  · simp only [eval, Option.some.injEq, Val.bool.injEq] at hv
    exact ⟨.fls, rfl, by simp [eval, ← hv]⟩
  · simp only [eval, Option.some.injEq, Val.bool.injEq] at hv
    exact ⟨.tru, rfl, by simp [eval, ← hv]⟩
  · refine ⟨a, rfl, ?_⟩
    simp only [eval] at hv
    split at hv
    · rename_i c hc
      simp only [Option.some.injEq, Val.bool.injEq] at hv
      simp [hc, ← hv]
    · cases hv
  · refine ⟨.rel op.inv l r, rfl, ?_⟩
    simp only [eval] at hv ⊢
    split at hv
    · rename_i x y hx hy
      cases ho : op.eval x y with
      | none => simp [ho] at hv
      | some c =>
        simp only [ho, Option.map_some, Option.some.injEq, Val.bool.injEq] at hv
        subst hv
        rw [RelOp.eval_inv, ho]
        rfl
    · cases hv

example : (Expr.mul [exVar 'X', .add [exVar 'Y', .n 2]]).Neg D.Odd ∧ (Expr.mul [exVar 'X', .add [exVar 'Y', .n 2]]).WF ∧
    (Expr.mul [exVar 'X', .add [exVar 'Y', .n 2]]).negated.toOption.map (fun e => String.ofList e.str) =
      some "X * (Y + 2) * (-1)" := by
  refine ⟨by simp [Expr.Neg, Expr.NegL, exVar], ?_, by decide⟩
  simp only [Expr.WF, Expr.WFL, exVar, Expr.headOK, Expr.n]; decide

example : eval D exEnv (.rel .lt (exVar 'X') (exVar 'Y')) = some (.bool false) := rfl

/-- `-(X - Y)` is `-X - Y`. -/
theorem C13_sub_counterexample :
    ∃ e e' : Expr, ∃ ρ : Env, e.WF ∧ e.negated = .ok e' ∧
      eval D ρ e = some (.int 2) ∧ eval D ρ e' = some (.int (-8)) := by
  refine ⟨.bin .sub (exVar 'X') (exVar 'Y'), .bin .sub (.var true false ⟨[['X']]⟩) (exVar 'Y'), exEnv, ?_, rfl, rfl, rfl⟩
  simp only [Expr.WF, exVar]; decide

/-- `-(X ** 2)` is `(-X) ** 2`. -/
theorem C13_pow_counterexample :
    ∃ e e' : Expr, ∃ ρ : Env, e.WF ∧ e.negated = .ok e' ∧
      eval D ρ e = some (.int 25) ∧ eval D ρ e' = some (.int 25) := by
  refine ⟨.bin .pow (exVar 'X') (.n 2), .bin .pow (.var true false ⟨[['X']]⟩) (.n 2), exEnv, ?_, rfl, rfl, rfl⟩
  simp only [Expr.WF, exVar]; decide

end Verif
