import Verif.Verify.PathFacts

/-! # Lemmas: what a satisfying interpretation of the solver says about a message -/

namespace Verif.Verify
open Verif Verif.Graph Verif.Types

/-- The assignment given by an interpretation of the solver: all names are numbers, all checksums are valid. -/
def envOf (M : ZModel) : Env :=
  ⟨fun x => .int (M.name (.var x)), fun k x => if k = .validChecksum then .bool true else .int (M.name (.attr k false x)),
   fun _ _ => .int 0, fun _ _ => .int 0⟩

mutual

/-- Numbers as they are common in specifications: divisions are by positive literals, exponents are positive literals. -/
def Numeric : Expr → Prop
  | .num .. => True
  | .var .. => True
  | .attr _ k pre => k ≠ .validChecksum ∧ (match pre with
    | .var false _ _ => True
    | _ => False)
  | .add ts => NumericL ts
  | .mul ts => NumericL ts
  | .bin op l r => Numeric l ∧ Numeric r ∧ (op = .sub ∨ ∃ v b, r = .num v b ∧ 0 < v)
  | _ => False

def NumericL : List Expr → Prop
  | [] => True
  | e :: es => Numeric e ∧ NumericL es

end

mutual

/-- Conditions on numbers: comparisons, valid checksums, and their combinations. -/
def Condition : Expr → Prop
  | .tru => True
  | .fls => True
  | .attr ng k pre => ng = false ∧ k = .validChecksum ∧ (match pre with
    | .var false _ _ => True
    | _ => False)
  | .not e => Condition e
  | .bool _ ts => ConditionL ts
  | .rel _ l r => Numeric l ∧ Numeric r
  | _ => False

def ConditionL : List Expr → Prop
  | [] => True
  | e :: es => Condition e ∧ ConditionL es

end

/-- The division rounds towards minus infinity for positive divisors, as the division of Python and that of the solver do. -/
def Floors (D : Division) : Prop := ∀ a b, 0 < b → D.div a b = a / b

variable {D : Division} {M : ZModel}

theorem allSome_ints : ∀ (xs : List Int), allSome Val.int? (xs.map .int) = some xs
  | [] => rfl
  | x :: xs => by simp [allSome, Val.int?, allSome_ints xs]

theorem allSome_bools : ∀ (xs : List Bool), allSome Val.bool? (xs.map .bool) = some xs
  | [] => rfl
  | x :: xs => by simp [allSome, Val.bool?, allSome_bools xs]

theorem mapM_ints : ∀ (xs : List Int), (xs.map ZVal.int).mapM ZVal.int? = Except.ok (ε := PyErr) xs
  | [] => rfl
  | x :: xs => by
    rw [List.map_cons, List.mapM_cons, mapM_ints xs]
    rfl

theorem mapM_bools : ∀ (xs : List Bool), (xs.map ZVal.bool).mapM ZVal.bool? = Except.ok (ε := PyErr) xs
  | [] => rfl
  | x :: xs => by
    rw [List.map_cons, List.mapM_cons, mapM_bools xs]
    rfl

mutual

theorem numeric_back (hD : Floors D) : ∀ (e : Expr) {w : ZVal}, Numeric e → zeval M e = .ok w →
    ∃ i, w = .int i ∧ eval D (envOf M) e = some (.int i)
  | .num v b, w, _, h => by cases h; exact ⟨v, rfl, rfl⟩
  | .var ng im id, w, _, h => by
    cases h
    refine ⟨_, rfl, ?_⟩
    cases ng <;> simp [eval, Val.negIf, envOf, Val.int?]
  | .attr ng k pre, w, hp, h => by
    simp only [Numeric] at hp
    obtain ⟨hk, hp⟩ := hp
    cases pre with
    | var pn im id =>
      cases pn with
      | true => exact hp.elim
      | false =>
        have : zeval M (.attr ng k (.var false im id)) =
            .ok (.int (if ng then -M.name (.attr k false id.key) else M.name (.attr k false id.key))) := by
          cases k <;> first | exact absurd rfl hk | rfl
        rw [this] at h
        cases h
        refine ⟨_, rfl, ?_⟩
        cases ng <;> simp [eval, Val.negIf, envOf, Val.int?, hk]
    | _ => exact hp.elim
  | .add ts, w, hp, h => by
    simp only [Numeric] at hp
    simp only [zeval] at h
    obtain ⟨vs, hvs, h⟩ := bind_ok (h : Except.bind _ _ = _)
    obtain ⟨xs, rfl, he⟩ := numericL_back hD ts hp hvs
    rw [mapM_ints] at h
    cases xs with
    | nil => cases h
    | cons x xs =>
      cases h
      exact ⟨_, rfl, by simp only [eval, he, Option.bind_some, allSome_ints]⟩
  | .mul ts, w, hp, h => by
    simp only [Numeric] at hp
    simp only [zeval] at h
    obtain ⟨vs, hvs, h⟩ := bind_ok (h : Except.bind _ _ = _)
    obtain ⟨xs, rfl, he⟩ := numericL_back hD ts hp hvs
    rw [mapM_ints] at h
    cases xs with
    | nil => cases h
    | cons x xs =>
      cases h
      exact ⟨_, rfl, by simp only [eval, he, Option.bind_some, allSome_ints]⟩
  | .bin op l r, w, hp, h => by
    simp only [Numeric] at hp
    obtain ⟨p1, p2, p3⟩ := hp
    simp only [zeval] at h
    obtain ⟨a, ha, h⟩ := bind_ok (h : Except.bind _ _ = _)
    obtain ⟨b, hb, h⟩ := bind_ok (h : Except.bind _ _ = _)
    obtain ⟨i, rfl, hi⟩ := numeric_back hD l p1 ha
    obtain ⟨j, rfl, hj⟩ := numeric_back hD r p2 hb
    have h : Except.ok (ZVal.int (zArith M op i j)) = Except.ok w := h
    cases h
    refine ⟨_, rfl, ?_⟩
    simp only [eval, hi, hj]
    have hpos : op ≠ .sub → 0 < j := by
      intro ho
      rcases p3 with rfl | ⟨v, b, rfl, hv⟩
      · exact absurd rfl ho
      · cases hb; exact hv
    cases op with
    | sub => rfl
    | div =>
      have hj0 := hpos (by simp)
      simp [ArithOp.eval, zArith, hD i j hj0, Int.ne_of_gt hj0]
    | mod =>
      have hj0 := hpos (by simp)
      simp [ArithOp.eval, zArith, Int.ne_of_gt hj0, Int.fmod_eq_emod_of_nonneg i (Int.le_of_lt hj0)]
    | pow =>
      have hj0 := hpos (by simp)
      have h1 : ¬ j < 0 := by omega
      have h2 : ¬ (j < 0 ∨ (i = 0 ∧ j = 0)) := by omega
      simp only [ArithOp.eval, zArith, if_neg h1, if_neg h2, Option.map_some]
  | .tru, w, hp, h => by simp [Numeric] at hp
  | .fls, w, hp, h => by simp [Numeric] at hp
  | .undefined, w, hp, h => by simp [Numeric] at hp
  | .sel .., w, hp, h => by simp [Numeric] at hp
  | .call .., w, hp, h => by simp [Numeric] at hp
  | .not .., w, hp, h => by simp [Numeric] at hp
  | .bool .., w, hp, h => by simp [Numeric] at hp
  | .rel .., w, hp, h => by simp [Numeric] at hp
  | .agg .., w, hp, h => by simp [Numeric] at hp
  | .quant .., w, hp, h => by simp [Numeric] at hp

theorem numericL_back (hD : Floors D) : ∀ (es : List Expr) {ws : List ZVal}, NumericL es → zevalL M es = .ok ws →
    ∃ xs : List Int, ws = xs.map ZVal.int ∧ evalL D (envOf M) es = some (xs.map Val.int)
  | [], ws, _, h => by cases h; exact ⟨[], rfl, rfl⟩
  | e :: es, ws, hp, h => by
    simp only [NumericL] at hp
    obtain ⟨v, hv, h⟩ := bind_ok (h : (zeval M e).bind _ = _)
    obtain ⟨vs, hvs, h⟩ := bind_ok (h : (zevalL M es).bind _ = _)
    cases h
    obtain ⟨i, rfl, hi⟩ := numeric_back hD e hp.1 hv
    obtain ⟨xs, rfl, hxs⟩ := numericL_back hD es hp.2 hvs
    exact ⟨i :: xs, rfl, by simp [evalL, hi, hxs]⟩

end

mutual

theorem condition_back (hD : Floors D) : ∀ (e : Expr) {w : ZVal}, Condition e → zeval M e = .ok w →
    ∃ b, w = .bool b ∧ eval D (envOf M) e = some (.bool b)
  | .tru, w, _, h => by cases h; exact ⟨_, rfl, rfl⟩
  | .fls, w, _, h => by cases h; exact ⟨_, rfl, rfl⟩
  | .attr ng k pre, w, hp, h => by
    simp only [Condition] at hp
    obtain ⟨rfl, rfl, hp⟩ := hp
    cases h
    cases pre with
    | var pn im id =>
      cases pn with
      | true => exact hp.elim
      | false => exact ⟨_, rfl, by simp [eval, Val.negIf, envOf]⟩
    | _ => exact hp.elim
  | .not e, w, hp, h => by
    simp only [Condition] at hp
    simp only [zeval] at h
    obtain ⟨v, hv, h⟩ := bind_ok (h : Except.bind _ _ = _)
    obtain ⟨b, rfl, hb⟩ := condition_back hD e hp hv
    cases h
    exact ⟨_, rfl, by simp [eval, hb]⟩
  | .bool op ts, w, hp, h => by
    simp only [Condition] at hp
    simp only [zeval] at h
    obtain ⟨vs, hvs, h⟩ := bind_ok (h : Except.bind _ _ = _)
    obtain ⟨xs, rfl, he⟩ := conditionL_back hD ts hp hvs
    rw [mapM_bools] at h
    cases h
    exact ⟨_, rfl, by simp only [eval, he, Option.bind_some, allSome_bools]⟩
  | .rel op l r, w, hp, h => by
    simp only [Condition] at hp
    simp only [zeval] at h
    obtain ⟨a, ha, h⟩ := bind_ok (h : Except.bind _ _ = _)
    obtain ⟨b, hb, h⟩ := bind_ok (h : Except.bind _ _ = _)
    obtain ⟨i, rfl, hi⟩ := numeric_back hD l hp.1 ha
    obtain ⟨j, rfl, hj⟩ := numeric_back hD r hp.2 hb
    obtain ⟨c, hc, h⟩ := bind_ok (h : Except.bind _ _ = _)
    cases h
    refine ⟨c, rfl, ?_⟩
    simp only [eval, hi, hj]
    cases op <;> cases hc <;> simp [RelOp.eval, zEqual, ZVal.cast] <;> (by_cases hij : i = j <;> simp [hij])
  | .num .., w, hp, h => by simp [Condition] at hp
  | .var .., w, hp, h => by simp [Condition] at hp
  | .undefined, w, hp, h => by simp [Condition] at hp
  | .sel .., w, hp, h => by simp [Condition] at hp
  | .call .., w, hp, h => by simp [Condition] at hp
  | .add .., w, hp, h => by simp [Condition] at hp
  | .mul .., w, hp, h => by simp [Condition] at hp
  | .bin .., w, hp, h => by simp [Condition] at hp
  | .agg .., w, hp, h => by simp [Condition] at hp
  | .quant .., w, hp, h => by simp [Condition] at hp

theorem conditionL_back (hD : Floors D) : ∀ (es : List Expr) {ws : List ZVal}, ConditionL es → zevalL M es = .ok ws →
    ∃ xs : List Bool, ws = xs.map ZVal.bool ∧ evalL D (envOf M) es = some (xs.map Val.bool)
  | [], ws, _, h => by cases h; exact ⟨[], rfl, rfl⟩
  | e :: es, ws, hp, h => by
    simp only [ConditionL] at hp
    obtain ⟨v, hv, h⟩ := bind_ok (h : (zeval M e).bind _ = _)
    obtain ⟨vs, hvs, h⟩ := bind_ok (h : (zevalL M es).bind _ = _)
    cases h
    obtain ⟨i, rfl, hi⟩ := condition_back hD e hp.1 hv
    obtain ⟨xs, rfl, hxs⟩ := conditionL_back hD es hp.2 hvs
    exact ⟨i :: xs, rfl, by simp [evalL, hi, hxs]⟩

end

theorem numeric_at {k : AttrKind} (hk : k ≠ .validChecksum) (name : ID) : Numeric (at' k name) := by
  simp [at', Numeric, hk]

theorem eq_back (hD : Floors D) {l r : Expr} (hl : Numeric l) (hr : Numeric r)
    (h : zeval M (.rel .eq l r) = .ok (.bool true)) :
    ∃ i, eval D (envOf M) l = some (.int i) ∧ eval D (envOf M) r = some (.int i) := by
  obtain ⟨x, y, hx, hy, h⟩ := zeval_rel_inv h
  obtain ⟨i, rfl, hi⟩ := numeric_back hD l hl hx
  obtain ⟨j, rfl, hj⟩ := numeric_back hD r hr hy
  have : i = j := by simpa [zRel, zEqual, ZVal.cast] using h
  exact ⟨i, hi, by rw [this]; exact hj⟩

theorem ge_back (hD : Floors D) {l r : Expr} (hl : Numeric l) (hr : Numeric r)
    (h : zeval M (.rel .ge l r) = .ok (.bool true)) :
    ∃ i j, eval D (envOf M) l = some (.int i) ∧ eval D (envOf M) r = some (.int j) ∧ j ≤ i := by
  obtain ⟨x, y, hx, hy, h⟩ := zeval_rel_inv h
  obtain ⟨i, rfl, hi⟩ := numeric_back hD l hl hx
  obtain ⟨j, rfl, hj⟩ := numeric_back hD r hr hy
  have : j ≤ i := by simpa [zRel] using h
  exact ⟨i, j, hi, hj, this⟩

theorem eval_at_env {k : AttrKind} (hk : k ≠ .validChecksum) (name : ID) :
    eval D (envOf M) (at' k name) = some (.int (M.name (.attr k false name.key))) := by
  rw [eval_at]
  simp [envOf, hk]

theorem attr_env {k : AttrKind} (hk : k ≠ .validChecksum) (x : List PyStr) :
    (envOf M).attr k x = .int (M.name (.attr k false x)) := by
  simp [envOf, hk]

/-- The conjuncts of a condition. -/
theorem expressionList_holds {e : Expr} (h : ∀ c ∈ expressionList e, zeval M c = .ok (.bool true)) :
    zeval M e = .ok (.bool true) := by
  cases e with
  | bool op ts =>
    simp only [expressionList] at h
    by_cases ho : op.isAnd = true
    · rw [if_pos ho] at h
      have := (zeval_and (M := M) (ts := ts) (fun t ht => ⟨true, h t ht⟩)).mpr h
      rw [← this]
      simp only [zeval, ho]
      rfl
    · rw [if_neg ho] at h
      exact h _ (List.mem_singleton.mpr rfl)
  | _ => exact h _ (List.mem_singleton.mpr rfl)

end Verif.Verify
