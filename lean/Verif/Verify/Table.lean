import Verif.Verify.Z3

/-! # A solver for examples

A solver that knows some interpretations and some sets of formulas that have none. Nothing here models the code. -/

namespace Verif.Verify
open Verif

mutual
/-- Structural equality of expressions. -/
def same : Expr → Expr → Bool
  | .tru, .tru => true
  | .fls, .fls => true
  | .undefined, .undefined => true
  | .num v b, .num v' b' => v == v' && b == b'
  | .var n i x, .var n' i' x' => n == n' && i == i' && x == x'
  | .attr n k p, .attr n' k' p' => n == n' && k == k' && same p p'
  | .sel n p s, .sel n' p' s' => n == n' && same p p' && s == s'
  | .call n x as, .call n' x' as' => n == n' && x == x' && sameL as as'
  | .not e, .not e' => same e e'
  | .bool o ts, .bool o' ts' => o == o' && sameL ts ts'
  | .add ts, .add ts' => sameL ts ts'
  | .mul ts, .mul ts' => sameL ts ts'
  | .bin o l r, .bin o' l' r' => o == o' && same l l' && same r r'
  | .rel o l r, .rel o' l' r' => o == o' && same l l' && same r r'
  | .agg es, .agg es' => sameL es es'
  | .quant k p i e, .quant k' p' i' e' => k == k' && p == p' && same i i' && same e e'
  | _, _ => false
/-- Structural equality of lists. -/
def sameL : List Expr → List Expr → Bool
  | [], [] => true
  | e :: es, e' :: es' => same e e' && sameL es es'
  | _, _ => false
end

mutual
theorem same_eq : ∀ (e e' : Expr), same e e' = true → e = e'
  | .tru, e', h => by cases e' <;> simp_all [same]
  | .fls, e', h => by cases e' <;> simp_all [same]
  | .undefined, e', h => by cases e' <;> simp_all [same]
  | .num v b, e', h => by cases e' <;> simp_all [same]
  | .var n i x, e', h => by cases e' <;> simp_all [same]
  | .attr n k p, e', h => by
    cases e' <;> simp [same] at h
    rename_i p'
    have := same_eq p p' h.2
    simp_all
  | .sel n p s, e', h => by
    cases e' <;> simp [same] at h
    rename_i p' _
    have := same_eq p p' h.1.2
    simp_all
  | .call n x as, e', h => by
    cases e' <;> simp [same] at h
    rename_i as'
    have := sameL_eq as as' h.2
    simp_all
  | .not e, e', h => by
    cases e' <;> simp [same] at h
    rename_i p'
    have := same_eq e p' h
    simp_all
  | .bool o ts, e', h => by
    cases e' <;> simp [same] at h
    rename_i as'
    have := sameL_eq ts as' h.2
    simp_all
  | .add ts, e', h => by
    cases e' <;> simp [same] at h
    rename_i as'
    have := sameL_eq ts as' h
    simp_all
  | .mul ts, e', h => by
    cases e' <;> simp [same] at h
    rename_i as'
    have := sameL_eq ts as' h
    simp_all
  | .bin o l r, e', h => by
    cases e' <;> simp [same] at h
    rename_i l' r'
    have := same_eq l l' h.1.2
    have := same_eq r r' h.2
    simp_all
  | .rel o l r, e', h => by
    cases e' <;> simp [same] at h
    rename_i l' r'
    have := same_eq l l' h.1.2
    have := same_eq r r' h.2
    simp_all
  | .agg es, e', h => by
    cases e' <;> simp [same] at h
    rename_i as'
    have := sameL_eq es as' h
    simp_all
  | .quant k p i e, e', h => by
    cases e' <;> simp [same] at h
    rename_i l' r'
    have := same_eq i l' h.1.2
    have := same_eq e r' h.2
    simp_all
theorem sameL_eq : ∀ (es es' : List Expr), sameL es es' = true → es = es'
  | [], es', h => by cases es' <;> simp_all [sameL]
  | e :: es, es', h => by
    cases es' <;> simp [sameL] at h
    rename_i e' es'
    have := same_eq e e' h.1
    have := sameL_eq es es' h.2
    simp_all
end

/-- The same result, up to the value. -/
def ZVal.Alike : Py ZVal → Py ZVal → Prop
  | .ok (.int _), .ok (.int _) => True
  | .ok (.bool _), .ok (.bool _) => True
  | .error e, .error e' => e = e'
  | _, _ => False

/-- The same results, up to the values. -/
def ZVal.AlikeL : Py (List ZVal) → Py (List ZVal) → Prop
  | .ok vs, .ok vs' => vs.map (fun v => v matches .int _) = vs'.map (fun v => v matches .int _)
  | .error e, .error e' => e = e'
  | _, _ => False

theorem alike_bools {vs vs' : List ZVal} (h : vs.map (fun v => v matches .int _) = vs'.map (fun v => v matches .int _)) :
    (∃ bs bs', vs.mapM ZVal.bool? = .ok bs ∧ vs'.mapM ZVal.bool? = .ok bs') ∨
    (vs.mapM ZVal.bool? = .error .typeError ∧ vs'.mapM ZVal.bool? = .error .typeError) := by
  induction vs generalizing vs' with
  | nil =>
    cases vs' with
    | nil => exact .inl ⟨[], [], rfl, rfl⟩
    | cons => simp at h
  | cons v vs ih =>
    cases vs' with
    | nil => simp at h
    | cons v' vs' =>
      simp only [List.map_cons, List.cons.injEq] at h
      cases v <;> cases v' <;> simp at h
      · exact .inr ⟨rfl, rfl⟩
      · rename_i a a'
        rcases ih (vs' := vs') (by simpa using h) with ⟨bs, bs', h1, h2⟩ | ⟨h1, h2⟩
        · refine .inl ⟨a :: bs, a' :: bs', ?_, ?_⟩
          · simp only [List.mapM_cons, h1]; rfl
          · simp only [List.mapM_cons, h2]; rfl
        · refine .inr ⟨?_, ?_⟩
          · simp only [List.mapM_cons, h1]; rfl
          · simp only [List.mapM_cons, h2]; rfl

theorem alike_ints {vs vs' : List ZVal} (h : vs.map (fun v => v matches .int _) = vs'.map (fun v => v matches .int _)) :
    (∃ bs bs', vs.mapM ZVal.int? = .ok bs ∧ vs'.mapM ZVal.int? = .ok bs' ∧ bs.length = bs'.length) ∨
    (vs.mapM ZVal.int? = .error .typeError ∧ vs'.mapM ZVal.int? = .error .typeError) := by
  induction vs generalizing vs' with
  | nil =>
    cases vs' with
    | nil => exact .inl ⟨[], [], rfl, rfl, rfl⟩
    | cons => simp at h
  | cons v vs ih =>
    cases vs' with
    | nil => simp at h
    | cons v' vs' =>
      simp only [List.map_cons, List.cons.injEq] at h
      cases v <;> cases v' <;> simp at h
      · rename_i a a'
        rcases ih (vs' := vs') (by simpa using h) with ⟨bs, bs', h1, h2, h3⟩ | ⟨h1, h2⟩
        · refine .inl ⟨a :: bs, a' :: bs', ?_, ?_, by simp [h3]⟩
          · simp only [List.mapM_cons, h1]; rfl
          · simp only [List.mapM_cons, h2]; rfl
        · refine .inr ⟨?_, ?_⟩
          · simp only [List.mapM_cons, h1]; rfl
          · simp only [List.mapM_cons, h2]; rfl
      · exact .inr ⟨rfl, rfl⟩

mutual
/-- Whether an expression can be translated does not depend on the interpretation. -/
theorem alike (M M' : ZModel) : ∀ e : Expr, ZVal.Alike (zeval M e) (zeval M' e)
  | .tru => trivial
  | .fls => trivial
  | .undefined => rfl
  | .num _ _ => trivial
  | .var ng _ id => trivial
  | .attr ng k pre => by
    cases k <;> cases pre <;> simp [zeval, ZVal.Alike]
  | .sel .. => rfl
  | .call .. => rfl
  | .not e => by
    have := alike M M' e
    simp only [zeval, Bind.bind, Except.bind]
    revert this
    cases zeval M e <;> cases zeval M' e <;> intro h
    · exact h
    · rename_i v; cases v <;> exact h.elim
    · rename_i v _; cases v <;> exact h.elim
    · rename_i v v'
      cases v <;> cases v' <;> simp_all [ZVal.Alike, ZVal.bool?, pure, Except.pure]
  | .bool op ts => by
    have := alikeL M M' ts
    simp only [zeval, Bind.bind, Except.bind]
    revert this
    cases zevalL M ts <;> cases zevalL M' ts <;> intro h
    · exact h
    · exact h.elim
    · exact h.elim
    · rename_i vs vs'
      rcases alike_bools h with ⟨_, _, h1, h2⟩ | ⟨h1, h2⟩ <;> simp [h1, h2, ZVal.Alike, pure, Except.pure]
  | .add ts => by
    have := alikeL M M' ts
    simp only [zeval, Bind.bind, Except.bind]
    revert this
    cases zevalL M ts <;> cases zevalL M' ts <;> intro h
    · exact h
    · exact h.elim
    · exact h.elim
    · rename_i vs vs'
      rcases alike_ints h with ⟨b, b', h1, h2, h3⟩ | ⟨h1, h2⟩
      · simp only [h1, h2]
        cases b <;> cases b' <;> simp_all [ZVal.Alike, pure, Except.pure]
      · simp [h1, h2, ZVal.Alike]
  | .mul ts => by
    have := alikeL M M' ts
    simp only [zeval, Bind.bind, Except.bind]
    revert this
    cases zevalL M ts <;> cases zevalL M' ts <;> intro h
    · exact h
    · exact h.elim
    · exact h.elim
    · rename_i vs vs'
      rcases alike_ints h with ⟨b, b', h1, h2, h3⟩ | ⟨h1, h2⟩
      · simp only [h1, h2]
        cases b <;> cases b' <;> simp_all [ZVal.Alike, pure, Except.pure]
      · simp [h1, h2, ZVal.Alike]
  | .bin op l r => by
    have h1 := alike M M' l
    have h2 := alike M M' r
    simp only [zeval, Bind.bind, Except.bind]
    revert h1 h2
    rcases zeval M l with _ | _ | _ <;> rcases zeval M' l with _ | _ | _ <;> rcases zeval M r with _ | _ | _ <;>
      rcases zeval M' r with _ | _ | _ <;> simp_all [ZVal.Alike, ZVal.int?, pure, Except.pure]
  | .rel op l r => by
    have h1 := alike M M' l
    have h2 := alike M M' r
    simp only [zeval, Bind.bind, Except.bind]
    revert h1 h2
    rcases zeval M l with _ | _ | _ <;> rcases zeval M' l with _ | _ | _ <;> rcases zeval M r with _ | _ | _ <;>
      rcases zeval M' r with _ | _ | _ <;> cases op <;> simp_all [ZVal.Alike, zRel, pure, Except.pure]
  | .agg _ => trivial
  | .quant .. => rfl
theorem alikeL (M M' : ZModel) : ∀ es : List Expr, ZVal.AlikeL (zevalL M es) (zevalL M' es)
  | [] => rfl
  | e :: es => by
    have h1 := alike M M' e
    have h2 := alikeL M M' es
    simp only [zevalL, Bind.bind, Except.bind]
    revert h1 h2
    rcases zeval M e with _ | _ | _ <;> rcases zeval M' e with _ | _ | _ <;> rcases zevalL M es with _ | _ <;>
      rcases zevalL M' es with _ | _ <;> simp_all [ZVal.Alike, ZVal.AlikeL, pure, Except.pure]
end

/-- Whether a formula is true. -/
def zTrue (M : ZModel) (e : Expr) : Bool :=
  match zeval M e with
  | .ok (.bool b) => b
  | _ => false

/-- Whether an expression is a formula. -/
def zBool (M : ZModel) (e : Expr) : Bool :=
  match zeval M e with
  | .ok (.bool _) => true
  | _ => false

theorem zTrue_iff {M : ZModel} {e : Expr} : zTrue M e = true ↔ zeval M e = .ok (.bool true) := by
  unfold zTrue
  split
  · rename_i h; rw [h]; simp
  · rename_i h
    refine ⟨fun h => by simp at h, fun h2 => absurd h2 (h _)⟩

theorem zBool_all {M : ZModel} {e : Expr} (h : zBool M e = true) (M' : ZModel) : ∃ b, zeval M' e = .ok (.bool b) := by
  have := alike M M' e
  unfold zBool at h
  split at h
  · rename_i b hb
    rw [hb] at this
    revert this
    rcases zeval M' e with _ | _ | b <;> simp [ZVal.Alike]
  · cases h

/-- A solver that knows the interpretations `Ms`, and that the sets of formulas in `us` cannot be satisfied. -/
def tableSolver (M₀ : ZModel) (Ms : List ZModel) (us : List (List Expr)) (h : ∀ u ∈ us, ¬ ∃ M, Holds M u) : Solver where
  check es :=
    if es.all (zBool M₀) then
      if Ms.any fun M => es.all (zTrue M) then .ok .sat
      else if us.any fun u => u.all fun e => es.any (same e) then .ok .unsat
      else .error .unmodelled
    else .error .typeError
  translated es r hc e he M := by
    split at hc
    · rename_i hall
      exact zBool_all (List.all_eq_true.mp hall e he) M
    · cases hc
  unsat es hc := by
    split at hc
    · split at hc
      · cases hc
      · split at hc
        · rename_i hu
          obtain ⟨u, hmem, hs⟩ := List.any_eq_true.mp hu
          rintro ⟨M, hM⟩
          refine h _ hmem ⟨M, fun e he => ?_⟩
          obtain ⟨e', he', hse⟩ := List.any_eq_true.mp (List.all_eq_true.mp hs e he)
          rw [same_eq _ _ hse]
          exact hM e' he'
        · cases hc
    · cases hc
  sat es hc := by
    split at hc
    · split at hc
      · rename_i hm
        obtain ⟨M, _, hM⟩ := List.any_eq_true.mp hm
        exact ⟨M, fun e he => zTrue_iff.mp (List.all_eq_true.mp hM e he)⟩
      · split at hc <;> cases hc
    · cases hc

theorem tableSolver_decides {M₀ Ms us h} : (tableSolver M₀ Ms us h).Decides := by
  intro es hc
  simp only [tableSolver] at hc
  split at hc
  · split at hc
    · cases hc
    · split at hc <;> cases hc
  · cases hc

/-- The solver that always answers, for formulas that can be translated. -/
noncomputable def idealSolver : Solver := by
  classical
  exact {
    check := fun es =>
      if ∀ e ∈ es, ∀ M, ∃ b, zeval M e = .ok (.bool b) then
        if ∃ M, Holds M es then .ok .sat else .ok .unsat
      else .error .typeError
    translated := fun es r hc e he M => by
      split at hc
      · rename_i h; exact h e he M
      · cases hc
    unsat := fun es hc => by
      split at hc
      · split at hc
        · cases hc
        · rename_i h; exact h
      · cases hc
    sat := fun es hc => by
      split at hc
      · split at hc
        · rename_i h; exact h
        · cases hc
      · cases hc }

end Verif.Verify
