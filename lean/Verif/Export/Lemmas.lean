import Verif.Export.Spec
import Verif.Ident.Props

/-! # Lemmas on exported documents -/

namespace Verif.Export

open Verif Verif.Types

theorem hasKind_tagged (k : String) (d) : (tagged k.toList d).HasKind k := by
  refine ⟨k.toList, ?_, rfl⟩
  simp [tagged, Json.get, List.lookup]

theorem part_tagged (s : PyStr) (d) (k : String) : (tagged s d).part k = d.lookup k.toList := by
  simp [tagged, Json.part, Json.get, List.lookup]

/-- The value of an attribute. -/
def valueOf : Val → Py Json
  | .list l => do
    let js ← Val.serializeList l
    return .list js
  | .bool b => .ok (.bool b)
  | .int i => .ok (.int i)
  | .str s => .ok (.str s)
  | v => v.serialize

theorem attrs_skip (k : PyStr) (v : Val) (r) (h : excluded.contains k = true) :
    Val.serializeAttrs ((k, v) :: r) = Val.serializeAttrs r := by
  cases v <;> simp only [Val.serializeAttrs, h, if_true]

theorem attrs_keep (k : PyStr) (v : Val) (r) (h : excluded.contains k = false) {j : Json} {d}
    (hv : valueOf v = .ok j) (hr : Val.serializeAttrs r = .ok d) :
    Val.serializeAttrs ((k, v) :: r) = .ok ((k, j) :: d) := by
  cases v with
  | list l =>
    simp only [valueOf] at hv
    cases hl : Val.serializeList l with
    | error e => rw [hl] at hv; cases hv
    | ok js =>
      rw [hl] at hv; cases hv
      simp only [Val.serializeAttrs, h, hl, hr]; rfl
  | bool b => cases hv; simp only [Val.serializeAttrs, h, hr]; rfl
  | int b => cases hv; simp only [Val.serializeAttrs, h, hr]; rfl
  | str b => cases hv; simp only [Val.serializeAttrs, h, hr]; rfl
  | none => cases hv
  | other => cases hv
  | dict _ _ => cases hv
  | id i => simp only [valueOf] at hv; simp only [Val.serializeAttrs, h, hr, hv]; rfl
  | obj c a => simp only [valueOf] at hv; simp only [Val.serializeAttrs, h, hr, hv]; rfl

theorem obj_json (c : PyStr) (as) {d} (h : Val.serializeAttrs as = .ok d) :
    (Val.obj c as).serialize = .ok (tagged c d) := by
  simp only [Val.serialize, h]; rfl

theorem value_expr (e : Expr) : valueOf (toVal e) = (toVal e).serialize := by
  cases e <;> simp only [toVal] <;> rfl

theorem value_list {l : List Val} {js} (h : Val.serializeList l = .ok js) : valueOf (.list l) = .ok (.list js) := by
  simp only [valueOf, h]; rfl

/-- Attributes of the exported document, one by one. -/
macro "attrs" : tactic => `(tactic|
  repeat (first
    | rfl
    | exact attrs_skip _ _ _ (by decide)
    | (refine (attrs_skip _ _ _ (by decide)).trans ?_)
    | (refine attrs_keep _ _ _ (by decide) (by first | rfl | (rw [value_expr]; assumption) | (exact value_list (by assumption))) ?_)))

mutual

theorem expr_json : ∀ e : Expr, ∃ j, (toVal e).serialize = .ok j ∧ Describes e j
  | .tru => ⟨_, rfl, hasKind_tagged "BooleanTrue" _⟩
  | .fls => ⟨_, rfl, hasKind_tagged "BooleanFalse" _⟩
  | .undefined => ⟨_, rfl, hasKind_tagged "UndefinedExpr" _⟩
  | .num v b => ⟨_, rfl, hasKind_tagged "Number" _, by rw [part_tagged]; rfl, by rw [part_tagged]; cases b <;> rfl⟩
  | .var neg imm i => ⟨_, rfl, hasKind_tagged "Variable" _, by rw [part_tagged]; rfl, _, by rw [part_tagged]; rfl, rfl⟩
  | .attr neg k p => by
    obtain ⟨j, h, hd⟩ := expr_json p
    refine ⟨tagged (clsName (.attr k)) [("prefix".toList, j), ("negative".toList, .bool neg)],
      obj_json _ _ (by attrs), ?_, by rw [part_tagged]; rfl, j, by rw [part_tagged]; rfl, hd⟩
    cases k <;> exact hasKind_tagged _ _
  | .sel neg p s => by
    obtain ⟨j, h, hd⟩ := expr_json p
    exact ⟨tagged (clsName .sel) [("prefix".toList, j), ("selector".toList, idJson s), ("negative".toList, .bool neg)],
      obj_json _ _ (by attrs), hasKind_tagged "Selected" _, by rw [part_tagged]; rfl,
      ⟨j, by rw [part_tagged]; rfl, hd⟩, _, by rw [part_tagged]; rfl, rfl⟩
  | .call neg i args => by
    obtain ⟨js, h, hd⟩ := exprs_json args
    exact ⟨tagged (clsName .call) [("identifier".toList, idJson i), ("args".toList, .list js),
      ("argument_types".toList, .list []), ("negative".toList, .bool neg)],
      obj_json _ _ (by attrs), hasKind_tagged "Call" _, by rw [part_tagged]; rfl,
      ⟨_, by rw [part_tagged]; rfl, rfl⟩, js, by rw [part_tagged]; rfl, hd⟩
  | .not e => by
    obtain ⟨j, h, hd⟩ := expr_json e
    exact ⟨tagged (clsName .not) [("expr".toList, j)], obj_json _ _ (by attrs), hasKind_tagged "Not" _,
      j, by rw [part_tagged]; rfl, hd⟩
  | .bool op ts => by
    obtain ⟨js, h, hd⟩ := exprs_json ts
    refine ⟨tagged (clsName (.bool op)) [("terms".toList, .list js)], obj_json _ _ (by attrs), ?_,
      js, by rw [part_tagged]; rfl, hd⟩
    cases op <;> exact hasKind_tagged _ _
  | .add ts => by
    obtain ⟨js, h, hd⟩ := exprs_json ts
    exact ⟨tagged (clsName .add) [("terms".toList, .list js)], obj_json _ _ (by attrs), hasKind_tagged "Add" _,
      js, by rw [part_tagged]; rfl, hd⟩
  | .mul ts => by
    obtain ⟨js, h, hd⟩ := exprs_json ts
    exact ⟨tagged (clsName .mul) [("terms".toList, .list js)], obj_json _ _ (by attrs), hasKind_tagged "Mul" _,
      js, by rw [part_tagged]; rfl, hd⟩
  | .bin op a b => by
    obtain ⟨j, h, hd⟩ := expr_json a
    obtain ⟨j', h', hd'⟩ := expr_json b
    refine ⟨tagged (clsName (.bin op)) [("left".toList, j), ("right".toList, j')], obj_json _ _ (by attrs), ?_,
      ⟨j, by rw [part_tagged]; rfl, hd⟩, j', by rw [part_tagged]; rfl, hd'⟩
    cases op <;> exact hasKind_tagged _ _
  | .rel op a b => by
    obtain ⟨j, h, hd⟩ := expr_json a
    obtain ⟨j', h', hd'⟩ := expr_json b
    refine ⟨tagged (clsName (.rel op)) [("left".toList, j), ("right".toList, j')], obj_json _ _ (by attrs), ?_,
      ⟨j, by rw [part_tagged]; rfl, hd⟩, j', by rw [part_tagged]; rfl, hd'⟩
    cases op <;> exact hasKind_tagged _ _
  | .agg es => by
    obtain ⟨js, h, hd⟩ := exprs_json es
    exact ⟨tagged (clsName .agg) [("elements".toList, .list js)], obj_json _ _ (by attrs), hasKind_tagged "Aggregate" _,
      js, by rw [part_tagged]; rfl, hd⟩
  | .quant k p it pr => by
    obtain ⟨j, h, hd⟩ := expr_json it
    obtain ⟨j', h', hd'⟩ := expr_json pr
    refine ⟨tagged (clsName (.quant k)) [("parameter_identifier".toList, idJson p), ("iterable".toList, j),
      ("predicate".toList, j')], obj_json _ _ (by attrs), ?_, ⟨_, by rw [part_tagged]; rfl, rfl⟩,
      ⟨j, by rw [part_tagged]; rfl, hd⟩, j', by rw [part_tagged]; rfl, hd'⟩
    cases k <;> exact hasKind_tagged _ _

theorem exprs_json : ∀ es : List Expr, ∃ js, Val.serializeList (toVals es) = .ok js ∧ DescribesAll es js
  | [] => ⟨[], rfl, rfl⟩
  | e :: es => by
    obtain ⟨j, h, hd⟩ := expr_json e
    obtain ⟨js, h', hd'⟩ := exprs_json es
    exact ⟨j :: js, by simp only [toVals, Val.serializeList, h, h']; rfl, j, js, rfl, hd, hd'⟩

end

end Verif.Export
