import Verif.Refine.Values
import Verif.Ctx.HistoryProps

/-! # Guards of conditions of refinements, and the value of the generated function -/

namespace Verif.Refine
open Verif Verif.Graph Verif.Verify Verif.Types Verif.Gen Verif.Spark Verif.Ctx

section
variable {r : Ref} {c : Context} {Safe : Prop}

/-! ## Substitution in guards -/

theorem subst_ctx (N : Names r.pdu.m opts) : substitution r.mapping ctxVar = ctxVar := subst_other N N.ctx

theorem subst_getter (N : Names r.pdu.m opts) (f : Field) (k : Nat) (hk : 2 ≤ k) :
    subst k (substitution r.mapping) (r.getter f) = .ok (r.getter f) := by
  match k, hk with
  | k + 2, _ =>
    have h1 : substitution r.mapping (r.getter f) = r.getter f := subst_same fun _ => rfl
    have h2 : subst (k + 1) (substitution r.mapping) ctxVar = .ok ctxVar := subst_var _ (subst_ctx N) _ (by simp [depth, Expr.v])
    have h3 : [ctxVar].mapM (subst (k + 1) (substitution r.mapping)) = .ok [ctxVar] := by rw [List.mapM_cons, h2]; rfl
    unfold Ref.getter at h1 ⊢
    rw [subst]
    simp only [h1, h3]
    rfl

theorem subst_known (N : Names r.pdu.m opts) (f : Field) (k : Nat) (hk : 3 ≤ k) :
    subst k (substitution r.mapping) (r.known f) = .ok (r.known f) := by
  match k, hk with
  | k + 1, hk =>
    have h1 : substitution r.mapping (r.known f) = r.known f := subst_same fun _ => rfl
    unfold Ref.known at h1 ⊢
    simp only [subst, h1, subst_getter N f k (by omega)]
    rfl

theorem depth_known (f : Field) : depth (r.known f) = 3 := by
  simp [Ref.known, Ref.getter, depth, depthL, ctxVar, Expr.v]

/-! ## The loop over the condition fields -/

/-- An expression with guards in front of it, before and after the substitution. -/
structure Stage (r : Ref) (c : Context) (Safe : Prop) (D : Bool) (gs : List Expr) (e : Expr) : Prop where
  guards : ∀ g ∈ gs, Guard g
  subst : ∃ e', (∀ k, depth e ≤ k → subst k (substitution r.mapping) e = .ok e') ∧
    (gs = [] ∧ CC r c Safe false e' D ∨ gs ≠ [] ∧ ∀ k, Yields (GG r c Safe true gs D) (simplify k e'))

theorem Stage.step (N : Names r.pdu.m opts) {D : Bool} {gs : List Expr} {e : Expr} (h : Stage r c Safe D gs e) (f : Field) :
    Stage r c Safe D (r.known f :: gs) (.bool .andThen [r.known f, e]) := by
  obtain ⟨h1, e', h2, h3⟩ := h
  refine ⟨?_, .bool .andThen [r.known f, e'], ?_, ?_⟩
  · intro g hg
    rcases List.mem_cons.1 hg with rfl | hg
    · trivial
    · exact h1 g hg
  · intro k hk
    simp only [depth, depthL, depth_known] at hk
    match k, hk with
    | 0, hk => omega
    | k + 1, hk =>
      simp only [Verif.subst, subst_same (r := r) (e := .bool .andThen [r.known f, e]) fun _ => rfl, List.mapM_cons, List.mapM_nil,
        subst_known N f k (by omega), h2 k (by omega)]
      rfl
  · refine .inr ⟨by simp, fun k => ?_⟩
    rcases h3 with ⟨rfl, h3⟩ | ⟨_, h3⟩
    · have := GG.flat (r := r) (c := c) (Safe := Safe) (st := false) (gs := [r.known f]) (rs := [(e', D)]) (by simp)
        (fun g hg => by simp only [List.mem_singleton] at hg; subst hg; trivial)
        (fun p hp => by simp only [List.mem_singleton] at hp; subst hp; exact h3)
      have h4 := this.simplify k
      simpa using h4
    · exact GG.step (gs' := [r.known f]) h3 (by simp) (fun g hg => by simp only [List.mem_singleton] at hg; subst hg; trivial) k

/-- The guards for values that are always valid. -/
def Ref.knowns (r : Ref) : List Expr := ((r.conditionFields.filter fun e => alwaysValid e.2).map fun e => r.known e.1).reverse

theorem Stage.fold (N : Names r.pdu.m opts) {D : Bool} (L : List (Field × FTy)) : ∀ {gs : List Expr} {e : Expr}, Stage r c Safe D gs e →
    Stage r c Safe D (((L.filter fun e => alwaysValid e.2).map fun e => r.known e.1).reverse ++ gs)
      (L.foldl (fun c e => if alwaysValid e.2 then .bool .andThen [r.known e.1, c] else c) e) := by
  induction L with
  | nil => intro gs e h; exact h
  | cons x L ih =>
    intro gs e h
    simp only [List.foldl_cons]
    by_cases ha : alwaysValid x.2 = true
    · have := ih (h.step N x.1)
      rw [if_pos ha, List.filter_cons_of_pos (p := fun e : Field × FTy => alwaysValid e.2) ha]
      simpa using this
    · rw [if_neg ha, List.filter_cons_of_neg (p := fun e : Field × FTy => alwaysValid e.2) ha]
      exact ih h

theorem conditions_guards (n : Bool) : ∀ g ∈ r.conditions n, Guard g := by
  intro g hg
  simp only [Ref.conditions, List.mem_append, List.mem_singleton, List.mem_map] at hg
  rcases hg with (rfl | hg) | ⟨e, _, rfl⟩
  · trivial
  · cases n
    · simp only [Bool.false_eq_true, if_false, List.mem_singleton] at hg
      subst hg; trivial
    · simp only [if_true, List.mem_cons, List.not_mem_nil, or_false] at hg
      rcases hg with rfl | rfl <;> trivial
  · trivial

theorem conditions_ne (n : Bool) : r.conditions n ≠ [] := by simp [Ref.conditions]

/-- The generated expression: guards, and then the condition. -/
theorem expression_ok (N : Names r.pdu.m opts) {D : Bool} (h : Stage r c Safe D [] r.condition) :
    ∃ e, r.expression = .ok e ∧ GG r c Safe true (r.conditions r.nullSdu ++ r.knowns) D e := by
  obtain ⟨_, e', h1, h2⟩ := h.fold N r.conditionFields
  have hs : r.guarded.substituted r.mapping = .ok e' := h1 _ (Nat.le_succ _)
  simp only [List.append_nil] at h2
  have fin : ∃ c', r.replaced = .ok c' ∧ ∀ k, Yields (GG r c Safe true (r.conditions r.nullSdu ++ r.knowns) D)
      (simplify k (.bool .andThen (r.conditions r.nullSdu ++ [c']))) := by
    rcases h2 with ⟨h2, h3⟩ | ⟨h2, h3⟩
    · obtain ⟨c', h4, h5⟩ := Yields.simplified h3.simplify
      refine ⟨c', ?_, fun k => ?_⟩
      · unfold Ref.replaced
        show (r.guarded.substituted r.mapping >>= fun c => c.simplified) = _
        rw [hs]; exact h4
      · have hk : r.knowns = [] := h2
        have := GG.flat (r := r) (c := c) (Safe := Safe) (st := false) (gs := r.conditions r.nullSdu) (rs := [(c', D)]) (conditions_ne _)
          (conditions_guards _) (fun p hp => by simp only [List.mem_singleton] at hp; subst hp; exact h5.weaken)
        have h6 := this.simplify k
        rw [hk]
        simpa using h6
    · obtain ⟨c', h4, h5⟩ := Yields.simplified h3
      refine ⟨c', ?_, fun k => ?_⟩
      · unfold Ref.replaced
        show (r.guarded.substituted r.mapping >>= fun c => c.simplified) = _
        rw [hs]; exact h4
      · exact GG.step (fun j => h5.weaken.simplify j) (conditions_ne _) (conditions_guards _) k
  obtain ⟨c', h3, h4⟩ := fin
  obtain ⟨e, h5, h6⟩ := Yields.simplified h4
  refine ⟨e, ?_, h6⟩
  unfold Ref.expression
  rw [h3]
  exact h5

/-! ## Types and values of guards -/

theorem named_self (n : PyStr) : r.named [r.prefix.lower, PyStr.lower n] n = true := by simp [Ref.named]

theorem named_ne {n n' : PyStr} (h : PyStr.lower n ≠ PyStr.lower n') : r.named [r.prefix.lower, PyStr.lower n] n' = false := by
  simp [Ref.named, h]

theorem fieldVar_ty (N : Names r.pdu.m opts) {f : Field} (hf : f ∈ r.pdu.m.msg.fields) :
    r.ty (.v ⟨[r.prefix, affixed (r.pdu.m.spell f)]⟩) = some .field := by
  simp [Expr.v, Ref.ty, call_key, fieldNamed_ok N hf]

theorem fieldVar_exec (N : Names r.pdu.m opts) {f : Field} (hf : f ∈ r.pdu.m.msg.fields) :
    r.exec c (.v ⟨[r.prefix, affixed (r.pdu.m.spell f)]⟩) = .ok (.field f) := by
  simp [Expr.v, Ref.exec, call_key, fieldNamed_ok N hf]

theorem fieldCall_ty (N : Names r.pdu.m opts) {f : Field} (hf : f ∈ r.pdu.m.msg.fields) {n : PyStr} (hn : n = PRESENT ∨ n = VALID ∨ n = STRUCTURAL_VALID) :
    r.ty (r.fieldCall n f) = some .bool := by
  have hL : r.tyL [ctxVar, .v ⟨[r.prefix, affixed (r.pdu.m.spell f)]⟩] = [some .context, some .field] := by
    rw [tyL_eq, List.map_cons, List.map_cons, ty_ctx, fieldVar_ty N hf]; rfl
  unfold Ref.fieldCall
  rw [Ref.ty, if_neg Bool.false_ne_true, hL]
  show (if r.named [r.prefix.lower, PyStr.lower n] PRESENT || r.named [r.prefix.lower, PyStr.lower n] VALID ||
    r.named [r.prefix.lower, PyStr.lower n] STRUCTURAL_VALID then some ATy.bool else none) = some .bool
  refine if_pos ?_
  rcases hn with rfl | rfl | rfl
  · rw [named_self]; rfl
  · rw [named_self VALID, Bool.or_true]; rfl
  · rw [named_self STRUCTURAL_VALID, Bool.or_true]

theorem fieldCall_exec (N : Names r.pdu.m opts) {f : Field} (hf : f ∈ r.pdu.m.msg.fields) :
    r.exec c (r.fieldCall PRESENT f) = .ok (.bool (present c f)) ∧ r.exec c (r.fieldCall VALID f) = .ok (.bool (valid c f)) ∧
    r.exec c (r.fieldCall STRUCTURAL_VALID f) = .ok (.bool (c.cursors f).sv) := by
  have h : ∀ n, r.exec c (r.fieldCall n f) = r.callFn c [r.prefix.lower, PyStr.lower n] [.context, .field f] := by
    intro n
    have hL : r.execL c [ctxVar, .v ⟨[r.prefix, affixed (r.pdu.m.spell f)]⟩] = .ok [.context, .field f] := by
      rw [Ref.execL, Ref.execL, Ref.execL, exec_ctx, fieldVar_exec N hf]; rfl
    unfold Ref.fieldCall
    rw [Ref.exec, hL]
    rfl
  rw [h, h, h]
  have h1 : r.named [r.prefix.lower, PyStr.lower VALID] PRESENT = false := named_ne (by decide)
  have h2 : r.named [r.prefix.lower, PyStr.lower STRUCTURAL_VALID] PRESENT = false := named_ne (by decide)
  have h3 : r.named [r.prefix.lower, PyStr.lower STRUCTURAL_VALID] VALID = false := named_ne (by decide)
  simp [Ref.callFn, named_self, h1, h2, h3]

theorem hasBuffer_ty : r.ty (.call false ⟨[r.prefix, HAS_BUFFER]⟩ [ctxVar]) = some .bool := by
  simp [Ref.ty, Ref.tyL, ty_ctx, call_key, Ref.callTy, named_self]

theorem hasBuffer_exec : r.exec c (.call false ⟨[r.prefix, HAS_BUFFER]⟩ [ctxVar]) = .ok (.bool c.hasBuffer) := by
  simp only [Ref.exec, Ref.execL, exec_ctx]
  show r.callFn c [r.prefix.lower, PyStr.lower HAS_BUFFER] [.context] = _
  simp [Ref.callFn, named_self]

theorem conditionFields_mem (N : Names r.pdu.m opts) {e : Field × FTy} (h : e ∈ r.conditionFields) :
    (e.1, e.2) ∈ r.pdu.m.msg.types ∧ e.1 ∈ r.pdu.m.msg.fields := ⟨(List.mem_filter.1 h).1, N.typed _ (List.mem_filter.1 h).1⟩

theorem conditions_ty (N : Names r.pdu.m opts) (hf : r.field ∈ r.pdu.m.msg.fields) (n : Bool) : ∀ g ∈ r.conditions n, r.ty g = some .bool := by
  intro g hg
  simp only [Ref.conditions, List.mem_append, List.mem_singleton, List.mem_map] at hg
  rcases hg with (rfl | hg) | ⟨e, he, rfl⟩
  · exact hasBuffer_ty
  · cases n
    · simp only [Bool.false_eq_true, if_false, List.mem_singleton] at hg
      subst hg
      exact fieldCall_ty N hf (.inl rfl)
    · simp only [if_true, List.mem_cons, List.not_mem_nil, or_false] at hg
      rcases hg with rfl | rfl
      · exact fieldCall_ty N hf (.inr (.inr rfl))
      · simp [Ref.ty, allTy, fieldCall_ty N hf (.inl rfl), ATy.isBool]
  · exact fieldCall_ty N (conditionFields_mem N he).2 (.inr (.inl rfl))

/-- The guards that are always evaluated, with their values. -/
theorem conditions_exec (N : Names r.pdu.m opts) (hf : r.field ∈ r.pdu.m.msg.fields) (n : Bool) :
    ∃ ts : List (Expr × Bool), r.conditions n = ts.map (·.1) ∧ (∀ p ∈ ts, r.exec c p.1 = .ok (.bool p.2)) ∧
      ((ts.map (·.2)).all id = true ↔ c.hasBuffer = true ∧
        (if n then (c.cursors r.field).sv = true ∧ present c r.field = false else present c r.field = true) ∧
        ∀ e ∈ r.conditionFields, valid c e.1 = true) := by
  obtain ⟨p1, p2, p3⟩ := fieldCall_exec (c := c) N hf
  refine ⟨[(.call false ⟨[r.prefix, HAS_BUFFER]⟩ [ctxVar], c.hasBuffer)] ++
    (if n then [(r.fieldCall STRUCTURAL_VALID r.field, (c.cursors r.field).sv), (.not (r.fieldCall PRESENT r.field), !present c r.field)]
      else [(r.fieldCall PRESENT r.field, present c r.field)]) ++ r.conditionFields.map (fun e => (r.fieldCall VALID e.1, valid c e.1)), ?_, ?_, ?_⟩
  · cases n <;> simp [Ref.conditions, Function.comp_def]
  · intro p hp
    simp only [List.mem_append, List.mem_singleton, List.mem_map] at hp
    rcases hp with (rfl | hp) | ⟨e, he, rfl⟩
    · exact hasBuffer_exec
    · cases n
      · simp only [Bool.false_eq_true, if_false, List.mem_singleton] at hp
        subst hp; exact p1
      · simp only [if_true, List.mem_cons, List.not_mem_nil, or_false] at hp
        rcases hp with rfl | rfl
        · exact p3
        · simp only [Ref.exec, p1]; rfl
    · exact (fieldCall_exec N (conditionFields_mem N he).2).2.1
  · cases n <;> simp [and_assoc]

theorem knowns_ty (N : Names r.pdu.m opts) : ∀ g ∈ r.knowns, r.ty g = some .bool := by
  intro g hg
  simp only [Ref.knowns, List.mem_reverse, List.mem_map, List.mem_filter] at hg
  obtain ⟨e, ⟨he, ha⟩, rfl⟩ := hg
  exact known_ty N (conditionFields_mem N he).1 ha

end

end Verif.Refine
