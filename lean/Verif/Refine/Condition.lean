import Verif.Refine.Simplify
import Verif.Ctx.Valid
import Verif.Ctx.Props
import Verif.Common.Props

/-! # Conditions of refinements after substitution -/

namespace Verif.Refine
open Verif Verif.Graph Verif.Verify Verif.Types Verif.Gen Verif.Spark Verif.Ctx

/-- Names and constants. -/
def Opd (a : Expr) : Prop := (∃ id, a = .v id) ∨ a.Const

section
variable {r : Ref}

theorem IsField.opd {a : Expr} {f : Field} {t : FTy} (h : IsField r a f t) : Opd a := by
  obtain ⟨id, rfl, _⟩ := h; exact .inl ⟨id, rfl⟩

theorem Comparable.opd {a b : Expr} (h : Comparable r a b) : Opd a ∧ Opd b := by
  cases h with
  | number h1 h2 _ => exact ⟨h1.opd, .inr h2.1⟩
  | literal h1 h2 _ => obtain ⟨id, rfl, _⟩ := h2; exact ⟨h1.opd, .inl ⟨id, rfl⟩⟩
  | fields h1 h2 _ => exact ⟨h1.opd, h2.opd⟩

theorem cond_opd {op : RelOp} {a b : Expr} (h : Cond r (.rel op a b)) : Opd a ∧ Opd b := by
  simp only [Cond] at h
  rcases h.2 with h | h
  · exact h.opd
  · exact h.opd.symm

theorem condL_iff {ts : List Expr} : CondL r ts ↔ ∀ t ∈ ts, Cond r t := by
  induction ts with
  | nil => simp [CondL]
  | cons t ts ih => simp [CondL, ih]

theorem namesOfL_mem {ts : List Expr} {id : ID} : id ∈ namesOfL ts ↔ ∃ t ∈ ts, id ∈ namesOf t := by
  induction ts with
  | nil => simp [namesOfL]
  | cons t ts ih => simp [namesOfL, ih]

theorem namesOf_const (e : Expr) : e.Const → namesOf e = [] := by
  induction e using Expr.ind with
  | add ts ih =>
    intro h
    simp only [Expr.Const, ConstL_iff] at h
    rw [List.eq_nil_iff_forall_not_mem]
    intro id hid
    simp only [namesOf] at hid
    obtain ⟨t, ht, hid⟩ := namesOfL_mem.1 hid
    rw [ih t ht (h t ht)] at hid
    cases hid
  | mul ts ih =>
    intro h
    simp only [Expr.Const, ConstL_iff] at h
    rw [List.eq_nil_iff_forall_not_mem]
    intro id hid
    simp only [namesOf] at hid
    obtain ⟨t, ht, hid⟩ := namesOfL_mem.1 hid
    rw [ih t ht (h t ht)] at hid
    cases hid
  | bin op l r ihl ihr =>
    intro h
    simp only [Expr.Const] at h
    simp [namesOf, ihl h.2.1, ihr h.2.2]
  | num v b => intro _; rfl
  | _ => intro h; simp [Expr.Const] at h

theorem var_eq_const {a : Expr} (i : ID) (h : a.Const) : (Expr.v i).eq a = false := by
  cases a <;> simp only [Expr.Const] at h <;> rfl

theorem eq_opd {a : Expr} {i : ID} (h : Opd a) : (Expr.v i).eq a = true ↔ ∃ id ∈ namesOf a, id.key = i.key := by
  rcases h with ⟨id, rfl⟩ | h
  · have : (Expr.v i).eq (.v id) = i.eq id := by simp [Expr.eq, Expr.v, Expr.cls, Expr.Cls.sub]
    rw [this, ID.eq_iff_key]
    simp [namesOf, Expr.v, eq_comm]
  · rw [var_eq_const i h, namesOf_const a h]
    simp

theorem inAny_iff {i : Expr} {ts : List Expr} : inAny i ts = true ↔ ∃ t ∈ ts, inExpr i t = true := by
  induction ts with
  | nil => simp [inAny]
  | cons t ts ih => simp [inAny, ih]

/-- A name is found in a condition if it occurs there. -/
theorem inExpr_iff {i : ID} (e : Expr) : Cond r e → (inExpr (.v i) e = true ↔ ∃ id ∈ namesOf e, id.key = i.key) := by
  induction e using Expr.ind with
  | tru =>
    intro _
    have : inExpr (.v i) .tru = false := rfl
    simp [this, namesOf]
  | fls =>
    intro _
    have : inExpr (.v i) .fls = false := rfl
    simp [this, namesOf]
  | bool op ts ih =>
    intro h
    simp only [Cond, condL_iff] at h
    have : (Expr.v i).eq (.bool op ts) = false := by cases op <;> rfl
    simp only [inExpr, this, Bool.false_or, inAny_iff, namesOf]
    constructor
    · rintro ⟨t, ht, h1⟩
      obtain ⟨id, h2, h3⟩ := (ih t ht (h t ht)).1 h1
      exact ⟨id, namesOfL_mem.2 ⟨t, ht, h2⟩, h3⟩
    · rintro ⟨id, h2, h3⟩
      obtain ⟨t, ht, h2⟩ := namesOfL_mem.1 h2
      exact ⟨t, ht, (ih t ht (h t ht)).2 ⟨id, h2, h3⟩⟩
  | rel op a b _ _ =>
    intro h
    obtain ⟨ha, hb⟩ := cond_opd h
    have : (Expr.v i).eq (.rel op a b) = false := by cases op <;> rfl
    simp only [inExpr, this, Bool.false_or, Bool.or_eq_true, eq_opd ha, eq_opd hb, namesOf, List.mem_append]
    constructor
    · rintro (⟨id, h1, h2⟩ | ⟨id, h1, h2⟩)
      · exact ⟨id, .inl h1, h2⟩
      · exact ⟨id, .inr h1, h2⟩
    · rintro ⟨id, h1 | h1, h2⟩
      · exact .inl ⟨id, h1, h2⟩
      · exact .inr ⟨id, h1, h2⟩
  | _ => intro h; simp [Cond] at h

theorem spell_key (N : Names r.pdu.m opts) {f : Field} (hf : f ∈ r.pdu.m.msg.fields) : (⟨[r.pdu.m.spell f]⟩ : ID).key = f.parts :=
  (field_key N hf).symm

/-- The condition fields are the fields that occur in the condition. -/
theorem conditionFields_iff (N : Names r.pdu.m opts) (C : Cond r r.condition) {f : Field} {t : FTy} :
    (f, t) ∈ r.conditionFields ↔ (f, t) ∈ r.pdu.m.msg.types ∧ Occurs f r.condition := by
  simp only [Ref.conditionFields, List.mem_filter, Occurs]
  refine and_congr_right fun h => ?_
  rw [inExpr_iff _ C, spell_key N (N.typed _ h)]

/-! ## Visible packages -/

theorem pyvar_eq {a b : PyVar} (h : a.eq b = true) : a.id.key = b.id.key := by
  simp only [PyVar.eq, Bool.and_eq_true] at h
  exact (ID.eq_iff_key _ _).1 h.2

theorem unique_covers {l : List PyVar} {x : PyVar} (h : x ∈ l) :
    ∃ y ∈ unique (PyVar.hash fun _ => 0) PyVar.eq l, y.id.key = x.id.key := by
  obtain ⟨y, hy, he⟩ := Verif.Common.uniqueLoop_covers (hash := PyVar.hash fun _ => 0) (eq := PyVar.eq) (fun a => by
    simp only [PyVar.eq, Bool.and_eq_true, beq_self_eq_true, true_and]
    exact (ID.eq_iff_key _ _).2 rfl) [] l x h
  rcases hy with hy | hy
  · cases hy
  · exact ⟨y, hy, pyvar_eq he⟩

theorem variables_opd {a : Expr} (h : Opd a) {id : ID} (hid : id ∈ namesOf a) : ∃ v ∈ variables (fun _ => 0) a, v.id.key = id.key := by
  rcases h with ⟨i, rfl⟩ | h
  · simp only [namesOf, Expr.v, List.mem_singleton] at hid
    subst hid
    exact ⟨⟨false, id⟩, by simp [variables, Expr.v], rfl⟩
  · rw [namesOf_const a h] at hid; cases hid

theorem variablesL_mem {ts : List Expr} {v : PyVar} {t : Expr} (ht : t ∈ ts) (hv : v ∈ variables (fun _ => 0) t) :
    v ∈ variablesL (fun _ => 0) ts := by
  induction ts with
  | nil => cases ht
  | cons x ts ih =>
    simp only [variablesL, List.mem_append]
    rcases List.mem_cons.1 ht with rfl | ht
    · exact .inl hv
    · exact .inr (ih ht)

theorem variables_cond {id : ID} (e : Expr) : Cond r e → id ∈ namesOf e → ∃ v ∈ variables (fun _ => 0) e, v.id.key = id.key := by
  induction e using Expr.ind with
  | tru => intro _ h; cases h
  | fls => intro _ h; cases h
  | bool op ts ih =>
    intro h hid
    simp only [Cond, condL_iff] at h
    simp only [namesOf] at hid
    obtain ⟨t, ht, hid⟩ := namesOfL_mem.1 hid
    obtain ⟨v, hv, hk⟩ := ih t ht (h t ht) hid
    obtain ⟨y, hy, hk'⟩ := unique_covers (variablesL_mem ht hv)
    exact ⟨y, by simpa only [variables] using hy, hk'.trans hk⟩
  | rel op a b _ _ =>
    intro h hid
    obtain ⟨ha, hb⟩ := cond_opd h
    simp only [namesOf, List.mem_append] at hid
    have : ∃ v ∈ variables (fun _ => 0) a ++ variables (fun _ => 0) b, v.id.key = id.key := by
      rcases hid with hid | hid
      · obtain ⟨v, hv, hk⟩ := variables_opd ha hid; exact ⟨v, List.mem_append_left _ hv, hk⟩
      · obtain ⟨v, hv, hk⟩ := variables_opd hb hid; exact ⟨v, List.mem_append_right _ hv, hk⟩
    obtain ⟨v, hv, hk⟩ := this
    obtain ⟨y, hy, hk'⟩ := unique_covers hv
    exact ⟨y, by simpa only [variables] using hy, hk'.trans hk⟩
  | _ => intro h; simp [Cond] at h

theorem key_length (i : ID) : i.key.length = i.parts.length := by simp [ID.key]

theorem operators_ok (C : Cond r r.condition) {i : ID} (h : Visible r i) : r.operators i = true := by
  simp only [Ref.operators, List.contains_iff_mem, Ref.visible, List.mem_append, List.mem_cons, List.not_mem_nil, or_false, List.mem_map,
    List.mem_filter, beq_iff_eq]
  rcases h with h | h | ⟨h1, h2⟩ | ⟨id, h1, h2, h3⟩
  · exact .inl (.inl (.inl h))
  · exact .inl (.inl (.inr h))
  · left; right; rw [if_neg h1]; exact List.mem_singleton.2 h2
  · right
    obtain ⟨v, hv, hk⟩ := variables_cond _ C h1
    refine ⟨v, ⟨hv, ?_⟩, by rw [hk]; exact h3⟩
    rw [← key_length, hk, key_length, h2]

/-! ## Substitution -/

/-- The substitution of fields. -/
def Ref.mapping (r : Ref) : List (Expr × Expr) :=
  r.conditionFields.map fun e => (.v ⟨[r.pdu.m.spell e.1]⟩, r.fieldValue e.1 e.2)

theorem find_none {e : Expr} (h : ∀ g : Field × FTy, g ∈ r.conditionFields → (Expr.v ⟨[r.pdu.m.spell g.1]⟩).eq e = false) :
    substitution r.mapping e = e := by
  unfold substitution
  split
  · have : r.mapping.find? (fun kv => kv.1.eq e) = none := by
      rw [List.find?_eq_none]
      intro kv hkv
      obtain ⟨g, hg, rfl⟩ := List.mem_map.1 hkv
      simp [h g hg]
    rw [this]
  · rfl

theorem var_eq {i j : ID} : (Expr.v i).eq (.v j) = true ↔ i.key = j.key := by
  have : (Expr.v i).eq (.v j) = i.eq j := by simp [Expr.eq, Expr.v, Expr.cls, Expr.Cls.sub]
  rw [this, ID.eq_iff_key]

/-- The name of a condition field is replaced. -/
theorem subst_field (N : Names r.pdu.m opts) {f : Field} {t : FTy} (h : (f, t) ∈ r.conditionFields) {id : ID} (hk : id.key = f.parts) :
    substitution r.mapping (.v id) = r.fieldValue f t := by
  have hT : ∀ {g u}, (g, u) ∈ r.conditionFields → (g, u) ∈ r.pdu.m.msg.types := fun h => (List.mem_filter.1 h).1
  unfold substitution
  have hn : (Expr.v id).isName = true := rfl
  rw [if_pos hn]
  cases hf : r.mapping.find? (fun kv => kv.1.eq (.v id)) with
  | none =>
    exfalso
    rw [List.find?_eq_none] at hf
    refine hf _ (List.mem_map_of_mem h) ?_
    rw [var_eq, spell_key N (N.typed _ (hT h)), hk]
  | some kv =>
    have h1 := List.find?_some hf
    obtain ⟨⟨g, u⟩, hg, rfl⟩ := List.mem_map.1 (List.mem_of_find?_eq_some hf)
    simp only at h1 ⊢
    rw [var_eq, spell_key N (N.typed _ (hT hg)), hk] at h1
    obtain rfl : g = f := by cases g; cases f; simp_all
    rw [nodup_pair N.once (hT hg) (hT h)]

/-- Other names are not replaced. -/
theorem subst_other (N : Names r.pdu.m opts) {id : ID} (h : ⟨id.key⟩ ∉ r.pdu.m.msg.fields) : substitution r.mapping (.v id) = .v id := by
  refine find_none fun g hg => ?_
  rw [Bool.eq_false_iff, Ne, var_eq]
  intro hk
  have hf := N.typed _ (List.mem_filter.1 hg).1
  rw [spell_key N hf] at hk
  exact h (by rw [← hk]; exact hf)

theorem subst_const (e : Expr) : e.Const → ∀ k, depth e ≤ k → subst k (substitution r.mapping) e = .ok e := by
  have hid : ∀ e : Expr, (∀ i, (Expr.v i).eq e = false) → substitution r.mapping e = e := fun e h => find_none fun _ _ => h _
  have hmap : ∀ (k : Nat) (ts : List Expr), (∀ t ∈ ts, subst k (substitution r.mapping) t = .ok t) →
      ts.mapM (subst k (substitution r.mapping)) = .ok ts := by
    intro k ts
    induction ts with
    | nil => intro _; rfl
    | cons t ts ih =>
      intro h
      rw [List.mapM_cons, h t List.mem_cons_self, ih fun x hx => h x (List.mem_cons_of_mem _ hx)]
      rfl
  have hdep : ∀ (ts : List Expr) (t : Expr), t ∈ ts → depth t ≤ depthL ts := by
    intro ts
    induction ts with
    | nil => intro t h; cases h
    | cons x ts ih =>
      intro t h
      simp only [depthL]
      rcases List.mem_cons.1 h with rfl | h
      · omega
      · have := ih t h; omega
  induction e using Expr.ind with
  | num v b =>
    intro _ k hk
    cases k with
    | zero => simp [depth] at hk
    | succ k => simp only [subst]; rw [hid _ fun _ => rfl]
  | add ts ih =>
    intro h k hk
    simp only [Expr.Const, ConstL_iff] at h
    simp only [depth] at hk
    cases k with
    | zero => omega
    | succ k =>
      simp only [subst, hid (.add ts) fun _ => rfl]
      rw [hmap k ts fun t ht => ih t ht (h t ht) k (by have := hdep ts t ht; omega)]
      rfl
  | mul ts ih =>
    intro h k hk
    simp only [Expr.Const, ConstL_iff] at h
    simp only [depth] at hk
    cases k with
    | zero => omega
    | succ k =>
      simp only [subst, hid (.mul ts) fun _ => rfl]
      rw [hmap k ts fun t ht => ih t ht (h t ht) k (by have := hdep ts t ht; omega)]
      rfl
  | bin op a b iha ihb =>
    intro h k hk
    simp only [Expr.Const] at h
    simp only [depth] at hk
    cases k with
    | zero => omega
    | succ k =>
      simp only [subst, hid (.bin op a b) fun _ => by cases op <;> rfl]
      rw [iha h.2.1 k (by omega), ihb h.2.2 k (by omega)]
      rfl
  | _ => intro h; simp [Expr.Const] at h

end

end Verif.Refine
