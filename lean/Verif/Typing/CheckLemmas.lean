import Verif.Typing.CheckSpec

/-! # Lemmas about the check of types -/

namespace Verif.Typing
open Verif

variable {M : Type} [DecidableEq M]

theorem bind_true {x : Py Bool} {f : Bool → Py Bool} (h : (x >>= f) = .ok true) : ∃ a, x = .ok a ∧ f a = .ok true := by
  cases x with
  | error e => cases h
  | ok a => exact ⟨a, rfl, h⟩

theorem and_true {x y : Py Bool} (h : (do let a ← x; let b ← y; return a && b) = .ok true) : x = .ok true ∧ y = .ok true := by
  obtain ⟨a, ha, h⟩ := bind_true h
  obtain ⟨b, hb, h⟩ := bind_true h
  have := Except.ok.inj h
  simp at this
  rw [ha, hb, this.1, this.2]; simp

theorem and3_true {x y z : Py Bool} (h : (do let a ← x; let b ← y; let c ← z; return a && b && c) = .ok true) :
    x = .ok true ∧ y = .ok true ∧ z = .ok true := by
  obtain ⟨a, ha, h⟩ := bind_true h
  obtain ⟨b, hb, h⟩ := bind_true h
  obtain ⟨c, hc, h⟩ := bind_true h
  have := Except.ok.inj h
  simp at this
  rw [ha, hb, hc, this.1.1, this.1.2, this.2]; simp

theorem and4_true {x y z w : Py Bool}
    (h : (do let a ← x; let b ← y; let c ← z; let d ← w; return a && b && c && d) = .ok true) :
    x = .ok true ∧ y = .ok true ∧ z = .ok true ∧ w = .ok true := by
  obtain ⟨a, ha, h⟩ := bind_true h
  obtain ⟨b, hb, h⟩ := bind_true h
  obtain ⟨c, hc, h⟩ := bind_true h
  obtain ⟨d, hd, h⟩ := bind_true h
  have := Except.ok.inj h
  simp at this
  rw [ha, hb, hc, hd, this.1.1.1, this.1.1.2, this.1.2, this.2]; simp

theorem meets_defined {t : Ty M} {w : Want M} (h : meets t w = .ok true) : t ≠ .undefined := by
  intro ht
  subst ht
  cases w with
  | ty u => cases h
  | cls c => cases h

theorem meets_cls {t : Ty M} {c : TyCls} (h : meets t (.cls c) = .ok true) : t.isInstance c = true ∨ t = .any := by
  have h := Except.ok.inj h
  unfold checkInstance at h
  split at h
  · cases h
  · split at h
    · cases h
    · rename_i h1
      simp at h1
      cases hi : t.isInstance c with
      | true => exact .inl rfl
      | false => exact .inr (h1 hi)

theorem meets_ty {t u : Ty M} (h : meets t (.ty u) = .ok true) (hu : u ≠ .undefined) : t.isCompatible u = true := by
  have h : checkType t (.one u) = .ok true := h
  unfold checkType at h
  simp only at h
  split at h
  · cases h
  · split at h
    · cases h
    · rename_i h1
      cases hc : t.isCompatible u with
      | true => rfl
      | false => exact absurd ⟨hu, hc⟩ h1

theorem isInteger_kind {t : Ty M} (h : t.isInteger = true) : t.kind = some .int := by
  cases t <;> simp_all [Ty.isInteger, Ty.kind]

/-- Compatible types with kinds have the same kind. -/
theorem compatible_kind {t u : Ty M} {k l : Kind} (h : t.isCompatible u = true) (ht : t.kind = some k)
    (hu : u.kind = some l) : k = l := by
  cases t <;> cases u <;> simp_all [Ty.isCompatible, Ty.kind, Ty.isInteger]

/-- The types that arithmetic operands can have at construction. -/
def Arith (t : Ty M) : Prop := t = .undefined ∨ t.isInteger = true

theorem common_arith {a b : Ty M} (ha : a = .any ∨ Arith a) (hb : Arith b) : Arith (a.common b) := by
  rcases ha with rfl | rfl | ha
  · exact hb
  · exact .inl rfl
  · rcases hb with rfl | hb
    · cases a <;> simp_all [Ty.isInteger, Ty.common, Arith]
    · cases a <;> simp [Ty.isInteger] at ha <;> cases b <;> simp [Ty.isInteger] at hb <;>
        simp only [Ty.common, Arith] <;> (repeat' split) <;> simp_all [Ty.isInteger]

theorem common_int {a b : Ty M} (ha : a.isInteger = true) (hb : b.isInteger = true) : (a.common b).isInteger = true := by
  cases a <;> simp [Ty.isInteger] at ha <;> cases b <;> simp [Ty.isInteger] at hb <;>
    simp only [Ty.common] <;> (repeat' split) <;> simp_all [Ty.isInteger]

theorem foldl_arith {ts : List (Ty M)} {a : Ty M} (ha : Arith a) (h : ∀ t ∈ ts, Arith t) : Arith (ts.foldl Ty.common a) := by
  induction ts generalizing a with
  | nil => exact ha
  | cons t ts ih => exact ih (common_arith (.inr ha) (h t (by simp))) (fun t' ht' => h t' (by simp [ht']))

theorem commonType_arith {ts : List (Ty M)} (hne : ts ≠ []) (h : ∀ t ∈ ts, Arith t) : Arith (commonType ts) := by
  cases ts with
  | nil => exact absurd rfl hne
  | cons t ts => exact foldl_arith (a := t) (h t (by simp)) (fun t' ht' => h t' (by simp [ht']))

theorem mathTy_int {t : Ty M} (h : Arith t) : (mathTy t).isInteger = true := by
  unfold mathTy
  rcases h with rfl | h
  · simp [Ty.isInteger]
  · split
    · rfl
    · exact h

theorem mem_ctorTyL {Γ : Ctx M} {es : List Expr} {t : Ty M} (h : t ∈ ctorTyL Γ es) : ∃ e ∈ es, t = ctorTy Γ e := by
  induction es with
  | nil => simp [ctorTyL] at h
  | cons e es ih =>
    simp only [ctorTyL, List.mem_cons] at h
    rcases h with rfl | h
    · exact ⟨e, by simp, rfl⟩
    · obtain ⟨e', he, rfl⟩ := ih h
      exact ⟨e', by simp [he], rfl⟩

theorem ctorTyL_ne_nil {Γ : Ctx M} {es : List Expr} (h : es ≠ []) : ctorTyL Γ es ≠ [] := by
  cases es with
  | nil => exact absurd rfl h
  | cons e es => simp [ctorTyL]

theorem allOk_mem {Γ : Ctx M} {w : Want M} {es : List Expr} (h : allOk Γ w es = .ok true) :
    ∀ e ∈ es, subOk Γ e = .ok true ∧ meets (afterTy Γ e) w = .ok true := by
  induction es with
  | nil => intro e he; cases he
  | cons a es ih =>
    rw [allOk] at h
    obtain ⟨h1, h2, h3⟩ := and3_true h
    intro e he
    rcases List.mem_cons.mp he with rfl | he
    · exact ⟨h1, h2⟩
    · exact ih h3 e he

theorem argsOk_mem {Γ : Ctx M} {es : List Expr} {ts : List (Ty M)} (h : argsOk Γ es ts = .ok true) :
    ∀ e ∈ es, subOk Γ e = .ok true ∧ afterTy Γ e ≠ .undefined := by
  induction es generalizing ts with
  | nil => intro e he; cases he
  | cons a es ih =>
    rw [argsOk] at h
    obtain ⟨h1, h2, h3⟩ := and3_true h
    intro e he
    rcases List.mem_cons.mp he with rfl | he
    · exact ⟨h1, meets_defined h2⟩
    · exact ih h3 e he

/-- Attributes of plain names. -/
theorem subOk_attr_var {Γ : Ctx M} {ng : Bool} {k : AttrKind} {imm : Bool} {id : ID}
    (h : subOk Γ (.attr ng k (.var false imm id)) = .ok true) :
    k ≠ .present ∧ meets (afterTy Γ (.var false imm id)) (prefixWant k) = .ok true := by
  cases k <;> first
    | exact ⟨by simp, (and_true (x := .ok true) h).2⟩
    | cases h



/-- An accepted regular expression has a type with a kind. -/
theorem accepted_kind {Γ : Ctx M} {B : List (List PyStr)} {e : Expr} (hr : Regular Γ B e) (h : subOk Γ e = .ok true) (hd : afterTy Γ e ≠ .undefined) :
    (afterTy Γ e).kind.isSome = true ∧ (((afterTy Γ e).isInteger = true ∨ afterTy Γ e = .any) → Arith (ctorTy Γ e)) := by
  induction hr with
  | tru => exact ⟨rfl, fun h => by simp [afterTy, ctorTy, BOOLEAN, Ty.isInteger] at h⟩
  | fls => exact ⟨rfl, fun h => by simp [afterTy, ctorTy, BOOLEAN, Ty.isInteger] at h⟩
  | num => exact ⟨rfl, fun _ => .inr rfl⟩
  | @var Γ B ng imm id hv hs =>
    simp only [afterTy, ctorTy] at hd ⊢
    cases imm with
    | true => exact absurd rfl hd
    | false =>
      simp only [Bool.false_eq_true, if_false] at hd ⊢
      have hv := hv.resolve_left hd
      refine ⟨hv, fun h => .inr (h.resolve_right fun h => ?_)⟩
      rw [h] at hv; cases hv
  | @attr Γ B ng k imm id hB hv hs =>
    refine ⟨?_, fun _ => .inl rfl⟩
    obtain ⟨hk, hm⟩ := subOk_attr_var h
    have hu : Γ.var id.key ≠ .undefined := by
      intro hu
      have := meets_defined hm
      simp only [afterTy, ctorTy, hu] at this
      cases imm <;> exact this rfl
    have hv := hv.resolve_left hu
    have himm : imm = false := by
      cases imm with
      | false => rfl
      | true => exact absurd rfl (meets_defined hm)
    subst himm
    cases k <;> try rfl
    revert hv
    simp only [afterTy, ctorTy, attrKind, Bool.false_eq_true, if_false]
    cases Γ.var id.key <;> simp [Ty.element]
  | @sel Γ B ng imm id s hv hany =>
    refine ⟨?_, fun _ => .inl rfl⟩
    simp only [subOk] at h
    obtain ⟨a, ha, h⟩ := bind_true h
    obtain ⟨b, hb, h⟩ := bind_true h
    have h := Except.ok.inj h
    simp only [Bool.and_eq_true] at h
    rw [h.2] at hb
    have himm : imm = false := by
      cases imm with
      | false => rfl
      | true => exact absurd rfl (meets_defined hb)
    subst himm
    have hso := h.1.1
    rcases meets_cls hb with hi | hi
    · simp only [afterTy, ctorTy, Bool.false_eq_true, if_false] at hi ⊢
      unfold selectorOk at hso
      simp only [ctorTy, Bool.false_eq_true, if_false] at hso
      cases hv' : Γ.var id.key <;> rw [hv'] at hi <;> simp [Ty.isInstance] at hi
      rw [hv'] at hso
      rename_i n b
      simp only at hso ⊢
      cases hf : Γ.field b s.str with
      | none => rw [hf] at hso; cases hso
      | some t => exact (hv n b t hv' hf).1
    · simp only [afterTy, ctorTy, Bool.false_eq_true, if_false] at hi
      exact absurd hi hany
  | @call Γ B ng id args _ hB ht hk hs ih =>
    simp only [afterTy, ctorTy] at hd ⊢
    have hk := hk.resolve_left hd
    refine ⟨hk, fun h => .inr (h.resolve_right fun h => ?_)⟩
    rw [h] at hk; cases hk
  | not => exact ⟨rfl, fun h => by simp [afterTy, ctorTy, BOOLEAN, Ty.isInteger] at h⟩
  | bool => exact ⟨rfl, fun h => by simp [afterTy, ctorTy, BOOLEAN, Ty.isInteger] at h⟩
  | @add Γ B ts hne _ ih =>
    rw [subOk] at h
    have hi : (mathTy (commonType (ctorTyL Γ ts))).isInteger = true := by
      refine mathTy_int (commonType_arith (ctorTyL_ne_nil hne) fun t ht => ?_)
      obtain ⟨e, he, rfl⟩ := mem_ctorTyL ht
      obtain ⟨h1, h2⟩ := allOk_mem h e he
      exact (ih e he h1 (meets_defined h2)).2 (meets_cls h2)
    exact ⟨by simp only [afterTy, ctorTy]; rw [isInteger_kind hi]; rfl, fun _ => .inr hi⟩
  | @mul Γ B ts hne _ ih =>
    rw [subOk] at h
    have hi : (mathTy (commonType (ctorTyL Γ ts))).isInteger = true := by
      refine mathTy_int (commonType_arith (ctorTyL_ne_nil hne) fun t ht => ?_)
      obtain ⟨e, he, rfl⟩ := mem_ctorTyL ht
      obtain ⟨h1, h2⟩ := allOk_mem h e he
      exact (ih e he h1 (meets_defined h2)).2 (meets_cls h2)
    exact ⟨by simp only [afterTy, ctorTy]; rw [isInteger_kind hi]; rfl, fun _ => .inr hi⟩
  | @bin Γ B op l r _ _ ihl ihr =>
    rw [subOk] at h
    obtain ⟨h1, h2, h3, h4⟩ := and4_true h
    obtain ⟨kl, al⟩ := ihl h1 (meets_defined h2)
    obtain ⟨kr, ar⟩ := ihr h3 (meets_defined h4)
    have il : (afterTy Γ l).isInteger = true := (meets_cls h2).resolve_right fun h => by rw [h] at kl; cases kl
    have ir : (afterTy Γ r).isInteger = true := (meets_cls h4).resolve_right fun h => by rw [h] at kr; cases kr
    have hi : (afterTy Γ (.bin op l r)).isInteger = true := by
      simp only [afterTy]; exact common_int il ir
    refine ⟨by rw [isInteger_kind hi]; rfl, fun _ => ?_⟩
    have a1 := al (.inl il)
    have a2 := ar (.inl ir)
    simp only [ctorTy]
    exact commonType_arith (by simp) fun t ht => by
      rcases List.mem_cons.mp ht with rfl | ht
      · exact a1
      · rw [List.mem_singleton] at ht; subst ht; exact a2
  | rel => exact ⟨rfl, fun h => by simp [afterTy, ctorTy, BOOLEAN, Ty.isInteger] at h⟩
  | agg => exact ⟨rfl, fun h => by simp [afterTy, ctorTy, Ty.isInteger] at h⟩
  | quant => exact ⟨rfl, fun h => by simp [afterTy, ctorTy, BOOLEAN, Ty.isInteger] at h⟩

end Verif.Typing
