import Verif.Typing.CheckLemmas

/-! # Accepted expressions have values -/

namespace Verif.Typing
open Verif

variable {M : Type} [DecidableEq M]

/-- An expression has a value of a kind. -/
def Good (D : Division) (ρ : Env) (e : Expr) (k : Kind) : Prop := ∃ v, eval D ρ e = some v ∧ kindOf v = k

theorem kindOf_int {v : Val} (h : kindOf v = .int) : ∃ i, v = .int i := by cases v <;> simp_all [kindOf]
theorem kindOf_bool {v : Val} (h : kindOf v = .bool) : ∃ i, v = .bool i := by cases v <;> simp_all [kindOf]
theorem kindOf_seq {v : Val} (h : kindOf v = .seq) : ∃ i, v = .seq i := by cases v <;> simp_all [kindOf]

theorem negIf_good {v : Val} {ng : Bool} {k : Kind} (hv : kindOf v = k) (hs : SignOk ng (some k)) :
    ∃ w, v.negIf ng = some w ∧ kindOf w = k := by
  cases ng with
  | false => exact ⟨v, rfl, hv⟩
  | true =>
    have hk := Option.some.inj (hs rfl)
    obtain ⟨i, rfl⟩ := kindOf_int (hv.trans hk)
    exact ⟨.int (-i), rfl, hk.symm⟩

theorem evalL_good {D : Division} {ρ : Env} {es : List Expr} {k : Kind} (h : ∀ e ∈ es, Good D ρ e k ∨ Faults D ρ e) :
    (∃ vs, evalL D ρ es = some vs ∧ ∀ v ∈ vs, kindOf v = k) ∨ ∃ e ∈ es, Faults D ρ e := by
  induction es with
  | nil => exact .inl ⟨[], rfl, by simp⟩
  | cons e es ih =>
    rcases h e (by simp) with ⟨v, hv, hk⟩ | hf
    · rcases ih (fun e' he' => h e' (by simp [he'])) with ⟨vs, hvs, hks⟩ | ⟨e', he', hf⟩
      · refine .inl ⟨v :: vs, by simp [evalL, hv, hvs], fun w hw => ?_⟩
        rcases List.mem_cons.mp hw with rfl | hw
        · exact hk
        · exact hks w hw
      · exact .inr ⟨e', by simp [he'], hf⟩
    · exact .inr ⟨e, by simp, hf⟩

theorem allSome_of {α β : Type} {f : α → Option β} {l : List α} (h : ∀ a ∈ l, ∃ b, f a = some b) : ∃ bs, allSome f l = some bs := by
  induction l with
  | nil => exact ⟨[], rfl⟩
  | cons a l ih =>
    obtain ⟨b, hb⟩ := h a (by simp)
    obtain ⟨bs, hbs⟩ := ih fun a' ha' => h a' (by simp [ha'])
    exact ⟨b :: bs, by simp [allSome, hb, hbs]⟩

theorem allSome_int {vs : List Val} (h : ∀ v ∈ vs, kindOf v = .int) : ∃ xs, allSome Val.int? vs = some xs :=
  allSome_of fun v hv => by obtain ⟨i, rfl⟩ := kindOf_int (h v hv); exact ⟨i, rfl⟩

theorem allSome_bool {vs : List Val} (h : ∀ v ∈ vs, kindOf v = .bool) : ∃ xs, allSome Val.bool? vs = some xs :=
  allSome_of fun v hv => by obtain ⟨i, rfl⟩ := kindOf_bool (h v hv); exact ⟨i, rfl⟩

theorem respects_blind {Γ : Ctx M} {ρ : Env} {B : List (List PyStr)} : Respects Γ.blind ρ B := by
  refine ⟨?_, ?_, ?_, ?_, ?_⟩
  · intro x k h; cases h
  · intro x a k _ h; exact absurd rfl h
  · intro x s n b t k h; cases h
  · intro f vs k h; cases h
  · intro f k _ h; cases h

/-- Values of the parameter of a quantified expression. -/
theorem respects_bind {Γ : Ctx M} {ρ : Env} {B : List (List PyStr)} (h : Respects Γ ρ B) (p : List PyStr) (t : Ty M) (i : Int)
    (ht : t.kind = some .int) : Respects (Γ.bind p t) (ρ.set p (.int i)) (p :: B) := by
  refine ⟨?_, ?_, ?_, ?_, ?_⟩
  · intro x k hk
    simp only [Ctx.bind, Env.set] at hk ⊢
    split <;> rename_i hx
    · rw [if_pos hx, ht] at hk; exact Option.some.inj hk
    · rw [if_neg hx] at hk; exact h.var x k hk
  · intro x a k hb hu hk
    simp only [List.mem_cons, not_or] at hb
    simp only [Ctx.bind, Env.set, if_neg hb.1] at hu hk ⊢
    exact h.attr x a k hb.2 hu hk
  · intro x s n b u k hm hf hk
    simp only [Ctx.bind, Env.set] at hm hf ⊢
    by_cases hx : x = p
    · rw [if_pos hx] at hm; rw [hm] at ht; cases ht
    · rw [if_neg hx] at hm; exact h.sel x s n b u k hm hf hk
  · exact fun f vs k h1 h2 => h.call f vs k h1 h2
  · intro f k hb h1 h2
    simp only [List.mem_cons, not_or] at hb
    simp only [Ctx.bind, Env.set, if_neg hb.1] at h1 h2 ⊢
    exact h.name f k hb.2 h1 h2

/-- The values of accepted arguments. -/
theorem args_good {D : Division} {ρ : Env} {Γ : Ctx M} {es : List Expr} {ts : List (Ty M)} (h : argsOk Γ es ts = .ok true)
    (hl : es.length = ts.length) (hk : ∀ t ∈ ts, t.kind.isSome = true)
    (he : ∀ e ∈ es, ∃ k, (afterTy Γ e).kind = some k ∧ (Good D ρ e k ∨ Faults D ρ e)) :
    (∃ vs, evalL D ρ es = some vs ∧ vs.map (fun v => some (kindOf v)) = ts.map Ty.kind) ∨ ∃ e ∈ es, Faults D ρ e := by
  induction es generalizing ts with
  | nil =>
    cases ts with
    | nil => exact .inl ⟨[], rfl, rfl⟩
    | cons t ts => cases hl
  | cons e es ih =>
    cases ts with
    | nil => cases hl
    | cons t ts =>
      rw [argsOk] at h
      obtain ⟨h1, h2, h3⟩ := and3_true h
      simp only [List.tail_cons] at h3
      have ht := hk t (by simp)
      obtain ⟨k, hek, hv⟩ := he e (by simp)
      rcases hv with ⟨v, hv, hvk⟩ | hf
      · rcases ih h3 (by simpa using hl) (fun t' ht' => hk t' (by simp [ht'])) (fun e' he' => he e' (by simp [he'])) with
          ⟨vs, hvs, hks⟩ | ⟨e', he', hf⟩
        · refine .inl ⟨v :: vs, by simp [evalL, hv, hvs], ?_⟩
          have hc := meets_ty h2 (by
            intro hu
            simp only [List.headD_cons] at hu
            rw [hu] at ht; cases ht)
          simp only [List.headD_cons] at hc
          obtain ⟨l, htl⟩ := Option.isSome_iff_exists.mp ht
          have := compatible_kind hc hek htl
          subst this
          simp only [List.map_cons, htl, hvk]
          exact congrArg _ hks
        · exact .inr ⟨e', by simp [he'], hf⟩
      · exact .inr ⟨e, by simp, hf⟩

theorem rel_good {op : RelOp} {a b : Val} (hi : op = .lt ∨ op = .le ∨ op = .ge ∨ op = .gt → kindOf a = .int ∧ kindOf b = .int)
    (he : op = .eq ∨ op = .ne → kindOf a = kindOf b) (hm : op = .isIn ∨ op = .notIn → kindOf a = .int ∧ kindOf b = .seq) :
    ∃ c, op.eval a b = some c := by
  cases op <;> cases a <;> cases b <;> simp_all [kindOf, RelOp.eval] <;> exact Classical.em _

/-- Accepted regular expressions have a value of the kind of their type unless they contain a fault. -/
theorem sound {D : Division} {Γ : Ctx M} {B : List (List PyStr)} {e : Expr} (hr : Regular Γ B e) {ρ : Env} (hρ : Respects Γ ρ B)
    (h : subOk Γ e = .ok true) (hd : afterTy Γ e ≠ .undefined) :
    ∃ k, (afterTy Γ e).kind = some k ∧ (Good D ρ e k ∨ Faults D ρ e) := by
  induction hr generalizing ρ with
  | tru => exact ⟨.bool, rfl, .inl ⟨.bool true, rfl, rfl⟩⟩
  | fls => exact ⟨.bool, rfl, .inl ⟨.bool false, rfl, rfl⟩⟩
  | @num _ _ v _ => exact ⟨.int, rfl, .inl ⟨.int v, rfl, rfl⟩⟩
  | @var Γ B ng imm id hv hs =>
    simp only [afterTy, ctorTy] at hd ⊢
    cases imm with
    | true => exact absurd rfl hd
    | false =>
      simp only [Bool.false_eq_true, if_false] at hd ⊢
      obtain ⟨k, hk⟩ := Option.isSome_iff_exists.mp (hv.resolve_left hd)
      rw [hk] at hs
      exact ⟨k, hk, .inl (negIf_good (hρ.var _ k hk) hs)⟩
  | @attr Γ B ng k imm id hB hv hs =>
    obtain ⟨hk, hm⟩ := subOk_attr_var h
    have himm : imm = false := by
      cases imm with
      | false => rfl
      | true => exact absurd rfl (meets_defined hm)
    subst himm
    have hu : Γ.var id.key ≠ .undefined := fun hu => meets_defined hm (by simp [afterTy, ctorTy, hu])
    obtain ⟨l, hl⟩ := Option.isSome_iff_exists.mp (hv.resolve_left hu)
    rw [hl] at hs
    refine ⟨l, ?_, .inl ?_⟩
    · revert hl
      cases k <;> simp only [afterTy, ctorTy, attrKind, Bool.false_eq_true, if_false] <;> try exact fun h => h
      cases Γ.var id.key <;> simp [Ty.element]
    · obtain ⟨w, hw, hwk⟩ := negIf_good (hρ.attr _ k l hB hu hl) hs
      exact ⟨w, by simpa [eval] using hw, hwk⟩
  | @sel Γ B ng imm id s hv hany =>
    simp only [subOk] at h
    obtain ⟨a, ha, h⟩ := bind_true h
    obtain ⟨b, hb, h⟩ := bind_true h
    have h := Except.ok.inj h
    simp only [Bool.and_eq_true] at h
    rw [h.2] at hb
    have himm : imm = false := by
      cases imm with
      | false => rfl
      | true => exact absurd rfl (meets_defined hb)
    subst himm
    have hso := h.1.1
    rcases meets_cls hb with hi | hi
    · simp only [afterTy, ctorTy, Bool.false_eq_true, if_false] at hi ⊢
      unfold selectorOk at hso
      simp only [ctorTy, Bool.false_eq_true, if_false] at hso
      cases hv' : Γ.var id.key <;> rw [hv'] at hi <;> simp [Ty.isInstance] at hi
      rw [hv'] at hso
      rename_i n b
      simp only at hso ⊢
      cases hf : Γ.field b s.str with
      | none => rw [hf] at hso; cases hso
      | some t =>
        obtain ⟨h1, h2⟩ := hv n b t hv' hf
        obtain ⟨k, hk⟩ := Option.isSome_iff_exists.mp h1
        rw [hk] at h2
        obtain ⟨w, hw, hwk⟩ := negIf_good (hρ.sel _ s n b t k hv' hf hk) h2
        exact ⟨k, hk, .inl ⟨w, by simpa [eval] using hw, hwk⟩⟩
    · simp only [afterTy, ctorTy, Bool.false_eq_true, if_false] at hi
      exact absurd hi hany
  | @call Γ B ng id args _ hB ht hk hs ih =>
    simp only [subOk] at h
    obtain ⟨a, ha, h⟩ := bind_true h
    have h := Except.ok.inj h
    simp only [Bool.and_eq_true] at h
    rw [h.1] at ha
    simp only [afterTy, ctorTy] at hd ⊢
    have har : args.length = (Γ.call id.key).2.length := by
      have := h.2
      simp only [arityOk, Bool.or_eq_true, decide_eq_true_eq] at this
      exact this.resolve_left hd
    obtain ⟨k, hk⟩ := Option.isSome_iff_exists.mp (hk.resolve_left hd)
    rw [hk] at hs
    refine ⟨k, hk, ?_⟩
    cases args with
    | nil =>
      obtain ⟨w, hw, hwk⟩ := negIf_good (hρ.name _ k (hB rfl) hk (List.eq_nil_of_length_eq_zero har.symm)) hs
      exact .inl ⟨w, by simpa [eval] using hw, hwk⟩
    | cons e es =>
      rcases args_good (D := D) (ρ := ρ) ha har ht (fun e' he' => ih e' he' hρ (argsOk_mem ha e' he').1
        (argsOk_mem ha e' he').2) with ⟨vs, hvs, hks⟩ | ⟨e', he', hf⟩
      · obtain ⟨w, hw, hwk⟩ := negIf_good (hρ.call _ vs k hk hks) hs
        exact .inl ⟨w, by simpa [eval, hvs] using hw, hwk⟩
      · exact .inr (.call he' hf)
  | @not Γ B e he ih =>
    rw [subOk] at h
    obtain ⟨h1, h2⟩ := and_true h
    obtain ⟨k, hk, hv⟩ := ih (respects_blind (ρ := ρ)) h1 (meets_defined h2)
    have := compatible_kind (meets_ty h2 (by simp [BOOLEAN])) hk (l := .bool) rfl
    subst this
    refine ⟨.bool, rfl, ?_⟩
    rcases hv with ⟨v, hv, hvk⟩ | hf
    · obtain ⟨b, rfl⟩ := kindOf_bool hvk
      exact .inl ⟨.bool (!b), by simp [eval, hv], rfl⟩
    · exact .inr (.not hf)
  | @bool Γ B op ts _ ih =>
    rw [subOk] at h
    refine ⟨.bool, rfl, ?_⟩
    have hall := evalL_good (D := D) (ρ := ρ) (es := ts) (k := .bool) fun t ht => by
      obtain ⟨h1, h2⟩ := allOk_mem h t ht
      obtain ⟨k, hk, hv⟩ := ih t ht hρ h1 (meets_defined h2)
      have := compatible_kind (meets_ty h2 (by simp [BOOLEAN])) hk (l := .bool) rfl
      subst this
      exact hv
    rcases hall with ⟨vs, hvs, hks⟩ | ⟨t, ht, hf⟩
    · obtain ⟨bs, hbs⟩ := allSome_bool hks
      exact .inl ⟨_, by simp only [eval, hvs, Option.bind_some, hbs]; rfl, rfl⟩
    · exact .inr (.bool ht hf)
  | @add Γ B ts hne hts ih =>
    obtain ⟨k, hk⟩ := Option.isSome_iff_exists.mp (accepted_kind (.add hne hts) h hd).1
    rw [subOk] at h
    have hall := evalL_good (D := D) (ρ := ρ) (es := ts) (k := .int) fun t ht => by
      obtain ⟨h1, h2⟩ := allOk_mem h t ht
      obtain ⟨k, hk, hv⟩ := ih t ht hρ h1 (meets_defined h2)
      rcases meets_cls h2 with hi | hi
      · rw [isInteger_kind hi] at hk; cases hk; exact hv
      · rw [hi] at hk; cases hk
    rcases hall with ⟨vs, hvs, hks⟩ | ⟨t, ht, hf⟩
    · obtain ⟨bs, hbs⟩ := allSome_int hks
      refine ⟨.int, ?_, .inl ⟨_, by simp only [eval, hvs, Option.bind_some, hbs]; rfl, rfl⟩⟩
      refine isInteger_kind (mathTy_int (commonType_arith (ctorTyL_ne_nil hne) fun t ht => ?_))
      obtain ⟨e, he, rfl⟩ := mem_ctorTyL ht
      obtain ⟨h1, h2⟩ := allOk_mem h e he
      exact (accepted_kind (hts e he) h1 (meets_defined h2)).2 (meets_cls h2)
    · exact ⟨k, hk, .inr (.add ht hf)⟩
  | @mul Γ B ts hne hts ih =>
    obtain ⟨k, hk⟩ := Option.isSome_iff_exists.mp (accepted_kind (.mul hne hts) h hd).1
    rw [subOk] at h
    have hall := evalL_good (D := D) (ρ := ρ) (es := ts) (k := .int) fun t ht => by
      obtain ⟨h1, h2⟩ := allOk_mem h t ht
      obtain ⟨k, hk, hv⟩ := ih t ht hρ h1 (meets_defined h2)
      rcases meets_cls h2 with hi | hi
      · rw [isInteger_kind hi] at hk; cases hk; exact hv
      · rw [hi] at hk; cases hk
    rcases hall with ⟨vs, hvs, hks⟩ | ⟨t, ht, hf⟩
    · obtain ⟨bs, hbs⟩ := allSome_int hks
      refine ⟨.int, ?_, .inl ⟨_, by simp only [eval, hvs, Option.bind_some, hbs]; rfl, rfl⟩⟩
      refine isInteger_kind (mathTy_int (commonType_arith (ctorTyL_ne_nil hne) fun t ht => ?_))
      obtain ⟨e, he, rfl⟩ := mem_ctorTyL ht
      obtain ⟨h1, h2⟩ := allOk_mem h e he
      exact (accepted_kind (hts e he) h1 (meets_defined h2)).2 (meets_cls h2)
    · exact ⟨k, hk, .inr (.mul ht hf)⟩
  | @bin Γ B op l r hl hr ihl ihr =>
    obtain ⟨k, hk⟩ := Option.isSome_iff_exists.mp (accepted_kind (.bin (op := op) hl hr) h hd).1
    rw [subOk] at h
    obtain ⟨h1, h2, h3, h4⟩ := and4_true h
    obtain ⟨kl, hkl, vl⟩ := ihl hρ h1 (meets_defined h2)
    obtain ⟨kr, hkr, vr⟩ := ihr hρ h3 (meets_defined h4)
    have il : (afterTy Γ l).isInteger = true := (meets_cls h2).resolve_right fun h => by rw [h] at hkl; cases hkl
    have ir : (afterTy Γ r).isInteger = true := (meets_cls h4).resolve_right fun h => by rw [h] at hkr; cases hkr
    rw [isInteger_kind il] at hkl; cases hkl
    rw [isInteger_kind ir] at hkr; cases hkr
    rcases vl with ⟨v, hv, hvk⟩ | hf
    · rcases vr with ⟨w, hw, hwk⟩ | hf
      · obtain ⟨a, rfl⟩ := kindOf_int hvk
        obtain ⟨b, rfl⟩ := kindOf_int hwk
        cases ho : op.eval D a b with
        | none => exact ⟨k, hk, .inr (.here hv hw ho)⟩
        | some c =>
          refine ⟨.int, ?_, .inl ⟨.int c, by simp [eval, hv, hw, ho], rfl⟩⟩
          simp only [afterTy]
          exact isInteger_kind (common_int il ir)
      · exact ⟨k, hk, .inr (.binRight hf)⟩
    · exact ⟨k, hk, .inr (.binLeft hf)⟩
  | @rel Γ B op l r hl hr hin ihl ihr =>
    rw [subOk] at h
    obtain ⟨h1, h2, h3, h4⟩ := and4_true h
    obtain ⟨kl, hkl, vl⟩ := ihl hρ h1 (meets_defined h2)
    obtain ⟨kr, hkr, vr⟩ := ihr hρ h3 (meets_defined h4)
    refine ⟨.bool, rfl, ?_⟩
    rcases vl with ⟨v, hv, hvk⟩ | hf
    · rcases vr with ⟨w, hw, hwk⟩ | hf
      · obtain ⟨c, hc⟩ : ∃ c, op.eval v w = some c := by
          refine rel_good (fun ho => ?_) (fun ho => ?_) (fun ho => ?_)
          · have hi : (afterTy Γ l).isInteger = true ∧ (afterTy Γ r).isInteger = true := by
              rcases ho with rfl | rfl | rfl | rfl <;>
                exact ⟨(meets_cls (c := .anyInteger) h2).resolve_right (fun h => by rw [h] at hkl; cases hkl),
                  (meets_cls (c := .anyInteger) h4).resolve_right (fun h => by rw [h] at hkr; cases hkr)⟩
            rw [isInteger_kind hi.1] at hkl; cases hkl
            rw [isInteger_kind hi.2] at hkr; cases hkr
            exact ⟨hvk, hwk⟩
          · have hc : (afterTy Γ r).isCompatible (afterTy Γ l) = true := by
              rcases ho with rfl | rfl <;> exact meets_ty h4 (meets_defined h2)
            rw [hvk, hwk, compatible_kind hc hkr hkl]
          · have hc : (afterTy Γ r).isCompatible (.aggregate (afterTy Γ l)) = true := by
              rcases ho with rfl | rfl <;> exact meets_ty h4 (by simp)
            have hs := compatible_kind hc hkr (l := .seq) rfl
            have hi := hin ho
            rw [hkl] at hi
            cases hi
            exact ⟨hvk, by rw [hwk, hs]⟩
        exact .inl ⟨.bool c, by simp [eval, hv, hw, hc], rfl⟩
      · exact .inr (.relRight hf)
    · exact .inr (.relLeft hf)
  | @agg Γ B es hes hk ih =>
    rw [subOk] at h
    refine ⟨.seq, rfl, ?_⟩
    have hall := evalL_good (D := D) (ρ := ρ) (es := es) (k := .int) fun t ht => by
      obtain ⟨h1, h2⟩ := allOk_mem h t ht
      obtain ⟨k, hk', hv⟩ := ih t ht hρ h1 (meets_defined h2)
      rw [hk t ht] at hk'
      cases hk'
      exact hv
    rcases hall with ⟨vs, hvs, hks⟩ | ⟨t, ht, hf⟩
    · obtain ⟨xs, hxs⟩ := allSome_int hks
      exact .inl ⟨.seq xs, by simp only [eval, hvs, Option.bind_some, hxs], rfl⟩
    · exact .inr (.agg ht hf)
  | @quant Γ B k p it pr hit hel hpr ihi ihp =>
    rw [subOk] at h
    obtain ⟨h1, h2, h3, h4⟩ := and4_true h
    obtain ⟨ki, hki, vi⟩ := ihi hρ h1 (meets_defined h2)
    refine ⟨.bool, rfl, ?_⟩
    have hseq : ki = .seq := by
      rcases meets_cls h2 with hi | hi
      · cases ht : afterTy Γ it <;> rw [ht] at hi hki <;> simp [Ty.isInstance] at hi <;> cases hki <;> rfl
      · rw [hi] at hki; cases hki
    subst hseq
    rcases vi with ⟨v, hv, hvk⟩ | hf
    · obtain ⟨xs, rfl⟩ := kindOf_seq hvk
      by_cases hf : ∃ x ∈ xs, Faults D (ρ.set p.key (.int x)) pr
      · obtain ⟨x, hx, hf⟩ := hf
        exact .inr (.predicate hv hx hf)
      · obtain ⟨bs, hbs⟩ := allSome_of (f := fun x => (eval D (ρ.set p.key (.int x)) pr).bind Val.bool?) (l := xs)
          (fun x hx => by
            obtain ⟨kp, hkp, vp⟩ := ihp (respects_bind hρ p.key _ x hel) h3 (meets_defined h4)
            have := compatible_kind (meets_ty h4 (by simp [BOOLEAN])) hkp (l := .bool) rfl
            subst this
            rcases vp with ⟨w, hw, hwk⟩ | hff
            · obtain ⟨b, rfl⟩ := kindOf_bool hwk
              exact ⟨b, by simp [hw, Val.bool?]⟩
            · exact absurd ⟨x, hx, hff⟩ hf)
        refine .inl ⟨_, by simp only [eval, hv, hbs]; rfl, rfl⟩
    · exact .inr (.iterable hf)

end Verif.Typing
