import Verif.Refine.Condition

/-! # Values of generated conditions of refinements -/

namespace Verif.Refine
open Verif Verif.Graph Verif.Verify Verif.Types Verif.Gen Verif.Spark Verif.Ctx

/-- The number of a field, 0 if it is missing. -/
def fieldNumber (es : List Item) (f : Field) : Int :=
  match es.find? (fun e => e.f == f) with
  | some e => e.value
  | none => 0

/-- The type of a scalar field. -/
def fieldTy : FTy → ATy
  | .int t => .int t
  | .enum t => .enum t
  | _ => .field

section
variable {r : Ref}

theorem fieldNamed_ok (N : Names r.pdu.m opts) {f : Field} (hf : f ∈ r.pdu.m.msg.fields) :
    r.fieldNamed [r.prefix.lower, PyStr.lower (affixed (r.pdu.m.spell f))] = some f := by
  unfold Ref.fieldNamed
  cases hq : r.pdu.m.msg.fields.find? (fun g => [r.prefix.lower, PyStr.lower (affixed (r.pdu.m.spell f))] ==
      [r.prefix.lower, PyStr.lower (affixed (r.pdu.m.spell g))]) with
  | none => exact absurd (List.find?_eq_none.1 hq f hf) (by simp)
  | some g =>
    have h1 := List.find?_some hq
    have hg := List.mem_of_find?_eq_some hq
    simp only [beq_iff_eq, lower_affixed, List.cons.injEq, and_true, true_and] at h1
    rw [(N.field f hf).2, (N.field g hg).2, h1]

theorem getterNamed_ok (N : Names r.pdu.m opts) {f : Field} {t : FTy} (hf : (f, t) ∈ r.pdu.m.msg.types) (hs : Scalar t) :
    r.getterNamed [r.prefix.lower, PyStr.lower (GET ++ r.pdu.m.spell f)] = some (f, t) := by
  unfold Ref.getterNamed
  cases hq : r.pdu.m.msg.types.find? (fun e => e.2.isScalar && [r.prefix.lower, PyStr.lower (GET ++ r.pdu.m.spell f)] ==
      [r.prefix.lower, PyStr.lower (GET ++ r.pdu.m.spell e.1)]) with
  | none => exact absurd (List.find?_eq_none.1 hq _ hf) (by simp [(scalar_iff t).2 hs])
  | some g =>
    obtain ⟨g, u⟩ := g
    have h1 := List.find?_some hq
    have hg := List.mem_of_find?_eq_some hq
    simp only [Bool.and_eq_true, beq_iff_eq, Merge.lower_append, List.cons.injEq, and_true, true_and, List.append_cancel_left_eq] at h1
    obtain rfl : g = f := by rw [(N.field f (N.typed _ hf)).2, (N.field g (N.typed _ hg)).2, h1.2]
    rw [nodup_pair N.once hf hg]

theorem getter_notBuffer (s : PyStr) : r.named [r.prefix.lower, PyStr.lower (GET ++ s)] HAS_BUFFER = false := by
  simp only [Ref.named, beq_eq_false_iff_ne, ne_eq, List.cons.injEq, true_and, and_true, Merge.lower_append]
  intro h
  have := congrArg List.head? h
  revert this
  have h1 : PyStr.lower GET = 'g' :: ['e', 't', '_'] := by decide
  have h2 : PyStr.lower HAS_BUFFER = 'h' :: ['a', 's', '_', 'b', 'u', 'f', 'f', 'e', 'r'] := by decide
  rw [h1, h2]
  simp

theorem ty_ctx : r.ty ctxVar = some .context := by
  simp [ctxVar, Expr.v, Ref.ty, ID.key]

theorem exec_ctx (c : Context) : r.exec c ctxVar = .ok .context := by
  simp [ctxVar, Expr.v, Ref.exec, ID.key]

theorem call_key (n : PyStr) : (⟨[r.prefix, n]⟩ : ID).key = [r.prefix.lower, n.lower] := rfl

theorem getter_ty (N : Names r.pdu.m opts) {f : Field} {t : FTy} (hf : (f, t) ∈ r.pdu.m.msg.types) (hs : Scalar t) :
    r.ty (r.getter f) = resultTy t := by
  simp only [Ref.getter, Ref.ty, Ref.tyL, ty_ctx, call_key, Ref.callTy, getter_notBuffer, getterNamed_ok N hf hs, Bool.false_eq_true,
    if_false, Option.bind_some]

theorem getter_exec (N : Names r.pdu.m opts) {f : Field} {t : FTy} (hf : (f, t) ∈ r.pdu.m.msg.types) (hs : Scalar t) (c : Context) :
    r.exec c (r.getter f) = r.get c f t := by
  simp only [Ref.getter, Ref.exec, Ref.execL, exec_ctx]
  show r.callFn c (⟨[r.prefix, GET ++ r.pdu.m.spell f]⟩ : ID).key [.context] = _
  simp only [call_key, Ref.callFn, getter_notBuffer, getterNamed_ok N hf hs, Bool.false_eq_true, if_false]

theorem fieldValue_ty (N : Names r.pdu.m opts) {f : Field} {t : FTy} (hf : (f, t) ∈ r.pdu.m.msg.types) (hs : Scalar t) :
    r.ty (r.fieldValue f t) = some (fieldTy t) := by
  have hg := getter_ty N hf hs
  unfold Ref.fieldValue
  cases t with
  | int t => simpa [alwaysValid, fieldTy, resultTy] using hg
  | enum t =>
    simp only [fieldTy, resultTy] at hg ⊢
    by_cases ha : t.alwaysValid = true
    · have : ENUM.key ≠ KNOWN.key := by decide
      rw [if_pos ha] at hg
      rw [if_pos (by exact ha)]
      simp [Ref.ty, hg, this]
    · rw [if_neg ha] at hg
      rw [if_neg (by exact ha)]
      exact hg
  | _ => simp [Scalar] at hs

theorem known_ty (N : Names r.pdu.m opts) {f : Field} {t : FTy} (hf : (f, t) ∈ r.pdu.m.msg.types) (ha : alwaysValid t = true) :
    r.ty (r.known f) = some .bool := by
  cases t <;> simp only [alwaysValid, Bool.false_eq_true] at ha
  have hg := getter_ty N hf (by trivial)
  simp only [resultTy, ha, if_true] at hg
  simp [Ref.known, Ref.ty, hg]

theorem fieldValue_fixed (f : Field) (t : FTy) : Fixed (r.fieldValue f t) := by
  unfold Ref.fieldValue Ref.getter
  split <;> trivial

/-- Different fields have different texts. -/
theorem fieldValue_inj (N : Names r.pdu.m opts) {f g : Field} {t : FTy} (hf : f ∈ r.pdu.m.msg.fields) (hg : g ∈ r.pdu.m.msg.fields)
    (h : (r.fieldValue f t).eq (r.fieldValue g t) = true) : f = g := by
  suffices r.pdu.m.spell f = r.pdu.m.spell g by rw [(N.field f hf).2, (N.field g hg).2, this]
  have hs : ∀ f g : Field, (r.getter f).str = (r.getter g).str → r.pdu.m.spell f = r.pdu.m.spell g := by
    intro f g h
    simp only [Ref.getter, Expr.str, Expr.strF, wrapNeg, ID.str, Bool.xor_self, Bool.false_eq_true, if_false] at h
    have h1 := List.append_cancel_right h
    simpa [joinSep] using h1
  unfold Ref.fieldValue at h
  split at h
  · simp only [Expr.eq, Bool.and_eq_true, beq_iff_eq] at h
    have h2 := h.2
    simp only [Expr.str, Expr.strF, wrapNeg, Bool.xor_self, Bool.false_eq_true, if_false] at h2
    exact hs f g (List.append_cancel_right h2)
  · have : (r.getter f).str = (r.getter g).str := by
      simp only [Ref.getter, Expr.eq, Bool.and_eq_true, beq_iff_eq] at h
      exact h.2
    exact hs f g this

theorem fieldValue_var (f : Field) (t : FTy) (id : ID) : (r.fieldValue f t).eq (.v id) = false ∧ (Expr.v id).eq (r.fieldValue f t) = false := by
  unfold Ref.fieldValue Ref.getter
  split <;> exact ⟨rfl, rfl⟩

/-! ## Operands -/

/-- What is known about the state of the context: `Safe` means that the values of the fields can be read. -/
structure Readable (r : Ref) (c : Context) (es : List Item) (Safe : Prop) : Prop where
  names : Names r.pdu.m opts
  supported : Supported r
  value : Safe → ∀ f t, (f, t) ∈ r.conditionFields → Scalar t → r.exec c (r.fieldValue f t) = .ok (.num (fieldNumber es f))

/-- The replacement of an operand, its type and value. -/
structure Replaced (r : Ref) (c : Context) (Safe : Prop) (ρ : Env) (a a' : Expr) (s : ATy) (x : Int) : Prop where
  subst : ∀ k, depth a ≤ k → subst k (substitution r.mapping) a = .ok a'
  operand : Operand r c Safe false a' s x
  eval : eval .ada ρ a = some (.int x)

variable {c : Context} {b : Bytes} {lo hi : Int} {es : List Item} {Safe : Prop}

theorem env_field (N : Names r.pdu.m opts) {f : Field} {t : FTy} (hf : (f, t) ∈ r.pdu.m.msg.types) (hs : Scalar t) :
    (itemEnv r.pdu.m.msg b lo hi es).var f.parts = .int (fieldNumber es f) := by
  have ht := type?_some N hf
  simp only [itemEnv]
  have hff : (⟨f.parts⟩ : Field) = f := rfl
  rw [hff, ht]
  unfold fieldNumber
  cases es.find? (fun e => e.f == f) <;> simp [(scalar_iff t).2 hs]

theorem subst_var (id : ID) {e : Expr} (h : substitution r.mapping (.v id) = e) (k : Nat) (hk : depth (.v id) ≤ k) :
    subst k (substitution r.mapping) (.v id) = .ok e := by
  cases k with
  | zero => simp [depth, Expr.v] at hk
  | succ k => simp only [Expr.v, subst] at h ⊢; simp [h]

theorem field_replaced (R : Readable r c es Safe) {a : Expr} {f : Field} {t : FTy} (h : IsField r a f t) (hc : (f, t) ∈ r.conditionFields) :
    Replaced r c Safe (itemEnv r.pdu.m.msg b lo hi es) a (r.fieldValue f t) (fieldTy t) (fieldNumber es f) := by
  obtain ⟨id, rfl, hk, hf, hs⟩ := h
  refine ⟨subst_var id (subst_field R.names hc hk), .inl ⟨fieldValue_fixed f t, fieldValue_ty R.names hf hs, fun s => R.value s f t hc hs⟩, ?_⟩
  simp only [Expr.v, Verif.eval, Val.negIf, Bool.false_eq_true, if_false, hk, env_field R.names hf hs]

theorem number_replaced {a : Expr} {ρ : Env} (h : IsNumber a) : ∃ x, Replaced r c Safe ρ a a .universal x := by
  obtain ⟨hc, hw, x, hx⟩ := h
  exact ⟨x, subst_const a hc, .inr ⟨hc, hw, hx, rfl, by simp⟩, hx ρ⟩

theorem mem_enums {m : Msg} {f : Field} {t : Enum} (h : (f, FTy.enum t) ∈ m.types) : t ∈ enums m.types := by
  generalize m.types = ts at h
  fun_induction enums ts with
  | case1 => cases h
  | case2 _ _ _ ih =>
    rcases List.mem_cons.1 h with h | h
    · cases h; exact List.mem_cons_self
    · exact List.mem_cons_of_mem _ (ih h)
  | case3 x _ hn ih =>
    rcases List.mem_cons.1 h with h | h
    · subst h; exact absurd rfl (hn _ _)
    · exact ih h

theorem literal_denotes (R : Readable r c es Safe) {id : ID} {t : Enum} (h : IsLiteral r (.v id) t) : r.denotes t id.key = true := by
  obtain ⟨id', he, l, hl, hlen, hk⟩ := h
  obtain rfl : id = id' := by simpa [Expr.v] using he
  simp only [Ref.denotes, List.any_eq_true, Bool.or_eq_true, Bool.and_eq_true, beq_iff_eq]
  refine ⟨l, hl, ?_⟩
  rcases hk with ⟨hk, hv⟩ | hk
  · exact .inl ⟨hk, operators_ok R.supported.condition hv⟩
  · exact .inr hk

theorem literal_replaced (R : Readable r c es Safe) {a : Expr} {f : Field} {t : Enum} (hf : (f, FTy.enum t) ∈ r.pdu.m.msg.types) (h : IsLiteral r a t) :
    ∃ id x, a = .v id ∧ r.denotes t id.key = true ∧ Replaced r c Safe (itemEnv r.pdu.m.msg b lo hi es) a a (.literal id.key) x := by
  have h0 := h
  obtain ⟨id, rfl, l, hl, hlen, hk⟩ := h
  have hen := mem_enums hf
  have hlit : LitName r.pdu.m id := ⟨t, hen, l, hl, hk.imp (·.1) fun h => h⟩
  obtain ⟨hnf, hp⟩ := R.names.literal id hlit
  have hd := literal_denotes R h0
  have hctx : id.key ≠ [PyStr.lower CTX] := hp.2.2.1
  have hkl : id.key.length = 1 ∨ id.key.head? = t.id.key.head? := by
    rcases hk with ⟨hk, _⟩ | hk
    · left; rw [hk, key_length, hlen]
    · right
      have h2 := (R.names.enum t hen).2.1
      rw [← key_length] at h2
      rw [hk]
      match hkk : t.id.key, h2 with
      | x :: y :: zs, _ => simp [List.dropLast]
  have hfn : r.fieldNamed id.key = none := by
    unfold Ref.fieldNamed
    rw [List.find?_eq_none]
    intro g _
    simp only [beq_iff_eq]
    intro he
    rcases hkl with h1 | h1
    · rw [he] at h1; simp at h1
    · rw [he] at h1
      exact R.supported.packages f t hf h1.symm
  have hty : r.ty (.v id) = some (.literal id.key) := by
    have : (enums r.pdu.m.msg.types).any (fun t => r.denotes t id.key) = true := by
      rw [List.any_eq_true]; exact ⟨t, hen, hd⟩
    simp [Expr.v, Ref.ty, hctx, hfn, this]
  refine ⟨id, litVal r.pdu.m id.key, rfl, hd, subst_var id (subst_other R.names hnf), .inl ⟨trivial, hty, fun _ => ?_⟩, ?_⟩
  · simp [Expr.v, Ref.exec, hctx, hfn]
  · have hty := type?_none R.names hnf
    simp only [Expr.v, Verif.eval, Val.negIf, Bool.false_eq_true, if_false, itemEnv, hty]
    rfl

theorem comparable_symm (s t : ATy) : r.comparable s t = r.comparable t s := by
  have h : ∀ a b : ID, (a.key == b.key && r.operators a) = (b.key == a.key && r.operators b) := by
    intro a b
    by_cases hk : a.key = b.key
    · simp [hk, Ref.operators]
    · rw [beq_eq_false_iff_ne.2 hk, beq_eq_false_iff_ne.2 (Ne.symm hk)]; rfl
  cases s <;> cases t <;> simp only [Ref.comparable]
  · exact h _ _
  · exact h _ _

/-- Comparisons are replaced by comparisons with the same value. -/
theorem comparable_replaced (R : Readable r c es Safe) {a d : Expr} (h : Comparable r a d)
    (hc : ∀ f t, (f, t) ∈ r.pdu.m.msg.types → (∃ id ∈ namesOf a ++ namesOf d, id.key = f.parts) → (f, t) ∈ r.conditionFields) :
    ∃ a' d' s t x y, Replaced r c Safe (itemEnv r.pdu.m.msg b lo hi es) a a' s x ∧ Replaced r c Safe (itemEnv r.pdu.m.msg b lo hi es) d d' t y ∧
      r.comparable s t = true ∧ (Fixed a' → Fixed d' → (a'.eq d' = true ∨ d'.eq a' = true) → x = y) := by
  have hname : ∀ {e : Expr} {f : Field} {t : FTy}, IsField r e f t → ∃ id ∈ namesOf e, id.key = f.parts := by
    rintro e f t ⟨id, rfl, hk, _⟩
    exact ⟨id, by simp [namesOf, Expr.v], hk⟩
  have hl : ∀ {f : Field} {t : FTy}, IsField r a f t → (f, t) ∈ r.conditionFields := by
    intro f t h
    obtain ⟨id, h1, h2⟩ := hname h
    obtain ⟨_, _, _, hf, _⟩ := h
    exact hc f t hf ⟨id, List.mem_append_left _ h1, h2⟩
  have hr : ∀ {f : Field} {t : FTy}, IsField r d f t → (f, t) ∈ r.conditionFields := by
    intro f t h
    obtain ⟨id, h1, h2⟩ := hname h
    obtain ⟨_, _, _, hf, _⟩ := h
    exact hc f t hf ⟨id, List.mem_append_right _ h1, h2⟩
  cases h with
  | @number f t h1 h2 h3 =>
    obtain ⟨y, hy⟩ := number_replaced (r := r) (c := c) (Safe := Safe) (ρ := itemEnv r.pdu.m.msg b lo hi es) h2
    refine ⟨_, _, _, _, _, _, field_replaced R h1 (hl h1), hy, ?_, ?_⟩
    · simp only [fieldTy, Ref.comparable]; exact operators_ok R.supported.condition h3
    · intro _ hf _
      have := h2.1
      cases d <;> simp_all [Fixed, Expr.Const]
  | @literal f t h1 h2 h3 =>
    obtain ⟨_, _, _, hf, _⟩ := id h1
    obtain ⟨id, y, rfl, hd, hy⟩ := literal_replaced (b := b) (lo := lo) (hi := hi) R hf h2
    refine ⟨_, _, _, _, _, _, field_replaced R h1 (hl h1), hy, ?_, ?_⟩
    · simp [fieldTy, Ref.comparable, hd, operators_ok R.supported.condition h3]
    · intro _ _ he
      obtain ⟨e1, e2⟩ := fieldValue_var (r := r) f (.enum t) id
      rcases he with he | he
      · rw [e1] at he; cases he
      · rw [e2] at he; cases he
  | @fields f g t h1 h2 h3 =>
    obtain ⟨_, _, _, hf, hs⟩ := id h1
    obtain ⟨_, _, _, hg, _⟩ := id h2
    refine ⟨_, _, _, _, _, _, field_replaced R h1 (hl h1), field_replaced R h2 (hr h2), ?_, ?_⟩
    · have := operators_ok R.supported.condition h3
      cases t with
      | int t => simpa [fieldTy, Ref.comparable] using this
      | enum t =>
        have h' : r.operators t.id = true := this
        simpa [fieldTy, Ref.comparable] using h'
      | _ => simp [Scalar] at hs
    · intro _ _ he
      rcases he with he | he
      · rw [fieldValue_inj (f := f) (g := g) R.names (R.names.typed _ hf) (R.names.typed _ hg) he]
      · rw [fieldValue_inj (f := g) (g := f) R.names (R.names.typed _ hg) (R.names.typed _ hf) he]

/-! ## Conditions -/

/-- The replacement of a condition and its value. -/
structure ReplacedCond (r : Ref) (c : Context) (Safe : Prop) (ρ : Env) (e e' : Expr) (D : Bool) : Prop where
  subst : ∀ k, depth e ≤ k → Verif.subst k (substitution r.mapping) e = .ok e'
  cond : CC r c Safe false e' D
  eval : Verif.eval .ada ρ e = some (.bool D)

theorem subst_same {e : Expr} (h1 : ∀ i, (Expr.v i).eq e = false) : substitution r.mapping e = e := find_none fun _ _ => h1 _

theorem depth_mem {ts : List Expr} {t : Expr} (h : t ∈ ts) : depth t ≤ depthL ts := by
  induction ts with
  | nil => cases h
  | cons x ts ih =>
    simp only [depthL]
    rcases List.mem_cons.1 h with rfl | h
    · omega
    · have := ih h; omega

theorem cond_replaced (R : Readable r c es Safe) (e : Expr) : Cond r e →
    (∀ f t, (f, t) ∈ r.pdu.m.msg.types → (∃ id ∈ namesOf e, id.key = f.parts) → (f, t) ∈ r.conditionFields) →
    ∃ e' D, ReplacedCond r c Safe (itemEnv r.pdu.m.msg b lo hi es) e e' D := by
  induction e using Expr.ind with
  | tru =>
    intro _ _
    refine ⟨.tru, true, fun k hk => ?_, .tru, rfl⟩
    cases k with
    | zero => simp [depth] at hk
    | succ k => simp only [subst]; rw [subst_same fun _ => rfl]
  | fls =>
    intro _ _
    refine ⟨.fls, false, fun k hk => ?_, .fls, rfl⟩
    cases k with
    | zero => simp [depth] at hk
    | succ k => simp only [subst]; rw [subst_same fun _ => rfl]
  | rel op x y _ _ =>
    intro h hc
    simp only [Cond] at h
    have main : ∃ x' y' s t v w, Replaced r c Safe (itemEnv r.pdu.m.msg b lo hi es) x x' s v ∧
        Replaced r c Safe (itemEnv r.pdu.m.msg b lo hi es) y y' t w ∧ r.comparable s t = true ∧ (Fixed x' → Fixed y' → x'.eq y' = true → v = w) := by
      rcases h.2 with h2 | h2
      · obtain ⟨x', y', s, t, v, w, h3, h4, h5, h6⟩ := comparable_replaced (b := b) (lo := lo) (hi := hi) R h2 (by simpa only [namesOf] using hc)
        exact ⟨x', y', s, t, v, w, h3, h4, h5, fun a b h => h6 a b (.inl h)⟩
      · obtain ⟨y', x', t, s, w, v, h3, h4, h5, h6⟩ := comparable_replaced (b := b) (lo := lo) (hi := hi) R h2 (fun f t hf hn => hc f t hf (by
          obtain ⟨id, h1, h2⟩ := hn
          refine ⟨id, ?_, h2⟩
          simp only [namesOf, List.mem_append] at h1 ⊢
          exact h1.symm))
        exact ⟨x', y', s, t, v, w, h4, h3, by rw [comparable_symm]; exact h5, fun a b h => (h6 b a (.inr h)).symm⟩
    obtain ⟨x', y', s, t, v, w, h3, h4, h5, h6⟩ := main
    refine ⟨.rel op x' y', op.intOp v w, fun k hk => ?_, .rel h.1 h3.operand h4.operand h5 h6, ?_⟩
    · simp only [depth] at hk
      cases k with
      | zero => omega
      | succ k =>
        simp only [subst, subst_same (e := .rel op x y) fun _ => by cases op <;> rfl]
        rw [h3.subst k (by omega), h4.subst k (by omega)]
        rfl
    · simp only [Verif.eval, h3.eval, h4.eval, RelOp.eval_int v w h.1]
      rfl
  | bool op ts ih =>
    intro h hc
    simp only [Cond, condL_iff] at h
    have main : ∀ us : List Expr, (∀ t ∈ us, t ∈ ts) → ∃ ps : List (Expr × Bool), (∀ p ∈ ps, CC r c Safe false p.1 p.2) ∧
        (∀ k, depthL us ≤ k → us.mapM (subst k (substitution r.mapping)) = .ok (ps.map (·.1))) ∧
        evalL .ada (itemEnv r.pdu.m.msg b lo hi es) us = some (ps.map fun p => .bool p.2) := by
      intro us
      induction us with
      | nil => intro _; exact ⟨[], by simp, fun _ _ => rfl, rfl⟩
      | cons u us ihu =>
        intro hsub
        have hu := hsub u List.mem_cons_self
        obtain ⟨ps, h1, h2, h3⟩ := ihu fun t ht => hsub t (List.mem_cons_of_mem _ ht)
        obtain ⟨u', D, hr⟩ := ih u hu (h u hu) fun f t hf hn => hc f t hf (by
          obtain ⟨id, h1, h2⟩ := hn
          exact ⟨id, by simp only [namesOf]; exact namesOfL_mem.2 ⟨u, hu, h1⟩, h2⟩)
        refine ⟨(u', D) :: ps, ?_, ?_, ?_⟩
        · intro p hp
          rcases List.mem_cons.1 hp with rfl | hp
          · exact hr.cond
          · exact h1 p hp
        · intro k hk
          simp only [depthL] at hk
          rw [List.mapM_cons, hr.subst k (by omega), h2 k (by omega)]
          rfl
        · simp only [evalL, hr.eval, h3, List.map_cons]
    obtain ⟨ps, h1, h2, h3⟩ := main ts fun _ h => h
    refine ⟨.bool op (ps.map (·.1)), comb op (ps.map (·.2)), fun k hk => ?_, .bool h1, ?_⟩
    · simp only [depth] at hk
      cases k with
      | zero => omega
      | succ k =>
        simp only [subst, subst_same (e := .bool op ts) fun _ => by cases op <;> rfl]
        rw [h2 k (by omega)]
        rfl
    · have hall : ∀ qs : List (Expr × Bool), allSome Val.bool? (qs.map fun p => Val.bool p.2) = some (qs.map (·.2)) := by
        intro qs
        induction qs with
        | nil => rfl
        | cons q qs ihq => simp [allSome, Val.bool?, ihq]
      simp only [Verif.eval, h3, Option.bind_some, hall]
      rfl
  | _ => intro h; simp [Cond] at h

end

end Verif.Refine
