import Verif.PyRFLX.MessageParseProps
import Verif.PyRFLX.MessageProps
import Verif.Expr.Lex

/-! # Messages that are parsed as expected, and messages that are not -/

namespace Verif.PyRFLX

open Verif Verif.Types Verif.Bits Verif.Graph

/-! ## Values of integer fields in the mapping -/

section
variable {m : Msg}

/-- Proof device: the scalar fields are integers, there are no literals. -/
structure Ints (m : Msg) : Prop where
  lits : m.lits = []
  types : ∀ f ∈ INITIAL :: m.fields, ∀ s imp, m.typeOf f = .scalar s imp → ∃ t, s = .int t
  names : ∀ f ∈ INITIAL :: m.fields, ∀ g ∈ INITIAL :: m.fields, f.eq g = true → f = g
  message : ∀ f ∈ INITIAL :: m.fields, f.eq messageID = false ∧ f.str ≠ messageID.str

theorem assign_int {t : IntType} {imp : Bool} {ex : Option Num} {inp : Input} {x : SVal}
    (h : assignValue (.scalar (.int t) imp) ex inp = .ok (.scalar x)) : ∃ v, x = .int v ∧ IntegerValue.assign t v true = .ok v := by
  have key : ∀ a v, IntegerValue.assign t a true = .ok v → IntegerValue.assign t v true = .ok v := by
    intro a v h
    have : v = a := by
      revert h
      simp only [IntegerValue.assign, if_true, bind, Except.bind]
      intro h
      repeat (split at h; · cases h)
      split at h
      · cases h; rfl
      · cases h
    rw [this] at h ⊢; exact h
  cases inp with
  | bits b =>
    obtain ⟨e, he, h⟩ := map_ok (h : (Scalar.parse _ _ _ _).map _ = _)
    obtain ⟨v, hv, rfl⟩ := map_ok (he : (IntegerValue.parse _ _ _).map _ = _)
    simp only [Val.scalar.injEq] at h
    obtain ⟨a, _, hv⟩ := bind_ok (hv : Except.bind _ _ = _)
    exact ⟨v, h.symm, key a v hv⟩
  | int a =>
    obtain ⟨v, hv, h⟩ := map_ok (h : (IntegerValue.assign _ _ _).map _ = _)
    simp only [Val.scalar.injEq] at h
    exact ⟨v, h.symm, key a v hv⟩
  | str s => cases h
  | bytes b => cases h
  | list es => cases h

theorem mapping_of {fv : Field → FV} {M : List (Expr × Expr)} (h : Mapping m fv M) : MappingOf m fv M := by
  rcases h with h | ⟨rfl, rfl⟩
  · exact newMapping_mem h
  · intro kv hkv
    simp only [initMapping, List.mem_cons, List.not_mem_nil, or_false] at hkv
    rcases hkv with rfl | rfl | rfl | rfl
    · exact .inl ⟨INITIAL, by simp, .inr ⟨.size, ⟨0, .b0⟩, by simp, rfl⟩⟩
    · exact .inl ⟨INITIAL, by simp, .inr ⟨.last, ⟨0, .b0⟩, by simp, rfl⟩⟩
    · exact .inl ⟨INITIAL, by simp, .inr ⟨.first, ⟨0, .b0⟩, by simp, rfl⟩⟩
    · exact .inr ⟨.first, ⟨0, .b0⟩, by simp, rfl⟩

theorem eq_self (i : ID) : i.eq i = true := by
  simp only [ID.eq, bne_self_eq_false, Bool.false_eq_true, if_false, List.all_eq_true]
  intro x hx
  obtain ⟨a, b⟩ := x
  have : a = b := by
    generalize i.parts = l at hx
    induction l with
    | nil => simp at hx
    | cons y l ih =>
      rcases List.mem_cons.mp hx with h | h
      · cases h; rfl
      · exact ih h
  simp [this]

theorem fieldMapping_of {fv : Field → FV} {M : List (Expr × Expr)} (h : m.fieldMapping fv (INITIAL :: m.fields) = .ok M) :
    MappingOf m fv M := by
  intro kv hkv
  rcases fieldMapping_mem h kv hkv with h | h
  · exact .inl h
  · exact .inr ⟨.first, ⟨0, .b0⟩, by simp, h⟩

/-- A name is replaced by the value of the field, if at all. -/
theorem Ints.var (hi : Ints m) {fv : Field → FV} {M : List (Expr × Expr)} (hv : Values m fv) (hM : MappingOf m fv M) (f : ID) :
    (substitution (M ++ m.lits) (.var false false f) = .var false false f ∧ ∀ kv ∈ M, kv.1.eq (.var false false f) = false) ∨
    ∃ g ∈ INITIAL :: m.fields, ∃ t imp v, m.typeOf g = .scalar (.int t) imp ∧ g.eq f = true ∧
      (fv g).value = some (.scalar (.int v)) ∧ IntegerValue.assign t v true = .ok v ∧
      substitution (M ++ m.lits) (.var false false f) = .n v := by
  rw [hi.lits, List.append_nil]
  simp only [substitution, Expr.isName, if_true]
  cases hf : M.find? (fun kv => kv.1.eq (.var false false f)) with
  | none =>
    refine .inl ⟨rfl, ?_⟩
    intro kv hkv
    have := List.find?_eq_none.mp hf kv hkv
    simpa using this
  | some kv =>
    refine .inr ?_
    have hk := List.find?_some hf
    rcases hM kv (List.mem_of_find?_eq_some hf) with ⟨g, hg, he⟩ | ⟨a, n, _, rfl⟩
    · rcases he with ⟨s, imp, x, ht, hval, hkey, hx⟩ | ⟨a, n, _, rfl⟩
      · obtain ⟨t, rfl⟩ := hi.types g hg s imp ht
        obtain ⟨ex, inp, hass⟩ := hv g _ _ _ ht hval
        rw [ht] at hass
        obtain ⟨v, rfl, hav⟩ := assign_int hass
        simp only [SVal.expr, Except.ok.injEq] at hx
        rw [hkey] at hk
        refine ⟨g, hg, t, imp, v, ht, by simp [Expr.eq] at hk; exact hk.2, hval, hav, hx.symm⟩
      · simp [Expr.eq, Expr.cls, Expr.Cls.sub] at hk
    · simp [Expr.eq, Expr.cls, Expr.Cls.sub, messageVar] at hk

theorem fieldMapping_entry {fv : Field → FV} {fs : List Field} {M : List (Expr × Expr)} (h : m.fieldMapping fv fs = .ok M)
    {f : Field} (hf : f ∈ fs) : ∃ es, entries (m.typeOf f) (fv f) f = .ok es ∧ ∀ kv ∈ es, kv ∈ M := by
  induction fs generalizing M with
  | nil => simp at hf
  | cons g fs ih =>
    obtain ⟨es, hes, h⟩ := bind_ok (h : (entries _ _ _).bind _ = _)
    obtain ⟨r, hr, rfl⟩ := map_ok h
    rcases List.mem_cons.mp hf with rfl | hf
    · exact ⟨es, hes, fun kv hkv => List.mem_append_left _ hkv⟩
    · obtain ⟨es', h1, h2⟩ := ih hr hf
      exact ⟨es', h1, fun kv hkv => List.mem_append_right _ (h2 kv hkv)⟩

/-- The name of an integer field that is set is replaced by its value. -/
theorem Ints.set (hi : Ints m) {fv : Field → FV} {M : List (Expr × Expr)} (hv : Values m fv) (hM : Mapping m fv M)
    {f : Field} (hf : f ∈ INITIAL :: m.fields) {t : IntType} {imp : Bool} (ht : m.typeOf f = .scalar (.int t) imp)
    (hs : (fv f).isSet (m.typeOf f) = .ok true) :
    ∃ v, IntegerValue.assign t v true = .ok v ∧ substitution (M ++ m.lits) (.var false false f) = .n v := by
  rcases hi.var hv (mapping_of hM) f with ⟨_, hno⟩ | ⟨g, hg, t', imp', v, ht', hgf, hval, hav, hsub⟩
  · exfalso
    have hsome : (fv f).value.isSome = true := by
      unfold FV.isSet at hs
      split at hs
      · cases hs
      · rename_i h; cases hvv : (fv f).value <;> simp_all
    rcases hM with hM | ⟨rfl, rfl⟩
    · obtain ⟨M0, last, nxt, hM0, _, _, rfl⟩ := newMapping_form hM
      obtain ⟨es, hes, hsub⟩ := fieldMapping_entry hM0 hf
      obtain ⟨a, ha, h⟩ := bind_ok (hes : (valueEntry _ _ _).bind _ = _)
      obtain ⟨b, hb, h⟩ := bind_ok (h : (sizeEntry _ _ _).bind _ = _)
      obtain ⟨d, hd, rfl⟩ := map_ok h
      have : ∃ e, (Expr.var false false f, e) ∈ a := by
        unfold valueEntry at ha
        split at ha
        · rw [hs] at ha
          obtain ⟨e, he, rfl⟩ := map_ok (ha : (SVal.expr _).map _ = _)
          exact ⟨e, by simp⟩
        · rename_i hno'
          exfalso
          obtain ⟨x, hx⟩ := Option.isSome_iff_exists.mp hsome
          obtain ⟨ex, inp, hass⟩ := hv f _ _ _ ht hx
          rw [ht] at hass
          cases x with
          | scalar x => exact hno' _ _ _ ht hx
          | bytes b =>
            cases inp with
            | bits b => obtain ⟨e, _, h⟩ := map_ok (hass : (Scalar.parse _ _ _ _).map _ = _); cases h
            | int a => obtain ⟨e, _, h⟩ := map_ok (hass : (IntegerValue.assign _ _ _).map _ = _); cases h
            | _ => cases hass
          | elems b =>
            cases inp with
            | bits b => obtain ⟨e, _, h⟩ := map_ok (hass : (Scalar.parse _ _ _ _).map _ = _); cases h
            | int a => obtain ⟨e, _, h⟩ := map_ok (hass : (IntegerValue.assign _ _ _).map _ = _); cases h
            | _ => cases hass
      obtain ⟨e, he⟩ := this
      have hmem : (Expr.var false false f, e) ∈ withMessage M0 last := by
        have : (Expr.var false false f, e) ∈ M0 := hsub _ (by simp [he])
        cases last <;> simp [withMessage, this]
      have := hno _ hmem
      simp [Expr.eq, eq_self, Expr.cls, Expr.Cls.sub] at this
    · unfold Msg.typeOf at ht
      by_cases hg : f = INITIAL
      · simp [hg] at ht
      · simp [hg] at ht
        simp [Msg.newFV, hg, ht] at hsome
  · have := hi.names g hg f hf hgf
    subst this
    rw [ht] at ht'
    cases ht'
    exact ⟨v, hav, hsub⟩

theorem subst_eq_var (N : List (Expr × Expr)) (f : ID) (a : Int) :
    (Expr.rel .eq (.var false false f) (.n a)).substituted N = .ok (.rel .eq (substitution N (.var false false f)) (.n a)) := by
  have hr : substitution N (.rel .eq (.var false false f) (.n a)) = .rel .eq (.var false false f) (.n a) := rfl
  have hn : substitution N (.num a .b0) = .num a .b0 := rfl
  simp only [Expr.n] at hr
  simp [Expr.substituted, subst, depth, hr, hn, Expr.n, bind, Except.bind, pure, Except.pure]

theorem subst_eq_num (N : List (Expr × Expr)) (v a : Int) :
    (Expr.rel .eq (.n v) (.n a)).substituted N = .ok (.rel .eq (.n v) (.n a)) := by
  have hr : substitution N (.rel .eq (.n v) (.n a)) = .rel .eq (.n v) (.n a) := rfl
  have hn : ∀ a, substitution N (.num a .b0) = .num a .b0 := fun _ => rfl
  simp only [Expr.n] at hr
  simp [Expr.substituted, subst, depth, hr, hn, Expr.n, bind, Except.bind, pure, Except.pure]

/-- The comparison of a field with a number. -/
theorem holds_eq {M : List (Expr × Expr)} {f : ID} {a v : Int}
    (hx : substitution (M ++ m.lits) (.var false false f) = .n v) :
    m.holds M (.rel .eq (.var false false f) (.n a)) = .ok (v == a) := by
  simp only [Msg.holds, Msg.simplifiedIn, Expr.isTru, Expr.isFls, Bool.or_false, Bool.false_eq_true, if_false, subst_eq_var, hx,
    Except.bind, subst_eq_num]
  rw [simp_rel (a := v) (b := a) (x := .b0) (y := .b0) rfl rfl rfl]
  simp [Except.map, lit_isTru, RelOp.intOp]

theorem holds_unset {M : List (Expr × Expr)} {f : ID} {a : Int}
    (hx : substitution (M ++ m.lits) (.var false false f) = .var false false f) :
    m.holds M (.rel .eq (.var false false f) (.n a)) = .ok false := by
  simp only [Msg.holds, Msg.simplifiedIn, Expr.isTru, Expr.isFls, Bool.or_false, Bool.false_eq_true, if_false, subst_eq_var, hx,
    Except.bind]
  rfl

theorem subst_mul_var (N : List (Expr × Expr)) (f : ID) (a : Int) :
    (Expr.mul [.var false false f, .n a]).substituted N = .ok (.mul [substitution N (.var false false f), .n a]) := by
  have hr : substitution N (.mul [.var false false f, .n a]) = .mul [.var false false f, .n a] := rfl
  have hn : substitution N (.num a .b0) = .num a .b0 := rfl
  simp only [Expr.n] at hr
  simp [Expr.substituted, subst, depth, depthL, hr, hn, Expr.n, bind, Except.bind, pure, Except.pure]

theorem subst_mul_num (N : List (Expr × Expr)) (v a : Int) :
    (Expr.mul [.n v, .n a]).substituted N = .ok (.mul [.n v, .n a]) := by
  have hr : substitution N (.mul [.n v, .n a]) = .mul [.n v, .n a] := rfl
  have hn : ∀ a, substitution N (.num a .b0) = .num a .b0 := fun _ => rfl
  simp only [Expr.n] at hr
  simp [Expr.substituted, subst, depth, depthL, hr, hn, Expr.n, bind, Except.bind, pure, Except.pure]

/-- The product of a field and a number. -/
theorem simplifiedIn_mul {M : List (Expr × Expr)} {f : ID} {a v : Int}
    (hx : substitution (M ++ m.lits) (.var false false f) = .n v) :
    m.simplifiedIn M (.mul [.var false false f, .n a]) = .ok (.n (v * a)) := by
  simp only [Msg.simplifiedIn, Expr.isTru, Expr.isFls, Bool.or_false, Bool.false_eq_true, if_false, subst_mul_var, hx,
    Except.bind, subst_mul_num]
  simp [Expr.simplified, weight, weightL, simplify, assLoop, AssOp.finish, AssOp.const, AssOp.neutral, AssOp.op, bind,
    Except.bind, pure, Except.pure, Expr.n]

end

/-! ## A message with alternatives, a length field and a field up to the end -/

/-- The field `t` of the example. -/
def exTag : Field := ⟨[['t']]⟩
/-- The field `l` of the example. -/
def exLen : Field := ⟨[['l']]⟩
/-- The field `v` of the example. -/
def exVal : Field := ⟨[['v']]⟩
/-- The field `r` of the example. -/
def exRest : Field := ⟨[['r']]⟩

/-- A message with a tag `t`: with tag 1 a length `l` and a value `v` of this length follow, with tag 2 a field `r` that extends
to the end of the message, with tag 3 nothing. -/
def exTlv : Msg where
  links := [⟨INITIAL, exTag, .tru, .undefined, .undefined⟩,
    ⟨exTag, exLen, .rel .eq (.var false false exTag) (.n 1), .undefined, .undefined⟩,
    ⟨exTag, exRest, .rel .eq (.var false false exTag) (.n 2),
      .bin .sub (.attr false .last messageVar) (.attr false .last (.var false false exTag)), .undefined⟩,
    ⟨exTag, FINAL, .rel .eq (.var false false exTag) (.n 3), .undefined, .undefined⟩,
    ⟨exLen, exVal, .tru, .mul [.var false false exLen, .n 8], .undefined⟩,
    ⟨exVal, FINAL, .tru, .undefined, .undefined⟩, ⟨exRest, FINAL, .tru, .undefined, .undefined⟩]
  fields := [exTag, exLen, exVal, exRest]
  types := fun f => if f = exTag ∨ f = exLen then .scalar (.int exByte) false else .opaque
  lits := []
  fuel := 10

/-- Numbers for the fields of `exTlv`. -/
def exTlvRank (f : Field) : Nat :=
  if f = INITIAL then 0 else if f = exTag then 1 else if f = exLen then 2 else if f = exRest then 3 else if f = exVal then 4 else 5

theorem exTlv_ints : Ints exTlv := by
  constructor
  · rfl
  · intro f hf s imp h
    simp only [exTlv, List.mem_cons, List.not_mem_nil, or_false] at hf
    rcases hf with rfl | rfl | rfl | rfl | rfl <;> simp [Msg.typeOf, exTlv, exTag, exLen, exVal, exRest, INITIAL] at h <;>
      exact ⟨_, h.1.symm⟩
  · decide
  · decide

theorem exByte_range {v : Int} (h : IntegerValue.assign exByte v true = .ok v) : 0 ≤ v ∧ v ≤ 255 := by
  have key := C03_assign_partial exByte exByte_fine.1 exByte_fine.2.1 v
  by_cases hr : InRange exByte v
  · obtain ⟨f, l, hf, hl, h1, h2⟩ := hr
    cases hf
    have : (IntType.last exByte) = .ok (Num.n 255) := by rfl
    rw [this] at hl
    cases hl
    exact ⟨h1, h2⟩
  · rw [key.2 hr] at h; cases h

theorem exTlv_tag {fv : Field → FV} {M : List (Expr × Expr)} (hv : Values exTlv fv) (hM : Mapping exTlv fv M) {a : Int}
    (h : exTlv.holds M (.rel .eq (.var false false exTag) (.n a)) = .ok true) :
    substitution (M ++ exTlv.lits) (.var false false exTag) = .n a ∧ (fv exTag).value = some (.scalar (.int a)) := by
  rcases exTlv_ints.var hv (mapping_of hM) exTag with ⟨h1, _⟩ | ⟨g, hg, t, imp, v, _, hgf, hval, _, h1⟩
  · rw [holds_unset h1] at h; cases h
  · rw [holds_eq h1] at h
    have := exTlv_ints.names g hg exTag (by simp [exTlv]) hgf
    subst this
    have : v = a := by simpa using h
    subst this
    exact ⟨h1, hval⟩

section
variable {m : Msg}

theorem subst_rest {N : List (Expr × Expr)} (h1 : substitution N (.attr false .last messageVar) = .attr false .last messageVar)
    (h2 : substitution N messageVar = messageVar) {x z : Expr}
    (h : (Expr.bin .sub (.attr false .last messageVar) x).substituted N = .ok z) :
    ∃ x', z = .bin .sub (.attr false .last messageVar) x' := by
  have hb : substitution N (.bin .sub (.attr false .last messageVar) x) = .bin .sub (.attr false .last messageVar) x := rfl
  have hd : ∃ k, depth (Expr.bin .sub (.attr false .last messageVar) x) + 1 = k + 3 := by
    refine ⟨depth (Expr.bin .sub (.attr false .last messageVar) x) - 2, ?_⟩
    simp only [depth, messageVar]
    omega
  obtain ⟨k, hk⟩ := hd
  unfold Expr.substituted at h
  rw [hk] at h
  have hv : subst (k + 1) (substitution N) messageVar = .ok messageVar := by
    have := h2
    simp only [messageVar] at this
    simp [subst, messageVar, this]
  have ha : subst (k + 2) (substitution N) (.attr false .last messageVar) = .ok (.attr false .last messageVar) := by
    rw [show k + 2 = (k + 1) + 1 from rfl, subst]
    simp [h1, hv, Except.map, Except.bind]
  rw [show k + 3 = (k + 2) + 1 from rfl, subst] at h
  simp only [hb, ha, bind, Except.bind, pure, Except.pure] at h
  split at h
  · cases h
  · cases h; exact ⟨_, rfl⟩

/-- The size up to the end of the message is unknown as long as `Message'Last` is. -/
theorem rest_none {M : List (Expr × Expr)}
    (h1 : substitution (M ++ m.lits) (.attr false .last messageVar) = .attr false .last messageVar)
    (h2 : substitution (M ++ m.lits) messageVar = messageVar) {x e : Expr}
    (h : m.simplifiedIn M (.bin .sub (.attr false .last messageVar) x) = .ok e) : asNum e = none := by
  simp only [Msg.simplifiedIn, Expr.isTru, Expr.isFls, Bool.or_false, Bool.false_eq_true, if_false] at h
  obtain ⟨a, ha, h⟩ := bind_ok h
  obtain ⟨b, hb, h⟩ := bind_ok h
  obtain ⟨x1, rfl⟩ := subst_rest h1 h2 ha
  obtain ⟨x2, rfl⟩ := subst_rest h1 h2 hb
  unfold Expr.simplified at h
  generalize 4 * weight _ = k at h
  match k with
  | 0 => cases h
  | 1 => cases h
  | k + 2 =>
    rw [simplify] at h
    obtain ⟨l, hl, h⟩ := bind_ok (h : Except.bind _ _ = _)
    obtain ⟨r, _, h⟩ := bind_ok (h : Except.bind _ _ = _)
    have : ∃ y, l = .attr false .last y := by
      rw [simplify] at hl
      obtain ⟨y, _, hl⟩ := bind_ok (hl : Except.bind _ _ = _)
      cases hl
      exact ⟨y, rfl⟩
    obtain ⟨y, rfl⟩ := this
    simp only [Expr.num?, if_true] at h
    obtain ⟨z, _, h⟩ := bind_ok (h : Except.bind _ _ = _)
    cases h
    rfl

end

theorem no_number {f : ID} {c : Char} {cs : PyStr} (hf : f.str = c :: cs) (h : c.isDigit = false ∧ c ≠ '(') (v : Int) (b : NBase) :
    f.str ≠ intStr v b := by
  rw [hf]
  unfold intStr wrapNeg
  split
  · intro he
    simp only [List.cons_append, List.nil_append, List.cons.injEq] at he
    exact h.2 he.1
  · obtain ⟨d, s, hs, hd⟩ := natStr_head (b := b) (m := v.natAbs)
    rw [hs]
    intro he
    simp only [List.cons.injEq] at he
    rw [he.1, hd] at h
    simp at h

theorem exTlv_proper : Proper (INITIAL :: exTlv.fields) := by
  intro f hf
  simp only [exTlv, List.mem_cons, List.not_mem_nil, or_false] at hf
  rcases hf with rfl | rfl | rfl | rfl | rfl <;> exact no_number rfl (by decide)

theorem exTlv_well : Well exTlv exTlvRank (fun f => f == exRest) := by
  constructor
  case ranked =>
    intro l hl
    simp only [exTlv, List.mem_cons, List.not_mem_nil, or_false] at hl
    rcases hl with rfl | rfl | rfl | rfl | rfl | rfl | rfl <;> decide
  case start =>
    refine ⟨_, rfl, rfl, by decide, ?_⟩
    intro l hl
    simp only [exTlv, List.mem_cons, List.not_mem_nil, or_false] at hl
    rcases hl with rfl | rfl | rfl | rfl | rfl | rfl | rfl <;> decide
  case links =>
    intro l hl
    simp only [exTlv, List.mem_cons, List.not_mem_nil, or_false] at hl
    rcases hl with rfl | rfl | rfl | rfl | rfl | rfl | rfl <;> decide
  case noInitial => decide
  case noFinal => decide
  case noFirst =>
    intro l hl
    simp only [exTlv, List.mem_cons, List.not_mem_nil, or_false] at hl
    rcases hl with rfl | rfl | rfl | rfl | rfl | rfl | rfl <;> rfl
  case proper =>
    intro f hf
    simp only [exTlv, List.mem_cons, List.not_mem_nil, or_false] at hf
    rcases hf with rfl | rfl | rfl | rfl | rfl <;> exact no_number rfl (by decide)
  case lits => intro kv hkv; cases hkv
  case apart =>
    intro f hf ex inp txt n i h
    simp only [exTlv, List.mem_cons, List.not_mem_nil, or_false] at hf
    exfalso
    by_cases hc : f = exTag ∨ f = exLen
    · have ht : exTlv.typeOf f = .scalar (.int exByte) false := by
        rcases hc with rfl | rfl <;> rfl
      rw [ht] at h
      obtain ⟨v, hv, _⟩ := assign_int h
      cases hv
    · have ht : exTlv.typeOf f = .opaque := by
        rcases hf with rfl | rfl | rfl | rfl
        · simp at hc
        · simp at hc
        · rfl
        · rfl
      rw [ht] at h
      cases inp with
      | bits b => obtain ⟨e, _, h⟩ := map_ok (h : (checkSize _ _).map _ = _); cases h
      | bytes b => obtain ⟨e, _, h⟩ := map_ok (h : (checkSize _ _).map _ = _); cases h
      | _ => cases h
  case conditions =>
    intro l hl
    simp only [exTlv, List.mem_cons, List.not_mem_nil, or_false] at hl
    rcases hl with rfl | rfl | rfl | rfl | rfl | rfl | rfl <;> intro n hn <;>
      simp only [names, List.mem_cons, List.not_mem_nil, or_false, List.append_nil, Bool.false_eq_true, if_false, Expr.n] at hn <;>
      subst hn <;> unfold Free Apart <;> decide
  case exclusive =>
    intro fv M hv hM l hl l' hl' hs h h'
    simp only [exTlv, List.mem_cons, List.not_mem_nil, or_false] at hl hl'
    rcases hl with rfl | rfl | rfl | rfl | rfl | rfl | rfl <;> rcases hl' with rfl | rfl | rfl | rfl | rfl | rfl | rfl <;>
      first
      | rfl
      | exact absurd hs (by decide)
      | (have h1 := (exTlv_tag hv hM h).1
         rw [(exTlv_tag hv hM h').1] at h1
         simp [Expr.n] at h1)
  case stable =>
    intro fv fv' M M' hv hv' hM hM' l hl _ hfresh h
    simp only [exTlv, List.mem_cons, List.not_mem_nil, or_false] at hl
    rcases hl with rfl | rfl | rfl | rfl | rfl | rfl | rfl <;>
      first
      | rfl
      | (have h1 := (exTlv_tag hv hM h).2
         have h2 : (fv exTag).value = none := hfresh
         rw [h1] at h2; cases h2)
  case scalars =>
    intro f hf s imp h
    obtain ⟨t, rfl⟩ := exTlv_ints.types f (List.mem_cons_of_mem _ hf) s imp h
    unfold Msg.typeOf at h
    split at h
    · cases h
    · simp only [exTlv] at h
      split at h
      · cases h; exact exByte_fine
      · cases h
  case sizes =>
    intro l hl
    simp only [exTlv, List.mem_cons, List.not_mem_nil, or_false] at hl
    rcases hl with rfl | rfl | rfl | rfl | rfl | rfl | rfl <;> intro h1 h2 h3
    · exact absurd h2 (by decide)
    · exact absurd h2 (by decide)
    · exact absurd h3 (by decide)
    · exact absurd h1 (by decide)
    · refine ⟨by decide, ?_⟩
      intro fv M p hv hM hw hset _
      have hmem : exLen ∈ p := by
        rcases hw.mem_last with h | h
        · exact absurd h.2 (by decide)
        · exact h
      obtain ⟨v, h4, h5⟩ := exTlv_ints.set hv hM (f := exLen) (by simp [exTlv]) (t := exByte) (imp := false) rfl (hset _ hmem)
      have := exByte_range h4
      refine ⟨_, ⟨v * 8, .b0⟩, simplifiedIn_mul h5, rfl, by simp; omega, ?_⟩
      show (v * 8).toNat % 8 = 0
      omega
    · exact absurd h1 (by decide)
    · exact absurd h1 (by decide)
  case rests =>
    intro f hf
    have hf : f = exRest := by simpa using hf
    subst hf
    refine ⟨rfl, ?_, ?_⟩
    · intro l hl
      simp only [exTlv, List.mem_cons, List.not_mem_nil, or_false] at hl
      rcases hl with rfl | rfl | rfl | rfl | rfl | rfl | rfl <;> decide
    · intro l hl
      simp only [exTlv, List.mem_cons, List.not_mem_nil, or_false] at hl
      rcases hl with rfl | rfl | rfl | rfl | rfl | rfl | rfl <;> intro ht <;>
        first
        | exact absurd ht (by decide)
        | skip
      intro fv M e hv hM he
      have hkey : ∀ kv ∈ M ++ exTlv.lits, kv.1.eq (.attr false .last messageVar) = false ∧ kv.1.eq messageVar = false := by
        intro kv hkv
        have hkv : kv ∈ M := by simpa [exTlv] using hkv
        have : (∃ f ∈ INITIAL :: exTlv.fields, KeyOf f kv.1) ∨ kv.1 = .attr false .first messageVar := by
          rcases hM with hM | rfl
          · rcases fieldMapping_mem hM kv hkv with ⟨f, hf, h⟩ | h
            · exact .inl ⟨f, hf, h.key⟩
            · exact .inr (by rw [h])
          · simp only [initMapping, List.mem_cons, List.not_mem_nil, or_false] at hkv
            rcases hkv with rfl | rfl | rfl | rfl
            · exact .inl ⟨INITIAL, by simp, .inr ⟨.size, by simp, rfl⟩⟩
            · exact .inl ⟨INITIAL, by simp, .inr ⟨.last, by simp, rfl⟩⟩
            · exact .inl ⟨INITIAL, by simp, .inr ⟨.first, by simp, rfl⟩⟩
            · exact .inr rfl
        rcases this with ⟨f, hf, h⟩ | h
        · have hb : Apart (INITIAL :: exTlv.fields) messageID := by
            intro g hg; exact exTlv_ints.message g hg
          exact ⟨key_free exTlv_proper hf h hb, key_free exTlv_proper hf h hb⟩
        · rw [h]; exact ⟨rfl, rfl⟩
      have none : ∀ n : Expr, n.isName = true → (∀ kv ∈ M ++ exTlv.lits, kv.1.eq n = false) →
          substitution (M ++ exTlv.lits) n = n := by
        intro n hn h
        have : (M ++ exTlv.lits).find? (fun kv => kv.1.eq n) = none := by
          rw [List.find?_eq_none]
          intro kv hkv
          simp [h kv hkv]
        simp [substitution, hn, this]
      have h1 := none _ rfl fun kv hkv => (hkey kv hkv).1
      have h2 := none messageVar rfl fun kv hkv => (hkey kv hkv).2
      exact rest_none h1 h2 he

/-- The encoding of the message after parsing the input, if there is no error. -/
def reencode (m : Msg) (input : List Byte) : Option (List Byte) :=
  match m.new.bind fun σ => (m.parseBytes σ input).bind m.bytestring with
  | .ok out => some out
  | .error _ => none

theorem reencode_some {m : Msg} {input out : List Byte} (h : reencode m input = some out) :
    ∃ σ σ', m.new = .ok σ ∧ m.parseBytes σ input = .ok σ' ∧ m.bytestring σ' = .ok out := by
  unfold reencode at h
  split at h
  · rename_i x hx
    cases h
    obtain ⟨σ, h1, h2⟩ := bind_ok hx
    obtain ⟨σ', h2, h3⟩ := bind_ok h2
    exact ⟨σ, σ', h1, h2, h3⟩
  · cases h

/-- The hypotheses of `C22_roundtrip_partial` for three inputs, one for each tag. -/
example : ∃ σ σ', exTlv.new = .ok σ ∧ exTlv.parseBytes σ [1, 2, 7, 8, 9] = .ok σ' ∧ exTlv.bytestring σ' = .ok [1, 2, 7, 8] :=
  reencode_some (by with_unfolding_all rfl)

example : ∃ σ σ', exTlv.new = .ok σ ∧ exTlv.parseBytes σ [2, 7, 8, 9] = .ok σ' ∧ exTlv.bytestring σ' = .ok [2, 7, 8, 9] :=
  reencode_some (by with_unfolding_all rfl)

example : ∃ σ σ', exTlv.new = .ok σ ∧ exTlv.parseBytes σ [3, 7] = .ok σ' ∧ exTlv.bytestring σ' = .ok [3] :=
  reencode_some (by with_unfolding_all rfl)

/-! ## Messages for which the property fails -/

/-- A message of a payload of arbitrary length and a footer of one byte. -/
def exTrailer : Msg where
  links := [⟨INITIAL, exVal, .tru, .bin .sub (.attr false .size messageVar) (.n 8), .undefined⟩,
    ⟨exVal, exTag, .tru, .undefined, .undefined⟩, ⟨exTag, FINAL, .tru, .undefined, .undefined⟩]
  fields := [exVal, exTag]
  types := fun f => if f = exTag then .scalar (.int exByte) false else .opaque
  lits := []
  fuel := 10

/-- A message of one field of arbitrary length. -/
def exAll : Msg where
  links := [⟨INITIAL, exVal, .tru, .attr false .size messageVar, .undefined⟩, ⟨exVal, FINAL, .tru, .undefined, .undefined⟩]
  fields := [exVal]
  types := fun _ => .opaque
  lits := []
  fuel := 10

/-- C22 is false for messages with a field behind a field whose size depends on the end of the message: the size of the payload is
unknown, so it takes the whole input, and the position does not advance, so the footer is the first byte of the payload. -/
theorem C22_trailer_counterexample : reencode exTrailer [1, 2, 3] = some [1, 2, 3, 1] := by
  with_unfolding_all rfl

/-- C22 is false for the empty input: it is turned into a single bit `0`. -/
theorem C22_empty_input_counterexample : reencode exAll [] = some [0] := by
  with_unfolding_all rfl

end Verif.PyRFLX
