import Verif.Expr.VarsProps
import Verif.Verify.OverlayProps

/-! # C75: aspects and attributes of accepted messages -/

namespace Verif.Verify
open Verif Verif.Graph Verif.Types Verif.Typing

/-! ## Specification -/

/-- The identifier names a type: by its full name or, for builtin types, by its last part. -/
def NamesType (t : FTy) (i : ID) : Prop := i.key = t.id.key ∨ ∃ n, t.id.name = .ok n ∧ i.key = n.key

/-- The expression names the message, a field or the type of a field. -/
def HasSize (m : Msg) (e : Expr) : Prop :=
  ∃ ng im i, e = .var ng im i ∧ (i.str = MESSAGE.str ∨ (⟨i.key⟩ : Field) ∈ m.fields ∨ ∃ t ∈ m.types, NamesType t.2 i)

variable {m : Msg}

/-! ## Lemmas -/

theorem setType_key {d : List (ID × FTy)} {k : ID} {t : FTy} {e : ID × FTy} (he : e ∈ setType d k t) : (∃ e' ∈ d, e'.1 = e.1) ∨ e.1 = k := by
  induction d with
  | nil =>
    simp only [setType, List.mem_singleton] at he
    exact .inr (by rw [he])
  | cons x d ih =>
    simp only [setType] at he
    split at he
    · rcases List.mem_cons.mp he with rfl | he
      · exact .inl ⟨x, by simp, rfl⟩
      · exact .inl ⟨e, by simp [he], rfl⟩
    · rcases List.mem_cons.mp he with rfl | he
      · exact .inl ⟨e, by simp, rfl⟩
      · rcases ih he with ⟨e', h, h'⟩ | h
        · exact .inl ⟨e', by simp [h], h'⟩
        · exact .inr h

theorem typeLiterals_names {ts : List FTy} {d d' : List (ID × FTy)} (h : typeLiterals ts d = .ok d') {e : ID × FTy} (he : e ∈ d') :
    (∃ e' ∈ d, e'.1 = e.1) ∨ ∃ t ∈ ts, NamesType t e.1 := by
  induction ts generalizing d with
  | nil =>
    cases h
    exact .inl ⟨e, he, rfl⟩
  | cons t ts ih =>
    obtain ⟨p, hp, h⟩ := bind_ok (h : Except.bind _ _ = _)
    obtain ⟨k, hk, h⟩ := bind_ok (h : Except.bind _ _ = _)
    rcases ih h with ⟨e', h1, h2⟩ | ⟨t', h1, h2⟩
    · rcases setType_key h1 with ⟨e'', h3, h4⟩ | h3
      · exact .inl ⟨e'', h3, by rw [h4, h2]⟩
      · refine .inr ⟨t, by simp, ?_⟩
        rw [← h2, h3]
        split at hk
        · exact .inr ⟨k, hk, rfl⟩
        · exact .inl (by rw [Except.ok.inj hk])
    · exact .inr ⟨t', by simp [h1], h2⟩

/-! ## C75 -/

/-- C75 (sizes): sizes are given for the fields whose types do not determine them, and for no others. -/
theorem C75_size {s : Solver} (h : m.Accepted s) (hr : m.Regular) {l : Link} (hl : l ∈ m.links) (hs : l.source ≠ FINAL) :
    (l.target = FINAL → l.size = .undefined) ∧ (l.target ≠ FINAL → ∀ t, m.type? l.target = some t →
      (l.size ≠ .undefined ↔ t = .opaque ∨ ∃ i e, t = .array i e)) := by
  obtain ⟨k, hv⟩ := (accepted_verified h).2 (List.ne_nil_of_mem hl)
  have h2 := anyM_false (anyM_false hv.expressions _ (source_mem h hr hl hs)) l (by simp [outgoing, hl])
  obtain ⟨x, _, h2⟩ := bind_ok (h2 : (m.checkAttributes _).bind _ = _)
  have h3 : (x || checkFirst l || m.checkSize l) = false := Except.ok.inj h2
  simp only [Bool.or_eq_false_iff] at h3
  have h4 := h3.2
  unfold Msg.checkSize at h4
  have hu : l.size.eq .undefined = true ↔ l.size = .undefined := undef_eq l.size
  constructor
  · intro ht
    rw [if_pos ht] at h4
    simpa [undef_eq] using h4
  · intro ht t htt
    rw [if_neg ht, htt] at h4
    cases t <;> cases he : l.size.eq .undefined <;> simp [FTy.isUnconstrained, he] at h4 hu ⊢ <;> simp [hu]

/-- C75 (starts): a field starts after the field in front, or where its aspect `First` says, which is the start of something. -/
theorem C75_first {s : Solver} (h : m.Accepted s) (hr : m.Regular) {l : Link} (hl : l ∈ m.links) (hs : l.source ≠ FINAL) :
    l.first = .undefined ∨ ∃ ng e, l.first = .attr ng .first e := by
  obtain ⟨k, hv⟩ := (accepted_verified h).2 (List.ne_nil_of_mem hl)
  have h2 := anyM_false (anyM_false hv.expressions _ (source_mem h hr hl hs)) l (by simp [outgoing, hl])
  obtain ⟨x, _, h2⟩ := bind_ok (h2 : (m.checkAttributes _).bind _ = _)
  have h3 : (x || checkFirst l || m.checkSize l) = false := Except.ok.inj h2
  simp only [Bool.or_eq_false_iff] at h3
  have h4 := h3.1.2
  unfold checkFirst at h4
  cases hu : l.first.eq .undefined with
  | true => exact .inl ((undef_eq _).mp hu)
  | false =>
    rw [hu] at h4
    simp only [Bool.not_false, Bool.true_and] at h4
    split at h4
    · exact .inr ⟨_, _, by assumption⟩
    · cases h4

/-- C75 (attributes): the attribute `Size` is used in conditions for the message, for fields and for types of fields only. Missing: negations,
quantified expressions and arguments of calls, into which `findall` does not look. -/
theorem C75_size_attribute_partial {s : Solver} (h : m.Accepted s) (hr : m.Regular) {l : Link} (hl : l ∈ m.links) (hs : l.source ≠ FINAL)
    {ng : Bool} {e : Expr} (he : Searched (.attr ng .size e) l.condition) : HasSize m e := by
  obtain ⟨k, hv⟩ := (accepted_verified h).2 (List.ne_nil_of_mem hl)
  have h2 := anyM_false (anyM_false hv.expressions _ (source_mem h hr hl hs)) l (by simp [outgoing, hl])
  obtain ⟨x, hx, h2⟩ := bind_ok (h2 : (m.checkAttributes _).bind _ = _)
  have h3 : (x || checkFirst l || m.checkSize l) = false := Except.ok.inj h2
  simp only [Bool.or_eq_false_iff] at h3
  rw [h3.1.1] at hx
  obtain ⟨d, hd, hx⟩ := bind_ok (hx : Except.bind _ _ = _)
  have hx := List.any_eq_false.mp (Except.ok.inj hx) _ (C12_findall_complete_partial isAttr _ _ he rfl)
  cases e with
  | var n im i =>
    refine ⟨n, im, i, rfl, ?_⟩
    simp only [Bool.not_eq_true', Bool.not_eq_false, Bool.or_eq_true, beq_iff_eq, List.contains_eq_mem, decide_eq_true_eq,
      List.any_eq_true] at hx
    rcases hx with (hx | hx) | ⟨t, ht, hx⟩
    · exact .inl hx
    · exact .inr (.inl hx)
    · refine .inr (.inr ?_)
      rcases typeLiterals_names hd ht with ⟨_, h, _⟩ | ⟨t', h1, h2⟩
      · cases h
      · obtain ⟨y, hy, rfl⟩ := List.mem_map.mp h1
        refine ⟨y, hy, ?_⟩
        unfold NamesType
        rw [← (ID.eq_iff_key _ _).mp hx]
        exact h2
  | _ => simp at hx

/-! ## Example -/

theorem oMsg_acc : oMsg.Accepted oSolver := (acceptedTyped oMsg_acceptedTyped).1

/-- The hypotheses hold for the links of a message with both aspects and a condition with the attribute. -/
example : (o3.size ≠ .undefined ↔ FTy.opaque = .opaque ∨ ∃ i e, FTy.opaque = .array i e) ∧ (∃ ng e, o4.first = .attr ng .first e) ∧
    HasSize oMsg (.v ⟨[['L']]⟩) :=
  ⟨(C75_size oMsg_acc oMsg_regular (l := o3) (by simp [oMsg, oMsgWith]) (by decide)).2 (by decide) _ rfl,
    (C75_first oMsg_acc oMsg_regular (l := o4) (by simp [oMsg, oMsgWith]) (by decide)).resolve_left (fun h => nomatch h),
    C75_size_attribute_partial oMsg_acc oMsg_regular (l := o5) (by simp [oMsg, oMsgWith]) (by decide) (.relL .refl)⟩

end Verif.Verify
