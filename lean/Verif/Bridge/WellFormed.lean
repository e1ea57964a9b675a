import Verif.Bridge.Kinds
import Verif.Bridge.Props

/-! # C71: what acceptance says about the structure of a message

The theorems about generated code assume a message that is `WellFormed`. Most of it follows from the model verification: the order of the
fields, that there is a first one, that all of them are reached and left, and that conditions and sizes have values of the right kind. What
does not follow is `Usable`. -/

namespace Verif.Bridge
open Verif Verif.Graph Verif.Verify Verif.Types Verif.Gen Verif.Spark Verif.Ctx

/-- What the model verification does not say about a message. Names and expressions are those of `C43_condition_partial`; in addition no
field is called `Size` or `F_...`, no link leaves the final node (`C14_final_link_counterexample`) or has a `First` aspect, links to the
same field are next to each other, there is a field, conditions and sizes use fields only that precede them on every path and cannot fail (`Definite`), and no
condition uses the attribute `First` of the field in front of it. -/
structure Usable (P : Pkg) : Prop where
  names : Names P.m opts
  size : ⟨[['s', 'i', 'z', 'e']]⟩ ∉ P.m.msg.fields
  affix : ∀ f ∈ P.m.msg.fields, ∀ n, f.parts = [n] → unaffixed n = none
  nonempty : P.m.msg.fields ≠ []
  literals : ∀ f t, (f, FTy.enum t) ∈ P.m.msg.types → t.literals ≠ []
  sized : ∀ f t, (f, t) ∈ P.m.msg.types → Scalar t → ∃ n, t.size = .ok n ∧ 1 ≤ n.v
  final : ∀ l ∈ P.m.msg.links, l.source ≠ FINAL
  grouped : ∀ f, Grouped (outgoing P.m.msg.links f)
  noFirst : ∀ l ∈ P.m.msg.links, l.first = .undefined
  scope : ∀ l ∈ P.m.msg.links, ∀ fs, Ctx.Path P.m.msg fs l.source → Cond P.m opts (· ∈ fs) l.condition
  wf : ∀ l ∈ P.m.msg.links, l.condition.WF ∧ l.condition.Good Division.ada.Odd false
  definite : ∀ l ∈ P.m.msg.links, Definite l.condition
  own : ∀ l ∈ P.m.msg.links, l.source ∈ P.m.msg.fields → Cov (NotFirst (P.m.spell l.source)) (fun _ _ _ => True) l.condition
  sizeScope : ∀ l ∈ P.m.msg.links, ∀ t, (l.target, t) ∈ P.m.msg.types → ¬ Scalar t → ∀ fs, Ctx.Path P.m.msg fs l.source →
    Cond P.m opts (· ∈ fs) l.size
  sizeWF : ∀ l ∈ P.m.msg.links, ∀ t, (l.target, t) ∈ P.m.msg.types → ¬ Scalar t → l.size.WF ∧ l.size.Good Division.ada.Odd false
  sizeDefinite : ∀ l ∈ P.m.msg.links, ∀ t, (l.target, t) ∈ P.m.msg.types → ¬ Scalar t → Definite l.size

section
variable {P : Pkg} {s : Solver} {m : Msg}

/-- Conditions are conjunctions of the formulas given to the solver. -/
theorem expressionList_translated {M : ZModel} {e : Expr} (h : ∀ c ∈ expressionList e, ∃ b, zeval M c = .ok (.bool b)) :
    ∃ b, zeval M e = .ok (.bool b) := by
  have hl : ∀ ts : List Expr, (∀ c ∈ ts, ∃ b, zeval M c = .ok (.bool b)) →
      ∃ vs bs, zevalL M ts = .ok vs ∧ vs.mapM ZVal.bool? = Except.ok (ε := PyErr) bs := by
    intro ts
    induction ts with
    | nil => exact fun _ => ⟨[], [], rfl, rfl⟩
    | cons t ts ih =>
      intro h
      obtain ⟨b, hb⟩ := h t List.mem_cons_self
      obtain ⟨vs, bs, h1, h2⟩ := ih fun c hc => h c (List.mem_cons_of_mem _ hc)
      exact ⟨.bool b :: vs, b :: bs, by simp only [zevalL, hb, h1]; rfl, by rw [List.mapM_cons, h2]; rfl⟩
  unfold expressionList at h
  split at h
  · rename_i op ts
    split at h
    · obtain ⟨vs, bs, h1, h2⟩ := hl ts h
      refine ⟨if op.isAnd then bs.all id else bs.any id, ?_⟩
      simp only [zeval, h1, bind, Except.bind]
      rw [h2]
      rfl
    · exact h _ (List.mem_singleton.mpr rfl)
  · exact h _ (List.mem_singleton.mpr rfl)

/-- The facts of all paths have been given to the solver. -/
theorem link_translated (ha : m.Accepted s) (hr : m.Regular) {q : List Link} {l : Link} (hpath : Graph.Path m.links INITIAL (q ++ [l]) l.target)
    (hl : l ∈ m.links) : ∃ fs, m.linkExpression l = .ok fs ∧ ∀ c ∈ fs, ∀ M, ∃ b, zeval M c = .ok (.bool b) := by
  obtain ⟨k, hv⟩ := (accepted_verified ha).2 (List.ne_nil_of_mem hl)
  have h1 := existsM_false hv.positions _ (target_mem ha hr hl)
  obtain ⟨ps, hps, h1⟩ := bind_ok (h1 : (paths _ _ _).bind _ = _)
  have h2 := existsM_false h1 (q ++ [l]) ((mem_paths ha hr hps _).mpr ⟨by simp, hpath⟩)
  unfold Msg.position1 at h2
  simp only [List.getLast?_append, List.getLast?_singleton, Option.some_or] at h2
  obtain ⟨size, hsize, h2⟩ := bind_ok (h2 : (m.targetSize l).bind _ = _)
  obtain ⟨pf, hpf, h2⟩ := bind_ok (h2 : (m.pathFacts _).bind _ = _)
  obtain ⟨tn, htn, h2⟩ := bind_ok (h2 : (m.typeConstraints _).bind _ = _)
  obtain ⟨tst, htst, h2⟩ := bind_ok (h2 : (m.typeConstraints _).bind _ = _)
  obtain ⟨r, hc, _⟩ := bind_ok (h2 : (s.check _).bind _ = _)
  obtain ⟨fs, hfs⟩ := concatM_ok (f := m.linkExpression) hpf l (by simp)
  refine ⟨fs, hfs, fun c hcm M => s.translated _ _ hc c ?_ M⟩
  have : c ∈ pf := (concatM_mem (f := m.linkExpression) hpf c).mpr ⟨l, by simp, fs, hfs, hcm⟩
  simp [this]

/-- There is a path to each link. -/
theorem graph_path (ha : m.Accepted s) (hr : m.Regular) (hF : ∀ l ∈ m.links, l.source ≠ FINAL) {l : Link} (hl : l ∈ m.links) :
    ∃ q, Graph.Path m.links INITIAL (q ++ [l]) l.target := by
  obtain ⟨⟨ls, hacc⟩, _⟩ := accepted_verified ha
  obtain ⟨h1, _⟩ := C14_reachable ⟨m.links, m.types.map (·.1), ls⟩ m.fields hacc
  rcases List.mem_cons.mp (source_mem ha hr hl (hF l hl)) with h | h
  · refine ⟨[], ?_⟩
    have h0 : Graph.Path m.links INITIAL [] INITIAL := .nil
    rw [← h] at h0
    have := Graph.Path.snoc h0 hl
    rwa [h] at this
  · obtain ⟨p, hp⟩ := h1 _ h
    exact ⟨p, .snoc hp hl⟩

/-- The fields on the path. -/
theorem ctx_path (hF : ∀ l ∈ m.links, l.source ≠ FINAL) {q : List Link} {f : Field} (h : Graph.Path m.links INITIAL q f) (hf : f ≠ FINAL) :
    ∃ fs, Ctx.Path m fs f := by
  induction h with
  | nil => exact ⟨[], .start⟩
  | snoc hp hl ih =>
    obtain ⟨fs, ih⟩ := ih (hF _ hl)
    exact ⟨_, .step ih hl rfl hf⟩

theorem ctx_source (ha : m.Accepted s) (hr : m.Regular) (hF : ∀ l ∈ m.links, l.source ≠ FINAL) {l : Link} (hl : l ∈ m.links) :
    ∃ fs, Ctx.Path m fs l.source := by
  obtain ⟨⟨ls, hacc⟩, _⟩ := accepted_verified ha
  obtain ⟨h1, _⟩ := C14_reachable ⟨m.links, m.types.map (·.1), ls⟩ m.fields hacc
  rcases List.mem_cons.mp (source_mem ha hr hl (hF l hl)) with h | h
  · rw [h]; exact ⟨[], .start⟩
  · obtain ⟨p, hp⟩ := h1 _ h
    exact ctx_path hF hp (hF l hl)

theorem before_trans {xs : List Field} (hn : xs.Nodup) {a b c : Field} (h1 : Before xs a b) (h2 : Before xs b c) : Before xs a c := by
  obtain ⟨x1, y1, z1, rfl⟩ := h1
  obtain ⟨x2, y2, z2, h⟩ := h2
  have e1 : x2 ++ b :: y2 ++ c :: z2 = x2 ++ b :: (y2 ++ c :: z2) := by simp
  rw [e1] at h
  have hz : z1 = y2 ++ c :: z2 := by
    have hn' := hn
    rw [h] at hn'
    have i1 : (x1 ++ a :: y1 ++ b :: z1).idxOf b = (x1 ++ a :: y1).length := by
      rw [List.idxOf_append, if_neg, List.idxOf_cons_self]
      · simp
      · intro hb
        exact (List.nodup_append.mp hn).2.2 b hb b List.mem_cons_self rfl
    have i2 : (x2 ++ b :: (y2 ++ c :: z2)).idxOf b = x2.length := by
      rw [List.idxOf_append, if_neg, List.idxOf_cons_self]
      · simp
      · intro hb
        exact (List.nodup_append.mp hn').2.2 b hb b List.mem_cons_self rfl
    rw [h, i2] at i1
    have := List.append_inj_right h i1.symm
    exact (List.cons.inj this).2
  exact ⟨x1, y1 ++ b :: y2, z2, by rw [hz]; simp⟩

theorem before_idx {xs : List Field} (hn : xs.Nodup) {a b : Field} (h : Before xs a b) : xs.idxOf a < xs.idxOf b := by
  obtain ⟨x, y, z, rfl⟩ := h
  have hb : b ∉ x ++ a :: y := fun hb => (List.nodup_append.mp hn).2.2 b hb b List.mem_cons_self rfl
  have i1 : (x ++ a :: y ++ b :: z).idxOf b = (x ++ a :: y).length := by
    rw [List.idxOf_append, if_neg hb, List.idxOf_cons_self]; simp
  have i2 : (x ++ a :: y ++ b :: z).idxOf a < (x ++ a :: y).length := by
    rw [List.idxOf_append, if_pos (by simp)]
    exact List.idxOf_lt_length_of_mem (by simp)
  omega

/-- There is one link from the initial node. -/
theorem initial_link (ha : m.Accepted s) (hne : m.links ≠ []) : ∃ l, outgoing m.links INITIAL = [l] := by
  obtain ⟨⟨ls, hacc⟩, _⟩ := accepted_verified ha
  rcases accepted_checked hacc with ⟨h, _⟩ | ⟨R, V, hc⟩
  · exact (hne h).elim
  · have h := hc.valid
    unfold Def.validate1 at h
    simp only at h
    split at h
    · cases h
    · rename_i l ls' heq
      have h := Except.ok.inj h
      simp only [Bool.or_eq_false_iff] at h
      have : ls' = [] := by
        have := h.1.1.2
        simpa using this
      exact ⟨l, by rw [heq, this]⟩

/-- All fields have types. -/
theorem field_typed (ha : m.Accepted s) (hr : m.Regular) {f : Field} (hf : f ∈ m.fields) : ∃ t, (f, t) ∈ m.types := by
  obtain ⟨⟨ls, hacc⟩, _⟩ := accepted_verified ha
  obtain ⟨_, h2, _⟩ := C14_order_partial ⟨m.links, m.types.map (·.1), ls⟩ hr m.fields hacc
  obtain ⟨⟨l, hl, hlf⟩, hi, hF⟩ := (h2 f).mp hf
  rcases accepted_checked hacc with ⟨h, _⟩ | ⟨R, V, hc⟩
  · rw [h] at hl; cases hl
  · have h := hc.valid
    unfold Def.validate1 at h
    simp only at h
    split at h
    · cases h
    · have h := Except.ok.inj h
      simp only [Bool.or_eq_false_iff] at h
      have h := h.1.1.1.1
      rw [List.any_eq_false] at h
      have h := h f (by
        simp only [structureFields, List.mem_append, List.mem_map]
        rcases hlf with h | h
        · exact .inl ⟨l, hl, h⟩
        · exact .inr ⟨l, hl, h⟩)
      simp only [Def.typeFields, Bool.not_eq_true', Bool.not_eq_false, List.contains_iff_mem, List.mem_append, List.mem_cons,
        List.not_mem_nil, or_false] at h
      rcases h with h | h | h
      · obtain ⟨e, he, rfl⟩ := List.mem_map.mp h
        exact ⟨e.2, he⟩
      · exact (hi h).elim
      · exact (hF h).elim

/-- The field after the initial node comes first. -/
theorem first_field (ha : m.Accepted s) (hr : m.Regular) (hF : ∀ l ∈ m.links, l.source ≠ FINAL) {l : Link} (hl : outgoing m.links INITIAL = [l])
    (hne : m.fields ≠ []) : m.fields.head? = some l.target := by
  obtain ⟨⟨ls, hacc⟩, _⟩ := accepted_verified ha
  obtain ⟨hn, h2, h3⟩ := C14_order_partial ⟨m.links, m.types.map (·.1), ls⟩ hr m.fields hacc
  obtain ⟨h4, h5⟩ := C14_reachable ⟨m.links, m.types.map (·.1), ls⟩ m.fields hacc
  have key : ∀ q f, Graph.Path m.links INITIAL q f → f ∈ m.fields → f = l.target ∨ Before m.fields l.target f := by
    intro q f h
    induction h with
    | nil => intro h; exact absurd rfl ((h2 _).mp h).2.1
    | @snoc p x hp hx ih =>
      intro ht
      by_cases hi : x.source = INITIAL
      · have : x ∈ outgoing m.links INITIAL := by simp [outgoing, hx, hi]
        rw [hl, List.mem_singleton] at this
        exact .inl (by rw [this])
      · have hs : (Def.mk m.links (m.types.map (·.1)) ls).IsField x.source := ⟨⟨x, hx, .inl rfl⟩, hi, hF x hx⟩
        have hb := h3 x hx hs ((h2 _).mp ht)
        rcases ih ((h2 _).mpr hs) with h | h
        · rw [h] at hb; exact .inr hb
        · exact .inr (before_trans hn h hb)
  cases hfs : m.fields with
  | nil => exact (hne hfs).elim
  | cons f fs =>
    have hf : f ∈ m.fields := by rw [hfs]; simp
    obtain ⟨p, hp⟩ := h4 f hf
    rcases key p f hp hf with h | h
    · rw [h]; rfl
    · have := before_idx hn h
      rw [hfs, List.idxOf_cons_self] at this
      omega

/-- **C71.** What the theorems about generated code assume about a message follows from acceptance, except for what is listed in `Usable`:
fields are in topological order, there is a first one, each of them has a type, is reached and is left, conditions have truth values and sizes
numbers as values. Missing are messages with other expressions, such as quotients. -/
theorem C71_wellformed_partial (K : Checked s P.m.msg) (U : Usable P) : WellFormed P := by
  have ha := K.accepted
  have hr := K.regular
  obtain ⟨⟨ls, hacc⟩, hver⟩ := accepted_verified ha
  obtain ⟨hn, h2, h3⟩ := C14_order_partial ⟨P.m.msg.links, P.m.msg.types.map (·.1), ls⟩ hr P.m.msg.fields hacc
  obtain ⟨h4, h5⟩ := C14_reachable ⟨P.m.msg.links, P.m.msg.types.map (·.1), ls⟩ P.m.msg.fields hacc
  have hne : P.m.msg.links ≠ [] := by
    obtain ⟨f, hf⟩ := List.exists_mem_of_ne_nil _ U.nonempty
    obtain ⟨⟨l, hl, _⟩, _⟩ := (h2 f).mp hf
    exact List.ne_nil_of_mem hl
  have hlinks : ∀ l ∈ P.m.msg.links, (l.source = INITIAL ∨ l.source ∈ P.m.msg.fields) ∧ (l.target = FINAL ∨ l.target ∈ P.m.msg.fields) := by
    intro l hl
    refine ⟨List.mem_cons.mp (source_mem ha hr hl (U.final l hl)), ?_⟩
    rcases List.mem_append.mp (target_mem ha hr hl) with h | h
    · exact .inr h
    · exact .inl (List.mem_singleton.mp h)
  refine ⟨U.names, U.size, U.affix, hn, fun h => ((h2 _).mp h).2.1 rfl, fun h => ((h2 _).mp h).2.2 rfl, fun f hf => field_typed ha hr hf,
    fun f t h => (K.ok _ h).1, fun f t h => ⟨(K.ok _ h).1, U.literals f t h⟩, U.sized, ?_, hlinks,
    fun l hl hs ht => before_idx hn (h3 l hl ((h2 _).mp hs) ((h2 _).mp ht)), ?_, ?_, U.grouped, U.noFirst, U.scope, U.wf, ?_, U.own, U.sizeScope,
    U.sizeWF, ?_⟩
  · obtain ⟨l, hl⟩ := initial_link ha hne
    exact ⟨l, hl, first_field ha hr U.final hl U.nonempty⟩
  · intro f hf
    obtain ⟨p, hp⟩ := h4 f hf
    cases hp with
    | nil => exact absurd rfl ((h2 _).mp hf).2.1
    | snoc _ hl => exact ⟨_, hl, rfl⟩
  · intro f hf ho
    obtain ⟨k, hv⟩ := hver hne
    obtain ⟨a, h6, h7⟩ := bind_ok (hv.reachability : Except.bind _ _ = _)
    obtain ⟨b, _, h7⟩ := bind_ok (h7 : Except.bind _ _ = _)
    have h7 := Except.ok.inj h7
    rw [Bool.or_eq_false_iff] at h7
    rw [h7.1] at h6
    have h8 := anyM_false h6 f (List.mem_cons_of_mem _ hf)
    obtain ⟨c, h9, h10⟩ := bind_ok (h8 : Except.bind _ _ = _)
    have h10 := Except.ok.inj h10
    cases k with
    | zero => cases h9
    | succ k =>
      simp only [hasFinal, if_neg ((h2 _).mp hf).2.2, ho, existsM] at h9
      cases h9
      cases h10
  · intro l hl σ T
    obtain ⟨q, hq⟩ := graph_path ha hr U.final hl
    obtain ⟨fs, hfs, ht⟩ := link_translated ha hr hq hl
    obtain ⟨size, last, _, _, hm⟩ := linkExpression_mem hfs
    obtain ⟨b, hb⟩ := expressionList_translated (M := model σ) fun c hc => ht c ((hm c).mpr (.inr (.inr (.inr hc)))) (model σ)
    obtain ⟨ps, hp⟩ := ctx_source ha hr U.final hl
    obtain ⟨v, hv, hk⟩ := kinds T _ (U.scope l hl ps hp) (U.definite l hl) _ hb
    cases hk with
    | bool x y => exact ⟨x, hv⟩
  · intro l hl t htt hs σ T
    obtain ⟨q, hq⟩ := graph_path ha hr U.final hl
    obtain ⟨fs, hfs, ht⟩ := link_translated ha hr hq hl
    obtain ⟨size, last, h6, h7, hm⟩ := linkExpression_mem hfs
    obtain ⟨ps, hp⟩ := ctx_source ha hr U.final hl
    have hc := U.sizeScope l hl t htt hs ps hp
    have hne : l.size ≠ .undefined := by intro h; rw [h] at hc; simp [Cond] at hc
    have hsz : P.m.msg.targetSize l = .ok l.size := by
      unfold Msg.targetSize
      rw [if_pos]
      cases he : l.size.eq .undefined with
      | false => rfl
      | true => exact (hne ((undef_eq _).mp he)).elim
    rw [hsz] at h6
    cases h6
    simp only [Msg.targetLast, hsz, bind, Except.bind, pure, Except.pure] at h7
    cases h7
    obtain ⟨b, hb⟩ := ht _ ((hm _).mpr (.inr (.inl ⟨hne, .inr rfl⟩))) (model σ)
    simp only [zeval] at hb
    obtain ⟨_, _, hb⟩ := bind_ok (hb : Except.bind _ _ = _)
    obtain ⟨w1, hb1, _⟩ := bind_ok (hb : Except.bind _ _ = _)
    obtain ⟨w2, hb2, _⟩ := bind_ok (hb1 : Except.bind _ _ = _)
    obtain ⟨ws, hb3, hb4⟩ := bind_ok (hb2 : Except.bind _ _ = _)
    obtain ⟨is, hb5, _⟩ := bind_ok (hb4 : Except.bind _ _ = _)
    simp only [zevalL] at hb3
    obtain ⟨x1, _, hb3⟩ := bind_ok (hb3 : Except.bind _ _ = _)
    obtain ⟨xs, hb6, hb3⟩ := bind_ok (hb3 : Except.bind _ _ = _)
    obtain ⟨x2, hb7, hb6⟩ := bind_ok (hb6 : Except.bind _ _ = _)
    cases hb6
    cases hb3
    obtain ⟨v, hv, hk⟩ := kinds T _ hc (U.sizeDefinite l hl t htt hs) _ hb7
    cases hk with
    | int x y => exact ⟨x, hv⟩
    | bool x y =>
      exfalso
      rw [List.mapM_cons] at hb5
      obtain ⟨_, _, hb5⟩ := bind_ok (hb5 : Except.bind _ _ = _)
      rw [List.mapM_cons] at hb5
      obtain ⟨_, hb5, _⟩ := bind_ok (hb5 : Except.bind _ _ = _)
      obtain ⟨_, hb5, _⟩ := bind_ok (hb5 : Except.bind _ _ = _)
      cases hb5

end

end Verif.Bridge
