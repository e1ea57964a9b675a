import Verif.Ctx.Message

/-! # C29: generated parsers accept exactly the specified messages

Messages, buffers and positions are those of `Verif/Ctx/Spec.lean`. `Deterministic` is what the verification of the model
proves (C18), `Sizes` is in part (C19: sizes are not negative). -/

namespace Verif.Ctx
open Verif Verif.Graph Verif.Verify Verif.Types Verif.Gen Verif.Spark

section
variable {P : Pkg} {b : Bytes} {lo hi : Int}

/-- `Initialize` followed by `Verify_Message`. -/
def Pkg.parse (P : Pkg) (b : Bytes) (lo hi : Int) : Run Context := do P.verifyMessage (← P.initialize b lo hi)

theorem parse_loop (W : WellFormed P) (I : InBuffer P b lo hi) (hD : Deterministic P.m.msg b lo hi) (hS : Sizes P b lo hi) :
    ∃ c, P.parse b lo hi = .ok c ∧ Loop P b lo hi c [] := by
  obtain ⟨c, hc, L⟩ := (Loop.init W hD).run W I hD hS (done := []) rfl
  refine ⟨c, ?_, L⟩
  simp only [Pkg.parse, initialize_ok I, bind, Except.bind]
  exact hc

/-- What the cursors say about a list of fields: these are valid, with the given bounds and values; all others are not. -/
structure Reflects (P : Pkg) (c : Context) (es : List Item) : Prop where
  valid : ∀ e ∈ es, (c.cursors e.f).state = (if P.isComposite e.f then .structuralValid else .valid) ∧
    (c.cursors e.f).first = e.first ∧ (c.cursors e.f).last = e.last ∧ (c.cursors e.f).value = e.value
  invalid : ∀ f ∈ P.m.msg.fields, f ∉ es.map (·.f) → (c.cursors f).state = .invalid ∨ (c.cursors f).state = .incomplete

theorem reflects {c : Context} {es : List Item} {p : Field} {pos : Int} (H : Contains P b lo hi c es p pos) (hst : Structural P c es)
    (ho : Others P c es) : Reflects P c es where
  valid e he := by
    refine ⟨?_, H.cursors.first e he, H.cursors.last e he, H.cursors.value e he⟩
    cases hc : P.isComposite e.f with
    | true => simpa using hst e he hc
    | false =>
      have := H.cursors.ok e he hc
      simpa [Cursor.ok] using this
  invalid f hf hn := by
    have := ho f hf hn
    simpa [Cursor.inv] using this

/-- Parsing never fails. The result is determined by the bits in the buffer: `Structural_Valid_Message` holds if and only if
there is a message in the buffer. -/
theorem C29_accepts (W : WellFormed P) (I : InBuffer P b lo hi) (hD : Deterministic P.m.msg b lo hi) (hS : Sizes P b lo hi) :
    ∃ c r, P.parse b lo hi = .ok c ∧ P.structuralValidMessage c = .ok r ∧ (r = true ↔ ∃ es, IsMessage P.m.msg b lo hi es) := by
  obtain ⟨c, hc, L⟩ := parse_loop W I hD hS
  cases L with
  | active es p pos l H hch hst ho hl hls ht hnext hpred =>
    have hfin : l.target = FINAL := by
      rcases hnext with h | ⟨h, _⟩
      · exact h
      · cases h
    obtain ⟨x, hx, hiff⟩ := messageValid_ok (st := true) W I hD H ho
    refine ⟨c, x, hc, hx, hiff.trans ?_⟩
    constructor
    · intro _; exact ⟨es, p, pos, l, H.follows, hl, hls, hfin, ht⟩
    · intro _; exact ⟨fun e he => structural_accepted W H he, l, hl, hls, hfin, ht⟩
  | stuck es p pos H hch hst ho hno hfin hpred =>
    obtain ⟨x, hx, hiff⟩ := messageValid_ok (st := true) W I hD H ho
    refine ⟨c, x, hc, hx, hiff.trans ?_⟩
    constructor
    · rintro ⟨_, l, h1, h2, h3, h4⟩
      exact absurd h4 (hfin l h1 h2 h3)
    · intro h; exact absurd h hno

theorem parse_contains (W : WellFormed P) (I : InBuffer P b lo hi) (hD : Deterministic P.m.msg b lo hi) (hS : Sizes P b lo hi) {es : List Item}
    (h : IsMessage P.m.msg b lo hi es) : ∃ c p pos, P.parse b lo hi = .ok c ∧ Contains P b lo hi c es p pos ∧ Chained c es ∧ Structural P c es ∧
      Others P c es := by
  obtain ⟨c, hc, L⟩ := parse_loop W I hD hS
  cases L with
  | active es' p pos l H hch hst ho hl hls ht hnext hpred =>
    have hfin : l.target = FINAL := by
      rcases hnext with h | ⟨h, _⟩
      · exact h
      · cases h
    obtain ⟨p', pos', l', h', hl', hls', hfin', ht'⟩ := h
    suffices es' = es by
      subst this
      exact ⟨c, p, pos, hc, H, hch, hst, ho⟩
    have end_ : ∀ {es es' : List Item} {p p' pos pos' l}, Follows P.m.msg b lo hi es p pos → Follows P.m.msg b lo hi es' p' pos' → (∃ xs, es' = xs ++ es) →
        l ∈ P.m.msg.links → l.source = p → l.target = FINAL → IsTrue P.m.msg b lo hi es l.condition → es' = es := by
      rintro es es' p p' pos pos' l h h' ⟨xs, rfl⟩ h1 h2 h3 h4
      rcases List.eq_nil_or_concat xs with rfl | ⟨zs, z, rfl⟩
      · rfl
      · rw [List.concat_eq_append, List.append_assoc] at h'
        obtain ⟨_, _, h5⟩ := follows_suffix h'
        simp only [List.singleton_append] at h5
        obtain ⟨q, qpos, l5, h6, hs, _⟩ := follows_cons h5
        obtain ⟨rfl, rfl⟩ := follows_fun h h6
        have := hD _ _ _ h l h1 l5 hs.1 h2 hs.2.1 h4 hs.2.2.2.1
        exact absurd h3 (this ▸ hs.2.2.1)
    rcases follows_compare W hD H.follows h' with hx | hx
    · exact (end_ H.follows h' hx hl hls hfin ht).symm
    · exact end_ h' H.follows hx hl' hls' hfin' ht'
  | stuck es' p pos H hch hst ho hno hfin hpred => exact absurd ⟨es, h⟩ hno

/-- If there is a message in the buffer, the context has its fields with their bounds and values, and no others. -/
theorem C29_fields (W : WellFormed P) (I : InBuffer P b lo hi) (hD : Deterministic P.m.msg b lo hi) (hS : Sizes P b lo hi) {es : List Item}
    (h : IsMessage P.m.msg b lo hi es) : ∃ c, P.parse b lo hi = .ok c ∧ Reflects P c es := by
  obtain ⟨c, p, pos, hc, H, _, hst, ho⟩ := parse_contains W I hD hS h
  exact ⟨c, hc, reflects H hst ho⟩

/-- Whatever is in the buffer: the fields that are valid after parsing follow each other from the first bit on, with values of
their types, and each with a condition that holds. -/
theorem C29_prefix (W : WellFormed P) (I : InBuffer P b lo hi) (hD : Deterministic P.m.msg b lo hi) (hS : Sizes P b lo hi) :
    ∃ c es p pos, P.parse b lo hi = .ok c ∧ Follows P.m.msg b lo hi es p pos ∧ Reflects P c es := by
  obtain ⟨c, hc, L⟩ := parse_loop W I hD hS
  cases L with
  | active es p pos l H hch hst ho => exact ⟨c, es, p, pos, hc, H.follows, reflects H hst ho⟩
  | stuck es p pos H hch hst ho => exact ⟨c, es, p, pos, hc, H.follows, reflects H hst ho⟩

/-- `Valid_Message` holds if and only if there is a message in the buffer, and all its fields are scalars. (The claim for
messages with composite fields is false: `C29_valid_message_counterexample`.) -/
theorem C29_valid_message_partial (W : WellFormed P) (I : InBuffer P b lo hi) (hD : Deterministic P.m.msg b lo hi) (hS : Sizes P b lo hi) :
    ∃ c r, P.parse b lo hi = .ok c ∧ P.validMessage c = .ok r ∧
      (r = true ↔ ∃ es, IsMessage P.m.msg b lo hi es ∧ ∀ e ∈ es, ∃ t, (e.f, t) ∈ P.m.msg.types ∧ Scalar t) := by
  have scalar : ∀ {c es p pos}, Contains P b lo hi c es p pos → Structural P c es → (∀ e ∈ es, accepted P c false e.f = true) →
      ∀ e ∈ es, ∃ t, (e.f, t) ∈ P.m.msg.types ∧ Scalar t := by
    intro c es p pos H hst ha e he
    obtain ⟨t, ht, _⟩ := follows_type H.follows he
    refine ⟨t, ht, (scalar_iff t).mp ?_⟩
    cases hs : t.isScalar with
    | true => rfl
    | false =>
      have hcomp : P.isComposite e.f = true := by rw [isComposite_iff W.names ht, hs]; rfl
      have := ha e he
      simp [accepted, Cursor.ok, hst e he hcomp] at this
  obtain ⟨c, hc, L⟩ := parse_loop W I hD hS
  cases L with
  | active es p pos l H hch hst ho hl hls ht hnext hpred =>
    have hfin : l.target = FINAL := by
      rcases hnext with h | ⟨h, _⟩
      · exact h
      · cases h
    obtain ⟨x, hx, hiff⟩ := messageValid_ok (st := false) W I hD H ho
    refine ⟨c, x, hc, hx, hiff.trans ?_⟩
    constructor
    · rintro ⟨ha, _⟩
      exact ⟨es, ⟨p, pos, l, H.follows, hl, hls, hfin, ht⟩, scalar H hst ha⟩
    · rintro ⟨es', h', hsc⟩
      obtain ⟨c', hc', R⟩ := C29_fields W I hD hS h'
      rw [hc] at hc'
      cases hc'
      refine ⟨?_, l, hl, hls, hfin, ht⟩
      intro e he
      have hmem : e.f ∈ es'.map (·.f) := by
        by_cases hm : e.f ∈ es'.map (·.f)
        · exact hm
        · have h1 := R.invalid _ (follows_fields W H.follows he) hm
          have h2 := H.cursors.sv e he
          rcases h1 with h1 | h1 <;> simp [Cursor.sv, h1] at h2
      obtain ⟨e', he', hef⟩ := List.mem_map.mp hmem
      obtain ⟨t, ht', hs⟩ := hsc e' he'
      rw [hef] at ht'
      refine scalar_accepted W H he ?_
      rw [isComposite_iff W.names ht', (scalar_iff t).mpr hs]
      rfl
  | stuck es p pos H hch hst ho hno hfin hpred =>
    obtain ⟨x, hx, hiff⟩ := messageValid_ok (st := false) W I hD H ho
    refine ⟨c, x, hc, hx, hiff.trans ?_⟩
    constructor
    · rintro ⟨_, l, h1, h2, h3, h4⟩
      exact absurd h4 (hfin l h1 h2 h3)
    · rintro ⟨es', h, _⟩; exact absurd ⟨es', h⟩ hno

/-- After parsing, `Field_First`, `Field_Last` and `Field_Size` of the fields of a message are their bounds in the buffer. -/
theorem C29_field_first (W : WellFormed P) (I : InBuffer P b lo hi) (hD : Deterministic P.m.msg b lo hi) (hS : Sizes P b lo hi) {es : List Item}
    (h : IsMessage P.m.msg b lo hi es) : ∃ c, P.parse b lo hi = .ok c ∧ ∀ e ∈ es,
      P.fieldFirst c e.f = .ok e.first ∧ P.fieldLast c e.f = .ok e.last ∧ P.fieldSize c e.f = .ok (e.last - e.first + 1) := by
  obtain ⟨c, hc, R⟩ := C29_fields W I hD hS h
  refine ⟨c, hc, ?_⟩
  have key : ∀ {es' p pos}, Contains P b lo hi c es' p pos → Chained c es' → ∀ e ∈ es',
      P.fieldFirst c e.f = .ok e.first ∧ P.fieldLast c e.f = .ok e.last ∧ P.fieldSize c e.f = .ok (e.last - e.first + 1) := by
    intro es' p pos H hch e he
    obtain ⟨xs, ys, hes⟩ := List.append_of_mem he
    obtain ⟨q, qpos, l, R, hs, _⟩ := H.ready W hch hes
    obtain ⟨n, hz, hn, h0, hbl, h1⟩ := R.fieldSize W I hD hS
    have hle := step_space W R.target hz hs
    obtain ⟨x, hx, hiff, hy⟩ := R.validValue W hz h0 hle
    have := hy e hs
    have e1 : e.first = qpos := by rw [this]; rfl
    have e2 : e.last = qpos + n - 1 := by rw [this]; rfl
    refine ⟨by rw [e1]; exact R.fieldFirst W I, by rw [e2]; exact R.fieldLast W I hn h0 h1 hle, ?_⟩
    rw [hn, e1, e2]
    congr 1
    omega
  have same : ∀ {es'}, Reflects P c es' → (∀ e ∈ es', e.f ∈ P.m.msg.fields) → ∀ e ∈ es, ∃ e' ∈ es', e'.f = e.f ∧ e'.first = e.first ∧ e'.last = e.last := by
    intro es' R' hf e he
    obtain ⟨h1, h2, h3, _⟩ := R.valid e he
    obtain ⟨p', pos', l', h', _⟩ := h
    by_cases hm : e.f ∈ es'.map (·.f)
    · obtain ⟨e', he', hef⟩ := List.mem_map.mp hm
      obtain ⟨_, h5, h6, _⟩ := R'.valid e' he'
      rw [hef] at h5 h6
      exact ⟨e', he', hef, h5.symm.trans h2, h6.symm.trans h3⟩
    · have := R'.invalid e.f (follows_fields W h' he) hm
      rw [h1] at this
      split at this <;> rcases this with this | this <;> cases this
  obtain ⟨c', hc', L⟩ := parse_loop W I hD hS
  rw [hc] at hc'
  cases hc'
  cases L with
  | active es' p pos l H hch hst ho =>
    intro e he
    obtain ⟨e', he', h1, h2, h3⟩ := same (reflects H hst ho) (fun e he => follows_fields W H.follows he) e he
    rw [← h1, ← h2, ← h3]
    exact key H hch e' he'
  | stuck es' p pos H hch hst ho hno => exact absurd ⟨es, h⟩ hno

end

end Verif.Ctx
