import Verif.Refine.Contains

/-! # C58: generated refinements apply to the specified fields, and switch to the message in the field

Histories, messages, buffers and positions are those of C29 and C30. `Supported` says for which refinements legal code is
generated, see the counterexamples in `Verif/Refine/Example.lean`; `Applies` is what the specification says about a refinement
(except for unknown values, see `C58_unknown_counterexample`). -/

namespace Verif.Refine
open Verif Verif.Graph Verif.Verify Verif.Types Verif.Gen Verif.Spark Verif.Ctx

section
variable {r : Ref} {c : Context} {b : Bytes} {lo hi : Int} {es : List Item} {p : Field} {pos : Int} {ops : List Op}

/-- What a context contains: the fields `es` follow each other in the buffer `b`, exactly these are valid, and the cursors have
their bounds and values. -/
structure State (P : Pkg) (lo hi : Int) (c : Context) (b : Bytes) (es : List Item) : Prop where
  buffer : c.buffer = some b ∨ c.buffer = none
  inside : InBuffer P b lo hi
  follows : ∃ p pos, Follows P.m.msg b lo hi es p pos
  valid : ∀ e ∈ es, ((c.cursors e.f).state = .valid ∨ P.isComposite e.f = true ∧ (c.cursors e.f).state = .structuralValid) ∧
    (c.cursors e.f).first = e.first ∧ (c.cursors e.f).last = e.last ∧ (c.cursors e.f).value = e.value
  invalid : ∀ f ∈ P.m.msg.fields, (∀ e ∈ es, e.f ≠ f) → (c.cursors f).state = .invalid ∨ (c.cursors f).state = .incomplete

theorem Holding.state {P : Pkg} (V : Holding P lo hi c b es p pos) (I : InBuffer P b lo hi) : State P lo hi c b es where
  buffer := V.buffer
  inside := I
  follows := ⟨p, pos, V.holds.follows⟩
  valid e he := by
    have hc := V.holds.cursors
    refine ⟨?_, hc.first e he, hc.last e he, hc.value e he⟩
    have h1 := hc.sv e he
    have h2 := hc.ok e he
    simp only [Cursor.sv, Cursor.ok, Bool.or_eq_true, decide_eq_true_eq] at h1 h2
    cases hcomp : P.isComposite e.f with
    | false => exact .inl (h2 hcomp)
    | true => exact h1.imp id fun h => ⟨rfl, h⟩
  invalid f hf hn := by
    have := V.others f hf fun hm => by
      obtain ⟨e, he, hef⟩ := List.mem_map.mp hm
      exact hn e he hef
    simpa [Cursor.inv] using this

theorem Holding.ofInv {P : Pkg} (V : Inv P lo hi c b es p pos) : Holding P lo hi c b es p pos := ⟨V.buffer, V.holds, V.chained, V.others⟩

/-- The switch. -/
theorem switch_ok (W : WellFormed r.pdu) (I : InBuffer r.pdu b lo hi) (hD : Deterministic r.pdu.m.msg b lo hi) (hS : Sizes r.pdu b lo hi)
    (S : Supported r) (V : Holding r.pdu lo hi c b es p pos) (hbits : r.sdu.bitLast = r.pdu.bitLast) :
    ((∃ s, r.switch c = .ok s) ↔ r.sdu.m.msg.fields ≠ [] ∧ c.buffer = some b ∧ Applies r b lo hi es) ∧
    (r.sdu.m.msg.fields ≠ [] → c.buffer = some b → Applies r b lo hi es → ∃ e ∈ es, e.f = r.field ∧ InBuffer r.sdu b e.first e.last ∧
      r.switch c = .ok ({ c with buffer := none }, ⟨b.first, b.last, e.first, e.last, e.first, some b,
        fun f => if r.sdu.m.msg.fields.head? = some f then invalidFrom INITIAL else invalidFrom FINAL⟩)) := by
  have N := W.names
  obtain ⟨x, hx, hiff⟩ := contains_ok W V S
  obtain ⟨ft, hft, _⟩ := S.field
  have hff : r.field ∈ r.pdu.m.msg.fields := N.typed _ hft
  have positive : r.sdu.m.msg.fields ≠ [] → c.buffer = some b → Applies r b lo hi es → ∃ e ∈ es, e.f = r.field ∧ InBuffer r.sdu b e.first e.last ∧
      r.switch c = .ok ({ c with buffer := none }, ⟨b.first, b.last, e.first, e.last, e.first, some b,
        fun f => if r.sdu.m.msg.fields.head? = some f then invalidFrom INITIAL else invalidFrom FINAL⟩) := by
    intro hn hb A
    obtain ⟨e, he, hef, hle, _⟩ := A.field
    have hle := hle hn
    have H : Contains r.pdu b lo hi c es p pos := by
      have := V.holds
      rwa [show ({ c with buffer := some b } : Context) = c by rw [← hb]] at this
    have bounds := (follows_bounds W I.order H.follows).2.2 e he
    have I' : InBuffer r.sdu b e.first e.last := by
      have h1 := I.lower
      have h2 := I.upper
      have h3 := I.range
      refine ⟨I.bytes, ⟨by omega, ?_⟩, hle, ?_, ?_⟩
      · have : (lo - 1) / 8 ≤ (e.first - 1) / 8 := Int.ediv_le_ediv (by decide) (by omega)
        omega
      · have : (e.last - 1) / 8 ≤ (hi - 1) / 8 := Int.ediv_le_ediv (by decide) (by omega)
        omega
      · rw [hbits]; omega
    refine ⟨e, he, hef, I', ?_⟩
    obtain ⟨xs, ys, hes⟩ := List.append_of_mem he
    obtain ⟨q, qpos, l, R, hs, _⟩ := H.ready W V.chained hes
    obtain ⟨n, hz, hsize, h0, hbl, h1⟩ := R.fieldSize W I hD hS
    have hsp := step_space W R.target hz hs
    obtain ⟨_, _, _, hy⟩ := R.validValue W hz h0 hsp
    have := hy e hs
    have e1 : e.first = qpos := by rw [this]; rfl
    have e2 : e.last = qpos + n - 1 := by rw [this]; rfl
    have f1 : r.pdu.fieldFirst c r.field = .ok e.first := by rw [e1, ← hef]; exact R.fieldFirst W I
    have f2 : r.pdu.fieldLast c r.field = .ok e.last := by rw [e2, ← hef]; exact R.fieldLast W I hsize h0 h1 hsp
    have hnull : r.nullSdu = false := by
      unfold Ref.nullSdu
      cases hm : r.sdu.m.msg.fields with
      | nil => exact absurd hm hn
      | cons => rfl
    obtain ⟨ts, t1, t2, t3⟩ := conditions_exec (c := c) N hff false
    have hall : (ts.map (·.2)).all id = true := by
      refine t3.2 ⟨by simp [Context.hasBuffer, hb], by simpa using (present_iff W V hff).2 ⟨e, he, hef, hle⟩, fun d hd => ?_⟩
      have hd' := (conditionFields_iff (f := d.1) (t := d.2) N S.condition).1 hd
      obtain ⟨e3, he3, hf3, _⟩ := A.fields d.1 d.2 hd'.1 hd'.2
      exact (valid_iff W V hd'.1 (cond_scalar N hd'.1 _ S.condition hd'.2)).2 ⟨e3, he3, hf3⟩
    have hx' := hiff.2 ⟨hb, A⟩
    subst hx'
    have hpre : (r.execL c (r.conditions false)) = .ok (ts.map fun p => AV.bool p.2) := by rw [t1]; exact execL_ok t2
    unfold Ref.switch
    rw [if_neg (by rw [hnull]; exact Bool.false_ne_true), hpre]
    simp only [bind, Except.bind, truth_ok, hall, need, if_true, hx, f1, f2, Pkg.takeBuffer, hb]
    rw [initialize_ok I']
    rfl
  refine ⟨⟨?_, ?_⟩, positive⟩
  · rintro ⟨s, hs⟩
    unfold Ref.switch at hs
    split at hs
    · cases hs
    · rename_i hnull
      refine ⟨fun hm => hnull (by simp [Ref.nullSdu, hm]), ?_⟩
      rw [← hiff]
      obtain ⟨ts, t1, t2, _⟩ := conditions_exec (c := c) N hff false
      have hpre : (r.execL c (r.conditions false)) = .ok (ts.map fun p => AV.bool p.2) := by rw [t1]; exact execL_ok t2
      rw [hpre] at hs
      simp only [bind, Except.bind, truth_ok] at hs
      cases x with
      | true => rfl
      | false =>
        simp only [hx, need] at hs
        cases hall : (ts.map (·.2)).all id <;> rw [hall] at hs <;> cases hs
  · rintro ⟨h1, h2, h3⟩
    obtain ⟨e, _, _, _, h⟩ := positive h1 h2 h3
    exact ⟨_, h⟩

/-- After every history of a context the generated function `X_In_Y_F` returns a result without error; it is true if and only
if the context has a buffer and the refinement applies to the valid fields. Missing: refinements that are not `Supported`, messages
that are not `WellFormed`. -/
theorem C58_contains_partial (W : WellFormed r.pdu) (U : Verified r.pdu lo hi) (I : InBuffer r.pdu b lo hi)
    (h : r.pdu.history b lo hi ops = .ok c) (S : Supported r) :
    ∃ b' es, State r.pdu lo hi c b' es ∧ ∃ x, r.contains c = .ok x ∧ (x = true ↔ c.buffer = some b' ∧ Applies r b' lo hi es) := by
  obtain ⟨b', es, p, pos, V⟩ := Inv.history W U I h
  exact ⟨b', es, (Holding.ofInv V).state V.inside, contains_ok W (Holding.ofInv V) S⟩

/-- After every history `Switch_To_F` succeeds if and only if the message in the field has fields, the context has a buffer and the
refinement applies. The context of the refined message loses its buffer and nothing else. The other context has the buffer, with
exactly the bits of the field, and no valid field. -/
theorem C58_switch_partial (W : WellFormed r.pdu) (U : Verified r.pdu lo hi) (I : InBuffer r.pdu b lo hi)
    (h : r.pdu.history b lo hi ops = .ok c) (S : Supported r) (hbits : r.sdu.bitLast = r.pdu.bitLast) :
    ∃ b' es, State r.pdu lo hi c b' es ∧
      ((∃ s, r.switch c = .ok s) ↔ r.sdu.m.msg.fields ≠ [] ∧ c.buffer = some b' ∧ Applies r b' lo hi es) ∧
      ∀ c' d, r.switch c = .ok (c', d) → c' = { c with buffer := none } ∧ ∃ e ∈ es, e.f = r.field ∧ e.first ≤ e.last ∧
        d.buffer = some b' ∧ d.first = e.first ∧ d.last = e.last ∧ r.sdu.initialize b' e.first e.last = .ok d ∧
        State r.sdu e.first e.last d b' [] := by
  obtain ⟨b', es, p, pos, V⟩ := Inv.history W U I h
  obtain ⟨h1, h2⟩ := switch_ok W V.inside (U.deterministic _ V.inside) (U.sizes _ V.inside) S (Holding.ofInv V) hbits
  refine ⟨b', es, (Holding.ofInv V).state V.inside, h1, ?_⟩
  intro c' d hs
  obtain ⟨h3, h4, h5⟩ := h1.1 ⟨_, hs⟩
  obtain ⟨e, he, hef, I', h6⟩ := h2 h3 h4 h5
  rw [hs] at h6
  cases h6
  refine ⟨rfl, e, he, hef, I'.order, rfl, rfl, rfl, initialize_ok I', .inl rfl, I', ⟨_, _, .start⟩, by simp, ?_⟩
  intro f _ _
  left
  simp only
  split <;> rfl

/-- Parsing a message and the message in its field: if the buffer contains a message with the fields `es`, then the function is
true after parsing if and only if the refinement applies to `es`. In this case `Switch_To_F` succeeds, and parsing in the other context
accepts if and only if the bits of the field contain a message. -/
theorem C58_parse_partial (W : WellFormed r.pdu) (I : InBuffer r.pdu b lo hi) (hD : Deterministic r.pdu.m.msg b lo hi) (hS : Sizes r.pdu b lo hi)
    (S : Supported r) (hbits : r.sdu.bitLast = r.pdu.bitLast) (h : IsMessage r.pdu.m.msg b lo hi es) :
    ∃ c x, r.pdu.parse b lo hi = .ok c ∧ r.contains c = .ok x ∧ (x = true ↔ Applies r b lo hi es) ∧
      (x = true → WellFormed r.sdu → ∃ e ∈ es, e.f = r.field ∧
        (Deterministic r.sdu.m.msg b e.first e.last → Sizes r.sdu b e.first e.last →
          ∃ c' d d' y, r.switch c = .ok (c', d) ∧ r.sdu.verifyMessage d = .ok d' ∧ r.sdu.structuralValidMessage d' = .ok y ∧
            (y = true ↔ ∃ es', IsMessage r.sdu.m.msg b e.first e.last es') ∧
            ∀ es', IsMessage r.sdu.m.msg b e.first e.last es' → Reflects r.sdu d' es')) := by
  obtain ⟨c, p, pos, hc, H, hch, _, ho⟩ := parse_contains W I hD hS h
  have V : Holding r.pdu lo hi c b es p pos := ⟨.inl H.buffer, by rw [show ({ c with buffer := some b } : Context) = c by rw [← H.buffer]]; exact H, hch, ho⟩
  obtain ⟨x, hx, hiff⟩ := contains_ok W V S
  refine ⟨c, x, hc, hx, hiff.trans ⟨fun h => h.2, fun h => ⟨H.buffer, h⟩⟩, ?_⟩
  intro hxt W'
  have hn : r.sdu.m.msg.fields ≠ [] := by
    intro hm
    obtain ⟨l, _, hl⟩ := W'.start
    rw [hm] at hl
    cases hl
  obtain ⟨e, he, hef, I', hs⟩ := (switch_ok W I hD hS S V hbits).2 hn H.buffer (hiff.1 hxt).2
  refine ⟨e, he, hef, fun hD' hS' => ?_⟩
  obtain ⟨d', y, hp, hy, hyiff⟩ := C29_accepts W' I' hD' hS'
  have hp' := hp
  simp only [Pkg.parse, initialize_ok I', bind, Except.bind] at hp
  refine ⟨_, _, d', y, hs, hp, hy, hyiff, fun es' h' => ?_⟩
  obtain ⟨d2, hd2, R⟩ := C29_fields W' I' hD' hS' h'
  rw [hp'] at hd2
  cases hd2
  exact R

end

end Verif.Refine
