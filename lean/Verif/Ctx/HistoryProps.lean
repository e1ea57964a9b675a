import Verif.Ctx.Valid
import Verif.Ctx.Props
import Verif.Ctx.Rebuild

/-! # C30: generated message contexts keep their invariant; C31: generated serializers and parsers agree

Histories are those of `Verif/Ctx/History.lean`: `Initialize` followed by any calls of `Verify`, `Verify_Message`, `Set_X`,
`Set_X_Empty`, `Initialize_X`, `Reset_Dependent_Fields` and `Take_Buffer` whose preconditions hold. Messages, buffers and
positions are those of `Verif/Ctx/Spec.lean`. `Verified` is what `rflx` proves about a message (C18, C19) and that the first field
is not empty, see `C30_empty_counterexample`. -/

namespace Verif.Ctx
open Verif Verif.Graph Verif.Verify Verif.Types Verif.Gen Verif.Spark

section
variable {P : Pkg} {b : Bytes} {lo hi : Int} {c c' : Context} {f : Field} {ops : List Op}

/-- After every history the predicate of the context and the predicates of its cursors are true. Missing: messages with `First`
aspects (`C30_first_counterexample`), comparisons of composite fields after `Take_Buffer` (`C30_null_counterexample`), an empty
first field (`C30_empty_counterexample`), and what `Embeddable` excludes. -/
theorem C30_predicate_partial (W : WellFormed P) (U : Verified P lo hi) (E : Embeddable P) (I : InBuffer P b lo hi)
    (h : P.history b lo hi ops = .ok c) (hb : P.Buffered c) : P.validContext c = .ok true ∧ P.validCursors c = .ok true := by
  obtain ⟨b', es, p, pos, V⟩ := Inv.history W U I h
  exact ⟨V.validContext W U E hb, V.validCursors W⟩

/-- After every history the buffer contains fields that follow each other along the links of the message from the first bit on,
with values of their types, and each with a condition that holds. Exactly these fields are valid, and the cursors have their
bounds, their values, and the field in front of each. -/
theorem C30_fields_partial (W : WellFormed P) (U : Verified P lo hi) (I : InBuffer P b lo hi) (h : P.history b lo hi ops = .ok c) :
    ∃ b' es p pos, InBuffer P b' lo hi ∧ (c.buffer = some b' ∨ c.buffer = none) ∧ c.first = lo ∧ c.last = hi ∧
      Follows P.m.msg b' lo hi es p pos ∧
      (∀ e ∈ es, ((c.cursors e.f).state = .valid ∨ P.isComposite e.f = true ∧ (c.cursors e.f).state = .structuralValid) ∧
        (c.cursors e.f).first = e.first ∧ (c.cursors e.f).last = e.last ∧ (c.cursors e.f).value = e.value ∧
        e.last ≤ c.messageLast) ∧
      (∀ xs y ys, es = xs ++ y :: ys → (c.cursors y.f).pred = (match ys with | [] => INITIAL | z :: _ => z.f)) ∧
      (∀ f ∈ P.m.msg.fields, (∀ e ∈ es, e.f ≠ f) → (c.cursors f).state = .invalid ∨ (c.cursors f).state = .incomplete) ∧
      lo ≤ c.messageLast ∧ c.messageLast ≤ hi := by
  obtain ⟨b', es, p, pos, V⟩ := Inv.history W U I h
  have hc := V.holds.cursors
  refine ⟨b', es, p, pos, V.inside, V.buffer, V.holds.first, V.holds.last, V.holds.follows, ?_, ?_, ?_, V.messageLast⟩
  · intro e he
    refine ⟨?_, hc.first e he, hc.last e he, hc.value e he, V.covers e he⟩
    have h1 := hc.sv e he
    have h2 := hc.ok e he
    simp only [Cursor.sv, Cursor.ok, Bool.or_eq_true, decide_eq_true_eq] at h1 h2
    cases hcomp : P.isComposite e.f with
    | false => exact .inl (h2 hcomp)
    | true => exact h1.imp id fun h => ⟨rfl, h⟩
  · intro xs y ys he
    rw [V.chained xs y ys he]
    cases ys <;> rfl
  · intro f hf hn
    have := V.others f hf fun hm => by
      obtain ⟨e, he, hef⟩ := List.mem_map.mp hm
      exact hn e he hef
    simpa [Cursor.inv] using this

/-- A field that is structurally valid lies between the first bit and `Message_Last`, in the buffer. It is the first field, and
then starts with the first bit; or the field in front of it (`Predecessor`) is valid, or structurally valid if composite, ends
right before it, and has a link to it. The size is that of the type or of the link, the condition of the link holds, given the
fields in front. -/
theorem C30_field_partial (W : WellFormed P) (U : Verified P lo hi) (I : InBuffer P b lo hi) (h : P.history b lo hi ops = .ok c)
    (hf : f ∈ P.m.msg.fields) (hv : (c.cursors f).state = .valid ∨ (c.cursors f).state = .structuralValid) :
    lo ≤ (c.cursors f).first ∧ (c.cursors f).first ≤ (c.cursors f).last + 1 ∧ (c.cursors f).last ≤ c.messageLast ∧ c.messageLast ≤ hi ∧
    c.bufFirst ≤ ((c.cursors f).first - 1) / 8 + 1 ∧ ((c.cursors f).last - 1) / 8 + 1 ≤ c.bufLast ∧
    ∃ b' es l, l ∈ P.m.msg.links ∧ l.source = (c.cursors f).pred ∧ l.target = f ∧ (c.buffer = some b' ∨ c.buffer = none) ∧
      IsTrue P.m.msg b' lo hi es l.condition ∧
      (∀ e ∈ es, (c.cursors e.f).first = e.first ∧ (c.cursors e.f).last = e.last ∧ (c.cursors e.f).value = e.value) ∧
      ((c.cursors f).pred = INITIAL ∧ es = [] ∧ (c.cursors f).first = lo ∨
        (∃ e ∈ es, e.f = (c.cursors f).pred) ∧ (c.cursors f).first = (c.cursors (c.cursors f).pred).last + 1 ∧
        ((c.cursors (c.cursors f).pred).state = .valid ∨
          P.isComposite (c.cursors f).pred = true ∧ (c.cursors (c.cursors f).pred).state = .structuralValid)) ∧
      ∃ t, (f, t) ∈ P.m.msg.types ∧
        (Scalar t ∧ t.size.toOption.map (·.v) = some ((c.cursors f).last - (c.cursors f).first + 1) ∨
        ¬ Scalar t ∧ eval .ada (itemEnv P.m.msg b' lo hi es) l.size = some (.int ((c.cursors f).last - (c.cursors f).first + 1))) := by
  obtain ⟨b', es, p, pos, V⟩ := Inv.history W U I h
  have hsv : (c.cursors f).sv = true := by simpa [Cursor.sv] using hv
  obtain ⟨z, hz, rfl⟩ := List.mem_map.mp ((V.sv hf).mp hsv)
  obtain ⟨xs, ys, hes⟩ := List.append_of_mem hz
  obtain ⟨q, qpos, l, R, S, hq⟩ := V.holds.ready W V.chained hes
  have hc := V.holds.cursors
  have c1 : (c.cursors z.f).first = z.first := hc.first z hz
  have c2 : (c.cursors z.f).last = z.last := hc.last z hz
  have hpred : (c.cursors z.f).pred = q := R.pred
  obtain ⟨h1, h2, h3⟩ := (follows_bounds W V.inside.order V.holds.follows).2.2 z hz
  have low := V.inside.low h1
  have high := V.inside.high h3
  rw [c1, c2, hpred]
  refine ⟨h1, h2, V.covers z hz, V.messageLast.2, ?_, ?_, b', ys, l, R.mem, R.source, R.target, V.buffer, R.holds, ?_, ?_, ?_⟩
  · rw [V.bounds.1]; exact low
  · rw [V.bounds.2]; exact high
  · intro e he
    have hm : e ∈ es := by rw [hes]; simp [he]
    exact ⟨hc.first e hm, hc.last e hm, hc.value e hm⟩
  · cases ys with
    | nil =>
      obtain ⟨h4, h5⟩ := follows_nil R.follows
      exact .inl ⟨h4, rfl, by rw [S.field.2, h5]⟩
    | cons w ws =>
      right
      have hqw : q = w.f := hq
      have hw : w ∈ es := by rw [hes]; simp
      obtain ⟨_, _, _, _, _, _, h5⟩ := follows_cons R.follows
      have hl : (c.cursors w.f).last = w.last := hc.last w hw
      rw [hqw]
      refine ⟨⟨w, List.mem_cons_self, rfl⟩, by rw [S.field.2, hl, h5], ?_⟩
      have h6 := hc.sv w hw
      have h7 := hc.ok w hw
      simp only [Cursor.sv, Cursor.ok, Bool.or_eq_true, decide_eq_true_eq] at h6 h7
      cases hcomp : P.isComposite w.f with
      | false => exact .inl (h7 hcomp)
      | true => exact h6.imp id fun h => ⟨rfl, h⟩
  · obtain ⟨_, _, _, _, t, ht, hty⟩ := S
    rcases hty with ⟨h4, n, h5, _, _, rfl⟩ | ⟨h4, n, h5, _, _, rfl⟩
    · refine ⟨t, ht, .inl ⟨h4, ?_⟩⟩
      rw [h5]
      simp only [Except.toOption, Option.map, Option.some.injEq]
      omega
    · refine ⟨t, ht, .inr ⟨h4, ?_⟩⟩
      rw [h5]
      simp only [Option.some.injEq, Val.int.injEq]
      omega

/-- Fields after invalid fields are invalid: if all fields with a link to `f` are invalid, and the message does not start with
`f`, then `f` is invalid. -/
theorem C30_invalid_partial (W : WellFormed P) (U : Verified P lo hi) (I : InBuffer P b lo hi) (h : P.history b lo hi ops = .ok c)
    (hf : f ∈ P.m.msg.fields) (hp : ∀ l ∈ P.m.msg.links, l.target = f → l.source ≠ INITIAL ∧
      ((c.cursors l.source).state = .invalid ∨ (c.cursors l.source).state = .incomplete)) :
    (c.cursors f).state = .invalid ∨ (c.cursors f).state = .incomplete := by
  cases hst : (c.cursors f).state with
  | invalid => exact .inl rfl
  | incomplete => exact .inr rfl
  | _ =>
    exfalso
    obtain ⟨_, _, _, _, _, _, b', es, l, hl, hs, ht, _, _, _, h1, _⟩ := C30_field_partial W U I h hf (by simp [hst])
    obtain ⟨h2, h3⟩ := hp l hl ht
    rw [hs] at h2 h3
    rcases h1 with ⟨h1, _⟩ | ⟨_, _, h1⟩
    · exact h2 h1
    · rcases h1 with h1 | ⟨_, h1⟩ <;> rcases h3 with h3 | h3 <;> rw [h1] at h3 <;> cases h3

/-! ## Serializers and parsers -/

/-- After every history, a scalar field that is set is valid and has the value that was set: in its cursor, and in the bits of the
buffer from its first to its last bit. All other bits of the buffer stay the same, and so do the cursors of the fields in
front. -/
theorem C31_scalar (W : WellFormed P) (U : Verified P lo hi) (I : InBuffer P b lo hi) (h : P.history b lo hi ops = .ok c) {v : Nat}
    (hs : P.step c (.setScalar f v) = .ok c') :
    ∃ b1 b2 t n, c.buffer = some b1 ∧ c'.buffer = some b2 ∧ (f, t) ∈ P.m.msg.types ∧ t.size = .ok n ∧ InType t v ∧
      b2.first = b1.first ∧ b2.data.length = b1.data.length ∧
      (c'.cursors f).state = .valid ∧ (c'.cursors f).value = v ∧ lo ≤ (c'.cursors f).first ∧ (c'.cursors f).last ≤ hi ∧
      (c'.cursors f).last = (c'.cursors f).first + n.v - 1 ∧
      bitsAt b2 (c'.cursors f).first n.v.toNat = v ∧
      (∀ i, lo ≤ i → i < (c'.cursors f).first ∨ (c'.cursors f).last < i → bitAt b2 i = bitAt b1 i) ∧
      (∀ g ∈ P.m.msg.fields, P.m.msg.fields.idxOf g < P.m.msg.fields.idxOf f → c'.cursors g = c.cursors g) := by
  obtain ⟨b1, es, p, pos, V⟩ := Inv.history W U I h
  obtain ⟨_, h1, h2⟩ := bind_run hs
  have hf := needField_run h1
  obtain ⟨hb, hpre⟩ := V.scalarPre W U hf h2
  obtain ⟨c2, b2, xs, ys, q, qpos, l, t, n, s, h3, hes, R, ht, hsc, hn, hn1, hle, A, hafter, hbits, hb2, hcur, _, _, V'⟩ := V.setScalar W U hb hpre
  cases h3.symm.trans h2
  obtain ⟨h4, _, _⟩ := follows_bounds W V.inside.order R.follows
  have hin : InType t v := by
    obtain ⟨q', qpos', l', _, hst, _⟩ := follows_cons V'.holds.follows
    obtain ⟨hl', _, _, _, t', ht', h6⟩ := hst
    have hy := h6
    rcases h6 with ⟨hs', n', hn', _, hi', e⟩ | ⟨hs', n', _, _, _, e⟩
    · have e1 : f = l'.target := congrArg Item.f e
      have := nodup_pair W.names.once ht (e1 ▸ ht'); subst this
      have e2 : (v : Int) = _ := congrArg Item.value e
      simp only at e2
      rw [e2]
      exact hi'
    · have e1 : f = l'.target := congrArg Item.f e
      have := nodup_pair W.names.once ht (e1 ▸ ht'); subst this
      exact absurd hsc hs'
  refine ⟨b1, b2, t, n, hb, hb2, ht, hn, hin, A.first, A.length, ?_⟩
  rw [hcur]
  refine ⟨rfl, rfl, h4, hle, rfl, hbits, ?_, fun g hg hlt => setScalar_front W hf h2 hg hlt⟩
  intro i hi h5
  rcases h5 with h5 | h5
  · exact A.bits i hi h5
  · simp only at h5
    exact hafter i (by omega)

/-- After every history, an opaque field that is set is structurally valid, and the buffer has the bytes that were set from its
first to its last bit. All other bits of the buffer stay the same, and so do the cursors of the fields in front. -/
theorem C31_opaque (W : WellFormed P) (U : Verified P lo hi) (I : InBuffer P b lo hi) (h : P.history b lo hi ops = .ok c) {ds : List Nat}
    (hs : P.step c (.setOpaque f ds) = .ok c') :
    ∃ b1 b2, c.buffer = some b1 ∧ c'.buffer = some b2 ∧ b2.first = b1.first ∧ b2.data.length = b1.data.length ∧
      (c'.cursors f).state = .structuralValid ∧ lo ≤ (c'.cursors f).first ∧ (c'.cursors f).last ≤ hi ∧
      (c'.cursors f).last = (c'.cursors f).first + 8 * ds.length - 1 ∧
      bytesAt b2 (c'.cursors f).first (c'.cursors f).last = ds.map (fun (x : Nat) => (x : Int)) ∧
      (∀ i, lo ≤ i → i < (c'.cursors f).first ∨ (c'.cursors f).last < i → bitAt b2 i = bitAt b1 i) ∧
      (∀ g ∈ P.m.msg.fields, P.m.msg.fields.idxOf g < P.m.msg.fields.idxOf f → c'.cursors g = c.cursors g) := by
  obtain ⟨b1, es, p, pos, V⟩ := Inv.history W U I h
  obtain ⟨hf, h2, hpre, hd, hlen⟩ := V.setOpaque_step W U hs
  obtain ⟨hb, _⟩ := V.compositePre W U hf hpre
  obtain ⟨c2, b2, xs, ys, q, qpos, l, l', h3, hes, C, hb2, hcur, A, hafter, hbytes, _, _, _, _, V'⟩ := V.setOpaque W U hf hpre hd hlen
  cases h3.symm.trans h2
  obtain ⟨h4, _, _⟩ := follows_bounds W V.inside.order C.ready.follows
  refine ⟨b1, b2, hb, hb2, A.first, A.length, ?_⟩
  rw [hcur]
  refine ⟨rfl, h4, C.space, rfl, hbytes, ?_, fun g hg hlt => setOpaque_front W hf h2 hg hlt⟩
  intro i hi h5
  rcases h5 with h5 | h5
  · exact A.bits i hi h5
  · simp only at h5
    exact hafter i (by omega)

/-- If all fields of a path have been set (`Structural_Valid_Message`), the buffer contains a message, and `Verify_Message` in a
new context for this buffer accepts it, with the same fields and the same bounds and values of these. -/
theorem C31_roundtrip (W : WellFormed P) (U : Verified P lo hi) (I : InBuffer P b lo hi) (h : P.history b lo hi ops = .ok c)
    (hv : P.structuralValidMessage c = .ok true) :
    ∃ b1 c1, c.buffer = some b1 ∧ (∃ es, IsMessage P.m.msg b1 lo hi es) ∧
      P.parse b1 lo hi = .ok c1 ∧ P.structuralValidMessage c1 = .ok true ∧
      ∀ f ∈ P.m.msg.fields, ((c1.cursors f).sv = (c.cursors f).sv) ∧
        ((c.cursors f).sv = true → (c1.cursors f).first = (c.cursors f).first ∧ (c1.cursors f).last = (c.cursors f).last ∧
          (c1.cursors f).value = (c.cursors f).value) := by
  obtain ⟨b1, es, p, pos, V⟩ := Inv.history W U I h
  have hb : c.buffer = some b1 := by
    rcases V.buffer with hb | hb
    · exact hb
    · simp [Pkg.structuralValidMessage, Pkg.messageValid, Context.hasBuffer, hb, need, bind, Except.bind] at hv
  have H := V.contains hb
  have I1 := V.inside
  obtain ⟨x, hx, hiff⟩ := messageValid_ok (st := true) W I1 (U.deterministic _ I1) H V.others
  obtain rfl : x = true := Except.ok.inj (hx.symm.trans hv)
  obtain ⟨_, l, hl, hs, ht, hc⟩ := hiff.mp rfl
  have M : IsMessage P.m.msg b1 lo hi es := ⟨p, pos, l, H.follows, hl, hs, ht, hc⟩
  obtain ⟨c1, hc1, R⟩ := C29_fields W I1 (U.deterministic _ I1) (U.sizes _ I1) M
  obtain ⟨c2, r, hc2, hr, hriff⟩ := C29_accepts W I1 (U.deterministic _ I1) (U.sizes _ I1)
  cases hc1.symm.trans hc2
  obtain rfl := hriff.mpr ⟨es, M⟩
  refine ⟨b1, c1, hb, ⟨es, M⟩, hc1, hr, ?_⟩
  intro f hf
  by_cases hm : f ∈ es.map (·.f)
  · obtain ⟨e, he, rfl⟩ := List.mem_map.mp hm
    obtain ⟨h1, h2, h3, h4⟩ := R.valid e he
    have hsv := H.cursors.sv e he
    refine ⟨?_, fun _ => ⟨h2.trans (H.cursors.first e he).symm, h3.trans (H.cursors.last e he).symm, h4.trans (H.cursors.value e he).symm⟩⟩
    rw [hsv]
    simp only [Cursor.sv, h1]
    split <;> rfl
  · have h1 := R.invalid f hf hm
    have h2 : (c.cursors f).sv = false := by
      cases h : (c.cursors f).sv with
      | false => rfl
      | true => exact absurd ((V.sv hf).mp h) hm
    rw [h2]
    refine ⟨?_, fun h => by cases h⟩
    rcases h1 with h1 | h1 <;> simp [Cursor.sv, h1]

/-- Every message can be written: if a buffer `b0` contains a message, then the setters of its fields, called in the order of the
message with the values and bytes that these have in `b0`, succeed in a new context for any buffer `b` of the same bounds. They
leave a structurally valid message whose fields have the bits of `b0`; the bits after the message stay those of `b`. Missing:
conditions of scalar fields that use `Size` of the field (`C31_size_counterexample`) and conditions that compare the content of a
composite field, unless they hold for what is in `b` as well (`C31_content_counterexample`; `Tolerates` follows from `tolerates_free`
if no condition of a composite field uses its content). `Verify_Message` accepts the result by `C31_roundtrip`. -/
theorem C31_complete_partial {b0 : Bytes} {es : List Item} (W : WellFormed P) (U : Verified P lo hi) (I : InBuffer P b lo hi)
    (I0 : InBuffer P b0 lo hi) (hfirst : b.first = b0.first) (hlength : b.data.length = b0.data.length)
    (hsize : ∀ l ∈ P.m.msg.links, P.isScalar l.source = true → SizeFree l.source l.condition) (hcontent : Tolerates P b b0 lo hi es)
    (M : IsMessage P.m.msg b0 lo hi es) :
    ∃ c b1, P.history b lo hi (es.reverse.map (setOp P b0)) = .ok c ∧ c.buffer = some b1 ∧ P.structuralValidMessage c = .ok true ∧
      b1.first = b0.first ∧ b1.data.length = b0.data.length ∧
      (∀ e ∈ es, (c.cursors e.f).sv = true ∧ (c.cursors e.f).first = e.first ∧ (c.cursors e.f).last = e.last ∧ (c.cursors e.f).value = e.value ∧
        ∀ i, e.first ≤ i → i ≤ e.last → bitAt b1 i = bitAt b0 i) ∧
      (∀ i, lo ≤ i → (∀ e ∈ es, e.last < i) → bitAt b1 i = bitAt b i) := by
  obtain ⟨p, pos, l, h0, hl, hs, ht, hc⟩ := M
  obtain ⟨c, b1, B⟩ := build W U I I0 hfirst hlength hsize h0 hcontent (.inr ⟨l, hl, hs, hc⟩)
  have H := B.inv.contains B.buffer
  have I1 := B.inv.inside
  obtain ⟨x, hx, hiff⟩ := messageValid_ok (st := true) W I1 (U.deterministic _ I1) H B.inv.others
  have hl' : IsTrue P.m.msg b1 lo hi es l.condition := by rw [IsTrue, B.agree.itemEnv W I0 (U.aligned b0 I0) h0]; exact hc
  obtain rfl := hiff.mpr ⟨fun e he => structural_accepted W H he, l, hl, hs, ht, hl'⟩
  refine ⟨c, b1, B.run, B.buffer, hx, B.agree.first, B.agree.length, ?_, ?_⟩
  · intro e he
    have hb := (follows_bounds W I0.order h0).2.2 e he
    have hlt := follows_last_lt W I0.order h0 e he
    exact ⟨H.cursors.sv e he, H.cursors.first e he, H.cursors.last e he, H.cursors.value e he, fun i h1 h2 => B.agree.bits i (by omega) (by omega)⟩
  · intro i hi' hlast
    refine B.after i ?_
    cases es with
    | nil => obtain ⟨_, h2⟩ := follows_nil h0; omega
    | cons e es =>
      obtain ⟨_, _, _, _, _, _, h2⟩ := follows_cons h0
      have := hlast e List.mem_cons_self
      omega

end

end Verif.Ctx
