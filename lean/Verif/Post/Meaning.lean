import Verif.Post.Props

/-! # What the postconditions say

`Promise` states in plain terms what a caller knows after a call. The postconditions imply it, so code that keeps its contracts keeps
the promise. -/

namespace Verif.Ctx
open Verif Verif.Graph Verif.Verify Verif.Types Verif.Gen Verif.Spark

/-- The buffer and the message have the bounds they had. -/
def SameRange (c c' : Context) : Prop := c'.bufFirst = c.bufFirst ∧ c'.bufLast = c.bufLast ∧ c'.first = c.first ∧ c'.last = c.last

/-- The cursor has the state and predecessor it had, and the bounds and the value if it has any. -/
def SameCursor (k k' : Cursor) : Prop := k'.state = k.state ∧ k'.pred = k.pred ∧
  (k'.state = .valid ∨ k'.state = .structuralValid → k'.first = k.first ∧ k'.last = k.last ∧ k'.value = k.value)

/-- The field is not set. -/
def Unset (c : Context) (f : Field) : Prop := (c.cursors f).state = .invalid ∨ (c.cursors f).state = .incomplete

/-- What all procedures that set a field promise. -/
structure SetPromise (P : Pkg) (c c' : Context) (f : Field) : Prop where
  buffer : c'.buffer ≠ none
  range : SameRange c c'
  /-- The message ends with the field. -/
  ends : P.fieldLast c' f = .ok c'.messageLast
  /-- All later fields are not set. -/
  later : ∀ xs ys, P.m.msg.fields = xs ++ f :: ys → ∀ g ∈ ys, Unset c' g
  /-- A field that a link with a true condition leads to comes next. -/
  next : ∀ l ∈ P.m.msg.links, l.source = f → l.target ≠ FINAL → P.publicCond c' l.condition = .ok true →
    (c'.cursors l.target).pred = f ∧ P.validNext c' l.target = .ok true
  /-- The place of the field stays the same. -/
  place : (c'.cursors f).pred = (c.cursors f).pred ∧ ∃ x, P.validNext c' f = .ok x ∧ P.validNext c f = .ok x
  /-- Scalar fields that are in front of the field in any case have the values they had. -/
  front : ∃ ds, P.definite f = .ok ds ∧ ∀ g ∈ ds, P.isScalar g = true → ∃ v, P.get c' g = .ok v ∧ P.get c g = .ok v

/-- What a caller knows after a call. -/
def Promise (P : Pkg) (c c' : Context) : Op → Prop
  | .verify _ | .verifyMessage => SameRange c c' ∧ (c'.buffer = none ↔ c.buffer = none)
  | .reset f => SameRange c c' ∧ (c'.buffer = none ↔ c.buffer = none) ∧ P.validNext c' f = .ok true ∧ Unset c' f ∧ (c'.cursors f).pred = (c.cursors f).pred ∧
      (∃ i, P.fieldFirst c' f = .ok i ∧ P.fieldFirst c f = .ok i) ∧ (∃ n, P.fieldSize c' f = .ok n ∧ P.fieldSize c f = .ok n) ∧
      ∀ xs ys, P.m.msg.fields = xs ++ f :: ys → (∀ g ∈ xs, SameCursor (c.cursors g) (c'.cursors g)) ∧ ∀ g ∈ ys, Unset c' g
  | .setScalar f v => SetPromise P c c' f ∧ (c'.cursors f).state = .valid ∧ (c'.cursors f).first ≤ (c'.cursors f).last ∧ P.get c' f = .ok (v : Int) ∧
      (∀ t, P.m.msg.type? f = some (.enum t) → t.alwaysValid = true → (v : Int) ∈ t.literals.map (·.2)) ∧
      ∀ xs ys, P.m.msg.fields = xs ++ f :: ys → ∀ g ∈ xs, SameCursor (c.cursors g) (c'.cursors g)
  | .setEmpty f | .initializeField f | .setOpaque f _ => SetPromise P c c' f ∧ ((c'.cursors f).state = .valid ∨ (c'.cursors f).state = .structuralValid)
  | .takeBuffer => SameRange c c' ∧ c'.buffer = none ∧ (∃ b, c.buffer = some b ∧ c'.bufFirst = b.first ∧ c'.bufLast = b.last) ∧
      ∀ g ∈ P.m.msg.fields, SameCursor (c.cursors g) (c'.cursors g)

section
variable {P : Pkg} {b b' : Bytes} {lo hi : Int} {c c' : Context} {f : Field} {ops : List Op} {op : Op}

theorem invariant_range (h : contextInvariant c' c = true) : SameRange c c' := by
  simp only [contextInvariant, Bool.and_eq_true, decide_eq_true_eq] at h
  exact ⟨h.1.1.1, h.1.1.2, h.1.2, h.2⟩

theorem same_cursor {k k' : Cursor} (h : k'.same k = true) : SameCursor k k' := by
  simp only [Cursor.same, Cursor.sv, Bool.and_eq_true, decide_eq_true_eq, Bool.or_eq_true, Bool.not_eq_true'] at h
  refine ⟨h.1.1, h.1.2, fun hs => ?_⟩
  rcases h.2 with h' | h'
  · exfalso
    rcases hs with hs | hs <;> simp [hs] at h'
  · exact ⟨h'.1.1, h'.1.2, h'.2⟩

theorem inv_unset {g : Field} (h : (c.cursors g).inv = true) : Unset c g := by
  simpa [Cursor.inv, Unset] using h

theorem unchanged_elim {α : Type} [DecidableEq α] {new old : Run α} (h : unchanged new old = .ok true) : ∃ x, new = .ok x ∧ old = .ok x := by
  cases ho : old with
  | error e => rw [ho] at h; cases h
  | ok a =>
    cases hn : new with
    | error e => rw [ho, hn] at h; cases h
    | ok x =>
      rw [ho, hn] at h
      have : decide (x = a) = true := Except.ok.inj h
      exact ⟨a, by rw [of_decide_eq_true this], rfl⟩

theorem drop_of_split {fs xs ys : List Field} (hd : fs.Nodup) (h : fs = xs ++ f :: ys) :
    f ∈ fs ∧ fs.take (fs.idxOf f) = xs ∧ fs.drop (fs.idxOf f + 1) = ys := by
  subst h
  have hx : f ∉ xs := fun hx => (List.nodup_append.mp hd).2.2 f hx f List.mem_cons_self rfl
  have : (xs ++ f :: ys).idxOf f = xs.length := by
    rw [List.idxOf_append, if_neg hx, List.idxOf_cons_self, Nat.zero_add]
  rw [this]
  refine ⟨by simp, by simp, ?_⟩
  rw [List.drop_append]
  simp

theorem successors_split (W : WellFormed P) {xs ys : List Field} (h : P.m.msg.fields = xs ++ f :: ys) : successors P.m.msg.fields f = .ok ys := by
  obtain ⟨h1, _, h3⟩ := drop_of_split W.nodup h
  rw [successors, if_neg fun e : f = INITIAL => W.initial (e ▸ h1), if_neg fun e : f = FINAL => W.final (e ▸ h1), if_pos h1, h3]

theorem predecessors_split (W : WellFormed P) {xs ys : List Field} (h : P.m.msg.fields = xs ++ f :: ys) : predecessors P.m.msg.fields f = .ok xs := by
  obtain ⟨h1, h2, _⟩ := drop_of_split W.nodup h
  rw [predecessors, if_neg fun e : f = INITIAL => W.initial (e ▸ h1), if_neg fun e : f = FINAL => W.final (e ▸ h1), if_pos h1, h2]

theorem setterPost_elim (W : WellFormed P) (hf : f ∈ P.m.msg.fields) (h : P.setterPost c c' f = .ok true) (hb : c'.hasBuffer = true) :
    SetPromise P c c' f := by
  have hfi : f ≠ INITIAL := fun e => W.initial (e ▸ hf)
  unfold Pkg.setterPost at h
  rw [allOf_true] at h
  simp only [List.mem_append, List.mem_cons, List.not_mem_nil, or_false] at h
  have h1 := h _ (.inl (.inl (.inl rfl)))
  have h2 := h _ (.inl (.inl (.inr rfl)))
  have h3 := fun x hx => h x (.inl (.inr hx))
  have h4 := h _ (.inr (.inl rfl))
  have h5 := h _ (.inr (.inr (.inl rfl)))
  have h6 := h _ (.inr (.inr (.inr (.inl rfl))))
  have h7 := h _ (.inr (.inr (.inr (.inr rfl))))
  refine ⟨?_, invariant_range (Except.ok.inj h4), ?_, ?_, ?_, ⟨?_, unchanged_elim h6⟩, ?_⟩
  · intro e
    rw [Context.hasBuffer, e] at hb
    cases hb
  · cases he : P.fieldLast c' f with
    | error e => rw [he] at h1; cases h1
    | ok x =>
      rw [he] at h1
      rw [of_decide_eq_true (Except.ok.inj h1)]
  · intro xs ys e g hg
    rw [successors_split W e] at h2
    have := List.all_eq_true.mp (Except.ok.inj h2) g hg
    rw [Bool.or_eq_true, decide_eq_true_eq] at this
    rcases this with rfl | this
    · exact absurd (e ▸ by simp [hg]) W.final
    · exact inv_unset this
  · intro l hl hs ht hc
    have := h3 _ (List.mem_map.mpr ⟨l, List.mem_filter.mpr ⟨by simp [outgoing, hl, hs], by simpa using ht⟩, rfl⟩)
    simp only [hc, bind, Except.bind, if_true] at this
    rw [allOf_true] at this
    have e1 := of_decide_eq_true (Except.ok.inj (this _ List.mem_cons_self))
    have hti : l.target ≠ INITIAL := by
      rcases (W.links l hl).2 with e | e
      · exact absurd e ht
      · exact fun i => W.initial (i ▸ e)
    rw [Context.predecessor, if_neg hti] at e1
    exact ⟨e1, this _ (by simp)⟩
  · obtain ⟨x, e1, e2⟩ := unchanged_elim h5
    have e1 := Except.ok.inj e1
    have e2 := Except.ok.inj e2
    rw [Context.predecessor, if_neg hfi] at e1 e2
    rw [e1, e2]
  · cases hd : P.definite f with
    | error e => rw [hd] at h7; cases h7
    | ok ds =>
      rw [hd] at h7
      have h7 : allOf _ = Except.ok true := h7
      rw [allOf_true] at h7
      exact ⟨ds, rfl, fun g hg hgs => unchanged_elim (h7 _ (List.mem_map.mpr ⟨g, List.mem_filter.mpr ⟨hg, hgs⟩, rfl⟩))⟩

theorem front_elim (W : WellFormed P) (h : (do return (← ofPy (predecessors P.m.msg.fields f)).all fun p => (c'.cursors p).same (c.cursors p) : Run Bool) = .ok true) :
    ∀ xs ys, P.m.msg.fields = xs ++ f :: ys → ∀ g ∈ xs, SameCursor (c.cursors g) (c'.cursors g) := by
  intro xs ys e g hg
  rw [predecessors_split W e] at h
  exact same_cursor (List.all_eq_true.mp (Except.ok.inj h) g hg)

/-- The field of a call. -/
def Op.field? : Op → Option Field
  | .verify f | .reset f | .setScalar f _ | .setEmpty f | .initializeField f | .setOpaque f _ => some f
  | .verifyMessage | .takeBuffer => none

/-- The postcondition of a call says what the caller relies on. -/
theorem C67_meaning (W : WellFormed P) (hf : ∀ f, op.field? = some f → f ∈ P.m.msg.fields) (h : P.post c c' op = .ok true) : Promise P c c' op := by
  have hverify : verifyPost c c' = .ok true → SameRange c c' ∧ (c'.buffer = none ↔ c.buffer = none) := by
    intro h
    unfold verifyPost at h
    rw [allOf_true] at h
    refine ⟨invariant_range (Except.ok.inj (h _ (by simp))), ?_⟩
    have := Except.ok.inj (h _ List.mem_cons_self)
    revert this
    cases hc : c.buffer <;> cases hc' : c'.buffer <;> simp [Context.hasBuffer, hc, hc']
  have hcomp : ∀ f, f ∈ P.m.msg.fields → P.compositePost c c' f = .ok true →
      SetPromise P c c' f ∧ ((c'.cursors f).state = .valid ∨ (c'.cursors f).state = .structuralValid) := by
    intro f hf h
    unfold Pkg.compositePost at h
    rw [allOf_true] at h
    have h1 := Except.ok.inj (h _ List.mem_cons_self)
    have h2 := h _ (List.mem_cons_of_mem _ List.mem_cons_self)
    have h3 := Except.ok.inj (h (.ok (c'.cursors f).sv) (by simp))
    exact ⟨setterPost_elim W hf h2 h1, by simpa [Cursor.sv] using h3⟩
  cases op with
  | verify f => exact hverify h
  | verifyMessage => exact hverify h
  | setEmpty f => exact hcomp f (hf f rfl) h
  | initializeField f => exact hcomp f (hf f rfl) h
  | setOpaque f ds => exact hcomp f (hf f rfl) h
  | reset f =>
    have h : P.resetPost c c' f = .ok true := h
    unfold Pkg.resetPost at h
    rw [allOf_true] at h
    simp only [List.mem_cons, List.not_mem_nil, or_false] at h
    have h1 := h _ (.inl rfl)
    have h2 := h _ (.inr (.inl rfl))
    have h4 := h _ (.inr (.inr (.inr (.inl rfl))))
    have h5 := h _ (.inr (.inr (.inr (.inr (.inl rfl)))))
    have h6 := h _ (.inr (.inr (.inr (.inr (.inr (.inl rfl))))))
    have h7 := h _ (.inr (.inr (.inr (.inr (.inr (.inr (.inl rfl)))))))
    have h8 := h _ (.inr (.inr (.inr (.inr (.inr (.inr (.inr (.inl rfl))))))))
    have h9 := h _ (.inr (.inr (.inr (.inr (.inr (.inr (.inr (.inr (.inl rfl)))))))))
    have h10 := h _ (.inr (.inr (.inr (.inr (.inr (.inr (.inr (.inr (.inr rfl)))))))))
    refine ⟨invariant_range (Except.ok.inj h4), ?_, h1, inv_unset (Except.ok.inj h2), of_decide_eq_true (Except.ok.inj h5), unchanged_elim h7,
      unchanged_elim h8, fun xs ys e => ⟨front_elim W h9 xs ys e, fun g hg => ?_⟩⟩
    · have := Except.ok.inj h6
      revert this
      cases hc : c.buffer <;> cases hc' : c'.buffer <;> simp [Context.hasBuffer, hc, hc']
    · rw [successors_split W e] at h10
      exact inv_unset (List.all_eq_true.mp (Except.ok.inj h10) g (List.mem_cons_of_mem _ hg))
  | setScalar f v =>
    have h : P.setScalarPost c c' f v = .ok true := h
    unfold Pkg.setScalarPost at h
    rw [allOf_true] at h
    simp only [List.mem_cons, List.not_mem_nil, or_false] at h
    have h1 := h _ (.inl rfl)
    have h2 := Except.ok.inj (h _ (.inr (.inl rfl)))
    have h3 := h _ (.inr (.inr (.inl rfl)))
    have h4 := h _ (.inr (.inr (.inr (.inl rfl))))
    have h5 := h _ (.inr (.inr (.inr (.inr rfl))))
    simp only [Context.valid, Cursor.ok, Bool.and_eq_true, decide_eq_true_eq] at h2
    refine ⟨setterPost_elim W (hf f rfl) h4 (Except.ok.inj h1), h2.1, by omega, ?_⟩
    unfold Pkg.getIs at h3
    cases hg : P.get c' f with
    | error e => rw [hg] at h3; cases h3
    | ok x =>
      rw [hg] at h3
      have := Except.ok.inj h3
      rw [Bool.and_eq_true, decide_eq_true_eq] at this
      obtain ⟨rfl, h6⟩ := this
      refine ⟨rfl, fun t ht ha => ?_, front_elim W h5⟩
      rw [ht] at h6
      simpa only [ha, Bool.not_true, Bool.false_or, decide_eq_true_eq] using h6
  | takeBuffer =>
    cases hc : c.buffer with
    | none => simp only [Pkg.post, hc] at h; cases h
    | some b =>
      have h : P.takeBufferPost b c c' = .ok true := by simpa only [Pkg.post, hc] using h
      unfold Pkg.takeBufferPost at h
      rw [allOf_true] at h
      simp only [List.mem_cons, List.not_mem_nil, or_false] at h
      have h1 := Except.ok.inj (h _ (.inl rfl))
      have h2 := of_decide_eq_true (Except.ok.inj (h _ (.inr (.inl rfl))))
      have h3 := of_decide_eq_true (Except.ok.inj (h _ (.inr (.inr (.inl rfl)))))
      have h4 := Except.ok.inj (h _ (.inr (.inr (.inr (.inl rfl)))))
      have h5 := Except.ok.inj (h _ (.inr (.inr (.inr (.inr rfl)))))
      refine ⟨invariant_range h4, ?_, ⟨b, hc, h2, h3⟩, fun g hg => ?_⟩
      · simpa [Context.hasBuffer] using h1
      · exact same_cursor (List.all_eq_true.mp h5 g (by simp [hg]))

/-- The conditions in postconditions are those of the message: what the getters give is what the fields in the buffer have. -/
theorem C67_public_condition (W : WellFormed P) (U : Verified P lo hi) (I : InBuffer P b lo hi) (h : P.history b lo hi ops = .ok c)
    (hb : c.buffer = some b') : ∃ es p pos, Follows P.m.msg b' lo hi es p pos ∧
      (∀ g ∈ P.m.msg.fields, g ∈ es.map (·.f) ↔ (c.cursors g).state = .valid ∨ (c.cursors g).state = .structuralValid) ∧
      ∀ l ∈ P.m.msg.links, l.source = p → ∃ x, P.publicCond c l.condition = .ok x ∧ (x = true ↔ IsTrue P.m.msg b' lo hi es l.condition) := by
  obtain ⟨b1, es, p, pos, V⟩ := Inv.history W U I h
  have e : b1 = b' := by
    rcases V.buffer with h' | h'
    · rw [hb] at h'; exact (Option.some.inj h').symm
    · rw [hb] at h'; cases h'
  subst e
  have H := V.contains hb
  refine ⟨es, p, pos, H.follows, ?_, fun l hl hs => H.publicCond W V.inside U V.chained hl hs⟩
  intro g hg
  constructor
  · intro h
    obtain ⟨e, he, rfl⟩ := List.mem_map.mp h
    simpa [Cursor.sv] using H.cursors.sv e he
  · intro h
    refine Classical.byContradiction fun hn => ?_
    have := V.others g hg hn
    rcases h with h | h <;> simp [Cursor.inv, h] at this

/-- A call whose precondition holds does not fail and keeps its promise. Missing: as for `C67_contract_partial`. -/
theorem C67_effect_partial (W : WellFormed P) (U : Verified P lo hi) (I : InBuffer P b lo hi) (h : P.history b lo hi ops = .ok c)
    (hp : P.pre c op = .ok ()) (hf : op.Fits P) : ∃ c', P.step c op = .ok c' ∧ Promise P c c' op := by
  obtain ⟨c', h1, h2⟩ := C67_contract_partial W U I h hp hf
  refine ⟨c', h1, C67_meaning W (fun f hf => ?_) h2⟩
  have key : ∀ {x : Run Unit} {k : Unit → Run Unit}, (x >>= k) = .ok () → x = .ok () := by
    intro x k h
    cases x with
    | error e => cases h
    | ok u => rfl
  cases op <;> cases hf
  case verify => exact needField_run hp
  all_goals exact needField_run (key hp)
/-- What a caller knows after `Initialize`: no field is set, the first one comes next, and all bits are available for it. -/
structure Fresh (P : Pkg) (b : Bytes) (lo hi : Int) (c : Context) : Prop where
  buffer : c.buffer ≠ none
  bounds : c.bufFirst = b.first ∧ c.bufLast = b.last ∧ c.first = lo ∧ c.last = hi ∧ c.messageLast = lo
  unset : ∀ g ∈ P.m.msg.fields, Unset c g
  next : ∃ f, P.m.msg.fields.head? = some f ∧ P.validNext c f = .ok true ∧ P.availableSpace c f = .ok (hi - lo + 1)

theorem initialized_elim (h : P.initialized c = .ok true) : (∀ g ∈ P.m.msg.fields, Unset c g) ∧
    ∃ f, P.m.msg.fields.head? = some f ∧ P.validNext c f = .ok true ∧ P.availableSpace c f = .ok (c.last - c.first + 1) := by
  unfold Pkg.initialized at h
  cases hm : P.m.msg.fields with
  | nil => simp only [hm] at h; cases h
  | cons f fs =>
    simp only [hm] at h
    cases hv : P.validNext c f with
    | error e => rw [hv] at h; cases h
    | ok x =>
      rw [hv] at h
      cases x with
      | false => cases h
      | true =>
        cases hs : P.availableSpace c f with
        | error e => rw [hs] at h; cases h
        | ok n =>
          rw [hs] at h
          have := Except.ok.inj h
          rw [Bool.and_eq_true, decide_eq_true_eq, List.all_eq_true] at this
          exact ⟨fun g hg => inv_unset (this.2 g hg), f, rfl, hv, by rw [← this.1]; exact hs⟩

/-- The postcondition of `Initialize` with bounds. -/
theorem C67_initialize_meaning (h : P.initializePost b lo hi c = .ok true) : Fresh P b lo hi c := by
  unfold Pkg.initializePost at h
  rw [allOf_true] at h
  simp only [List.mem_cons, List.not_mem_nil, or_false] at h
  have h1 := Except.ok.inj (h _ (.inl rfl))
  have h2 := of_decide_eq_true (Except.ok.inj (h _ (.inr (.inl rfl))))
  have h3 := of_decide_eq_true (Except.ok.inj (h _ (.inr (.inr (.inl rfl)))))
  have h4 := of_decide_eq_true (Except.ok.inj (h _ (.inr (.inr (.inr (.inl rfl))))))
  have h5 := of_decide_eq_true (Except.ok.inj (h _ (.inr (.inr (.inr (.inr (.inl rfl)))))))
  have h6 := of_decide_eq_true (Except.ok.inj (h _ (.inr (.inr (.inr (.inr (.inr (.inl rfl))))))))
  obtain ⟨h7, h8⟩ := initialized_elim (h _ (.inr (.inr (.inr (.inr (.inr (.inr rfl)))))))
  refine ⟨fun e => ?_, ⟨h2, h3, h4, h5, h4 ▸ h6⟩, h7, by rw [← h4, ← h5]; exact h8⟩
  rw [Context.hasBuffer, e] at h1
  cases h1

/-- The postcondition of `Initialize` without bounds: the message has all bits of the buffer. -/
theorem C67_initialize_all_meaning (h : P.initializeAllPost b c = .ok true) : Fresh P b (8 * (b.first : Int) - 7) (8 * (b.last : Int)) c := by
  unfold Pkg.initializeAllPost at h
  rw [allOf_true] at h
  simp only [List.mem_cons, List.not_mem_nil, or_false] at h
  have h1 := Except.ok.inj (h _ (.inl rfl))
  have h2 := of_decide_eq_true (Except.ok.inj (h _ (.inr (.inl rfl))))
  have h3 := of_decide_eq_true (Except.ok.inj (h _ (.inr (.inr (.inl rfl)))))
  have h4 := of_decide_eq_true (Except.ok.inj (h _ (.inr (.inr (.inr (.inl rfl))))))
  have h5 := of_decide_eq_true (Except.ok.inj (h _ (.inr (.inr (.inr (.inr (.inl rfl)))))))
  have h6 := of_decide_eq_true (Except.ok.inj (h _ (.inr (.inr (.inr (.inr (.inr (.inl rfl))))))))
  obtain ⟨h7, h8⟩ := initialized_elim (h _ (.inr (.inr (.inr (.inr (.inr (.inr rfl)))))))
  have e1 : c.first = 8 * (b.first : Int) - 7 := by rw [h4, firstBitIndex, h2]; omega
  have e2 : c.last = 8 * (b.last : Int) := by rw [h5, lastBitIndex, h3]; omega
  refine ⟨fun e => ?_, ⟨h2, h3, e1, e2, e1 ▸ h6⟩, h7, by rw [← e1, ← e2]; exact h8⟩
  rw [Context.hasBuffer, e] at h1
  cases h1
end

end Verif.Ctx
