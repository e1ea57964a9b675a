import Verif.Spark.MessageSeq
import Verif.Spark.RuntimeProps

/-! # Sequences of messages: property C28 -/

namespace Verif.Spark.MessageSeq

theorem checked_ok {n : Nat} {c : Ctx} (h : c.Pred n) : checked n c = .ok c := by simp [checked, h]

/-- What is assumed about the context of an element. These are the contracts of the subprograms that the generator produces for
every message (`Initialize`, `Take_Buffer`, `Message_Last`, `Structural_Valid_Message`, e.g.
`tests/spark/generated/rflx-tlv-generic_message.ads:68-110`); `Good` is the predicate of the type of the element context,
which bounds `Message_Last` by `First` and `Last`. -/
structure Lawful {E : Type} (P : Element E) (Good : E → Prop) : Prop where
  initElement : ∀ (b : Bytes) (f l : Nat), 0 < b.length → b.first ≤ byteIndex f → (byteIndex l : Int) ≤ b.last → f ≤ l →
    l < 8 * P.indexLast → ∃ e, P.initElement b f l = .ok e ∧ Good e ∧ P.hasBuffer e = true ∧ P.bufferFirst e = b.first ∧
      (P.bufferLast e : Int) = b.last ∧ P.first e = f ∧ P.last e = l
  takeBuffer : ∀ e, Good e → P.hasBuffer e = true → ∃ e' b, P.takeBuffer e = .ok (e', some b) ∧ b.first = P.bufferFirst e ∧
    b.last = P.bufferLast e ∧ P.hasBuffer e' = false
  validMessage : ∀ e, Good e → P.hasBuffer e = true → ∃ v, P.validMessage e = .ok v
  elementLast : ∀ e, Good e → ∃ n, P.elementLast e = .ok n ∧ P.first e ≤ n ∧ n ≤ P.last e

/-- The user may do anything with an element that keeps its bounds and its buffer (the discriminants of a context do not
change). -/
structure Used {E : Type} (P : Element E) (Good : E → Prop) (e e' : E) : Prop where
  good : Good e'
  hasBuffer : P.hasBuffer e' = true
  bufferFirst : P.bufferFirst e' = P.bufferFirst e
  bufferLast : P.bufferLast e' = P.bufferLast e
  first : P.first e' = P.first e
  last : P.last e' = P.last e

/-- C28, `Switch`: if its precondition holds, it completes, keeps the predicate, and hands out the rest of the sequence. -/
theorem C28_switch {E : Type} {P : Element E} {Good : E → Prop} (hP : Lawful P Good) {c : Ctx} (hc : c.Pred P.indexLast)
    (h : switchPre c) : ∃ e, switch P c = .ok ({ c with buffer := none }, e) ∧
      Ctx.Pred P.indexLast { c with buffer := none } ∧ Good e ∧ P.first e = c.sequenceLast + 1 ∧ P.last e = c.last ∧
      updatePre P { c with buffer := none } e := by
  obtain ⟨p1, p2, p3, p4, p5, p6, p7, p8⟩ := hc
  obtain ⟨s1, s2, s3⟩ := h
  have hpred : Ctx.Pred P.indexLast { c with buffer := none } := ⟨fun _ h => (nomatch h), p2, p3, p4, p5, p6, p7, p8⟩
  obtain ⟨b, hb⟩ : ∃ b, c.buffer = some b := by
    unfold Ctx.hasBuffer at s1
    cases hb : c.buffer with
    | none => rw [hb] at s1; cases s1
    | some b => exact ⟨b, rfl⟩
  obtain ⟨q1, q2⟩ := p1 b hb
  have hlt : c.sequenceLast < c.last := by
    unfold Ctx.hasElement at s2
    rw [Bool.and_eq_true, decide_eq_true_eq] at s2
    exact s2.2
  unfold byteIndex at p2 p3
  obtain ⟨e, he, g, e1, e2, e3, e4, e5⟩ := hP.initElement b (c.sequenceLast + 1) c.last
    (by unfold Bytes.last at q2; unfold Bytes.length; omega) (by unfold byteIndex; omega) (by unfold byteIndex; omega)
    (by omega) (by omega)
  refine ⟨e, ?_, hpred, g, e4, e5, rfl, e1, s2, s3, ?_, ?_, ?_, ?_⟩
  · unfold switch
    rw [pre_ok ⟨s1, s2, s3⟩]
    simp only [hb]
    show (inRange _).bind _ = _
    rw [inRange_ok (by omega), he]
    show (checked P.indexLast { c with buffer := none }).bind _ = _
    rw [checked_ok hpred]
    rfl
  · show c.bufferFirst = _
    omega
  · show c.bufferLast = _
    omega
  · show c.first ≤ _
    omega
  · show _ ≤ c.last
    omega

/-- C28, `Update`: if its precondition holds, it completes and keeps the predicate; afterwards the context has the buffer again,
and the position is the last bit of the element if the element is a valid message and unchanged otherwise. -/
theorem C28_update {E : Type} {P : Element E} {Good : E → Prop} (hP : Lawful P Good) {c : Ctx} {e : E}
    (hc : c.Pred P.indexLast) (hg : Good e) (h : updatePre P c e) : ∃ c' e', update P c e = .ok (c', e') ∧
      c'.Pred P.indexLast ∧ c'.hasBuffer = true ∧ P.hasBuffer e' = false ∧ c'.first = c.first ∧ c'.last = c.last ∧
      c'.bufferFirst = c.bufferFirst ∧ c'.bufferLast = c.bufferLast ∧
      ((P.validMessage e = .ok true ∧ c'.valid = true ∧ P.elementLast e = .ok c'.sequenceLast) ∨
       (P.validMessage e = .ok false ∧ c'.valid = false ∧ c'.sequenceLast = c.sequenceLast)) := by
  obtain ⟨p1, p2, p3, p4, p5, p6, p7, p8⟩ := hc
  have hup := h
  obtain ⟨u1, u2, u3, u4, u5, u6, u7, u8⟩ := h
  obtain ⟨v, hv⟩ := hP.validMessage e hg u2
  obtain ⟨e', b, ht, b1, b2, b3⟩ := hP.takeBuffer e hg u2
  obtain ⟨n, hn, n1, n2⟩ := hP.elementLast e hg
  have hbuf : ∀ b', some b = some b' → b'.first = c.bufferFirst ∧ b'.last = c.bufferLast := by
    intro b' hb'
    cases hb'
    exact ⟨by omega, by omega⟩
  cases v with
  | true =>
    have hpred : Ctx.Pred P.indexLast { c with buffer := some b, sequenceLast := n } :=
      ⟨hbuf, p2, p3, p4, p5, p6, by show c.first - 1 ≤ n; omega, by show n ≤ c.last; omega⟩
    refine ⟨_, e', ?_, hpred, rfl, b3, rfl, rfl, rfl, rfl, .inl ⟨hv, u4, hn⟩⟩
    unfold update
    rw [pre_ok hup, hv]
    show (P.elementLast e).bind _ = _
    rw [hn]
    show (P.takeBuffer e).bind _ = _
    rw [ht]
    show (checked P.indexLast { c with buffer := some b, sequenceLast := n }).bind _ = _
    rw [checked_ok hpred]
    rfl
  | false =>
    have hpred : Ctx.Pred P.indexLast { c with buffer := some b, valid := false } :=
      ⟨hbuf, p2, p3, p4, p5, p6, p7, p8⟩
    refine ⟨_, e', ?_, hpred, rfl, b3, rfl, rfl, rfl, rfl, .inr ⟨hv, rfl, rfl⟩⟩
    unfold update
    rw [pre_ok hup, hv]
    show (P.takeBuffer e).bind _ = _
    rw [ht]
    show (checked P.indexLast { c with buffer := some b, valid := false }).bind _ = _
    rw [checked_ok hpred]
    rfl

/-! ## Histories -/

/-- A history of pairs of `Switch` and `Update` with the bits that the valid elements occupy, latest first. -/
inductive History {E : Type} (P : Element E) (Good : E → Prop) (c0 : Ctx) : List (Nat × Nat) → Ctx → Prop where
  | start : History P Good c0 [] c0
  | valid {c c1 c2 : Ctx} {e e' e'' : E} {n : Nat} {l : List (Nat × Nat)} : History P Good c0 l c → switch P c = .ok (c1, e) →
      Used P Good e e' → P.validMessage e' = .ok true → P.elementLast e' = .ok n → update P c1 e' = .ok (c2, e'') →
      History P Good c0 ((P.first e', n) :: l) c2
  | invalid {c c1 c2 : Ctx} {e e' e'' : E} {l : List (Nat × Nat)} : History P Good c0 l c → switch P c = .ok (c1, e) →
      Used P Good e e' → P.validMessage e' = .ok false → update P c1 e' = .ok (c2, e'') → History P Good c0 l c2

/-- Specification: parts that follow one another without a gap from `first` on to `last`, latest first. -/
def Consecutive (first : Nat) : List (Nat × Nat) → Nat → Prop
  | [], last => last = first - 1
  | (f, n) :: l, last => n = last ∧ f ≤ n ∧ 1 ≤ f ∧ Consecutive first l (f - 1)

theorem switch_pre {E : Type} {P : Element E} {c : Ctx} {r : Ctx × E} (h : switch P c = .ok r) : switchPre c := by
  obtain ⟨_, hp, _⟩ := bind_ok (h : (pre _).bind _ = _)
  unfold pre at hp
  split at hp
  · assumption
  · cases hp

/-- C28: under every history of `Switch` and `Update`, the predicate holds, the bounds stay, and the elements occupy
consecutive parts from the beginning of the sequence on, up to the current position. -/
theorem C28_histories {E : Type} {P : Element E} {Good : E → Prop} (hP : Lawful P Good) {c0 c : Ctx} {l : List (Nat × Nat)}
    (hc : c0.Pred P.indexLast) (hb : c0.hasBuffer = true) (hs : c0.sequenceLast = c0.first - 1) (h : History P Good c0 l c) :
    c.Pred P.indexLast ∧ c.hasBuffer = true ∧ c.first = c0.first ∧ c.last = c0.last ∧ Consecutive c0.first l c.sequenceLast := by
  induction h with
  | start => exact ⟨hc, hb, rfl, rfl, hs⟩
  | valid _ hsw hu hv hn hup ih =>
    obtain ⟨i1, i2, i3, i4, i5⟩ := ih
    obtain ⟨e0, hsw', hp1, hg, hf, hl, hpre⟩ := C28_switch hP i1 (switch_pre hsw)
    cases hsw.symm.trans hsw'
    obtain ⟨u1, u2, u3, u4, u5, u6, u7, u8⟩ := hpre
    obtain ⟨c', e', hup', q1, q2, q3, q4, q5, q6, q7, q8⟩ := C28_update hP hp1 hu.good
      ⟨u1, hu.hasBuffer, u3, u4, u5.trans hu.bufferFirst.symm, u6.trans hu.bufferLast.symm, by rw [hu.first]; exact u7,
        by rw [hu.last]; exact u8⟩
    cases hup.symm.trans hup'
    rcases q8 with ⟨_, _, q8⟩ | ⟨q8, _⟩
    · cases hn.symm.trans q8
      obtain ⟨m, hm, m1, m2⟩ := hP.elementLast _ hu.good
      cases hn.symm.trans hm
      refine ⟨q1, q2, q4.trans i3, q5.trans i4, rfl, m1, ?_, ?_⟩
      · rw [hu.first, hf]
        omega
      · rw [hu.first, hf]
        exact i5
    · cases hv.symm.trans q8
  | invalid _ hsw hu hv hup ih =>
    obtain ⟨i1, i2, i3, i4, i5⟩ := ih
    obtain ⟨e0, hsw', hp1, hg, hf, hl, hpre⟩ := C28_switch hP i1 (switch_pre hsw)
    cases hsw.symm.trans hsw'
    obtain ⟨u1, u2, u3, u4, u5, u6, u7, u8⟩ := hpre
    obtain ⟨c', e', hup', q1, q2, q3, q4, q5, q6, q7, q8⟩ := C28_update hP hp1 hu.good
      ⟨u1, hu.hasBuffer, u3, u4, u5.trans hu.bufferFirst.symm, u6.trans hu.bufferLast.symm, by rw [hu.first]; exact u7,
        by rw [hu.last]; exact u8⟩
    cases hup.symm.trans hup'
    rcases q8 with ⟨q8, _⟩ | ⟨_, _, q8⟩
    · cases hv.symm.trans q8
    · refine ⟨q1, q2, q4.trans i3, q5.trans i4, ?_⟩
      rw [q8]
      exact i5

theorem Consecutive.bounds {first : Nat} (h1 : 1 ≤ first) : ∀ {l : List (Nat × Nat)} {last : Nat}, Consecutive first l last →
    first ≤ last + 1 ∧ ∀ p ∈ l, first ≤ p.1 ∧ p.1 ≤ p.2 ∧ p.2 ≤ last := by
  intro l
  induction l with
  | nil =>
    intro last h
    have h : last = first - 1 := h
    exact ⟨by omega, fun p hp => by cases hp⟩
  | cons x l ih =>
    obtain ⟨f, n⟩ := x
    intro last h
    obtain ⟨h2, h3, h4, h5⟩ := h
    obtain ⟨i1, i2⟩ := ih h5
    refine ⟨by omega, fun p hp => ?_⟩
    cases hp with
    | head => exact ⟨by show first ≤ f; omega, h3, Nat.le_of_eq h2⟩
    | tail _ hp =>
      obtain ⟨j1, j2, j3⟩ := i2 p hp
      exact ⟨j1, j2, by omega⟩

/-- C28: no two elements of a history share a bit, and all of them lie in the sequence. -/
theorem C28_disjoint {E : Type} {P : Element E} {Good : E → Prop} (hP : Lawful P Good) {c0 c : Ctx} {l : List (Nat × Nat)}
    (hc : c0.Pred P.indexLast) (hb : c0.hasBuffer = true) (hs : c0.sequenceLast = c0.first - 1) (h : History P Good c0 l c) :
    l.Pairwise (fun later earlier => earlier.2 < later.1) ∧ ∀ p ∈ l, c0.first ≤ p.1 ∧ p.1 ≤ p.2 ∧ p.2 ≤ c0.last := by
  obtain ⟨hp, _, h1, h2, h3⟩ := C28_histories hP hc hb hs h
  have hpos : 1 ≤ c0.first := by have := hc.2.2.2.1; omega
  obtain ⟨_, hb'⟩ := h3.bounds hpos
  refine ⟨?_, fun p hpl => ?_⟩
  · clear h hp hb'
    generalize c.sequenceLast = n at h3
    induction l generalizing n with
    | nil => exact List.Pairwise.nil
    | cons x l ih =>
      obtain ⟨f, m⟩ := x
      obtain ⟨_, h5, h6, h7⟩ := h3
      refine List.Pairwise.cons (fun p hpl => ?_) (ih _ h7)
      have := (h7.bounds hpos).2 p hpl
      show p.2 < f
      omega
  · obtain ⟨j1, j2, j3⟩ := hb' p hpl
    have := hp.2.2.2.2.2.2.2
    exact ⟨j1, j2, by omega⟩

/-- C28: a pair of `Switch` and `Update` whose preconditions hold moves the position forward by the size of the element, or, if
the element is not a valid message, marks the sequence as invalid, which excludes any further element. -/
theorem C28_forward {E : Type} {P : Element E} {Good : E → Prop} (hP : Lawful P Good) {c c1 c2 : Ctx} {e e' e'' : E}
    (hc : c.Pred P.indexLast) (hsw : switch P c = .ok (c1, e)) (hu : Used P Good e e') (hup : update P c1 e' = .ok (c2, e'')) :
    (c2.valid = true ∧ c.sequenceLast < c2.sequenceLast) ∨
    (c2.sequenceLast = c.sequenceLast ∧ ¬ switchPre c2) := by
  obtain ⟨e0, hsw', hp1, hg, hf, hl, hpre⟩ := C28_switch hP hc (switch_pre hsw)
  cases hsw.symm.trans hsw'
  obtain ⟨u1, u2, u3, u4, u5, u6, u7, u8⟩ := hpre
  obtain ⟨c', e', hup', q1, q2, q3, q4, q5, q6, q7, q8⟩ := C28_update hP hp1 hu.good
    ⟨u1, hu.hasBuffer, u3, u4, u5.trans hu.bufferFirst.symm, u6.trans hu.bufferLast.symm, by rw [hu.first]; exact u7,
      by rw [hu.last]; exact u8⟩
  cases hup.symm.trans hup'
  rcases q8 with ⟨_, q8, hn⟩ | ⟨_, q8, hn⟩
  · obtain ⟨m, hm, m1, m2⟩ := hP.elementLast _ hu.good
    cases hn.symm.trans hm
    exact .inl ⟨q8, by rw [hu.first, hf] at m1; omega⟩
  · refine .inr ⟨hn, fun h => ?_⟩
    obtain ⟨_, _, h⟩ := h
    rw [q8] at h
    cases h

/-! ## Example: messages of one byte -/

/-- A context of a message with one field of one byte; valid if the byte is not zero. -/
structure ByteMsg where
  bufferFirst : Nat
  bufferLast : Nat
  first : Nat
  last : Nat
  buffer : Option Bytes

/-- The operations of `ByteMsg`. -/
def byteMsg : Element ByteMsg where
  indexLast := 1000
  bufferFirst := (·.bufferFirst)
  bufferLast := (·.bufferLast)
  first := (·.first)
  last := (·.last)
  initElement b f l := .ok ⟨b.first, b.last.toNat, f, l, some b⟩
  takeBuffer e := .ok ({ e with buffer := none }, e.buffer)
  hasBuffer e := e.buffer.isSome
  elementLast e := .ok (min (e.first + 7) e.last)
  validMessage e := do
    match e.buffer with
    | some b => return (← b.get (byteIndex e.first)) != 0 && decide (e.first + 7 ≤ e.last)
    | none => throw .access

/-- The predicate of `ByteMsg`. -/
def ByteMsg.Good (e : ByteMsg) : Prop :=
  e.first ≤ e.last ∧ ∀ b, e.buffer = some b → b.first = e.bufferFirst ∧ b.last = e.bufferLast ∧ b.first ≤ byteIndex e.first ∧
    (byteIndex e.last : Int) ≤ b.last

theorem byteMsg_lawful : Lawful byteMsg ByteMsg.Good where
  initElement b f l h1 h2 h3 h4 h5 := by
    unfold Bytes.length at h1
    refine ⟨_, rfl, ⟨h4, fun b' hb' => ?_⟩, rfl, rfl, ?_, rfl, rfl⟩
    · cases hb'
      refine ⟨rfl, ?_, h2, h3⟩
      show b.last = (b.last.toNat : Int)
      unfold Bytes.last
      omega
    · show (b.last.toNat : Int) = b.last
      unfold Bytes.last
      omega
  takeBuffer e hg hb := by
    have hb' : e.buffer.isSome = true := hb
    cases he : e.buffer with
    | none => rw [he] at hb'; cases hb'
    | some b =>
      obtain ⟨g1, g2, _⟩ := hg.2 b he
      exact ⟨{ e with buffer := none }, b, by show Except.ok (_, e.buffer) = _; rw [he], g1, g2, rfl⟩
  validMessage e hg hb := by
    have hb' : e.buffer.isSome = true := hb
    cases he : e.buffer with
    | none => rw [he] at hb'; cases hb'
    | some b =>
      obtain ⟨g1, g2, g3, g4⟩ := hg.2 b he
      have hfl := hg.1
      obtain ⟨x, hx⟩ : ∃ x, b.get (byteIndex e.first) = .ok x := by
        unfold Bytes.get
        have hle : (byteIndex e.first : Int) ≤ b.last := by
          unfold byteIndex at g4 ⊢
          omega
        rw [if_pos ⟨by omega, hle⟩, List.getElem?_eq_getElem (by unfold Bytes.last at hle; omega)]
        exact ⟨_, rfl⟩
      refine ⟨x != 0 && decide (e.first + 7 ≤ e.last), ?_⟩
      simp only [byteMsg, he]
      rw [hx]
      rfl
  elementLast e hg := by
    have := hg.1
    exact ⟨_, rfl, by show e.first ≤ _; omega, by show _ ≤ e.last; omega⟩

/-- A sequence over three bytes. -/
def exC : Ctx := ⟨3, 5, 17, 40, 16, some ⟨3, [1, 2, 0]⟩, true⟩

/-- The hypotheses are met: two elements of the sequence are read, the third one is not valid. -/
example : ∃ c, History byteMsg ByteMsg.Good exC [(25, 32), (17, 24)] c ∧ c.valid = false := by
  have hu : ∀ {e : ByteMsg}, e.Good → e.buffer.isSome = true → Used byteMsg ByteMsg.Good e e :=
    fun h1 h2 => ⟨h1, h2, rfl, rfl, rfl, rfl⟩
  have hg : ∀ {f : Nat}, f ≤ 40 → 17 ≤ f → (⟨3, 5, f, 40, some ⟨3, [1, 2, 0]⟩⟩ : ByteMsg).Good := by
    intro f h1 h2
    refine ⟨h1, fun b hb => ?_⟩
    cases hb
    refine ⟨rfl, rfl, ?_, ?_⟩
    · show 3 ≤ byteIndex f
      unfold byteIndex
      omega
    · show (byteIndex 40 : Int) ≤ 5
      decide
  exact ⟨_, .invalid (.valid (.valid .start rfl (hu (hg (by decide) (by decide)) rfl) rfl rfl rfl) rfl
    (hu (hg (by decide) (by decide)) rfl) rfl rfl rfl) rfl (hu (hg (by decide) (by decide)) rfl) rfl rfl, rfl⟩

example : exC.Pred byteMsg.indexLast ∧ exC.hasBuffer = true ∧ exC.sequenceLast = exC.first - 1 := by decide

/-- C28 does not follow from the precondition of `Update` alone: it does not ask for the element that `Switch` handed out. With
another element context over the same buffer (the user took the buffer and initialized the element anew from the first bit on),
the position moves backward. -/
theorem C28_update_counterexample : ∃ (c c' : Ctx) (e e' : ByteMsg), c.Pred byteMsg.indexLast ∧ e.Good ∧
    updatePre byteMsg c e ∧ update byteMsg c e = .ok (c', e') ∧ c'.sequenceLast < c.sequenceLast := by
  refine ⟨⟨3, 5, 17, 40, 32, none, true⟩, _, ⟨3, 5, 17, 40, some ⟨3, [1, 2, 0]⟩⟩, _, by decide, ⟨by decide, fun b hb => ?_⟩,
    by decide, rfl, by decide⟩
  cases hb
  exact ⟨rfl, rfl, by decide, by decide⟩

end Verif.Spark.MessageSeq
