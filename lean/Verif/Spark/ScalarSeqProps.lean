import Verif.Spark.SeqLemmas

/-! # Sequences of scalars: property C27 -/

namespace Verif.Spark.ScalarSeq

/-- The formal parameters of the package are usable: an element has 1 to 64 bits and `To_Base` returns a value of
`Element_Base_Type`; there is more than one index. -/
structure Params.Ok {α : Type} (P : Params α) : Prop where
  pos : 1 ≤ P.size
  le : P.size ≤ 64
  base : ∀ v, P.toBase v < 2 ^ P.size
  index : 2 ≤ P.indexLast

/-- A buffer of the type `Bytes`: indices from 1 on, elements are bytes. -/
def OkBytes {α : Type} (P : Params α) (b : Bytes) : Prop := 1 ≤ b.first ∧ b.last ≤ P.indexLast ∧ AreBytes b.data

/-- A context whose predicate holds and whose buffer consists of bytes. -/
structure Inv {α : Type} (P : Params α) (c : Ctx) : Prop where
  pred : c.Pred P
  buffer : ∀ b, c.buffer = some b → OkBytes P b

theorem checked_ok {α : Type} {P : Params α} {c : Ctx} (h : c.Pred P) : checked P c = .ok c := by simp [checked, h]

/-! ## Single operations -/

theorem init_ok {α : Type} {P : Params α} {b : Bytes} {bf bl f l : Nat} (h : initPre P b bf bl f l) :
    init P b bf bl f l = .ok ⟨bf, bl, f, l, f - 1, some b, true, 0⟩ := by
  unfold init
  rw [pre_ok h]
  obtain ⟨h1, h2, h3, h4, h5, h6, h7⟩ := h
  refine checked_ok ⟨fun b' hb' => ?_, ?_, ?_, h5, h6, h7, Nat.le_refl _, ?_⟩
  · cases hb'
    exact ⟨h1, h2⟩
  · show bf ≤ byteIndex f
    omega
  · show byteIndex l ≤ bl
    omega
  · show f - 1 ≤ l
    omega

theorem init_inv {α : Type} {P : Params α} {b : Bytes} {bf bl f l : Nat} {c : Ctx} (hb : OkBytes P b)
    (h : init P b bf bl f l = .ok c) : initPre P b bf bl f l ∧ Inv P c ∧ c.buffer = some b ∧ c.valid = true ∧
      c.sequenceLast = f - 1 ∧ c.first = f ∧ c.last = l ∧ c.bufferFirst = bf ∧ c.bufferLast = bl := by
  obtain ⟨_, hp, h⟩ := bind_ok (h : (pre _).bind _ = _)
  unfold pre at hp
  split at hp
  · rename_i hpre
    unfold checked at h
    split at h
    · rename_i hpred
      cases h
      exact ⟨hpre, ⟨hpred, fun b' hb' => by cases hb'; exact hb⟩, rfl, rfl, rfl, rfl, rfl, rfl, rfl⟩
    · cases h
  · cases hp

theorem content_ok {c : Ctx} {b : Bytes} (h : c.buffer = some b) : c.content = .ok b := by simp [Ctx.content, h]

/-- What an operation leaves alone. -/
structure Same (c c' : Ctx) : Prop where
  bufferFirst : c'.bufferFirst = c.bufferFirst
  bufferLast : c'.bufferLast = c.bufferLast
  first : c'.first = c.first
  last : c'.last = c.last

theorem read_ok {α : Type} {P : Params α} {c : Ctx} {b : Bytes} (hP : P.Ok) (hc : Inv P c) (hb : c.buffer = some b)
    (hsp : P.size ≤ c.last - c.sequenceLast) :
    ∃ x, HoldsAt b P.size (c.sequenceLast + P.size) x ∧
      readNextElement P c = .ok { c with nextElement := x, valid := c.valid && P.valid x } := by
  obtain ⟨p1, p2, p3, p4, p5, p6, p7, p8⟩ := hc.pred
  obtain ⟨q1, q2⟩ := p1 b hb
  obtain ⟨o1, o2, o3⟩ := hc.buffer b hb
  have hPpos := hP.pos
  have hf : b.first ≤ byteIndex (c.sequenceLast + 1) := by
    unfold byteIndex at *
    omega
  have hlb : byteIndex (c.sequenceLast + P.size) ≤ c.bufferLast := by
    unfold byteIndex at *
    omega
  have hfl : byteIndex (c.sequenceLast + 1) ≤ byteIndex (c.sequenceLast + P.size) := by
    unfold byteIndex
    omega
  obtain ⟨sl, x, hs, hx, hh⟩ := read_scalar (p := c.sequenceLast) (s := P.size) o3 q2 hP.pos hP.le hf hlb
  refine ⟨x, hh, ?_⟩
  unfold readNextElement
  rw [pre_ok ⟨by simp [Ctx.hasBuffer, hb], hsp⟩]
  show (inRange _).bind _ = _
  rw [inRange_ok (by omega)]
  show (c.content).bind _ = _
  rw [content_ok hb]
  show (if b.first ≤ byteIndex (c.sequenceLast + 1) ∧ (byteIndex (c.sequenceLast + P.size) : Int) ≤ b.last ∧ _ ≤ _ then
    _ else _) = _
  rw [if_pos ⟨hf, by omega, hfl⟩, hs]
  show (extract P.size sl ((8 - (c.sequenceLast + P.size) % 8) % 8)).bind _ = _
  rw [hx]
  have hpred : ∀ v, Ctx.Pred P { c with nextElement := x, valid := v } := fun v => ⟨p1, p2, p3, p4, p5, p6, p7, p8⟩
  show checked P (if ({ c with nextElement := x } : Ctx).validElement P then { c with nextElement := x }
    else { c with nextElement := x, valid := false }) = _
  unfold Ctx.validElement
  by_cases hv : (c.valid && P.valid x) = true
  · rw [if_pos hv, hv, show c.valid = true by revert hv; cases c.valid <;> simp]
    exact checked_ok (hpred _)
  · rw [if_neg hv, show (c.valid && P.valid x) = false by revert hv; cases (c.valid && P.valid x) <;> simp]
    exact checked_ok (hpred _)

theorem next_ok {α : Type} {P : Params α} {c : Ctx} {b : Bytes} (hP : P.Ok) (hc : Inv P c) (hb : c.buffer = some b)
    (he : c.hasElement P = true) :
    ∃ x, HoldsAt b P.size (c.sequenceLast + P.size) x ∧
      next P c = .ok { c with nextElement := x, valid := c.valid && P.valid x, sequenceLast := c.sequenceLast + P.size } ∧
      Inv P { c with nextElement := x, valid := c.valid && P.valid x, sequenceLast := c.sequenceLast + P.size } := by
  have he' := he
  unfold Ctx.hasElement at he'
  rw [Bool.and_eq_true, decide_eq_true_eq] at he'
  obtain ⟨x, hx, hr⟩ := read_ok hP hc hb he'.2
  obtain ⟨p1, p2, p3, p4, p5, p6, p7, p8⟩ := hc.pred
  have hPpos := hP.pos
  have hpred : Ctx.Pred P { c with nextElement := x, valid := c.valid && P.valid x, sequenceLast := c.sequenceLast + P.size } :=
    ⟨p1, p2, p3, p4, p5, p6, by show c.first - 1 ≤ c.sequenceLast + P.size; omega,
      by show c.sequenceLast + P.size ≤ c.last; omega⟩
  refine ⟨x, hx, ?_, hpred, hc.buffer⟩
  unfold next
  rw [pre_ok ⟨by simp [Ctx.hasBuffer, hb], he⟩, hr]
  show (inRange (c.sequenceLast + P.size ≤ 8 * P.indexLast)).bind _ = _
  rw [inRange_ok (by omega)]
  exact checked_ok hpred

theorem append_ok {α : Type} {P : Params α} {c : Ctx} {b : Bytes} {v : α} (hP : P.Ok) (hc : Inv P c) (hb : c.buffer = some b)
    (hv : c.valid = true) (hval : P.valid (P.toBase v) = true) (hsp : P.size ≤ c.availableSpace) :
    ∃ b', appendElement P c v = .ok { c with buffer := some b', sequenceLast := c.sequenceLast + P.size } ∧
      Inv P { c with buffer := some b', sequenceLast := c.sequenceLast + P.size } ∧ b'.first = b.first ∧ b'.length = b.length ∧
      ∀ k, bit b'.data k = if 8 * c.bufferLast - (c.sequenceLast + P.size) ≤ k ∧ k < 8 * c.bufferLast - c.sequenceLast then
        (P.toBase v).testBit (k - (8 * c.bufferLast - (c.sequenceLast + P.size))) else bit b.data k := by
  obtain ⟨p1, p2, p3, p4, p5, p6, p7, p8⟩ := hc.pred
  obtain ⟨q1, q2⟩ := p1 b hb
  obtain ⟨o1, o2, o3⟩ := hc.buffer b hb
  have hPpos := hP.pos
  have hsp' : P.size ≤ c.last - c.sequenceLast := hsp
  have hf : b.first ≤ byteIndex (c.sequenceLast + 1) := by
    unfold byteIndex at *
    omega
  have hlb : byteIndex (c.sequenceLast + P.size) ≤ c.bufferLast := by
    unfold byteIndex at *
    omega
  have hfl : byteIndex (c.sequenceLast + 1) ≤ byteIndex (c.sequenceLast + P.size) := by
    unfold byteIndex
    omega
  obtain ⟨sl, sl', hs, hw, hlen, hby, hbits⟩ := write_scalar (p := c.sequenceLast) o3 q2 hP.pos hP.le (hP.base v) hf hlb
  have hlast : (b.putSlice (byteIndex (c.sequenceLast + 1)) sl').last = b.last := by
    unfold Bytes.last
    unfold Bytes.length at hlen
    rw [hlen]
    rfl
  have hpred : Ctx.Pred P
      { c with buffer := some (b.putSlice (byteIndex (c.sequenceLast + 1)) sl'), sequenceLast := c.sequenceLast + P.size } :=
    ⟨fun b' hb' => by cases hb'; exact ⟨q1, hlast.trans q2⟩, p2, p3, p4, p5, p6,
      by show c.first - 1 ≤ c.sequenceLast + P.size; omega, by show c.sequenceLast + P.size ≤ c.last; omega⟩
  refine ⟨_, ?_, ⟨hpred, fun b' hb' => ?_⟩, rfl, hlen, hbits⟩
  · unfold appendElement
    rw [pre_ok ⟨by simp [Ctx.hasBuffer, hb], hv, hval, hsp⟩]
    show (inRange _).bind _ = _
    rw [inRange_ok (by omega)]
    show (c.content).bind _ = _
    rw [content_ok hb]
    show (if b.first ≤ byteIndex (c.sequenceLast + 1) ∧ (byteIndex (c.sequenceLast + P.size) : Int) ≤ b.last ∧ _ ≤ _ then
      _ else _) = _
    rw [if_pos ⟨hf, by omega, hfl⟩, hs]
    show (insert P.size (P.toBase v) sl ((8 - (c.sequenceLast + P.size) % 8) % 8)).bind _ = _
    rw [hw]
    exact checked_ok hpred
  · cases hb'
    exact ⟨o1, by rw [hlast]; exact o2, hby⟩

/-! ## Histories -/

/-- The operations that a user calls; a user holds one pointer to a buffer. -/
inductive Op (α : Type) where
  | initAll
  | init (bufferFirst bufferLast first last : Nat)
  | takeBuffer
  | copy (length : Nat)
  | next
  | getElement
  | appendElement (value : α)

/-- The context and the buffer in the hands of the user. -/
structure World where
  ctx : Ctx
  held : Option Bytes

/-- The precondition of an operation as stated in the declaration of the package (`rflx_scalar_sequence.ads`). -/
def Op.Allowed {α : Type} (P : Params α) (w : World) : Op α → Prop
  | .initAll => ∃ b, w.held = some b ∧ 0 < b.length ∧ b.last < P.indexLast
  | .init bf bl f l => ∃ b, w.held = some b ∧ initPre P b bf bl f l
  | .takeBuffer => w.ctx.hasBuffer = true
  | .copy n => w.ctx.hasBuffer = true ∧ w.ctx.byteSize = n
  | .next => w.ctx.hasBuffer = true ∧ w.ctx.hasElement P = true
  | .getElement => w.ctx.validElement P = true
  | .appendElement v => w.ctx.hasBuffer = true ∧ w.ctx.valid = true ∧ P.valid (P.toBase v) = true ∧
      P.size ≤ w.ctx.availableSpace

/-- Performing an operation. -/
def Op.run {α : Type} (P : Params α) (w : World) : Op α → Ada World
  | .initAll =>
    match w.held with
    | some b => do return ⟨← ScalarSeq.initAll P b, none⟩
    | none => .error .precondition
  | .init bf bl f l =>
    match w.held with
    | some b => do return ⟨← ScalarSeq.init P b bf bl f l, none⟩
    | none => .error .precondition
  | .takeBuffer => do
    let (c, b) ← ScalarSeq.takeBuffer P w.ctx
    return ⟨c, b⟩
  | .copy n => do
    let _ ← ScalarSeq.copy P w.ctx n
    return w
  | .next => do return ⟨← ScalarSeq.next P w.ctx, w.held⟩
  | .getElement => do
    let _ ← ScalarSeq.getElement P w.ctx
    return w
  | .appendElement v => do return ⟨← ScalarSeq.appendElement P w.ctx v, w.held⟩

/-- The states that a user can reach without violating a precondition. -/
inductive Reachable {α : Type} (P : Params α) : World → Prop where
  /-- A context after its declaration is default initialized and holds no buffer. -/
  | start (bf bl f l : Nat) (b : Option Bytes) (hb : ∀ x, b = some x → OkBytes P x)
      (hd : bf ≤ byteIndex f ∧ byteIndex l ≤ bl ∧ f % 8 = 1 ∧ f ≤ l ∧ l ≤ 8 * P.indexLast - 1) :
      Reachable P ⟨⟨bf, bl, f, l, f - 1, none, true, 0⟩, b⟩
  | step {w w' : World} (op : Op α) : Reachable P w → op.Allowed P w → op.run P w = .ok w' → Reachable P w'

/-- The invariant of a state. -/
structure WInv {α : Type} (P : Params α) (w : World) : Prop where
  ctx : Inv P w.ctx
  held : ∀ b, w.held = some b → OkBytes P b

theorem copy_ok {α : Type} {P : Params α} {c : Ctx} {b : Bytes} {n : Nat} (hP : P.Ok) (hc : Inv P c) (hb : c.buffer = some b)
    (hn : c.byteSize = n) : ∃ d, copy P c n = .ok d ∧ d.length = n ∧
      ∀ i, i < n → d[i]? = b.data[byteIndex c.first - c.bufferFirst + i]? := by
  obtain ⟨p1, p2, p3, p4, p5, p6, p7, p8⟩ := hc.pred
  obtain ⟨q1, q2⟩ := p1 b hb
  unfold copy
  rw [pre_ok ⟨by simp [Ctx.hasBuffer, hb], hn⟩]
  show ∃ d, (c.content).bind _ = _ ∧ _
  unfold Ctx.content
  rw [hb]
  unfold Ctx.byteSize at hn
  split at hn
  · subst hn
    refine ⟨[], ?_, rfl, fun i hi => by omega⟩
    show (b.slice P.indexLast 1).bind _ = _
    have := hP.index
    unfold Bytes.slice
    rw [if_pos (by omega)]
    rfl
  · have hlen := last_eq q2
    unfold byteIndex at hn p2 p3 ⊢
    obtain ⟨s, hs, _, hl, _, hd⟩ := slice_ok (f := (c.first - 1) / 8 + 1) (l := (c.sequenceLast - 1) / 8 + 1) q2 (by omega)
      (by omega) (by omega)
    refine ⟨s.data, ?_, by unfold Bytes.length at hl; omega, fun i hi => ?_⟩
    · show (if 0 < n then do
          inRange (0 < c.sequenceLast)
          b.slice ((c.first - 1) / 8 + 1) ((c.sequenceLast - 1) / 8 + 1)
        else b.slice P.indexLast 1 : Ada Bytes).bind _ = _
      rw [if_pos (by omega), inRange_ok (by omega)]
      show (b.slice ((c.first - 1) / 8 + 1) ((c.sequenceLast - 1) / 8 + 1)).bind _ = _
      rw [hs]
      show (if s.length = n then Except.ok s.data else Except.error AdaErr.range) = _
      rw [if_pos (by omega)]
    · rw [hd, List.getElem?_take_of_lt (by omega), List.getElem?_drop, q1]

theorem initAll_ok {α : Type} {P : Params α} {b : Bytes} (hb : OkBytes P b) (h : 0 < b.length ∧ b.last < P.indexLast) :
    ∃ c, initAll P b = .ok c ∧ Inv P c := by
  obtain ⟨o1, o2, o3⟩ := hb
  have hpos : 0 < b.data.length := h.1
  have hpre : initPre P b b.first b.last.toNat (firstBitIndex b.first) (lastBitIndex b.last.toNat) := by
    have h2 := h.2
    unfold initPre byteIndex firstBitIndex lastBitIndex
    unfold Bytes.last at h2 ⊢
    omega
  unfold initAll
  rw [pre_ok h]
  refine ⟨_, init_ok hpre, (init_inv ⟨o1, o2, o3⟩ (init_ok hpre)).2.1⟩

/-- C27, one operation: an operation whose precondition holds completes without any failing check and the predicate of the
context holds afterwards. -/
theorem C27_step {α : Type} {P : Params α} {w : World} (hP : P.Ok) (hw : WInv P w) (op : Op α) (h : op.Allowed P w) :
    ∃ w', op.run P w = .ok w' ∧ WInv P w' := by
  have hbuf : ∀ {c : Ctx}, c.hasBuffer = true → ∃ b, c.buffer = some b := by
    intro c hc
    unfold Ctx.hasBuffer at hc
    cases hb : c.buffer with
    | none => rw [hb] at hc; cases hc
    | some b => exact ⟨b, rfl⟩
  cases op with
  | initAll =>
    obtain ⟨b, hb, h⟩ := h
    obtain ⟨c, hc, hi⟩ := initAll_ok (hw.held b hb) h
    refine ⟨⟨c, none⟩, ?_, hi, fun _ h => nomatch h⟩
    simp only [Op.run, hb]
    rw [hc]
    rfl
  | init bf bl f l =>
    obtain ⟨b, hb, h⟩ := h
    have hc := init_ok h
    refine ⟨⟨_, none⟩, ?_, (init_inv (hw.held b hb) hc).2.1, fun _ h => nomatch h⟩
    simp only [Op.run, hb]
    rw [hc]
    rfl
  | takeBuffer =>
    obtain ⟨b, hb⟩ := hbuf h
    obtain ⟨p1, p2, p3, p4, p5, p6, p7, p8⟩ := hw.ctx.pred
    have hpred : Ctx.Pred P { w.ctx with buffer := none } := ⟨fun _ h => (nomatch h), p2, p3, p4, p5, p6, p7, p8⟩
    refine ⟨⟨{ w.ctx with buffer := none }, w.ctx.buffer⟩, ?_, ⟨hpred, fun _ h => nomatch h⟩, hw.ctx.buffer⟩
    have ht : takeBuffer P w.ctx = .ok ({ w.ctx with buffer := none }, w.ctx.buffer) := by
      unfold takeBuffer
      rw [pre_ok (show w.ctx.hasBuffer = true from h)]
      show (checked P { w.ctx with buffer := none }).bind _ = _
      rw [checked_ok hpred]
      rfl
    simp only [Op.run]
    rw [ht]
    rfl
  | copy n =>
    obtain ⟨b, hb⟩ := hbuf h.1
    obtain ⟨d, hd, _⟩ := copy_ok hP hw.ctx hb h.2
    refine ⟨w, ?_, hw⟩
    simp only [Op.run]
    rw [hd]
    rfl
  | next =>
    obtain ⟨b, hb⟩ := hbuf h.1
    obtain ⟨x, _, hn, hi⟩ := next_ok hP hw.ctx hb h.2
    refine ⟨⟨_, w.held⟩, ?_, hi, hw.held⟩
    simp only [Op.run]
    rw [hn]
    rfl
  | getElement =>
    refine ⟨w, ?_, hw⟩
    simp only [Op.run, getElement]
    rw [pre_ok (show w.ctx.validElement P = true from h)]
    rfl
  | appendElement v =>
    obtain ⟨b, hb⟩ := hbuf h.1
    obtain ⟨b', ha, hi, _⟩ := append_ok hP hw.ctx hb h.2.1 h.2.2.1 h.2.2.2
    refine ⟨⟨_, w.held⟩, ?_, hi, hw.held⟩
    simp only [Op.run]
    rw [ha]
    rfl

/-- C27: in every state that is reached by any history of operations whose preconditions hold, the predicate of the context
holds, and every further operation whose precondition holds completes. -/
theorem C27_histories {α : Type} {P : Params α} (hP : P.Ok) {w : World} (h : Reachable P w) :
    w.ctx.Pred P ∧ ∀ op : Op α, op.Allowed P w → ∃ w', op.run P w = .ok w' := by
  have hi : WInv P w := by
    induction h with
    | start bf bl f l b hb hd =>
      obtain ⟨h1, h2, h3, h4, h5⟩ := hd
      exact ⟨⟨⟨fun _ h => (nomatch h), h1, h2, h3, h4, h5, Nat.le_refl _, by show f - 1 ≤ l; omega⟩, fun _ h => nomatch h⟩, hb⟩
    | step op _ ha hr ih =>
      obtain ⟨w'', hr', hi⟩ := C27_step hP ih op ha
      cases hr.symm.trans hr'
      exact hi
  exact ⟨hi.ctx.pred, fun op ha => (C27_step hP hi op ha).imp fun _ h => h.1⟩

/-! ## Round trip -/

/-- Appending elements one after the other. -/
def appendAll {α : Type} (P : Params α) : List α → Ctx → Ada Ctx
  | [], c => .ok c
  | v :: vs, c => (appendElement P c v).bind (appendAll P vs)

/-- Reading a number of elements one after the other. -/
def readAll {α : Type} (P : Params α) : Nat → Ctx → Ada (List α × Ctx)
  | 0, c => .ok ([], c)
  | n + 1, c => (next P c).bind fun c => (getElement P c).bind fun v => (readAll P n c).bind fun (vs, c) => .ok (v :: vs, c)

theorem appendAll_ok {α : Type} {P : Params α} (hP : P.Ok) : ∀ (vs : List α) {c : Ctx} {b : Bytes}, Inv P c →
    c.buffer = some b → c.valid = true → (∀ v ∈ vs, P.valid (P.toBase v) = true) →
    c.sequenceLast + vs.length * P.size ≤ c.last →
    ∃ c' b', appendAll P vs c = .ok c' ∧ Inv P c' ∧ Same c c' ∧ c'.valid = true ∧ c'.buffer = some b' ∧
      b'.first = b.first ∧ b'.length = b.length ∧ c'.sequenceLast = c.sequenceLast + vs.length * P.size ∧
      (∀ k, 8 * c.bufferLast - c.sequenceLast ≤ k ∨ k < 8 * c.bufferLast - c'.sequenceLast → bit b'.data k = bit b.data k) ∧
      ∀ i (hi : i < vs.length), HoldsAt b' P.size (c.sequenceLast + (i + 1) * P.size) (P.toBase vs[i]) := by
  intro vs
  induction vs with
  | nil =>
    intro c b hc hb hv _ _
    exact ⟨c, b, rfl, hc, ⟨rfl, rfl, rfl, rfl⟩, hv, hb, rfl, rfl, by simp, fun _ _ => rfl, fun i hi => by simp at hi⟩
  | cons v vs ih =>
    intro c b hc hb hv hval hsp
    rw [List.length_cons, Nat.add_mul, Nat.one_mul] at hsp
    obtain ⟨b1, ha, hi1, hf1, hl1, hb1⟩ := append_ok hP hc hb hv (hval v (List.mem_cons_self ..))
      (by show P.size ≤ c.last - c.sequenceLast; omega)
    obtain ⟨c', b', hA, hI, hS, hV, hB, hf, hl, hsl, hout, hin⟩ := ih hi1 rfl hv
      (fun w hw => hval w (List.mem_cons_of_mem _ hw))
      (by show c.sequenceLast + P.size + vs.length * P.size ≤ c.last; omega)
    simp only at hsl hout hin
    obtain ⟨p1, p2, p3, p4, p5, p6, p7, p8⟩ := hI.pred
    obtain ⟨q1, q2⟩ := p1 b' hB
    have hbl : c'.bufferLast = c.bufferLast := hS.bufferLast
    have hlb : c'.last ≤ 8 * c'.bufferLast := by
      unfold byteIndex at p3
      omega
    refine ⟨c', b', ?_, hI, ⟨hS.1, hS.2, hS.3, hS.4⟩, hV, hB, hf.trans hf1, hl.trans hl1, ?_, fun k hk => ?_, fun i hi => ?_⟩
    · show (appendElement P c v).bind _ = _
      rw [ha]
      exact hA
    · rw [hsl, List.length_cons, Nat.add_mul]
      omega
    · rw [hout k (by omega), hb1, if_neg (by omega)]
    · cases i with
      | zero =>
        refine ⟨hP.base v, fun j hj => ?_⟩
        have hPp := hP.pos
        have : (8 * b'.last).toNat = 8 * c.bufferLast := by rw [q2]; omega
        rw [this, Nat.zero_add, Nat.one_mul, hout _ (by omega), hb1, if_pos (by omega)]
        show (P.toBase v).testBit j = _
        congr 1
        omega
      | succ i =>
        have := hin i (by simpa using hi)
        rw [show c.sequenceLast + (i + 1 + 1) * P.size = c.sequenceLast + P.size + (i + 1) * P.size by
          rw [Nat.add_mul (i + 1), Nat.one_mul]; omega]
        exact this

theorem readAll_ok {α : Type} {P : Params α} (hP : P.Ok) : ∀ (vs : List α) {c : Ctx} {b : Bytes}, Inv P c →
    c.buffer = some b → c.valid = true → (∀ v ∈ vs, P.valid (P.toBase v) = true ∧ P.toActual (P.toBase v) = v) →
    c.sequenceLast + vs.length * P.size ≤ c.last →
    (∀ i (hi : i < vs.length), HoldsAt b P.size (c.sequenceLast + (i + 1) * P.size) (P.toBase vs[i])) →
    ∃ c', readAll P vs.length c = .ok (vs, c') ∧ Inv P c' ∧ c'.valid = true ∧ c'.buffer = some b ∧
      c'.last = c.last ∧ c'.first = c.first ∧ c'.sequenceLast = c.sequenceLast + vs.length * P.size := by
  intro vs
  induction vs with
  | nil =>
    intro c b hc hb hv _ _ _
    exact ⟨c, rfl, hc, hv, hb, rfl, rfl, by simp⟩
  | cons v vs ih =>
    intro c b hc hb hv hval hsp hin
    rw [List.length_cons, Nat.add_mul, Nat.one_mul] at hsp
    obtain ⟨x, hx, hn, hi1⟩ := next_ok hP hc hb (by
      unfold Ctx.hasElement
      rw [hv, Bool.true_and, decide_eq_true_eq]
      omega)
    have h0 := hin 0 (by simp)
    rw [Nat.zero_add, Nat.one_mul] at h0
    obtain rfl : x = P.toBase v := hx.unique h0
    have hvv := hval v (List.mem_cons_self ..)
    rw [hv, hvv.1] at hn hi1
    obtain ⟨c', hr, hI, hV, hB, hl, hf, hsl⟩ := ih hi1 hb rfl (fun w hw => hval w (List.mem_cons_of_mem _ hw))
      (by show c.sequenceLast + P.size + vs.length * P.size ≤ c.last; omega) (fun i hi => by
        have := hin (i + 1) (by simpa using hi)
        rw [show c.sequenceLast + (i + 1 + 1) * P.size = c.sequenceLast + P.size + (i + 1) * P.size by
          rw [Nat.add_mul (i + 1), Nat.one_mul]; omega] at this
        exact this)
    refine ⟨c', ?_, hI, hV, hB, hl, hf, by rw [hsl, List.length_cons, Nat.add_mul]; show c.sequenceLast + P.size + _ = _; omega⟩
    show (next P c).bind _ = _
    rw [hn]
    show (getElement P _).bind _ = _
    unfold getElement
    rw [pre_ok (by unfold Ctx.validElement; simp [hvv.1])]
    show (readAll P vs.length _).bind _ = _
    simp only
    rw [hr]
    show Except.ok (P.toActual (P.toBase v) :: vs, c') = _
    rw [hvv.2]

/-- C27, round trip: elements that fit are appended without any failing check, `Size` is the number of elements times the size
of an element, and a context that is initialized with the resulting buffer over at least these bits reads exactly the same
elements in the same order. -/
theorem C27_round_trip {α : Type} {P : Params α} (hP : P.Ok) {b : Bytes} (hb : OkBytes P b) {bf bl f l : Nat}
    (hpre : initPre P b bf bl f l) {vs : List α}
    (hval : ∀ v ∈ vs, P.valid (P.toBase v) = true ∧ P.toActual (P.toBase v) = v) (hsp : vs.length * P.size ≤ l + 1 - f) :
    ∃ c0 c1 c2 b', init P b bf bl f l = .ok c0 ∧ appendAll P vs c0 = .ok c1 ∧ c1.size = vs.length * P.size ∧
      takeBuffer P c1 = .ok (c2, some b') ∧ b'.first = b.first ∧ b'.length = b.length ∧
      ∀ l', f ≤ l' → f + vs.length * P.size ≤ l' + 1 → l' ≤ l →
        ∃ c3 c4, init P b' bf bl f l' = .ok c3 ∧ readAll P vs.length c3 = .ok (vs, c4) ∧ c4.size = vs.length * P.size ∧
          (c4.hasElement P = true ↔ f + (vs.length + 1) * P.size ≤ l' + 1) := by
  have h0 := init_ok hpre
  obtain ⟨_, hi0, -⟩ := init_inv hb h0
  have hpre' := hpre
  obtain ⟨i1, i2, i3, i4, i5, i6, i7⟩ := hpre
  obtain ⟨c1, b', hA, hI, hS, hV, hB, hf, hl, hsl, hout, hin⟩ := appendAll_ok hP vs hi0 rfl rfl (fun v hv => (hval v hv).1)
    (by show f - 1 + vs.length * P.size ≤ l; omega)
  simp only at hsl hin
  obtain ⟨p1, p2, p3, p4, p5, p6, p7, p8⟩ := hI.pred
  have hpred : Ctx.Pred P { c1 with buffer := none } := ⟨fun _ h => (nomatch h), p2, p3, p4, p5, p6, p7, p8⟩
  have hob := hI.buffer b' hB
  obtain ⟨q1, q2⟩ := p1 b' hB
  have hfst : c1.first = f := hS.first
  refine ⟨_, c1, { c1 with buffer := none }, b', h0, hA, ?_, ?_, hf, hl, fun l' h1 h2 h3 => ?_⟩
  · unfold Ctx.size
    rw [hsl, hfst]
    omega
  · unfold takeBuffer
    rw [pre_ok (by simp [Ctx.hasBuffer, hB])]
    show (checked P { c1 with buffer := none }).bind _ = _
    rw [checked_ok hpred, hB]
    rfl
  · have hlast : b'.last = b.last := by
      unfold Bytes.last
      unfold Bytes.length at hl
      rw [hf, hl]
    have hp' : initPre P b' bf bl f l' := by
      refine ⟨hf.trans i1, hlast.trans i2, by rw [hf]; exact i3, ?_, i5, h1, by omega⟩
      rw [hlast]
      have : byteIndex l' ≤ byteIndex l := by
        unfold byteIndex
        omega
      omega
    have h3' := init_ok hp'
    obtain ⟨_, hi3, -⟩ := init_inv hob h3'
    obtain ⟨c4, hr, hI4, hV4, hB4, hl4, hf4, hsl4⟩ := readAll_ok hP vs hi3 rfl rfl hval
      (by show f - 1 + vs.length * P.size ≤ l'; omega) hin
    simp only at hl4 hf4 hsl4
    refine ⟨_, c4, h3', hr, by unfold Ctx.size; rw [hsl4, hf4]; omega, ?_⟩
    unfold Ctx.hasElement
    rw [hV4, Bool.true_and, decide_eq_true_eq, hl4, hsl4, Nat.add_mul, Nat.one_mul]
    have := hP.pos
    omega

/-- C27: appending changes no bit outside of the elements. -/
theorem C27_append_frame {α : Type} {P : Params α} (hP : P.Ok) {c c' : Ctx} {b b' : Bytes} {v : α} (hc : Inv P c)
    (hb : c.buffer = some b) (h : appendElement P c v = .ok c') (hb' : c'.buffer = some b') :
    c'.sequenceLast = c.sequenceLast + P.size ∧ ∀ p, p ≤ c.sequenceLast ∨ c'.sequenceLast < p → p ≤ 8 * c.bufferLast →
      bit b'.data (8 * c.bufferLast - p) = bit b.data (8 * c.bufferLast - p) := by
  obtain ⟨_, hp, _⟩ := bind_ok (h : (pre _).bind _ = _)
  unfold pre at hp
  split at hp
  · rename_i hpre
    obtain ⟨b'', ha, _, _, _, hbits⟩ := append_ok hP hc hb hpre.2.1 hpre.2.2.1 hpre.2.2.2
    cases h.symm.trans ha
    cases hb'
    refine ⟨rfl, fun p hp hp' => ?_⟩
    simp only at hp
    rw [hbits, if_neg (by omega)]
  · cases hp

/-- C27, the error branch: an element that does not fit is rejected by the precondition. -/
theorem C27_append_full {α : Type} {P : Params α} {c : Ctx} {v : α} (h : c.availableSpace < P.size) :
    appendElement P c v = .error .precondition := by
  unfold appendElement
  show (pre _).bind _ = _
  unfold pre
  rw [if_neg (by omega)]
  rfl

/-! ## Examples -/

/-- Elements of 12 bits, values up to 4000 are valid. -/
def exP : Params Nat := ⟨1000, 12, fun x => decide (x ≤ 4000), id, (· % 4096)⟩

theorem exP_ok : exP.Ok := ⟨by decide, by decide, fun v => Nat.mod_lt v (by decide), by decide⟩

/-- A buffer of five bytes at index 3. -/
def exB : Bytes := ⟨3, [0xAA, 0xBB, 0xCC, 0xDD, 0xEE]⟩

/-- The hypotheses of the round trip are met: three elements of 12 bits do not end at a byte boundary. -/
example : ∃ c0 c1 c2 b', init exP exB 3 7 17 56 = .ok c0 ∧ appendAll exP [0x123, 0xABC, 0xF00] c0 = .ok c1 ∧ c1.size = 36 ∧
    takeBuffer exP c1 = .ok (c2, some b') ∧
    ∃ c3 c4, init exP b' 3 7 17 56 = .ok c3 ∧ readAll exP 3 c3 = .ok ([0x123, 0xABC, 0xF00], c4) := by
  obtain ⟨c0, c1, c2, b', h0, h1, h2, h3, _, _, h⟩ := C27_round_trip exP_ok (b := exB) (by unfold OkBytes; decide) (bf := 3)
    (bl := 7) (f := 17) (l := 56) (by decide) (vs := [0x123, 0xABC, 0xF00]) (by decide) (by decide)
  obtain ⟨c3, c4, h4, h5, _⟩ := h 56 (by decide) (by decide) (by decide)
  exact ⟨c0, c1, c2, b', h0, h1, h2, h3, c3, c4, h4, h5⟩

/-- The buffer afterwards. -/
example : (((init exP exB 3 7 17 56).bind (appendAll exP [0x123, 0xABC, 0xF00])).map fun c => c.buffer) =
    .ok (some ⟨3, [0x12, 0x3A, 0xBC, 0xF0, 0x0E]⟩) := by rfl

/-- A history: initialize and append. -/
example : ∃ w : World, Reachable exP w ∧ w.ctx.sequenceLast = 28 := by
  refine ⟨_, .step (.appendElement 7) (.step (.init 3 7 17 56) (.start 1 1 1 1 (some exB) (fun x h => ?_) (by decide))
    ⟨exB, rfl, by decide⟩ rfl) (by simp only [Op.Allowed]; decide) rfl, rfl⟩
  cases h
  unfold OkBytes
  decide

/-- A full sequence. -/
example : ((init exP exB 3 7 17 32).bind fun c => appendAll exP [1, 2] c).isOk = false := by rfl

/-- A limit of C27: the precondition of `Get_Element` does not demand that an element was read. Directly after `Initialize` it
holds if the base value 0 is valid, and the result has nothing to do with the buffer. -/
theorem C27_get_before_next_counterexample : ∃ (c : Ctx), init exP exB 3 7 17 56 = .ok c ∧ c.size = 0 ∧
    getElement exP c = .ok 0 ∧ ¬ HoldsAt exB 12 28 0 := by
  refine ⟨_, rfl, rfl, rfl, fun h => ?_⟩
  have := h.2 1 (by decide)
  revert this
  decide

end Verif.Spark.ScalarSeq
