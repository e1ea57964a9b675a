import Verif.Access.Lemmas

/-! # C68: accessors of message contexts give what the buffer contains

Histories are those of `Verif/Ctx/History.lean`; messages, buffers and positions are those of `Verif/Ctx/Spec.lean`: `bitsAt` is the
number in some bits of a buffer, `bytesAt` are the bytes that contain some bits. -/

namespace Verif.Ctx
open Verif Verif.Graph Verif.Verify Verif.Types Verif.Gen
open Verif.Spark hiding byteIndex

section
variable {P : Pkg} {b b1 : Bytes} {lo hi : Int} {c c' c'' : Context} {f : Field} {ops later : List Op}

/-- A history with the buffer still there. -/
theorem Inv.here (W : WellFormed P) (U : Verified P lo hi) (I : InBuffer P b lo hi) (h : P.history b lo hi ops = .ok c) (hb : c.buffer = some b1) :
    ∃ es p pos, Inv P lo hi c b1 es p pos := by
  obtain ⟨b2, es, p, pos, V⟩ := Inv.history W U I h
  rcases V.buffer with h1 | h1
  · rw [hb] at h1
    cases h1
    exact ⟨es, p, pos, V⟩
  · rw [hb] at h1
    cases h1

/-- The functions for the state of a field fit together: a field is either structurally valid or invalid, an incomplete field is
invalid, a valid field is structurally valid and present, and a present field is structurally valid. After every history, for a
scalar field of the message, valid, present and structurally valid are the same; and a composite field is present if and only if it
is structurally valid and has a byte. -/
theorem C68_status (W : WellFormed P) (U : Verified P lo hi) (I : InBuffer P b lo hi) (h : P.history b lo hi ops = .ok c) :
    (∀ g, c.invalid g = !c.structuralValid g) ∧ (∀ g, c.incomplete g = true → c.invalid g = true) ∧
    (∀ g, c.valid g = true → c.structuralValid g = true ∧ c.present g = true) ∧ (∀ g, c.present g = true → c.structuralValid g = true) ∧
    (∀ g, P.isScalar g = true → g ∈ P.m.msg.fields → c.valid g = c.structuralValid g ∧ c.present g = c.structuralValid g) ∧
    (∀ g, P.isComposite g = true → g ∈ P.m.msg.fields → (c.present g = true ↔ c.structuralValid g = true ∧ (c.cursors g).first + 7 ≤ (c.cursors g).last)) := by
  obtain ⟨b1, es, p, pos, V⟩ := Inv.history W U I h
  have hsv : ∀ g, c.structuralValid g = (c.cursors g).sv := fun _ => rfl
  refine ⟨?_, ?_, ?_, ?_, ?_, ?_⟩
  · intro g
    unfold Context.invalid Context.structuralValid
    cases (c.cursors g).state <;> rfl
  · intro g h
    unfold Context.incomplete at h
    unfold Context.invalid
    rw [Bool.or_eq_true]
    exact .inr h
  · intro g h
    simp only [Context.valid, Cursor.ok, Bool.and_eq_true, decide_eq_true_eq] at h
    simp only [Context.structuralValid, Context.present, Cursor.sv, h.1, decide_true, Bool.true_or, Bool.true_and, decide_eq_true_eq, true_and]
    exact h.2
  · intro g h
    simp only [Context.present, Bool.and_eq_true] at h
    exact h.1
  · intro g hs hg
    rw [hsv]
    cases hv : (c.cursors g).sv with
    | false =>
      have h1 : (c.cursors g).ok = false := by
        simp only [Cursor.sv, Bool.or_eq_false_iff] at hv
        exact hv.1
      simp [Context.valid, Context.present, hv, h1]
    | true =>
      obtain ⟨e, he, rfl, _⟩ := V.item hg hv
      have h1 : c.valid e.f = true := (V.holds.get W he hs).1
      refine ⟨h1, ?_⟩
      simp only [Context.valid, Bool.and_eq_true] at h1
      simp [Context.present, hv, h1.2]
  · intro g hc hg
    rw [hsv]
    cases hv : (c.cursors g).sv with
    | false => simp [Context.present, hv]
    | true =>
      obtain ⟨_, _, h3, h4, _⟩ := V.composite W U hg hc hv
      simp only [Context.present, hv, Bool.true_and, decide_eq_true_eq, true_and]
      omega

/-- `Get_X` of a valid scalar field gives the number in the bits of the field, most significant bit first; it belongs to the type of
the field. -/
theorem C68_get_scalar (W : WellFormed P) (U : Verified P lo hi) (I : InBuffer P b lo hi) (h : P.history b lo hi ops = .ok c) (hb : c.buffer = some b1)
    (hf : f ∈ P.m.msg.fields) (hs : P.isScalar f = true) (hv : c.valid f = true) :
    ∃ t n, (f, t) ∈ P.m.msg.types ∧ t.size = .ok n ∧ (c.cursors f).last = (c.cursors f).first + n.v - 1 ∧
      P.get c f = .ok (bitsAt b1 (c.cursors f).first n.v.toNat) ∧ InType t (bitsAt b1 (c.cursors f).first n.v.toNat) := by
  obtain ⟨es, p, pos, V⟩ := Inv.here W U I h hb
  have H := V.contains hb
  have hsv : (c.cursors f).sv = true := by
    simp only [Context.valid, Cursor.ok, Bool.and_eq_true, decide_eq_true_eq] at hv
    exact sv_valid hv.1
  obtain ⟨e, he, rfl, h3, h4⟩ := V.item hf hsv
  obtain ⟨t, ht, hsc⟩ := scalar_type W.names hs
  obtain ⟨t', ht', _, hval⟩ := follows_type H.follows he
  have := nodup_pair W.names.once ht ht'
  subst this
  obtain ⟨n, hn, hv2, hlast, hin⟩ := hval hsc
  refine ⟨t, n, ht, hn, by rw [h3, h4]; exact hlast, ?_, ?_⟩
  · rw [(H.get W he hs).2, hv2, h3]
  · rw [h3, ← hv2]; exact hin

/-- `Get_X` of a present composite field succeeds and calls `Process_X` with the bytes from the first to the last bit of the field,
which are as many as the size of the field. -/
theorem C68_get_composite (W : WellFormed P) (U : Verified P lo hi) (I : InBuffer P b lo hi) (h : P.history b lo hi ops = .ok c)
    (hb : c.buffer = some b1) (hf : f ∈ P.m.msg.fields) (hc : P.isComposite f = true) (hp : c.present f = true) :
    ∃ s, P.getComposite c f = .ok s ∧ s.data.map (fun (x : Nat) => (x : Int)) = bytesAt b1 (c.cursors f).first (c.cursors f).last ∧
      8 * (s.data.length : Int) = (c.cursors f).last - (c.cursors f).first + 1 := by
  obtain ⟨es, p, pos, V⟩ := Inv.here W U I h hb
  exact V.getComposite W U hb hf hc hp

/-- `Equal` of a field that is structurally valid succeeds, and is true if and only if the field is composite and the buffer has
exactly the given bytes from its first to its last bit. -/
theorem C68_equal (W : WellFormed P) (U : Verified P lo hi) (I : InBuffer P b lo hi) (h : P.history b lo hi ops = .ok c) (hb : c.buffer = some b1)
    (hf : f ∈ P.m.msg.fields) (hv : c.structuralValid f = true) (data : List Nat) :
    ∃ x, P.equal c f data = .ok x ∧
      (x = true ↔ P.isComposite f = true ∧ bytesAt b1 (c.cursors f).first (c.cursors f).last = data.map (fun (x : Nat) => (x : Int))) := by
  obtain ⟨es, p, pos, V⟩ := Inv.here W U I h hb
  exact V.equal W U hb hf hv data

/-! ## Later calls -/

theorem history_append (h : P.history b lo hi ops = .ok c) (hl : later.foldlM P.step c = .ok c') : P.history b lo hi (ops ++ later) = .ok c' := by
  unfold Pkg.history at h ⊢
  obtain ⟨c0, h1, h2⟩ := bind_run h
  rw [h1]
  simp only [bind, Except.bind]
  rw [List.foldlM_append, h2]
  exact hl

/-- Calls that verify fields, and calls that write fields that come later in the order of the fields, do not change what is read of a
field that is structurally valid: its state, its number, and its bytes. -/
theorem C68_later (W : WellFormed P) (U : Verified P lo hi) (I : InBuffer P b lo hi) (h : P.history b lo hi ops = .ok c) (hb : c.buffer = some b1)
    (hf : f ∈ P.m.msg.fields) (hv : c.structuralValid f = true) (hl : later.foldlM P.step c = .ok c') (hlater : ∀ op ∈ later, Later P f op) :
    ∃ b2, c'.buffer = some b2 ∧ c'.structuralValid f = true ∧ c'.valid f = c.valid f ∧ c'.present f = c.present f ∧
      P.get c' f = P.get c f ∧ (P.isComposite f = true → c.present f = true → P.getComposite c' f = P.getComposite c f) ∧
      (c'.cursors f).first = (c.cursors f).first ∧ (c'.cursors f).last = (c.cursors f).last ∧
      ∀ i, (c.cursors f).first ≤ i → i ≤ (c.cursors f).last → bitAt b2 i = bitAt b1 i := by
  obtain ⟨es, p, pos, V⟩ := Inv.here W U I h hb
  obtain ⟨b2, es2, p2, pos2, V2, T⟩ := V.others_later W U hf hl hv hlater
  have hb2 := T.buffer hb
  have e := T.cursor
  refine ⟨b2, hb2, ?_, ?_, ?_, ?_, ?_, ?_, ?_, T.bits⟩
  · simp only [Context.structuralValid, e]; exact hv
  · simp only [Context.valid, e]
  · simp only [Context.present, e]
  · simp only [Pkg.get, Context.valid, e]
  · intro hc hp
    have hp2 : c'.present f = true := by simp only [Context.present, e]; exact hp
    obtain ⟨h1, h2, h3, h4, h5, h6, h7⟩ := V.composite W U hf hc hv
    have hlt : (c.cursors f).first < (c.cursors f).last + 1 := by
      simp only [Context.present, Bool.and_eq_true, decide_eq_true_eq] at hp
      exact hp.2
    have hbuf : c.hasBuffer = true := by simp [Context.hasBuffer, hb]
    have hbuf2 : c'.hasBuffer = true := by simp [Context.hasBuffer, hb2]
    have hidx : byteIndex (c.cursors f).first ≤ byteIndex (c.cursors f).last := by simp only [byteIndex]; omega
    have h2' : byteIndex (c.cursors f).last ≤ b2.last := by
      have : b2.last = b1.last := by simp only [Bytes.last, T.first, T.length]
      omega
    simp only [Pkg.getComposite, hc, hbuf, hbuf2, hp, hp2, need, if_true, bind, Except.bind, hb, hb2, e]
    have A : Agree b1 b2 (c.cursors f).first ((c.cursors f).last + 1) :=
      { first := T.first, length := T.length, bytes := V2.inside.bytes, bits := fun i h1 h2 => T.bits i h1 (by omega) }
    obtain ⟨s1, e1, d1⟩ := slice_bytes h1 h2
    obtain ⟨s2, e2, d2⟩ := slice_bytes (b := b2) (i := (c.cursors f).first) (by rw [T.first]; exact h1) h2'
    rw [e1, e2]
    have hbytes : bytesAt b2 (c.cursors f).first (c.cursors f).last = bytesAt b1 (c.cursors f).first (c.cursors f).last :=
      A.bytesAt (P := P) (hi := hi) ⟨V.inside.bytes, ⟨by have := V.inside.lower.1; omega, h1⟩, by omega, V.inside.upper, V.inside.range⟩ h3 h4 (by omega) (by omega)
    have hd : s2.data = s1.data := map_cast (by rw [d1, d2, hbytes])
    have hf1 : s2.first = s1.first := by
      unfold slice at e1 e2
      rw [if_neg (by omega), if_pos ⟨h1, h2⟩] at e1
      rw [if_neg (by omega), if_pos ⟨by rw [T.first]; exact h1, h2'⟩] at e2
      cases e1
      cases e2
      rfl
    have : s2 = s1 := by
      cases s1
      cases s2
      simp only at hd hf1
      rw [hd, hf1]
    rw [this]
  · rw [e]
  · rw [e]

/-- A scalar field that has been set is valid, and `Get_X` gives the number it was set to, also after later calls that verify fields
or write later fields. -/
theorem C68_set_get_scalar (W : WellFormed P) (U : Verified P lo hi) (I : InBuffer P b lo hi) (h : P.history b lo hi ops = .ok c) {v : Nat}
    (hs : P.step c (.setScalar f v) = .ok c') (hl : later.foldlM P.step c' = .ok c'') (hlater : ∀ op ∈ later, Later P f op) :
    c''.valid f = true ∧ P.get c'' f = .ok v := by
  obtain ⟨b0, b2, t, n, hb1, hb2, ht, hn, hin, _, _, hst, hval, _⟩ := C31_scalar W U I h hs
  have h' : P.history b lo hi (ops ++ [.setScalar f v]) = .ok c' :=
    history_append h (by rw [List.foldlM_cons, hs]; rfl)
  obtain ⟨_, h1, h2⟩ := bind_run hs
  have hf := needField_run h1
  have hsc : P.isScalar f = true := by
    unfold Pkg.setScalar at h2
    obtain ⟨_, _, h2⟩ := bind_run h2
    obtain ⟨_, h3, _⟩ := bind_run h2
    exact need_run h3
  have hsv : c'.structuralValid f = true := by simp [Context.structuralValid, hst]
  have hvalid : c'.valid f = true := ((C68_status W U I h').2.2.2.2.1 f hsc hf).1.trans hsv
  obtain ⟨es, p, pos, V⟩ := Inv.here W U I h' hb2
  obtain ⟨e, he, hef, _⟩ := V.item hf (sv_valid hst)
  have hget : P.get c' f = .ok v := by
    obtain ⟨t', n', _, _, _, hg, _⟩ := C68_get_scalar W U I h' hb2 hf hsc hvalid
    have hg2 := hg
    unfold Pkg.get at hg2
    obtain ⟨_, _, hg2⟩ := bind_run hg2
    obtain ⟨_, _, hg2⟩ := bind_run hg2
    obtain ⟨_, _, hg2⟩ := bind_run hg2
    have := Except.ok.inj hg2
    rw [hg, ← this, hval]
  obtain ⟨_, _, _, e1, _, e2, _⟩ := C68_later W U I h' hb2 hf hsv hl hlater
  exact ⟨e1.trans hvalid, e2.trans hget⟩

/-- An opaque field that has been set to some bytes is structurally valid. It is present if there is at least one byte; then `Get_X`
calls `Process_X` with exactly these bytes, and `Equal` is true for these bytes and no others, also after later calls that verify
fields or write later fields. -/
theorem C68_set_get_opaque (W : WellFormed P) (U : Verified P lo hi) (I : InBuffer P b lo hi) (h : P.history b lo hi ops = .ok c) {ds : List Nat}
    (hs : P.step c (.setOpaque f ds) = .ok c') (hl : later.foldlM P.step c' = .ok c'') (hlater : ∀ op ∈ later, Later P f op) :
    c''.structuralValid f = true ∧ (c''.present f = true ↔ ds ≠ []) ∧
      (ds ≠ [] → ∃ s, P.getComposite c'' f = .ok s ∧ s.data = ds) ∧ ∀ data, P.equal c'' f data = .ok (decide (data = ds)) := by
  obtain ⟨b0, b2, hb1, hb2, _, _, hst, _, _, hlast, hbytes, _⟩ := C31_opaque W U I h hs
  have h' : P.history b lo hi (ops ++ [.setOpaque f ds]) = .ok c' :=
    history_append h (by rw [List.foldlM_cons, hs]; rfl)
  have hsv : c'.structuralValid f = true := by simp [Context.structuralValid, hst]
  obtain ⟨_, _, _, _, V⟩ := Inv.history W U I h
  obtain ⟨hf, h2, hpre, _, _⟩ := V.setOpaque_step W U hs
  obtain ⟨_, _, _, _, _, _, _, _, _, C⟩ := V.compositePre W U hf hpre
  have hc := C.composite
  obtain ⟨b3, hb3, e1, _, e2, _, e3, e4, e5, e6⟩ := C68_later W U I h' hb2 hf hsv hl hlater
  have h'' := history_append h' hl
  obtain ⟨_, _, _, V1⟩ := Inv.here W U I h' hb2
  obtain ⟨_, _, _, V2⟩ := Inv.here W U I h'' hb3
  have hp : c'.present f = true ↔ ds ≠ [] := by
    have : (c'.cursors f).sv = true := hsv
    simp only [Context.present, this, Bool.true_and, decide_eq_true_eq, hlast, ne_eq, ← List.length_eq_zero_iff]
    omega
  have hcontent : ds ≠ [] → ∃ s, P.getComposite c'' f = .ok s ∧ s.data = ds := by
    intro hd
    have hp' := hp.mpr hd
    obtain ⟨s, h3, h4, _⟩ := C68_get_composite W U I h' hb2 hf hc hp'
    exact ⟨s, (e3 hc hp').trans h3, map_cast (h4.trans hbytes)⟩
  refine ⟨e1, by rw [e2]; exact hp, hcontent, fun data => ?_⟩
  obtain ⟨x, hx, hiff⟩ := C68_equal W U I h'' hb3 hf e1 data
  rw [hx]
  congr 1
  rw [Bool.eq_iff_iff, hiff, decide_eq_true_iff]
  have hb : bytesAt b3 (c''.cursors f).first (c''.cursors f).last = ds.map (fun (x : Nat) => (x : Int)) := by
    cases hd : ds with
    | nil =>
      have hlast := hlast
      rw [hd] at hlast
      simp only [List.length_nil] at hlast
      unfold bytesAt
      have : (((c''.cursors f).last - 1) / 8 - ((c''.cursors f).first - 1) / 8 + 1).toNat = 0 := by
        obtain ⟨_, _, a1, a2, _⟩ := V1.composite W U hf hc hsv
        rw [e4, e5]
        omega
      rw [this]
      rfl
    | cons d ds' =>
      rw [← hd]
      have hne : ds ≠ [] := by rw [hd]; exact List.cons_ne_nil _ _
      obtain ⟨s, h3, h4⟩ := hcontent hne
      obtain ⟨s', h5, h6, _⟩ := C68_get_composite W U I h'' hb3 hf hc (by rw [e2]; exact hp.mpr hne)
      cases h3.symm.trans h5
      rw [← h6, h4]
  rw [hb]
  constructor
  · rintro ⟨_, h⟩
    exact (map_cast h).symm
  · rintro rfl
    exact ⟨hc, rfl⟩

/-! ## Setting with a procedure -/

/-- `Generic_Set_X` is `Set_X` with the bytes that `Process_X` leaves in the array it is called with. It is called only if
`Valid_Length` holds for the number of bytes of the field, and these are as many as the array has. -/
theorem C68_generic_set (W : WellFormed P) (U : Verified P lo hi) (I : InBuffer P b lo hi) (h : P.history b lo hi ops = .ok c) (hf : f ∈ P.m.msg.fields)
    {validLength : Int → Bool} {process : Bytes → List Nat} (hlen : ∀ s, (process s).length = s.data.length) (hbytes : ∀ s, AreBytes (process s)) :
    P.genericSet validLength process c f = .ok c' ↔
      ∃ b0 s first last, c.buffer = some b0 ∧ P.fieldFirst c f = .ok first ∧ P.fieldLast c f = .ok last ∧
        slice b0 ((first - 1) / 8 + 1) ((last - 1) / 8 + 1) = .ok s ∧ validLength s.data.length = true ∧
        P.step c (.setOpaque f (process s)) = .ok c' := by
  obtain ⟨b0, es, p, pos, V⟩ := Inv.history W U I h
  have hneed : P.needField f = .ok () := by simp [Pkg.needField, need, hf]
  have hall : ∀ s, need ((process s).all fun x => decide (x < 256)) = .ok () := fun s => by
    have : ((process s).all fun x => decide (x < 256)) = true := List.all_eq_true.mpr fun x hx => decide_eq_true (hbytes s x hx)
    simp only [need, this, if_true]
  by_cases hpre : P.compositePre c f = .ok ()
  · obtain ⟨hb, _⟩ := V.compositePre W U hf hpre
    obtain ⟨c1, xs, ys, q, qpos, l, n, l', h1, hes, C, h5, h6, h7, h8, _⟩ := V.initializeField W U hf hpre
    obtain ⟨a1, a2⟩ := C.aligned
    obtain ⟨h9, _, _⟩ := follows_bounds W V.inside.order C.ready.follows
    have h0 := C.natural
    have hsp := C.space
    obtain ⟨s, hs, hd⟩ := slice_bytes (V.inside.low h9) (V.inside.high hsp)
    have hl : (s.data.length : Int) = n / 8 := by
      have := congrArg List.length hd
      simp only [List.length_map, bytesAt, List.length_range] at this
      omega
    have hl2 : ((process s).length : Int) = byteIndex (qpos + n - 1) - byteIndex qpos + 1 := by
      rw [hlen, hl]
      simp only [byteIndex]
      omega
    have hstep : P.step c (.setOpaque f (process s)) = P.setOpaque c f (process s) := by
      simp only [Pkg.step, hneed, hall, bind, Except.bind]
    have key : P.genericSet validLength process c f = if validLength (s.data.length : Int) then P.setOpaque c f (process s) else .error (.ada .precondition) := by
      cases hvl : validLength (s.data.length : Int) with
      | true => simp only [Pkg.genericSet, Pkg.setOpaque, hpre, C.size, h5, h6, h1, h7, bind, Except.bind, ← hl, hvl, need, decide_eq_true hl2, if_true, hs, ofAda]
      | false => simp only [Pkg.genericSet, hpre, C.size, bind, Except.bind, ← hl, hvl, need, Bool.false_eq_true, if_false]
    rw [key]
    constructor
    · intro h2
      split at h2
      · rename_i hvl
        exact ⟨b0, s, qpos, qpos + n - 1, hb, h5, h6, hs, hvl, hstep.trans h2⟩
      · cases h2
    · rintro ⟨b1, s', first, last, e1, e2, e3, e4, e5, e6⟩
      rw [hb] at e1
      cases e1
      rw [h5] at e2
      rw [h6] at e3
      cases e2
      cases e3
      have : slice b0 (byteIndex qpos) (byteIndex (qpos + n - 1)) = .ok s' := e4
      rw [hs] at this
      cases this
      rw [if_pos e5, ← hstep]
      exact e6
  · constructor
    · intro h2
      unfold Pkg.genericSet at h2
      obtain ⟨_, h3, _⟩ := bind_run h2
      exact absurd h3 hpre
    · rintro ⟨b1, s', first, last, e1, e2, e3, e4, e5, e6⟩
      obtain ⟨_, _, h3, _⟩ := V.setOpaque_step W U e6
      exact absurd h3 hpre

end

end Verif.Ctx
