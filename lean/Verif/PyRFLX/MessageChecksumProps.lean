import Verif.PyRFLX.MessageChecksumLemmas
import Verif.PyRFLX.MessageParseExample

/-! # Checksums of PyRFLX messages (C55) -/

namespace Verif.PyRFLX

open Verif Verif.Types Verif.Bits Verif.Graph

/-- C55, first clause: a message counts as valid only if it is valid apart from checksums and every checksum field can be read
and has the value which the registered function has for the bytes of the message and the current values of the parameters. -/
theorem C55_valid (c : CMsg) (σ σ' : CState) (h : c.validMessage σ = .ok (σ', true)) :
    c.msg.validMessage σ.st = .ok true ∧
      ∀ k ∈ σ.checks, ∃ f as bs x v, k.function = some f ∧ ArgsOf c.msg σ.st (k.params.map Prod.fst) as ∧
        c.msg.uncheckedBytes σ.st = .ok bs ∧ f bs as = .ok x ∧ c.msg.get σ.st k.field = .ok v ∧ SameValue x v := by
  obtain ⟨b, hb, h⟩ := bind_ok (h : (c.msg.validMessage _).bind _ = _)
  cases b with
  | false => simp at h
  | true =>
    simp only [if_true] at h
    obtain ⟨⟨cs, b⟩, hr, h⟩ := map_ok h
    simp only [Prod.mk.injEq] at h
    obtain ⟨_, rfl⟩ := h
    refine ⟨hb, fun k hk => ?_⟩
    obtain ⟨k', h'⟩ := rights_spec hr k hk
    exact right_spec h'

/-- C55, first clause: only messages with right checksums are encoded. The bytes are those the functions are applied to. -/
theorem C55_bytestring (c : CMsg) (σ : CState) (out : List Byte) (h : c.bytestring σ = .ok out) :
    c.msg.bytestring σ.st = .ok out ∧
      ∀ k ∈ σ.checks, ∃ f as x v, k.function = some f ∧ ArgsOf c.msg σ.st (k.params.map Prod.fst) as ∧
        f out as = .ok x ∧ c.msg.get σ.st k.field = .ok v ∧ SameValue x v := by
  obtain ⟨⟨σ', b⟩, hv, h⟩ := bind_ok (h : (c.validMessage _).bind _ = _)
  cases b with
  | false => simp at h
  | true =>
    simp only [if_true] at h
    obtain ⟨h1, h2⟩ := C55_valid c σ σ' hv
    refine ⟨?_, fun k hk => ?_⟩
    · unfold Msg.bytestring
      rw [h1]
      exact h
    · obtain ⟨f, as, bs, x, v, g1, g2, g3, g4⟩ := h2 k hk
      rw [h] at g3
      cases g3
      exact ⟨f, as, x, v, g1, g2, g4⟩

/-- C55, second clause: if every checksum field has been set by hand (and none is calculated) then setting a field is setting it
without checksums. -/
theorem C55_manual (c : CMsg) (σ : CState) (f : Field) (x : Input) (s : State) (h : c.msg.set σ.st f x = (s, none))
    (hk : ∀ k ∈ σ.checks, k.calculated = false ∧ (s.fv k.field).isSet (c.msg.typeOf k.field) = .ok true) :
    c.set σ f x = (⟨s, σ.checks⟩, none) := by
  have key : ∀ cs : List Check, (∀ k ∈ cs, k.calculated = false ∧ (s.fv k.field).isSet (c.msg.typeOf k.field) = .ok true) →
      c.msg.autoChecksums c.names s cs = (s, cs, none) := by
    intro cs
    induction cs with
    | nil => intro _; rfl
    | cons k cs ih =>
      intro hcs
      obtain ⟨h1, h2⟩ := hcs k (by simp)
      have h3 : c.msg.autoChecksum c.names s k = (s, k, none) := by
        unfold Msg.autoChecksum
        rw [h2]
        simp [h1]
      rw [Msg.autoChecksums, h3]
      simp only [ih fun k hk => hcs k (by simp [hk])]
  unfold CMsg.set
  rw [h]
  simp only [key _ hk]

/-- C55, second clause, for a message with one checksum: if setting a field (without checksums) leads to the state `s`, in which
the checksum field is not set or was calculated before and everything the checksum depends on is known, then the field gets the
value of the checksum function for the bytes of the message with zero in the checksum field. No other field changes.

Missing: several checksums (see `C55_order_counterexample`). -/
theorem C55_automatic_partial (c : CMsg) (σ σ' : CState) (f : Field) (x : Input) (s : State) (k k₁ : Check) (b : Bool)
    (hk : σ.checks = [k]) (h : c.set σ f x = (σ', none)) (hs : c.msg.set σ.st f x = (s, none))
    (hset : (s.fv k.field).isSet (c.msg.typeOf k.field) = .ok b) (hb : b = false ∨ k.calculated = true)
    (hsettable : c.msg.settable c.names s k = .ok (k₁, true)) :
    ∃ z s₀ fn as bs y v, Stands (c.msg.typeOf k.field) (.int 0) z ∧ s₀ = s.upd k.field { s.fv k.field with value := some z } ∧
      k.function = some fn ∧ ArgsOf c.msg s₀ (k.params.map Prod.fst) as ∧ c.msg.uncheckedBytes s₀ = .ok bs ∧
      fn bs as = .ok y ∧ Stands (c.msg.typeOf k.field) y v ∧ (σ'.st.fv k.field).value = some v ∧
      ∀ g, g ≠ k.field → σ'.st.fv g = s.fv g := by
  obtain ⟨⟨ps, b1⟩, hp, hc⟩ := map_ok (hsettable : (c.msg.paramsSettable _ _ _).map _ = _)
  simp only [Prod.mk.injEq] at hc
  obtain ⟨hk₁, rfl⟩ := hc
  subst hk₁
  unfold CMsg.set at h
  rw [hs, hk] at h
  have h1 : c.msg.autoChecksum c.names s k = c.msg.setChecksum s { k with params := ps } := by
    unfold Msg.autoChecksum
    rw [hset]
    simp only
    rw [if_pos (by rcases hb with rfl | hb <;> simp [*]), hsettable]
  simp only [Msg.autoChecksums, h1] at h
  unfold Msg.setChecksum at h
  simp only at h
  cases ha : c.msg.assignTo s k.field (.int 0) with
  | error e => simp [ha] at h
  | ok s₀ =>
    simp only [ha] at h
    obtain ⟨z, hz, hs₀⟩ := map_ok (ha : (assignValue _ _ (.int 0)).map _ = _)
    cases hy : c.msg.calculate s₀ { k with calculated := true, params := ps } with
    | error e => simp [hy] at h
    | ok y =>
      simp only [hy] at h
      cases ho : c.msg.setOnly s₀ k.field y with
      | mk s₁ e =>
        rw [ho] at h
        cases e with
        | some e => simp at h
        | none =>
          simp only [Prod.mk.injEq] at h
          obtain ⟨h, _⟩ := h
          obtain ⟨_, v, hv1, hv2⟩ := setOnly_value ho
          obtain ⟨hfr, _⟩ := setOnly_frame ho
          have hM : s₀.mapping = s.mapping := by rw [← hs₀]; rfl
          have hcalc : ∃ fn as bs, k.function = some fn ∧ c.msg.arguments s₀ ps = .ok as ∧ c.msg.uncheckedBytes s₀ = .ok bs ∧
              fn bs as = .ok y := by
            unfold Msg.calculate at hy
            simp only at hy
            split at hy
            · cases hy
            · rename_i fn hfn
              obtain ⟨as, g1, hy⟩ := bind_ok hy
              obtain ⟨bs, g2, hy⟩ := bind_ok hy
              exact ⟨fn, as, bs, hfn, g1, g2, hy⟩
          obtain ⟨fn, as, bs, g1, g2, g3, g4⟩ := hcalc
          obtain ⟨p1, p2⟩ := settable_spec hp
          have hargs := args_spec (σ := s₀) (fun p e hm => by rw [hM]; exact p2 rfl p e hm) g2
          rw [p1] at hargs
          refine ⟨z, s₀, fn, as, bs, y, v, assign_stands hz, hs₀.symm, g1, hargs, g3, g4, hv1, ?_, ?_⟩
          · rw [← h]; exact hv2
          · intro g hg
            rw [← h]
            simp only
            rw [hfr g hg, ← hs₀]
            simp [State.upd, hg]

/-- Specification: a checksum function that does not look at the `n` bits of the message from position `a` on. -/
def Ignores (f : ChecksumFn) (a n : Nat) : Prop :=
  ∀ x y as, x.length % 8 = 0 → AgreeOutside a n x y → f (Bitstring.toBytes ⟨x⟩) as = f (Bitstring.toBytes ⟨y⟩) as

theorem settable_fst {m : Msg} {names : List Field} {σ : State} : ∀ {ps ps' r : List (Param × Param)},
    ps.map Prod.fst = ps'.map Prod.fst → m.paramsSettable names σ ps = .ok (r, true) → m.paramsSettable names σ ps' = .ok (r, true) := by
  intro ps
  induction ps with
  | nil =>
    intro ps' r hm h
    cases ps' with
    | nil => exact h
    | cons => simp at hm
  | cons q ps ih =>
    intro ps' r hm h
    cases ps' with
    | nil => simp at hm
    | cons q' ps' =>
      obtain ⟨p, e⟩ := q
      obtain ⟨p', e'⟩ := q'
      simp only [List.map_cons, List.cons.injEq] at hm
      obtain ⟨rfl, hm⟩ := hm
      obtain ⟨x, hx, h⟩ := bind_ok (h : (m.evalParam _ _).bind _ = _)
      obtain ⟨b, hb, h⟩ := bind_ok h
      cases b with
      | false => simp at h
      | true =>
        simp only [if_true] at h
        obtain ⟨⟨r', b⟩, hr, h⟩ := map_ok h
        simp only [Prod.mk.injEq] at h
        obtain ⟨rfl, rfl⟩ := h
        rw [Msg.paramsSettable, hx]
        simp only [Except.bind, hb, if_true, ih hm hr, Except.map]

/-- C55, third clause, for a message with one checksum in an integer field that is set: after `update_checksums` the field has
the value the checksum function has for the new bytes of the message; if the message is valid apart from checksums, the
checksum can be determined and the field can be read, then the message is valid. This needs that the function does not look at
the checksum field.

Missing: several checksums (see `C55_order_counterexample`), checksum fields that are not set or no integers. -/
theorem C55_update_partial (c : CMsg) (σ σ' : CState) (k : Check) (hk : σ.checks = [k]) (hu : c.updateChecksums σ = .ok σ')
    (t : IntType) (imp : Bool) (ht : c.msg.typeOf k.field = .scalar (.int t) imp) (hfine : (Scalar.int t).Fine)
    (a n : Nat) (bs : NBase) (hfirst : (σ.st.fv k.field).first = some ⟨a, bs⟩) (hsize : t.size = .ok ⟨n, .b0⟩)
    (v : Int) (hval : (σ.st.fv k.field).value = some (.scalar (.int v))) (hrange : InRange t v)
    (hset : (σ.st.fv k.field).isSet (c.msg.typeOf k.field) = .ok true)
    (f : ChecksumFn) (hf : k.function = some f) (hign : Ignores f a n)
    (hself : ∀ p ∈ k.params, ∀ ng imm i, c.msg.evalParam σ.st.mapping p.1 = .ok (.expr (.var ng imm i)) ∨
      p.2 = .expr (.var ng imm i) → k.field.eq i = false) :
    ∃ k' x w, σ'.checks = [k'] ∧ (σ'.st.fv k.field).value = some w ∧ SameValue x w ∧ c.msg.calculate σ'.st k' = .ok x ∧
      (∀ g, g ≠ k.field → σ'.st.fv g = σ.st.fv g) ∧
      ∀ k'' w', c.msg.validMessage σ'.st = .ok true → c.msg.settable c.names σ'.st k' = .ok (k'', true) →
        c.msg.get σ'.st k.field = .ok w' → c.validMessage σ' = .ok (⟨σ'.st, [k'']⟩, true) := by
  obtain ⟨r, hr, rfl⟩ := map_ok (hu : (c.msg.updateChecksums _ _ _).map _ = _)
  rw [hk] at hr
  obtain ⟨⟨k', b⟩, h1, hr⟩ := bind_ok (hr : (c.msg.settable _ _ _).bind _ = _)
  obtain ⟨x, hx, hr⟩ := bind_ok hr
  obtain ⟨τ, hτ, hr⟩ := bind_ok hr
  simp only [Msg.updateChecksums, Except.map, Except.ok.injEq] at hr
  subst hr
  simp only
  obtain ⟨⟨ps, b'⟩, hps, hk'⟩ := map_ok (h1 : (c.msg.paramsSettable _ _ _).map _ = _)
  simp only [Prod.mk.injEq] at hk'
  obtain ⟨hk', rfl⟩ := hk'
  -- the new value
  have hnew : ∃ i, x = .int i ∧ IntegerValue.assign t i true = .ok i ∧
      τ = σ.st.upd k.field { σ.st.fv k.field with value := some (.scalar (.int i)) } := by
    unfold Msg.assignTo at hτ
    rw [ht] at hτ
    cases x with
    | int i =>
      obtain ⟨w, hw, hnew⟩ := map_ok hτ
      obtain ⟨j, hj, rfl⟩ := map_ok (hw : (IntegerValue.assign _ _ _).map _ = _)
      have := intAssign_ok hj
      subst this
      exact ⟨_, rfl, hj, hnew.symm⟩
    | bits b => cases hτ
    | str s => cases hτ
    | bytes b => cases hτ
    | list es => cases hτ
  obtain ⟨i, rfl, hi, rfl⟩ := hnew
  obtain ⟨hacc, hmod, hsz⟩ := hfine
  have hi' : InRange t i := by
    rcases Classical.em (InRange t i) with h | h
    · exact h
    · rw [(C03_assign_partial t hacc hmod i).2 h] at hi; cases hi
  have hbits : ∀ j, InRange t j → ∃ b, valBits (c.msg.typeOf k.field) (.scalar (.int j)) = .ok b ∧ b.bits.length = n := by
    intro j hj
    obtain ⟨s, b, g1, g2, g3, _⟩ := C03_bits_partial t hacc hsz j hj
    rw [hsize] at g1
    cases g1
    refine ⟨b, ?_, ?_⟩
    · rw [ht]; exact g2
    · simp only [Bitstring.len] at g3; omega
  have d : Differ c.msg σ.st (σ.st.upd k.field { σ.st.fv k.field with value := some (.scalar (.int i)) }) k.field a n := by
    refine ⟨rfl, fun g hg => by simp [State.upd, hg], hset, ?_, ⟨bs, hfirst⟩, ⟨bs, by simp [State.upd, hfirst]⟩, ?_, ?_⟩
    · rw [← hset]
      simp only [State.upd, if_true]
      rw [ht]
      simp [FV.isSet, FV.last, FV.size, hval]
    · obtain ⟨b, g1, g2⟩ := hbits v hrange
      exact ⟨_, b, hval, g1, g2⟩
    · obtain ⟨b, g1, g2⟩ := hbits i hi'
      exact ⟨_, b, by simp [State.upd], g1, g2⟩
  have hevars : ∀ p e, (p, e) ∈ ps → ∀ ng imm j, e = .expr (.var ng imm j) → k.field.eq j = false := by
    have key : ∀ (qs rs : List (Param × Param)) (b : Bool), c.msg.paramsSettable c.names σ.st qs = .ok (rs, b) →
        ∀ p e, (p, e) ∈ rs → (∃ e', (p, e') ∈ qs) ∧ c.msg.evalParam σ.st.mapping p = .ok e ∨ (p, e) ∈ qs := by
      intro qs
      induction qs with
      | nil =>
        intro rs b h p e hm
        simp only [Msg.paramsSettable, Except.ok.injEq, Prod.mk.injEq] at h
        obtain ⟨rfl, _⟩ := h
        simp at hm
      | cons q qs ih =>
        intro rs b h p e hm
        obtain ⟨p0, e0⟩ := q
        obtain ⟨e1, he1, h⟩ := bind_ok (h : (c.msg.evalParam _ _).bind _ = _)
        obtain ⟨b1, _, h⟩ := bind_ok h
        cases b1 with
        | false =>
          simp only [Bool.false_eq_true, if_false, Except.ok.injEq, Prod.mk.injEq] at h
          obtain ⟨rfl, _⟩ := h
          rcases List.mem_cons.mp hm with hm | hm
          · cases hm; exact .inl ⟨⟨e0, by simp⟩, he1⟩
          · exact .inr (by simp [hm])
        | true =>
          simp only [if_true] at h
          obtain ⟨⟨r', b'⟩, hr, h⟩ := map_ok h
          simp only [Prod.mk.injEq] at h
          obtain ⟨rfl, _⟩ := h
          rcases List.mem_cons.mp hm with hm | hm
          · cases hm; exact .inl ⟨⟨e0, by simp⟩, he1⟩
          · rcases ih r' b' hr p e hm with ⟨⟨e', h1⟩, h2⟩ | h1
            · exact .inl ⟨⟨e', by simp [h1]⟩, h2⟩
            · exact .inr (by simp [h1])
    intro p e hm ng imm j he
    subst he
    rcases key _ _ _ hps p _ hm with ⟨⟨e', h1⟩, h2⟩ | h1
    · exact hself (p, e') h1 ng imm j (.inl h2)
    · exact hself _ h1 ng imm j (.inr rfl)
  have hcalc : c.msg.calculate (σ.st.upd k.field { σ.st.fv k.field with value := some (.scalar (.int i)) }) k' = .ok (.int i) := by
    unfold Msg.calculate at hx ⊢
    rw [← hk'] at hx ⊢
    simp only [hf] at hx ⊢
    obtain ⟨as, g1, hx⟩ := bind_ok hx
    obtain ⟨bytes, g2, hx⟩ := bind_ok hx
    obtain ⟨y, z, e1, e2, rfl, e4⟩ := d.bytes g2
    rw [← d.arguments ps hevars, g1, e4]
    simp only [Except.bind]
    rw [← hign y z as e2 e1]
    exact hx
  refine ⟨k', .int i, .scalar (.int i), rfl, by simp [State.upd], rfl, hcalc, fun g hg => by simp [State.upd, hg], ?_⟩
  intro k'' w' hvalid hsettable hget
  have hkk : k'' = k' := by
    obtain ⟨⟨qs, b2⟩, hqs, hk''⟩ := map_ok (hsettable : (c.msg.paramsSettable _ _ _).map _ = _)
    simp only [Prod.mk.injEq] at hk''
    obtain ⟨hk'', rfl⟩ := hk''
    rw [← d.settable] at hqs
    have hpf := (settable_spec hps).1
    have hkp : k'.params = ps := by rw [← hk']
    rw [hkp] at hqs
    have := settable_fst hpf hqs
    rw [hps] at this
    cases this
    rw [← hk'', ← hk']
  subst hkk
  have hw : w' = .scalar (.int i) := get_value (by simp [State.upd]) hget
  unfold CMsg.validMessage
  rw [hvalid]
  simp only [Except.bind, if_true]
  have hfield : k''.field = k.field := by rw [← hk']
  have hright : c.msg.checksumRight c.names (σ.st.upd k.field { σ.st.fv k.field with value := some (.scalar (.int i)) }) k'' =
      .ok (k'', true) := by
    unfold Msg.checksumRight
    rw [hsettable]
    simp only [Except.bind, if_true, hcalc, hfield, hget, hw]
    simp [Input.eqVal, Except.map]
  simp [Msg.checksumsRight, hright, Except.bind, Except.map]

/-! ## Parsing -/

theorem cset_calculated {c : CMsg} {σ σ' : CState} {f : Field} {x : Input} (h : c.set! σ f x = .ok σ') :
    ((∃ k ∈ σ.checks, k.calculated = true) → ∃ k ∈ σ'.checks, k.calculated = true) ∧
      ((∀ k ∈ σ'.checks, k.calculated = false) → c.msg.set! σ.st f x = .ok σ'.st) := by
  unfold CMsg.set! at h
  split at h
  case h_2 => cases h
  rename_i τ hs
  cases h
  unfold CMsg.set at hs
  split at hs
  · simp at hs
  rename_i s hset
  simp only [Prod.mk.injEq] at hs
  obtain ⟨rfl, he⟩ := hs
  obtain ⟨h1, h2⟩ := autos_calculated (m := c.msg) (names := c.names) (σ := s) (cs := σ.checks) rfl
  refine ⟨h1, fun hall => ?_⟩
  unfold Msg.set!
  rw [hset]
  simp only [h2 hall]

theorem all_false {cs cs' : List Check} (h : (∃ k ∈ cs, k.calculated = true) → ∃ k ∈ cs', k.calculated = true)
    (h' : ∀ k ∈ cs', k.calculated = false) : ∀ k ∈ cs, k.calculated = false := by
  intro k hk
  cases hc : k.calculated with
  | false => rfl
  | true =>
    obtain ⟨k', hk', hc'⟩ := h ⟨k, hk, hc⟩
    rw [h' k' hk'] at hc'
    cases hc'

theorem bind_of {α β : Type} {x : Py α} {f : α → Py β} {v : α} {r : Py β} (hx : x = .ok v) (hf : f v = r) : x.bind f = r := by
  rw [hx]; exact hf

theorem parseStep_kept {c : CMsg} {σ : CState} {f : Field} {last cur : Nat} {value : Bitstring} {size : Option Num}
    {r : CState × Nat × Nat} :
    (match (c.msg.typeOf f).isOpaque, size with
      | true, none => c.parseRest σ f last cur value
      | _, none => .error .assertion
      | _, some s => c.parseSized σ f s last cur value : Py (CState × Nat × Nat)) = .ok r →
    ((∃ k ∈ σ.checks, k.calculated = true) → ∃ k ∈ r.1.checks, k.calculated = true) ∧
      ((∀ k ∈ r.1.checks, k.calculated = false) →
        (match (c.msg.typeOf f).isOpaque, size with
          | true, none => c.msg.parseRest σ.st f last cur value
          | _, none => .error .assertion
          | _, some s => c.msg.parseSized σ.st f s last cur value : Py (State × Nat × Nat)) = .ok (r.1.st, r.2)) := by
  intro hr
  split at hr
  · obtain ⟨pos, g1, hr⟩ := bind_ok (hr : (c.msg.currentPos _ _ _ _).bind _ = _)
    obtain ⟨first, g2, hr⟩ := bind_ok hr
    split at hr
    · cases hr
    · obtain ⟨b, g3, hr⟩ := bind_ok hr
      obtain ⟨τ, g4, rfl⟩ := map_ok hr
      obtain ⟨j1, j2⟩ := cset_calculated g4
      refine ⟨j1, fun hall => ?_⟩
      have := j2 hall
      simp only [Msg.parseRest, g1, g2, g3, Except.bind]
      simp only at this
      rw [this]
      rfl
  · cases hr
  · obtain ⟨pos, g1, hr⟩ := bind_ok (hr : (c.msg.currentPos _ _ _ _).bind _ = _)
    split at hr
    · cases hr
    rename_i hneg
    split at hr
    · cases hr
    · rename_i b g3
      obtain ⟨τ, g4, rfl⟩ := map_ok hr
      obtain ⟨j1, j2⟩ := cset_calculated g4
      refine ⟨j1, fun hall => ?_⟩
      have := j2 hall
      simp only [Msg.parseSized, g1, Except.bind, hneg, if_false, g3]
      rw [this]
      rfl

theorem parseLoop_kept {c : CMsg} {value : Bitstring} : ∀ (n : Nat) (σ σ' : CState) (nxt : Option Field) (last cur : Nat),
    c.parseLoop value n σ nxt last cur = .ok σ' →
    ((∃ k ∈ σ.checks, k.calculated = true) → ∃ k ∈ σ'.checks, k.calculated = true) ∧
      ((∀ k ∈ σ'.checks, k.calculated = false) → c.msg.parseLoop value n σ.st nxt last cur = .ok σ'.st) := by
  intro n
  induction n with
  | zero =>
    intro σ σ' nxt last cur h
    cases nxt <;> cases h
  | succ n ih =>
    intro σ σ' nxt last cur h
    cases nxt with
    | none => cases h
    | some f =>
      unfold CMsg.parseLoop at h
      unfold Msg.parseLoop
      split at h
      · cases h
        rename_i hF
        rw [if_pos hF]
        exact ⟨fun h => h, fun _ => rfl⟩
      · rename_i hF
        rw [if_neg hF]
        obtain ⟨size, hsz, h⟩ := bind_ok h
        obtain ⟨r, hr, h⟩ := bind_ok h
        obtain ⟨nxt', hn, h⟩ := bind_ok h
        obtain ⟨i1, i2⟩ := ih _ _ _ _ _ h
        have key := parseStep_kept hr
        refine ⟨fun h => i1 (key.1 h), fun hall => ?_⟩
        have hall' := all_false i1 hall
        exact bind_of hsz (bind_of (key.2 hall') (bind_of hn (i2 hall)))

/-- C55, fourth clause: if no checksum has been calculated by the end of parsing then the message is as if it had been parsed
without checksums: every checksum field has the value from the input. Missing: checksums that are calculated while parsing, for
which this is false (see `C55_parse_counterexample`). -/
theorem C55_parse_partial (c : CMsg) (σ σ' : CState) (input : List Byte) (h : c.parseBytes σ input = .ok σ')
    (hk : ∀ k ∈ σ'.checks, k.calculated = false) : c.msg.parseBytes σ.st input = .ok σ'.st := by
  obtain ⟨nxt, hn, h⟩ := bind_ok (h : (c.msg.nextField _ _).bind _ = _)
  have := (parseLoop_kept _ _ _ _ _ _ h).2 hk
  unfold Msg.parseBytes Msg.parse
  rw [hn]
  exact this

/-- C55, fourth clause, together with C22: then the encoding of the message is a part of the input from its beginning, and every
checksum function has for these bytes the value of its field. -/
theorem C55_roundtrip_partial (c : CMsg) (rank : Field → Nat) (rest : Field → Bool) (w : Well c.msg rank rest) (input : List Byte)
    (hne : input ≠ []) (σ σ' : CState) (hnew : c.msg.new = .ok σ.st) (hparse : c.parseBytes σ input = .ok σ')
    (hk : ∀ k ∈ σ'.checks, k.calculated = false) (out : List Byte) (hout : c.bytestring σ' = .ok out) :
    out = input.take out.length ∧ out.length ≤ input.length ∧
      ∀ k ∈ σ'.checks, ∃ f as x v, k.function = some f ∧ ArgsOf c.msg σ'.st (k.params.map Prod.fst) as ∧
        f (input.take out.length) as = .ok x ∧ c.msg.get σ'.st k.field = .ok v ∧ SameValue x v := by
  obtain ⟨h1, h2⟩ := C55_bytestring c σ' out hout
  obtain ⟨h3, h4, _⟩ := C22_roundtrip_partial c.msg rank rest w input hne σ.st σ'.st hnew
    (C55_parse_partial c σ σ' input hparse hk) out h1
  refine ⟨h3, h4, fun k hm => ?_⟩
  rw [← h3]
  exact h2 k hm

end Verif.PyRFLX
