import Verif.PyRFLX.NestedChoice

/-! # C59: refinements of PyRFLX messages -/

namespace Verif.PyRFLX

open Verif Verif.Types Verif.Bits Verif.Graph

/-- C59: whatever a user does with a new message (setting fields with or without success, parsing), at every depth a nested message is an instance
of a message that a refinement of the field names, it was parsed completely, it is valid, and its encoding is the value of the field. -/
theorem C59_nested (W : World) (i : ID) (v : NVal) (h : Reach W i v) : Sound W v :=
  (reach_inv h).2.elim fun _ h => h.2.sound

/-- C59: when `get` returns a message, then the bytes of the field are the encoding of this message, and the message is valid. -/
theorem C59_get (W : World) (i : ID) (v n : NVal) (f : Field) (h : Reach W i v) (hg : W.get v f = .ok (.message n)) :
    Refines W i f n.id ∧ Sound W n ∧ (∃ m, W.message n.id = .ok m ∧ m.validMessage n.st = .ok true) ∧
      ∃ out, (v.st.fv f).value = some (.bytes out) ∧ W.bytestring n = .ok out := by
  have hid := (reach_inv h).1
  obtain ⟨m, hm, hg⟩ := bind_ok (hg : (W.message _).bind _ = _)
  obtain ⟨x, hx, hg⟩ := map_ok hg
  split at hg
  · rename_i n' hop hn
    cases hg
    cases C59_nested W i v h with
    | mk _ h1 h2 h3 h4 h5 =>
      refine ⟨hid ▸ h2 f n hn, h1 f n hn, h4 f n hn, ?_⟩
      obtain ⟨fs, _, hx⟩ := bind_ok (hx : (m.validFields _ _).bind _ = _)
      split at hx
      · split at hx
        · rename_i y hy
          obtain ⟨out, ho, rfl⟩ := h5 f n y hn hy
          exact ⟨out, hy, ho⟩
        · cases hx
      · cases hx
  · cases hg

/-- C59: setting an opaque field for which no refinement was found before parses the bytes as the message of the last refinement whose
condition holds for the values of the fields, and sets plain bytes if no condition holds.

Missing: fields for which a refinement was found before, see `C59_stale_counterexample`. -/
theorem C59_choice_partial (W : World) (i : ID) (m : Msg) (v v' : NVal) (depth : Nat) (f : Field) (x : Input) (hm : W.message i = .ok m)
    (h : Reach W i v) (hf : (m.typeOf f).isOpaque = true) (hno : v.ref f = none) (hset : W.set depth v f x = (v', none)) :
    (Chosen W m i f v.st.mapping none ∧ v'.nested f = none) ∨
    ∃ s n b size, Chosen W m i f v.st.mapping (some s) ∧ x.data = some (b, size) ∧ W.parse depth s b = .ok n ∧ v'.nested f = some n := by
  obtain ⟨hid, m', hm', hi⟩ := reach_inv h
  rw [hm] at hm'
  cases hm'
  unfold World.set at hset
  rw [hid, hm] at hset
  obtain ⟨a, y, _, _, _, hc⟩ := setIn_ok hset
  rcases hc with ⟨h0, _⟩ | ⟨c, _, hc, hcase⟩
  · rw [hf] at h0; cases h0
  · rw [hno, hid] at hc
    have hch := chosen_of hc
    rcases hcase with ⟨rfl, _, hn⟩ | ⟨s, n, rfl, hn, hv⟩
    · refine .inl ⟨hch, ?_⟩
      rw [hn]
      cases hv : v.nested f with
      | none => rfl
      | some n => exact absurd hno (hi.chosen f n hv).2
    · obtain ⟨b, size, out, hd, _, hp, _⟩ := nest_ok hn
      exact .inr ⟨s, n, b, size, hch, hd, hp, hv⟩

/-- C59: when a new message has been parsed, then for the values that the fields have now, every opaque field that is set contains an
instance of the message of the last refinement whose condition holds, and plain bytes if no condition holds.

Missing: messages that are not `Well`, and refinements whose conditions refer to the field itself or fields behind it (`Early`). -/
theorem C59_parse_choice_partial (W : World) (i : ID) (m : Msg) (rank : Field → Nat) (rest : Field → Bool) (hm : W.message i = .ok m)
    (w : Well m rank rest) (depth : Nat) (b : Bitstring) (v : NVal) (h : W.parse depth i b = .ok v) (f : Field)
    (hrank : rank INITIAL < rank f) (hop : (m.typeOf f).isOpaque = true)
    (hearly : ∀ r ∈ W.refs i, r.field = f → Early m rank f r.condition) (hset : (v.st.fv f).value ≠ none) :
    (Chosen W m i f v.st.mapping none ∧ v.nested f = none) ∨
    ∃ s n, Chosen W m i f v.st.mapping (some s) ∧ v.nested f = some n ∧ n.id = s := by
  cases depth with
  | zero => cases h
  | succ d =>
    obtain ⟨m', hm', h⟩ := bind_ok (h : (W.message _).bind _ = _)
    rw [hm] at hm'
    cases hm'
    obtain ⟨v0, hv0, h⟩ := bind_ok h
    obtain ⟨m', σ, hm', hσ, rfl⟩ := new_ok hv0
    rw [hm] at hm'
    cases hm'
    obtain ⟨nxt, hn, h⟩ := bind_ok (h : (m.nextField _ _).bind _ = _)
    obtain ⟨_, _, key⟩ := (Step.new w.ranked hσ).loop w (parse_good W d) _ _ _ _ _ _ _ _ hn h
    obtain ⟨c, hc, hisa⟩ := key f hrank hop hearly hset
    cases c with
    | none => exact .inl ⟨hc, hisa⟩
    | some s =>
      obtain ⟨n, h1, h2⟩ := hisa
      exact .inr ⟨s, n, hc, h1, h2⟩

/-- C59: if a new message parses a non-empty byte string and the encoding of the message succeeds afterwards, then the encoding is the part of
the input that the fields of the message cover, as in `C22_roundtrip_partial`; or there is a field whose part of the input is not the
encoding of the message that it was parsed as.

Missing: the second case is possible, see `C59_lossy_counterexample`; messages that are not `Well`. -/
theorem C59_roundtrip_partial (W : World) (i : ID) (m : Msg) (rank : Field → Nat) (rest : Field → Bool) (hm : W.message i = .ok m)
    (w : Well m rank rest) (depth : Nat) (input : List Byte) (hne : input ≠ []) (v : NVal)
    (h : W.parse (depth + 1) i (Bitstring.fromBytes input) = .ok v) (out : List Byte) (hout : W.bytestring v = .ok out) :
    (out = input.take out.length ∧ out.length ≤ input.length ∧
      ∃ p e cur, Walk m v.st.mapping INITIAL p e ∧ m.nextField v.st.mapping e = .ok (some FINAL) ∧
        ((Placed m v.st (input.flatMap Spec.byteBits) 0 p cur ∧ cur = 8 * out.length) ∨
          ∃ q, p = q ++ [e] ∧ Placed m v.st (input.flatMap Spec.byteBits) 0 q cur ∧
            At m v.st (input.flatMap Spec.byteBits) e cur (8 * input.length - cur) ∧ out = input)) ∨
    Lossy W depth (input.flatMap Spec.byteBits) v := by
  have hB : Bitstring.fromBytes input = ⟨input.flatMap Spec.byteBits⟩ := by
    rw [← fromBytes_bits hne]
  rw [hB] at h
  obtain ⟨hid, h⟩ := parse_sim hm w.ranked h
  rcases h with ⟨σ, h1, h2⟩ | h
  · refine .inl (C22_roundtrip_partial m rank rest w input hne σ v.st h1 ?_ out ?_)
    · unfold Msg.parseBytes
      rw [hB]
      exact h2
    · unfold World.bytestring at hout
      rw [hid, hm] at hout
      exact hout
  · exact .inr h

end Verif.PyRFLX
