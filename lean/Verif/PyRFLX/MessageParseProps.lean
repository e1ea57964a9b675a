import Verif.PyRFLX.MessageParse6
import Verif.PyRFLX.MessageProps

/-! # Parsing a message and encoding it again (C22, third clause of C23) -/

namespace Verif.PyRFLX

open Verif Verif.Types Verif.Bits Verif.Graph

theorem toBytes_byteBits (l : List Byte) : Bitstring.toBytes ⟨l.flatMap Spec.byteBits⟩ = l := by
  cases l with
  | nil =>
    simp only [Bitstring.toBytes, List.flatMap_nil]
    rw [chunks8]
    simp
  | cons x xs =>
    obtain ⟨h1, _, h3, _⟩ := C01_roundtrip (x :: xs) (by simp)
    have : Bitstring.fromBytes (x :: xs) = ⟨(x :: xs).flatMap Spec.byteBits⟩ := by
      rw [← fromBytes_bits (by simp)]
    rw [this] at h3
    exact h3

theorem byteBits_length (b : Byte) : (Spec.byteBits b).length = 8 := by
  simp [Spec.byteBits]

theorem take_byteBits (l : List Byte) (k : Nat) : (l.flatMap Spec.byteBits).take (8 * k) = (l.take k).flatMap Spec.byteBits := by
  induction l generalizing k with
  | nil => simp
  | cons x xs ih =>
    cases k with
    | zero => simp
    | succ k =>
      simp only [List.flatMap_cons, List.take_succ_cons]
      rw [List.take_append, byteBits_length, List.take_of_length_le (by rw [byteBits_length]; omega),
        show 8 * (k + 1) - 8 = 8 * k by omega, ih]

theorem drop_byteBits (l : List Byte) (k : Nat) : (l.flatMap Spec.byteBits).drop (8 * k) = (l.drop k).flatMap Spec.byteBits := by
  induction l generalizing k with
  | nil => simp
  | cons x xs ih =>
    cases k with
    | zero => simp
    | succ k =>
      simp only [List.flatMap_cons, List.drop_succ_cons]
      rw [List.drop_append, byteBits_length, List.drop_eq_nil_of_le (by rw [byteBits_length]; omega),
        show 8 * (k + 1) - 8 = 8 * k by omega, ih]
      simp

/-- C22: if a new message parses a non-empty byte string and the encoding of the message succeeds afterwards, then the encoding
is a prefix of the input: it is the part of the input that the fields of the message cover. The fields on the way from `INITIAL`
to `FINAL` are set to consecutive parts of the input; only the last field may extend to the end of the input.

Missing: messages with `First` aspects, refinements or checksums, arrays of messages, and the conditions of `Well`, which say
that the structure is unambiguous and that sizes are multiples of the element size. -/
theorem C22_roundtrip_partial (m : Msg) (rank : Field → Nat) (rest : Field → Bool) (w : Well m rank rest) (input : List Byte)
    (hne : input ≠ []) (σ σ' : State) (hnew : m.new = .ok σ) (hparse : m.parseBytes σ input = .ok σ') (out : List Byte)
    (hout : m.bytestring σ' = .ok out) :
    out = input.take out.length ∧ out.length ≤ input.length ∧
      ∃ p e cur, Walk m σ'.mapping INITIAL p e ∧ m.nextField σ'.mapping e = .ok (some FINAL) ∧
        ((Placed m σ' (input.flatMap Spec.byteBits) 0 p cur ∧ cur = 8 * out.length) ∨
          ∃ q, p = q ++ [e] ∧ Placed m σ' (input.flatMap Spec.byteBits) 0 q cur ∧
            At m σ' (input.flatMap Spec.byteBits) e cur (8 * input.length - cur) ∧ out = input) := by
  have hB : Bitstring.fromBytes input = ⟨input.flatMap Spec.byteBits⟩ := by
    rw [← fromBytes_bits hne]
  have hlen : (input.flatMap Spec.byteBits).length = 8 * input.length := by
    rw [length_flatMap_byteBits]; omega
  unfold Msg.parseBytes at hparse
  rw [hB] at hparse
  obtain ⟨p, e, cur, hread⟩ := w.parse hnew hparse
  obtain ⟨valid, _, hout⟩ := bind_ok (hout : (m.validMessage σ').bind _ = _)
  cases valid with
  | false => cases hout
  | true =>
  simp only [if_true] at hout
  obtain ⟨R, hR, hout⟩ := bind_ok hout
  by_cases h8 : R.len % 8 = 0
  case neg => rw [if_neg h8] at hout; cases hout
  rw [if_pos h8] at hout
  simp only [Except.ok.injEq] at hout
  obtain ⟨hw, hfin, hp⟩ := hread
  rcases hp with hp | ⟨q, rfl, hp, hat⟩
  · have hcur := (hp.le (Nat.zero_le _)).2
    rw [hlen] at hcur
    have hb := bits_placed hw hfin hp hR
    have hl : R.len = cur := by
      simp only [Bitstring.len, hb, List.length_take, hlen]
      omega
    have hc : cur = 8 * (cur / 8) := by omega
    have ho : out = input.take (cur / 8) := by
      rw [hc, take_byteBits] at hb
      obtain ⟨bits⟩ := R
      simp only at hb
      rw [← hout, hb, toBytes_byteBits]
    have hol : out.length = cur / 8 := by rw [ho, List.length_take]; omega
    exact ⟨by rw [hol]; exact ho, by omega, p, e, cur, hw, hfin, .inl ⟨hp, by omega⟩⟩
  · have hcur := (hp.le (Nat.zero_le _)).2
    rw [hlen] at hcur
    have hb := bits_end hw hfin hp hat hR
    have hl : R.len = cur + 8 * (Bitstring.toBytes ⟨(input.flatMap Spec.byteBits).drop cur⟩).length := by
      simp only [Bitstring.len, hb, List.length_append, List.length_take, hlen, length_flatMap_byteBits]
      omega
    have hc : cur = 8 * (cur / 8) := by omega
    have hdrop : (input.flatMap Spec.byteBits).drop cur = (input.drop (cur / 8)).flatMap Spec.byteBits := by
      rw [hc, drop_byteBits]
      congr 2
      omega
    have ho : out = input := by
      rw [hdrop, toBytes_byteBits, hc, take_byteBits, ← List.flatMap_append] at hb
      have hcc : 8 * (cur / 8) / 8 = cur / 8 := by omega
      rw [hcc, List.take_append_drop] at hb
      obtain ⟨bits⟩ := R
      simp only at hb
      rw [← hout, hb, toBytes_byteBits]
    refine ⟨by rw [ho]; simp, by rw [ho]; exact Nat.le_refl _, _, e, cur, hw, hfin, .inr ⟨q, rfl, hp, ?_, ho⟩⟩
    obtain ⟨hset, hsz⟩ := hat.isSet
    obtain ⟨x, g1, g2, g3, g4⟩ := hat
    refine ⟨x, _, _, g1, g2, hsz, ?_, g4, ?_, ?_⟩
    · rw [hdrop, toBytes_byteBits]
      simp only [List.length_drop]
      omega
    · rw [g3, opaque_bits, hdrop, toBytes_byteBits, List.take_of_length_le (by
        rw [length_flatMap_byteBits, List.length_drop]; omega)]
    · rw [hlen]; omega

/-- C23, third clause, for parsed messages: after a new message has parsed an input, every field on the way from `INITIAL` to
`FINAL` is set, and this way is complete.

Missing: messages that are set field by field (there the claim is false, see `C23_unset_field_counterexample`) and the conditions
of `Well`. -/
theorem C23_parsed_complete_partial (m : Msg) (rank : Field → Nat) (rest : Field → Bool) (w : Well m rank rest)
    (input : List Byte) (σ σ' : State) (hnew : m.new = .ok σ) (hparse : m.parseBytes σ input = .ok σ') :
    ∃ p e, Walk m σ'.mapping INITIAL p e ∧ m.nextField σ'.mapping e = .ok (some FINAL) ∧
      ∀ g ∈ p, (σ'.fv g).isSet (m.typeOf g) = .ok true ∧ (σ'.fv g).value.isSome = true := by
  obtain ⟨bits, hb⟩ : ∃ bits, Bitstring.fromBytes input = ⟨bits⟩ := ⟨_, rfl⟩
  unfold Msg.parseBytes at hparse
  rw [hb] at hparse
  obtain ⟨p, e, cur, hw, hf, hp⟩ := w.parse hnew hparse
  refine ⟨p, e, hw, hf, ?_⟩
  have key : ∀ {a n g}, At m σ' bits g a n → (σ'.fv g).isSet (m.typeOf g) = .ok true ∧ (σ'.fv g).value.isSome = true := by
    intro a n g h
    refine ⟨h.isSet, ?_⟩
    obtain ⟨_, _, _, _, _, _, _, h, _⟩ := h
    simp [h]
  intro g hg
  rcases hp with hp | ⟨q, rfl, hp, hat⟩
  · obtain ⟨_, _, h⟩ := hp.mem g hg
    exact key h
  · rcases List.mem_append.mp hg with hg | hg
    · obtain ⟨_, _, h⟩ := hp.mem g hg
      exact key h
    · simp only [List.mem_singleton] at hg
      subst hg
      refine ⟨hat.isSet.1, ?_⟩
      obtain ⟨_, _, _, _, h⟩ := hat
      simp [h]

end Verif.PyRFLX
