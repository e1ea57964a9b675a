import Verif.Agree.Loop

/-! # C60: PyRFLX and generated code find the same message -/

namespace Verif.Agree
open Verif Verif.Graph Verif.Types Verif.Bits Verif.Ctx

variable {m : PyRFLX.Msg} {P : Pkg} {rest : Field → Bool} {rank : Field → Nat} {b : Spark.Bytes} {lo hi : Int} {input : List Byte}

/-- The context `c` of generated code has the field `f` as PyRFLX has it: `Field_First`, `Field_Last` and `Field_Size` are its
position and its size, where `lo` is the first bit of the message, the bits there are those of the value, the field is valid, and
the number that is read by `Get` is that of the value if it is a scalar. -/
def Agrees (m : PyRFLX.Msg) (P : Pkg) (b : Spark.Bytes) (lo : Int) (σ : PyRFLX.State) (c : Context) (f : Field) : Prop :=
  ∃ a n v bits, (σ.fv f).first = some a ∧ (σ.fv f).size (m.typeOf f) = .ok (some n) ∧ (σ.fv f).value = some v ∧
    P.fieldFirst c (low f) = .ok (lo + a.v) ∧ P.fieldLast c (low f) = .ok (lo + a.v + n.v - 1) ∧ P.fieldSize c (low f) = .ok n.v ∧
    PyRFLX.valBits (m.typeOf f) v = .ok ⟨bits⟩ ∧ (bits.length : Int) = n.v ∧
    (∀ i (h : i < bits.length), bits[i] = bitAt b (lo + a.v + i)) ∧
    ((c.cursors (low f)).state = .valid ∨ (c.cursors (low f)).state = .structuralValid) ∧
    ∀ x, v = .scalar x → (c.cursors (low f)).value = x.number

/-- What PyRFLX has found is a message in the buffer. -/
theorem parse_found (w : PyRFLX.Well m rank rest) (W : WellFormed P) (S : SameMessage m P rest) (hH : Holds b lo hi input)
    (hR : RestOfBuffer m P rest b lo hi) (hne : input ≠ []) {σ0 σ : PyRFLX.State} (h0 : m.new = .ok σ0)
    (h : m.parseBytes σ0 input = .ok σ) : ∃ p e es, Found m P b lo hi σ p e es := by
  have hB : Bitstring.fromBytes input = ⟨input.flatMap Spec.byteBits⟩ := by rw [← fromBytes_bits hne]
  obtain ⟨hcore, hacc⟩ := w.new (input.flatMap Spec.byteBits) h0
  unfold PyRFLX.Msg.parseBytes at h
  rw [hB] at h
  obtain ⟨nxt, hn, h⟩ := PyRFLX.bind_ok (h : (m.nextField _ _).bind _ = _)
  refine loop_found w W S hH hR _ _ _ _ _ _ _ _ _ [] hcore ⟨rfl, by simp, by simp⟩ ?_ hn
    (fun f hf hfin => hacc f (by rw [← hf]; exact hn) hfin) h
  have := @Follows.start P.m.msg b lo hi
  have hl : low INITIAL = INITIAL := by decide
  simpa [hl] using this

/-- If PyRFLX parses the bytes, then generated code accepts a buffer with these bytes as well, and finds the same fields, at the
same positions, with the same sizes and the same values. No other field is valid in generated code. `p` are the fields of the
message PyRFLX has found.

The claim is wrong for messages with enumerations that are always valid (`C60_unknown_values_counterexample`) and for conditions
about positions (`C60_positions_counterexample`). The converse is wrong, as PyRFLX never compares the value of an opaque field with
a list of numbers (`C60_aggregate_counterexample`). -/
theorem C60_agree_partial (w : PyRFLX.Well m rank rest) (W : WellFormed P) (S : SameMessage m P rest) (I : InBuffer P b lo hi)
    (hD : Deterministic P.m.msg b lo hi) (hS : Sizes P b lo hi) (hR : RestOfBuffer m P rest b lo hi) (hH : Holds b lo hi input)
    (hne : input ≠ []) {σ0 σ : PyRFLX.State} (h0 : m.new = .ok σ0) (h : m.parseBytes σ0 input = .ok σ) :
    ∃ c p e, P.parse b lo hi = .ok c ∧ P.structuralValidMessage c = .ok true ∧
      PyRFLX.Walk m σ.mapping INITIAL p e ∧ m.nextField σ.mapping e = .ok (some FINAL) ∧
      (∀ f ∈ p, Agrees m P b lo σ c f) ∧
      ∀ f ∈ m.fields, f ∉ p → (c.cursors (low f)).state = .invalid ∨ (c.cursors (low f)).state = .incomplete := by
  obtain ⟨p, e, es, F⟩ := parse_found w W S hH hR hne h0 h
  obtain ⟨c, r, hc, hr, hiff⟩ := C29_accepts W I hD hS
  obtain ⟨c1, hc1, R⟩ := C29_fields W I hD hS F.message
  obtain ⟨c2, hc2, hf⟩ := C29_field_first W I hD hS F.message
  obtain rfl : c = c1 := by rw [hc] at hc1; cases hc1; rfl
  obtain rfl : c = c2 := by rw [hc] at hc2; cases hc2; rfl
  obtain rfl := hiff.mpr ⟨es, F.message⟩
  refine ⟨c, p, e, hc, hr, F.walk, F.final, ?_, ?_⟩
  · intro f hfp
    have : low f ∈ es.map (·.f) := by rw [F.fields]; simpa using ⟨f, hfp, rfl⟩
    obtain ⟨it, hit, hitf⟩ := List.mem_map.mp this
    obtain ⟨g, hg, hgf, a, n, v, bits, h1, h2, h3, h4, h5, h6, h7, h8, h9, h10⟩ := F.same it hit
    obtain rfl : f = g := S.inj (F.mem f hfp) (F.mem g hg) (by rw [← hgf, hitf])
    obtain ⟨g1, g2, g3⟩ := hf it hit
    obtain ⟨k1, _, _, k4⟩ := R.valid it hit
    rw [hitf] at g1 g2 g3 k1 k4
    refine ⟨a, n, v, bits, h1, h2, h3, by rw [g1, h4], by rw [g2, h5], ?_, h7, by omega, ?_, ?_, ?_⟩
    · rw [g3, h4, h5]; congr 1; omega
    · intro i hi; rw [h9 i hi, h4]
    · rw [k1]; split <;> simp
    · intro x hx; rw [k4, h10 x hx]
  · intro f hff hfp
    refine R.invalid (low f) ?_ ?_
    · rw [S.fields]; exact List.mem_map_of_mem hff
    · rw [F.fields]
      intro hm
      obtain ⟨g, hg, hgf⟩ := List.mem_map.mp (List.mem_reverse.mp hm)
      exact hfp (S.inj hff (F.mem g hg) hgf.symm ▸ hg)

end Verif.Agree
