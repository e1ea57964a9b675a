import Verif.PyRFLX.ArrayProps
import Verif.Bits.Props

/-! # Arrays of scalars in PyRFLX: parsing of bytes and rejected assignments (C45) -/

namespace Verif.PyRFLX

open Verif Verif.Types Verif.Bits

/-- **C45**: parsing bytes. If the bits of the bytes, in network byte order, consist of `k` elements, parsing succeeds exactly if every
element is legal, and then the array has `k` elements which encode to the same bits. No bytes at all are excluded
(`C45_empty_bytes_counterexample`). -/
theorem C45_parse_bytes_partial (s : Scalar) (h : s.Fine) (imported : Bool) (bs : List Byte) (hne : bs ≠ []) (n : Num)
    (hn : s.size = .ok n) (k : Nat) (hk : (8 * bs.length : Int) = k * n.v) (expected : Option Int)
    (he : expected = none ∨ expected = some (8 * bs.length : Int)) :
    ((∀ i, i < k → s.Legal (bitsToNat (chunk n.v.toNat (bs.flatMap Spec.byteBits) i))) →
      ∃ es, ArrayValue.parseBytes s imported expected bs true = .ok es ∧ es.length = k ∧
        arrayBits es = .ok ⟨bs.flatMap Spec.byteBits⟩ ∧
        ∀ i (hi : i < es.length), es[i].type = s ∧
          es[i].value.number = bitsToNat (chunk n.v.toNat (bs.flatMap Spec.byteBits) i)) ∧
    ((∃ i, i < k ∧ ¬ s.Legal (bitsToNat (chunk n.v.toNat (bs.flatMap Spec.byteBits) i))) →
      ArrayValue.parseBytes s imported expected bs true = .error .pyrflx) := by
  have hb := fromBytes_bits hne
  have hx : Bitstring.fromBytes bs = ⟨bs.flatMap Spec.byteBits⟩ := by
    rw [← hb]
  have hl : (Bitstring.fromBytes bs).len = bs.length * 8 := by
    have := (C01_roundtrip bs hne).2.1
    omega
  have heq : ArrayValue.parseBytes s imported expected bs true =
      ArrayValue.parse s imported expected ⟨bs.flatMap Spec.byteBits⟩ true := by
    rw [← hx]
    simp only [ArrayValue.parseBytes, ArrayValue.parse, hl]
  rw [heq]
  rw [hx] at hl
  have := C45_parse_partial s h imported ⟨bs.flatMap Spec.byteBits⟩ n hn k (by rw [hl, ← hk]; omega) expected
    (by rcases he with he | he
        · exact .inl he
        · right; rw [he, hl]; congr 1; omega)
  exact this

/-- Three bytes are three elements of eight bits. -/
example : ([1, 2, 3] : List Byte) ≠ [] ∧ (Scalar.int exByte).size = .ok (Num.n 8) ∧ (8 * ([1, 2, 3] : List Byte).length : Int) = (3 : Nat) * (Num.n 8).v :=
  ⟨by decide, rfl, by decide⟩

/-- **C45**: a wrong number of bytes is rejected if the size of the array is known. -/
theorem C45_bytes_size_check (s : Scalar) (imported : Bool) (bs : List Byte) (n : Int) (h : (8 * bs.length : Int) ≠ n) (check : Bool) :
    ArrayValue.parseBytes s imported (some n) bs check = .error .pyrflx := by
  have : ((bs.length * 8 : Nat) : Int) ≠ n := by omega
  simp only [ArrayValue.parseBytes, checkSize, if_pos this, bind, Except.bind]

/-- **C45**: elements with a total size other than the known size of the array are rejected, unless the check is switched off. -/
theorem C45_assign_size_check (s : Scalar) (es : List Elem) (b : Bitstring) (hb : arrayBits es = .ok b) (n : Int)
    (h : (b.len : Int) ≠ n) : ArrayValue.assign s (some n) es true = .error .pyrflx := by
  unfold arrayBits at hb
  cases hm : es.mapM Elem.bitstring with
  | error e => rw [hm] at hb; cases hb
  | ok l =>
    rw [hm] at hb
    cases hb
    simp only [ArrayValue.assign, hm, checkSize, if_pos h, bind, Except.bind, if_true]

/-- **C45**: an integer is not accepted as an element of an array of enumerations, and conversely. -/
theorem C45_assign_kind_check (s : Scalar) (es : List Elem) (b : Bitstring) (hb : arrayBits es = .ok b) (expected : Option Int) (check : Bool)
    (h : ∃ e ∈ es, (∃ t u, e.type = .int t ∧ s = .enum u) ∨ (∃ t u, e.type = .enum t ∧ s = .int u)) :
    ArrayValue.assign s expected es check = .error .pyrflx := by
  have hall : (es.all fun e => e.type.sameClass s) = false := by
    obtain ⟨e, he, h⟩ := h
    rw [List.all_eq_false]
    refine ⟨e, he, ?_⟩
    rcases h with ⟨t, u, h1, h2⟩ | ⟨t, u, h1, h2⟩
    · rw [h1, h2]; cases t <;> simp [Scalar.sameClass]
    · rw [h1, h2]; simp [Scalar.sameClass]
  unfold arrayBits at hb
  cases hm : es.mapM Elem.bitstring with
  | error e => rw [hm] at hb; cases hb
  | ok l =>
    cases check with
    | false => simp [ArrayValue.assign, hall]
    | true =>
      cases hc : checkSize expected (Bitstring.join l).len with
      | error e =>
        have : e = .pyrflx := by
          unfold checkSize at hc
          split at hc
          · split at hc
            · cases hc; rfl
            · cases hc
          · cases hc
        subst this
        simp [ArrayValue.assign, hm, hc, bind, Except.bind]
      | ok _ => simp [ArrayValue.assign, hm, hc, hall, bind, Except.bind]

/-- An array with one byte: its size is neither 16, nor is it an array of enumerations. -/
example : ∃ (es : List Elem) (b : Bitstring), arrayBits es = .ok b ∧ (b.len : Int) ≠ 16 ∧ ∃ e ∈ es, ∃ t, e.type = .int t := by
  obtain ⟨s1, b1, e1, e2, e3, _⟩ := C03_bits_partial exByte exByte_fine.1 exByte_fine.2.2 7
    ⟨Num.n 0, Num.n 255, rfl, by rfl, by decide, by decide⟩
  have hsz : exByte.size = .ok ⟨8, .b0⟩ := rfl
  rw [hsz] at e1
  cases e1
  refine ⟨[⟨.int exByte, false, .int 7⟩], Bitstring.join [b1], ?_, ?_, _, List.mem_singleton.mpr rfl, _, rfl⟩
  · simp [arrayBits, List.mapM_cons, Elem.bitstring, e2, bind, Except.bind, pure, Except.pure]
  · simp only [Bitstring.len] at e3 ⊢
    simp only [Bitstring.join, List.foldl, Bitstring.add, List.nil_append]
    omega

end Verif.PyRFLX
