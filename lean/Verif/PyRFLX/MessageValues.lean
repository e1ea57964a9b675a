import Verif.PyRFLX.MessageMapping
import Verif.PyRFLX.ArrayProps
import Verif.Bits.Props

/-! # Values of the fields of a PyRFLX message -/

namespace Verif.PyRFLX

open Verif Verif.Types Verif.Bits Verif.Graph

theorem simp_add (a b : Int) (x y : NBase) : (Expr.add [.num a x, .num b y]).simplified = .ok (.n (a + b)) := by
  simp [Expr.simplified, weight, weightL, simplify, assLoop, AssOp.finish, AssOp.const, AssOp.neutral, AssOp.op, bind,
    Except.bind, pure, Except.pure]

theorem simp_last (a b : Int) (x y : NBase) :
    (Expr.bin .sub (.add [.num a x, .num b y]) (.n 1)).simplified = .ok (.n (a + b - 1)) := by
  simp [Expr.simplified, weight, weightL, simplify, assLoop, AssOp.finish, AssOp.const, AssOp.neutral, AssOp.op, bind,
    Except.bind, pure, Except.pure, Expr.num?, numArith]

/-- Specification: a bit string of this length is the encoding of a whole number of elements. -/
def Fits (t : FType) (n : Nat) : Prop :=
  match t with
  | .scalar s _ => s.Fine ∧ s.size = .ok ⟨n, .b0⟩
  | .opaque => n % 8 = 0
  | .array s _ => s.Fine ∧ ∃ w k : Nat, s.size = .ok ⟨w, .b0⟩ ∧ n = k * w

theorem scalar_bits {s : Scalar} (h : s.Fine) {n : Nat} (hn : s.size = .ok ⟨n, .b0⟩) {imported : Bool} {b : Bitstring}
    (hb : b.len = n) {e : Elem} (he : s.parse imported b true = .ok e) : e.type = s ∧ e.bitstring = .ok b := by
  obtain ⟨h1, h2⟩ := elem_parse h hn imported b hb
  by_cases hl : s.Legal (bitsToNat b.bits)
  · obtain ⟨e', h3, h4, _, h5⟩ := h1 hl
    rw [h3] at he
    cases he
    exact ⟨h4, h5⟩
  · rw [h2 hl] at he
    cases he

theorem chunks8_length (l : List Bool) : (chunks8 l).length * 8 < l.length + 8 ∧ l.length ≤ (chunks8 l).length * 8 := by
  fun_induction chunks8 l with
  | case1 => simp
  | case2 l h ih =>
    simp only [List.length_cons, List.length_drop] at *
    have : 0 < l.length := List.length_pos_iff.mpr h
    omega

/-- The bits of an opaque value are those of its bytes. -/
theorem opaque_bits (b : List Byte) : valBits .opaque (.bytes b) = .ok ⟨b.flatMap Spec.byteBits⟩ := by
  cases b with
  | nil => simp [valBits]
  | cons x xs =>
    have := fromBytes_bits (b := x :: xs) (by simp)
    simp only [Bitstring.fromBytes] at this
    have h : ¬ ((((x :: xs).length * 8 : Nat) : Int) < 0) := by omega
    have h' : (((x :: xs).length * 8 : Nat) : Int).toNat = (x :: xs).length * 8 := by omega
    simp only [valBits, fmtBits]
    rw [if_neg (by simp), if_neg (by simp; omega), if_neg (by simp)]
    simp only [Except.ok.injEq, Bitstring.mk.injEq]
    rw [← this]
    congr 1

theorem opaque_roundtrip (b : Bitstring) (h : b.len % 8 = 0) : b.toBytes.flatMap Spec.byteBits = b.bits := by
  by_cases hb : b.bits = []
  · obtain ⟨bits⟩ := b
    simp only at hb
    subst hb
    have : (⟨[]⟩ : Bitstring).toBytes = [] := by
      simp only [Bitstring.toBytes]
      rw [chunks8]
      simp
    rw [this]
    rfl
  · have h1 := C01_roundtrip_bits b hb h
    have hne : b.toBytes ≠ [] := by
      intro hn
      have := chunks8_length b.bits
      have hl : 0 < b.bits.length := List.length_pos_iff.mpr hb
      simp only [Bitstring.toBytes, List.map_eq_nil_iff] at hn
      rw [hn] at this
      simp only [List.length_nil, Nat.zero_mul, Nat.le_zero] at this
      omega
    rw [← fromBytes_bits hne, h1]

theorem toBytes_length (b : Bitstring) (h : b.len % 8 = 0) : b.toBytes.length * 8 = b.len := by
  have := congrArg List.length (opaque_roundtrip b h)
  rw [length_flatMap_byteBits] at this
  exact this

/-- A value parsed from a bit string of a fitting length encodes to the same bits. -/
theorem assign_valBits {t : FType} {ex : Option Num} {b : Bitstring} {v : Val} (hfit : Fits t b.len)
    (h : assignValue t ex (.bits b) = .ok v) : valBits t v = .ok b := by
  cases t with
  | scalar s imp =>
    obtain ⟨hf, hs⟩ := hfit
    obtain ⟨e, he, rfl⟩ := map_ok (h : (s.parse imp b true).map _ = _)
    obtain ⟨h1, h2⟩ := scalar_bits hf hs rfl he
    obtain ⟨et, ei, ev⟩ := e
    simp only at h1
    subst h1
    exact h2
  | «opaque» =>
    obtain ⟨u, _, rfl⟩ := map_ok (h : (checkSize _ b.len).map _ = _)
    have h8 : b.len % 8 = 0 := hfit
    rw [opaque_bits, opaque_roundtrip b h8]
  | array s imp =>
    obtain ⟨hf, w, k, hs, hk⟩ := hfit
    obtain ⟨es, hes, rfl⟩ := map_ok (h : (ArrayValue.parse s imp _ b true).map _ = _)
    have hex : ex.map Num.v = none ∨ ex.map Num.v = some (b.len : Int) := by
      cases ex with
      | none => exact .inl rfl
      | some x =>
        by_cases hx : (b.len : Int) = x.v
        · exact .inr (by simp [hx])
        · simp [ArrayValue.parse, checkSize, hx, bind, Except.bind] at hes
    obtain ⟨h1, h2⟩ := C45_parse_partial s hf imp b ⟨w, .b0⟩ hs k (by simp [hk]) _ hex
    by_cases hl : ∀ i, i < k → s.Legal (bitsToNat (chunk w b.bits i))
    · obtain ⟨es', h3, h4, h5, _⟩ := h1 (by simpa using hl)
      rw [h3] at hes
      cases hes
      exact h5
    · have := h2 (by
        simp only [Int.toNat_natCast]
        exact Classical.byContradiction fun hc => hl fun i hi => Classical.byContradiction fun hn => hc ⟨i, hi, hn⟩)
      rw [this] at hes
      cases hes

/-- The size of a value parsed from a bit string of a fitting length is this length. -/
theorem assign_bits {t : FType} {ex : Option Num} {b : Bitstring} {v : Val} (hfit : Fits t b.len)
    (hex : t.isComposite = true → ∃ x, ex = some x ∧ x.v = b.len) (h : assignValue t ex (.bits b) = .ok v) :
    valBits t v = .ok b ∧ ∀ first, ∃ x, FV.size t ⟨some v, ex, first⟩ = .ok (some x) ∧ x.v = b.len := by
  have hb := assign_valBits hfit h
  refine ⟨hb, fun first => ?_⟩
  cases t with
  | scalar s imp => exact ⟨⟨b.len, .b0⟩, by simp [FV.size, hfit.2, Except.map], rfl⟩
  | «opaque» =>
    obtain ⟨u, _, rfl⟩ := map_ok (h : (checkSize _ b.len).map _ = _)
    refine ⟨_, rfl, ?_⟩
    have := toBytes_length b hfit
    simp only
    omega
  | array s imp =>
    obtain ⟨es, hes, rfl⟩ := map_ok (h : (ArrayValue.parse s imp _ b true).map _ = _)
    cases es with
    | nil =>
      obtain ⟨x, rfl, hx⟩ := hex rfl
      exact ⟨x, rfl, hx⟩
    | cons e es =>
      have hb : arrayBits (e :: es) = .ok b := hb
      exact ⟨⟨b.len, .b0⟩, by simp [FV.size, hb, Except.map], rfl⟩

/-- A field with value, size and position is set. -/
theorem isSet_true {t : FType} {v : FV} {x : Val} {s f : Num} (hv : v.value = some x) (hs : v.size t = .ok (some s))
    (hf : v.first = some f) : v.isSet t = .ok true ∧ v.last t = .ok (some (Num.n (f.v + s.v - 1))) := by
  have hl : v.last t = .ok (some (Num.n (f.v + s.v - 1))) := by
    simp [FV.last, hf, hs, Except.bind, Num.expr, simp_last, Except.map, asNum, Num.n]
  refine ⟨?_, hl⟩
  simp [FV.isSet, hv, hs, Except.bind, hf, hl, Except.map]

end Verif.PyRFLX
