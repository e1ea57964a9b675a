import Verif.Ctx.SeqSpec
import Verif.Ctx.Front
import Verif.Spark.ScalarSeqProps

/-! # The elements of a sequence -/

namespace Verif.Ctx
open Verif Verif.Graph Verif.Verify Verif.Types Verif.Gen
open Verif.Spark hiding byteIndex

theorem bit_at {b : Bytes} (hb : AreBytes b.data) {k : Nat} (hk : k / 8 < b.data.length) : bit b.data k = bitAt b (8 * b.last - k) := by
  rw [bit_eq hb hk]
  unfold bitAt
  rw [List.getD_eq_getElem?_getD]
  have e1 : b.data.length - 1 - k / 8 = ((8 * b.last - k - 1) / 8 + 1 - b.first).toNat := by simp only [Bytes.last]; omega
  have e2 : k % 8 = 7 - ((8 * b.last - k - 1) % 8).toNat := by omega
  rw [e1, ← e2]

theorem holdsAt_bits {b : Bytes} (hb : AreBytes b.data) {s lastBit v : Nat} (h : HoldsAt b s lastBit v) (h1 : (8 * b.first : Int) ≤ lastBit - s + 8)
    (h2 : (lastBit : Int) ≤ 8 * b.last) (hs : s ≤ lastBit) : v = bitsAt b (lastBit - s + 1) s := by
  refine bitsAt_unique h.1 fun j hj => ?_
  simp only [Bytes.last] at h2
  rw [h.2 j hj, bit_at hb (by simp only [Bytes.last]; omega)]
  congr 1
  simp only [Bytes.last]
  omega

section
variable {P : Pkg} {f : Field} {t : FTy} {E : ScalarSeq.Params Nat}

theorem element_run (h : P.element f = .ok E) : ∃ t n, ArrayOf P.m.msg f t ∧ t.size = .ok n ∧ E.indexLast = (P.bitLast / 8).toNat ∧ E.size = n.v.toNat ∧
    (∀ x, E.valid x = match elementValid t x with | .ok b => b | .error _ => false) ∧ E.toActual = id ∧ (∀ x, E.toBase x = x % 2 ^ E.size) := by
  unfold Pkg.element at h
  split at h
  · rename_i id t ht
    split at h
    · rename_i hs
      obtain ⟨n, h1, h⟩ := bind_run h
      cases h
      cases hz : t.size with
      | error e => rw [hz] at h1; cases h1
      | ok n' =>
        rw [hz] at h1
        cases h1
        exact ⟨t, n, ⟨(scalar_iff t).mp hs, id, type?_mem ht⟩, hz, rfl, rfl, fun _ => rfl, rfl, fun _ => rfl⟩
    · cases h
  · cases h

theorem arrayOf_unique {o : Opts} (hN : Names P.m o) {t' : FTy} (h : ArrayOf P.m.msg f t) (h' : ArrayOf P.m.msg f t') : t = t' := by
  obtain ⟨_, _, h1⟩ := h
  obtain ⟨_, _, h2⟩ := h'
  have := (type?_some hN h1).symm.trans (type?_some hN h2)
  cases this
  rfl

theorem arrayOf_composite {o : Opts} (hN : Names P.m o) (h : ArrayOf P.m.msg f t) : P.isComposite f = true := by
  obtain ⟨_, _, h1⟩ := h
  simp [Pkg.isComposite, type?_some hN h1, FTy.isScalar]

theorem element_size (T : ElementTypes P) (h : ArrayOf P.m.msg f t) : ∃ n, t.size = .ok n ∧ 1 ≤ n.v ∧ n.v ≤ 64 := by
  obtain ⟨n, hn, h1⟩ := T.sized f t h
  refine ⟨n, hn, h1, ?_⟩
  cases t with
  | int t =>
    obtain ⟨_, _, s, _, _, hsz, _, _, h64, _⟩ := C05_accepted t (T.int f t h)
    have : t.size = .ok n := hn
    rw [hsz] at this
    cases this
    exact h64
  | enum t =>
    obtain ⟨s, hsz, h64, _⟩ := C06_accepted t (T.enum f t h).1
    have : scalarSize t.size = .ok n := hn
    rw [hsz] at this
    cases this
    exact h64
  | _ => exact h.1.elim

theorem elementValid_ok (T : ElementTypes P) (h : ArrayOf P.m.msg f t) {n : Num} (hn : t.size = .ok n)
    {v : Int} (h0 : 0 ≤ v) (h1 : v < 2 ^ n.v.toNat) : ∃ x, elementValid t v = .ok x ∧ (x = true ↔ InType t v) := by
  cases t with
  | int t =>
    obtain ⟨f', l, s, fs, hf, hl, hsz, hfs, hv, _⟩ := Generator.C32_integer t (T.int f t h)
    have : t.size = .ok n := hn
    rw [hsz] at this
    cases this
    refine ⟨decide (f'.v ≤ v ∧ v ≤ l.v), ?_, ?_⟩
    · simp only [elementValid, hfs, ofPy, bind, Except.bind, hv v ⟨h0, h1⟩]
      rfl
    · simp only [decide_eq_true_eq, InType]
      constructor
      · intro hr; exact ⟨f', l, hf, hl, hr⟩
      · rintro ⟨f'', l', hf', hl', hr⟩
        rw [hf] at hf'
        rw [hl] at hl'
        cases hf'
        cases hl'
        exact hr
  | enum t =>
    obtain ⟨s, fs, hsz, hfs, hv, _⟩ := Generator.C32_enumeration_partial t (T.enum f t h).1 (T.enum f t h).2
    have : scalarSize t.size = .ok n := hn
    rw [hsz] at this
    cases this
    refine ⟨t.alwaysValid || decide (v ∈ t.literals.map (·.2)), ?_, ?_⟩
    · simp only [elementValid, hfs, ofPy, bind, Except.bind, hv v ⟨h0, h1⟩]
      rfl
    · simp [InType]
  | _ => exact h.1.elim

/-- The instance of the generic package for a field. -/
structure Instance (P : Pkg) (f : Field) (t : FTy) (n : Num) (E : ScalarSeq.Params Nat) : Prop where
  array : ArrayOf P.m.msg f t
  size : t.size = .ok n
  bits : 1 ≤ n.v ∧ n.v ≤ 64
  ok : E.Ok
  last : E.indexLast = (P.bitLast / 8).toNat
  width : (E.size : Int) = n.v
  valid : ∀ x, x < 2 ^ E.size → (E.valid x = true ↔ InType t x)
  actual : E.toActual = id
  base : ∀ x, x < 2 ^ E.size → E.toBase x = x

theorem element_instance (T : ElementTypes P) (hP : 64 ≤ P.bitLast) (h : P.element f = .ok E) : ∃ t n, Instance P f t n E := by
  obtain ⟨t, n, h1, h2, h3, h4, h5, h6, h7⟩ := element_run h
  obtain ⟨n', hn, h8, h9⟩ := element_size T h1
  rw [h2] at hn
  cases hn
  refine ⟨t, n, h1, h2, ⟨h8, h9⟩, ⟨by omega, by omega, fun v => ?_, by omega⟩, h3, by omega, fun x hx => ?_, h6, fun x hx => ?_⟩
  · rw [h7]
    exact Nat.mod_lt _ (Nat.pow_pos (by decide))
  · obtain ⟨y, hy, hiff⟩ := elementValid_ok T h1 h2 (v := x) (by omega) (by rw [h4] at hx; exact_mod_cast hx)
    rw [h5, hy]
    exact hiff
  · rw [h7]
    exact Nat.mod_eq_of_lt hx

theorem element_ok {o : Opts} (hN : Names P.m o) (h : ArrayOf P.m.msg f t) {n : Num} (hn : t.size = .ok n) : ∃ E, P.element f = .ok E := by
  obtain ⟨hs, id, hm⟩ := h
  unfold Pkg.element
  rw [type?_some hN hm]
  simp only [(scalar_iff t).mpr hs, if_true, hn, ofPy, bind, Except.bind]
  exact ⟨_, rfl⟩

end

end Verif.Ctx
