import Verif.PyRFLX.Array
import Verif.PyRFLX.EnumProps

/-! # Property C45: encoding and decoding of arrays of scalars in PyRFLX -/

namespace Verif.PyRFLX

open Verif Verif.Types Verif.Bits

/-- Element types for which the properties of scalars (C03, C04) hold. -/
def Scalar.Fine : Scalar → Prop
  | .int t => t.Accepted ∧ t.ConstModulus ∧ Sized t
  | .enum t => Plain t ∧ EnumSized t

/-- The numbers that are legal encodings of a value of the type. -/
def Scalar.Legal : Scalar → Int → Prop
  | .int t, n => InRange t n
  | .enum t, n => (∃ l, (l, n) ∈ t.literals) ∨ t.alwaysValid = true

/-- The number of a value. -/
def SVal.number : SVal → Int
  | .int v => v
  | .enum _ v => v

/-! ## Lemmas -/

theorem fine_size {s : Scalar} (h : s.Fine) : ∃ n : Nat, s.size = .ok ⟨n, .b0⟩ ∧ 0 < n := by
  cases s with
  | int t =>
    obtain ⟨_, _, n, h1, h2⟩ := h
    exact ⟨n.toNat, by rw [Scalar.size, h1, Int.toNat_of_nonneg (by omega)], by omega⟩
  | enum t =>
    obtain ⟨_, n, h1, h2⟩ := h
    exact ⟨n.toNat, by rw [Scalar.size, h1, Int.toNat_of_nonneg (by omega)], by omega⟩

/-- Parsing one element of the right size. -/
theorem elem_parse {s : Scalar} (h : s.Fine) {n : Nat} (hn : s.size = .ok ⟨n, .b0⟩) (imported : Bool) (b : Bitstring)
    (hb : b.len = n) :
    (s.Legal (bitsToNat b.bits) → ∃ e, s.parse imported b true = .ok e ∧ e.type = s ∧
      e.value.number = bitsToNat b.bits ∧ e.bitstring = .ok b) ∧
    (¬ s.Legal (bitsToNat b.bits) → s.parse imported b true = .error .pyrflx) := by
  cases s with
  | int t =>
    obtain ⟨h1, h2, h3⟩ := h
    simp only [Scalar.size] at hn
    obtain ⟨p1, p2⟩ := C03_parse_partial t h1 h2 h3 b ⟨_, hn, by simp [hb]⟩
    constructor
    · intro hl
      obtain ⟨v, q1, q2⟩ := p1 hl
      refine ⟨⟨.int t, imported, .int v⟩, by simp [Scalar.parse, q1, Except.map], rfl, ?_, q2⟩
      have hne : b.bits ≠ [] := by
        obtain ⟨s', e1, e2⟩ := h3
        rw [hn] at e1
        cases e1
        intro he
        simp [Bitstring.len, he] at hb
        omega
      have : IntegerValue.parse t b true = IntegerValue.assign t (bitsToNat b.bits) true := by
        simp [IntegerValue.parse, Bitstring.toInt, hne, bind, Except.bind]
      rw [this, (C03_assign_partial t h1 h2 _).1 hl] at q1
      cases q1
      rfl
    · intro hl
      simp [Scalar.parse, p2 hl, Except.map]
  | enum t =>
    obtain ⟨h1, h2⟩ := h
    simp only [Scalar.size] at hn
    have hne : b.bits ≠ [] := by
      obtain ⟨s', e1, e2⟩ := h2
      rw [hn] at e1
      cases e1
      intro he
      simp [Bitstring.len, he] at hb
      omega
    obtain ⟨p1, p2⟩ := C04_parse_partial t h1 imported b hne
    have key : ∀ r, EnumValue.parse t imported b = .ok r → r.2 = bitsToNat b.bits →
        ∃ e, Scalar.parse (.enum t) imported b true = .ok e ∧ e.type = .enum t ∧
          e.value.number = bitsToNat b.bits ∧ e.bitstring = .ok b := by
      intro r hr hr2
      refine ⟨⟨.enum t, imported, .enum r.1 r.2⟩, by simp [Scalar.parse, hr, Except.map], rfl, hr2, ?_⟩
      exact C04_reencode_partial t h1 h2 imported b r hr ⟨_, hn, by simp [hb]⟩
    constructor
    · intro hl
      by_cases hm : ∃ l, (l, (bitsToNat b.bits : Int)) ∈ t.literals
      · obtain ⟨l, hm⟩ := hm
        exact key _ (p1 l hm) rfl
      · have hav : t.alwaysValid = true := hl.resolve_left hm
        have := p2 (fun l hl => hm ⟨l, hl⟩)
        rw [if_pos hav] at this
        exact key _ this rfl
    · intro hl
      have hl' : ¬ (∃ l, (l, (bitsToNat b.bits : Int)) ∈ t.literals) ∧ ¬ t.alwaysValid = true := by
        simpa [Scalar.Legal] using hl
      have := p2 (fun l hh => hl'.1 ⟨l, hh⟩)
      rw [if_neg hl'.2] at this
      simp [Scalar.parse, this, Except.map]

theorem join_cons (b : Bitstring) (bs : List Bitstring) :
    (Bitstring.join (b :: bs)).bits = b.bits ++ (Bitstring.join bs).bits := by
  unfold Bitstring.join
  rw [join_foldl, join_foldl]
  simp

/-- The `i`-th chunk of `n` bits. -/
def chunk (n : Nat) (bits : List Bool) (i : Nat) : List Bool := (bits.drop (i * n)).take n

theorem chunk_succ (n : Nat) (bits : List Bool) (i : Nat) : chunk n bits (i + 1) = chunk n (bits.drop n) i := by
  simp only [chunk, List.drop_drop]
  congr 2
  rw [Nat.add_mul]; omega

theorem loop_spec {s : Scalar} (h : s.Fine) {n : Nat} (hn : s.size = .ok ⟨n, .b0⟩) (hpos : 0 < n) (imported : Bool)
    (k : Nat) : ∀ (fuel : Nat) (bits : List Bool), k ≤ fuel → bits.length = k * n →
    ((∀ i, i < k → s.Legal (bitsToNat (chunk n bits i))) →
      ∃ es, parseLoop s imported true n fuel bits = .ok es ∧ es.length = k ∧ arrayBits es = .ok ⟨bits⟩ ∧
        ∀ i (hi : i < es.length), es[i].type = s ∧ es[i].value.number = bitsToNat (chunk n bits i)) ∧
    ((∃ i, i < k ∧ ¬ s.Legal (bitsToNat (chunk n bits i))) → parseLoop s imported true n fuel bits = .error .pyrflx) := by
  induction k with
  | zero =>
    intro fuel bits _ hl
    have : bits = [] := by simpa using hl
    subst this
    refine ⟨fun _ => ⟨[], ?_, rfl, rfl, by simp⟩, fun ⟨i, hi, _⟩ => by omega⟩
    cases fuel <;> simp [parseLoop]
  | succ k ih =>
    intro fuel bits hf hl
    obtain ⟨fuel, rfl⟩ : ∃ j, fuel = j + 1 := ⟨fuel - 1, by omega⟩
    have hlen : n ≤ bits.length := by rw [hl, Nat.add_mul]; omega
    have htake : (Bitstring.mk (bits.take n)).len = n := by simp [Bitstring.len, hlen]
    have hne : bits ≠ [] := by intro he; rw [he] at hlen; simp at hlen; omega
    have hc0 : chunk n bits 0 = bits.take n := by simp [chunk]
    obtain ⟨p1, p2⟩ := elem_parse h hn imported ⟨bits.take n⟩ htake
    obtain ⟨q1, q2⟩ := ih fuel (bits.drop n) (by omega) (by rw [List.length_drop, hl, Nat.add_mul]; omega)
    have hun : parseLoop s imported true n (fuel + 1) bits = (do
        let e ← s.parse imported ⟨bits.take n⟩ true
        let es ← parseLoop s imported true n fuel (bits.drop n)
        return e :: es) := by
      cases bits with
      | nil => exact absurd rfl hne
      | cons a as => rfl
    rw [hun]
    constructor
    · intro hall
      obtain ⟨e, e1, e2, e3, e4⟩ := p1 (by have := hall 0 (by omega); rwa [hc0] at this)
      obtain ⟨es, f1, f2, f3, f4⟩ := q1 (fun i hi => by have := hall (i + 1) (by omega); rwa [chunk_succ] at this)
      refine ⟨e :: es, by simp [e1, f1, bind, Except.bind, pure, Except.pure], by simp [f2], ?_, ?_⟩
      · simp only [arrayBits, bind, Except.bind, pure, Except.pure] at f3 ⊢
        cases hm : es.mapM Elem.bitstring with
        | error er => simp [hm] at f3
        | ok bs =>
          simp only [hm, Except.ok.injEq] at f3
          rw [List.mapM_cons, e4, hm]
          simp only [bind, Except.bind, pure, Except.pure]
          congr 1
          have := join_cons ⟨bits.take n⟩ bs
          rw [f3] at this
          simp only [List.take_append_drop] at this
          cases hj : Bitstring.join (⟨bits.take n⟩ :: bs)
          rw [hj] at this
          simp_all
      · intro i hi
        cases i with
        | zero => simp only [List.getElem_cons_zero]; exact ⟨e2, by rw [hc0]; exact e3⟩
        | succ i =>
          simp only [List.getElem_cons_succ]
          rw [chunk_succ]
          exact f4 i (by simpa using hi)
    · rintro ⟨i, hi, hbad⟩
      by_cases h0 : s.Legal (bitsToNat (bits.take n))
      · obtain ⟨e, e1, _⟩ := p1 h0
        cases i with
        | zero => rw [hc0] at hbad; exact absurd h0 hbad
        | succ i =>
          rw [chunk_succ] at hbad
          simp [e1, q2 ⟨i, by omega, hbad⟩, bind, Except.bind]
      · simp [p2 h0, bind, Except.bind]

/-! ## C45 -/

/-- Parsing a bit string that consists of `k` elements succeeds exactly if every element is legal. Then the array has
`k` elements of the element type, which encode to the same bits. -/
theorem C45_parse_partial (s : Scalar) (h : s.Fine) (imported : Bool) (b : Bitstring) (n : Num) (hn : s.size = .ok n) (k : Nat)
    (hk : (b.len : Int) = k * n.v) (expected : Option Int) (he : expected = none ∨ expected = some (b.len : Int)) :
    ((∀ i, i < k → s.Legal (bitsToNat (chunk n.v.toNat b.bits i))) →
      ∃ es, ArrayValue.parse s imported expected b true = .ok es ∧ es.length = k ∧ arrayBits es = .ok b ∧
        ∀ i (hi : i < es.length), es[i].type = s ∧ es[i].value.number = bitsToNat (chunk n.v.toNat b.bits i)) ∧
    ((∃ i, i < k ∧ ¬ s.Legal (bitsToNat (chunk n.v.toNat b.bits i))) →
      ArrayValue.parse s imported expected b true = .error .pyrflx) := by
  obtain ⟨m, hm, hpos⟩ := fine_size h
  rw [hm] at hn
  cases hn
  have hchk : checkSize expected b.len = .ok () := by
    rcases he with rfl | rfl <;> simp [checkSize]
  have hlen : b.bits.length = k * m := by
    simp only [Bitstring.len] at hk
    have : ((k * m : Nat) : Int) = k * m := by simp
    omega
  have hkf : k ≤ b.len := by
    simp only [Bitstring.len, hlen]
    exact Nat.le_mul_of_pos_right k hpos
  have := loop_spec h hm hpos imported k b.len b.bits hkf hlen
  have hp : ArrayValue.parse s imported expected b true = parseLoop s imported true m b.len b.bits := by
    simp only [ArrayValue.parse, hchk, hm, bind, Except.bind]
    rw [if_neg (by omega)]
    rfl
  rw [hp]
  simpa using this

/-- A wrong amount of data is rejected if the size of the array is known. -/
theorem C45_size_check (s : Scalar) (imported : Bool) (b : Bitstring) (n : Int) (h : (b.len : Int) ≠ n) (check : Bool) :
    ArrayValue.parse s imported (some n) b check = .error .pyrflx := by
  simp [ArrayValue.parse, checkSize, h, bind, Except.bind]

/-- Assigning elements of the element type: the array has exactly these elements, and parsing its bits gives elements
with the same numbers. -/
theorem C45_assign_partial (s : Scalar) (h : s.Fine) (imported : Bool) (es : List Elem) (b : Bitstring) (n : Num)
    (hn : s.size = .ok n) (hb : arrayBits es = .ok b) (ht : ∀ e ∈ es, e.type = s)
    (hbits : ∀ e ∈ es, ∃ x : Bitstring, e.bitstring = .ok x ∧ (x.len : Int) = n.v ∧ (bitsToNat x.bits : Int) = e.value.number ∧
      s.Legal (bitsToNat x.bits)) :
    ArrayValue.assign s (some (b.len : Int)) es true = .ok es ∧
    ∃ es', ArrayValue.parse s imported (some (b.len : Int)) b true = .ok es' ∧
      es'.map (·.value.number) = es.map (·.value.number) := by
  obtain ⟨m, hm, hpos⟩ := fine_size h
  rw [hm] at hn
  cases hn
  simp only at hbits
  have key : ∀ (es : List Elem) (b : Bitstring), arrayBits es = .ok b → (∀ e ∈ es, ∃ x : Bitstring, e.bitstring = .ok x ∧
      (x.len : Int) = m ∧ (bitsToNat x.bits : Int) = e.value.number ∧ s.Legal (bitsToNat x.bits)) →
      b.len = es.length * m ∧ ∀ i (hi : i < es.length), s.Legal (bitsToNat (chunk m b.bits i)) ∧
        (bitsToNat (chunk m b.bits i) : Int) = es[i].value.number := by
    intro es
    induction es with
    | nil =>
      intro b hb _
      simp only [arrayBits, List.mapM_nil, bind, Except.bind, pure, Except.pure, Except.ok.injEq] at hb
      subst hb
      exact ⟨by simp [Bitstring.join, Bitstring.len], by simp⟩
    | cons e es ih =>
      intro b hb hbits
      obtain ⟨x, x1, x2, x3, x4⟩ := hbits e (by simp)
      simp only [arrayBits, bind, Except.bind, pure, Except.pure] at hb
      cases hmm : es.mapM Elem.bitstring with
      | error er => rw [List.mapM_cons, x1, hmm] at hb; simp [bind, Except.bind] at hb
      | ok bs =>
        rw [List.mapM_cons, x1, hmm] at hb
        simp only [bind, Except.bind, pure, Except.pure, Except.ok.injEq] at hb
        have hj := join_cons x bs
        rw [hb] at hj
        obtain ⟨i1, i2⟩ := ih (Bitstring.join bs) (by simp [arrayBits, hmm, bind, Except.bind, pure, Except.pure])
          (fun e he => hbits e (by simp [he]))
        simp only [Bitstring.len] at x2 i1 ⊢
        have x2' : x.bits.length = m := by omega
        refine ⟨by rw [hj, List.length_append, i1, x2', List.length_cons, Nat.add_mul]; omega, ?_⟩
        intro i hi
        cases i with
        | zero =>
          have : chunk m b.bits 0 = x.bits := by
            rw [chunk, hj, ← x2']; simp
          rw [this]
          exact ⟨x4, x3⟩
        | succ i =>
          have : chunk m b.bits (i + 1) = chunk m (Bitstring.join bs).bits i := by
            rw [chunk_succ, hj, ← x2']; simp
          rw [this]
          exact i2 i (by simpa using hi)
  obtain ⟨k1, k2⟩ := key es b hb hbits
  constructor
  · simp only [arrayBits, bind, Except.bind, pure, Except.pure] at hb
    cases hmm : es.mapM Elem.bitstring with
    | error er => simp [hmm] at hb
    | ok bs =>
      simp only [hmm, Except.ok.injEq] at hb
      have hall : es.all (fun e => e.type.sameClass s) = true := by
        rw [List.all_eq_true]
        intro e he
        rw [ht e he]
        cases s with
        | int t => cases t <;> rfl
        | enum t => rfl
      simp [ArrayValue.assign, hmm, bind, Except.bind, hb, checkSize, hall, pure, Except.pure]
  · obtain ⟨es', p1, p2, p3, p4⟩ := (C45_parse_partial s h imported b ⟨m, .b0⟩ hm es.length (by rw [k1]; simp)
      (some (b.len : Int)) (.inr rfl)).1 (fun i hi => (k2 i hi).1)
    refine ⟨es', p1, ?_⟩
    apply List.ext_getElem
    · simp [p2]
    · intro i h1 h2
      simp only [List.getElem_map]
      simp only [List.length_map] at h1 h2
      rw [(p4 i h1).2]
      exact (k2 i h2).2

/-! ### The hypotheses can be met -/

/-- `type B is mod 256`. -/
def exByte : IntType := .modular ⟨⟨[['P'], ['B']]⟩, .n 256, .n 8⟩

theorem exByte_fine : (Scalar.int exByte).Fine := by
  refine ⟨⟨⟨[['P'], ['B']]⟩, .n 256, by rfl⟩, ⟨by simp [Expr.Const], by simp [Expr.WF], fun D ρ => ⟨256, rfl⟩⟩,
    ⟨8, rfl, by decide⟩⟩

example : ((List.replicate 24 true).length : Int) = (3 : Nat) * (Num.n 8).v ∧
    ∀ i, i < 3 → (Scalar.int exByte).Legal (bitsToNat (chunk 8 (List.replicate 24 true) i)) := by
  refine ⟨by decide, fun i hi => ⟨Num.n 0, Num.n 255, rfl, by rfl, ?_⟩⟩
  have : i = 0 ∨ i = 1 ∨ i = 2 := by omega
  rcases this with rfl | rfl | rfl <;> decide

/-! ### Where it fails -/

/-- Data that is not a multiple of the element size is accepted if no size is expected: twelve bits become two bytes,
and re-encoding gives sixteen bits. -/
theorem C45_partial_element_counterexample : ∃ es r, (Scalar.int exByte).Fine ∧
    ArrayValue.parse (.int exByte) false none ⟨List.replicate 12 true⟩ true = .ok es ∧ es.length = 2 ∧
    arrayBits es = .ok r ∧ r.len = 16 := by
  have h255 : IntegerValue.assign exByte 255 true = .ok 255 :=
    (C03_assign_partial exByte exByte_fine.1 exByte_fine.2.1 255).1 ⟨Num.n 0, Num.n 255, rfl, by rfl, by decide, by decide⟩
  have h15 : IntegerValue.assign exByte 15 true = .ok 15 :=
    (C03_assign_partial exByte exByte_fine.1 exByte_fine.2.1 15).1 ⟨Num.n 0, Num.n 255, rfl, by rfl, by decide, by decide⟩
  obtain ⟨s1, b1, e1, e2, e3, _⟩ := C03_bits_partial exByte exByte_fine.1 exByte_fine.2.2 255
    ⟨Num.n 0, Num.n 255, rfl, by rfl, by decide, by decide⟩
  obtain ⟨s2, b2, f1, f2, f3, _⟩ := C03_bits_partial exByte exByte_fine.1 exByte_fine.2.2 15
    ⟨Num.n 0, Num.n 255, rfl, by rfl, by decide, by decide⟩
  have hsz : exByte.size = .ok ⟨8, .b0⟩ := rfl
  rw [hsz] at e1 f1
  cases e1; cases f1
  refine ⟨[⟨.int exByte, false, .int 255⟩, ⟨.int exByte, false, .int 15⟩], Bitstring.join [b1, b2], exByte_fine, ?_, rfl,
    ?_, ?_⟩
  · have p1 : IntegerValue.parse exByte ⟨List.replicate 8 true⟩ true = .ok 255 := by
      rw [← h255]; rfl
    have p2 : IntegerValue.parse exByte ⟨List.replicate 4 true⟩ true = .ok 15 := by
      rw [← h15]; rfl
    have hp : ArrayValue.parse (.int exByte) false none ⟨List.replicate 12 true⟩ true =
      parseLoop (.int exByte) false true 8 12 (List.replicate 12 true) := rfl
    rw [hp]
    simp only [List.replicate, parseLoop, List.take, List.drop, Scalar.parse]
    simp only [List.replicate] at p1 p2
    rw [p1]
    simp only [Except.map, bind, Except.bind]
    rw [p2]
    rfl
  · simp [arrayBits, List.mapM_cons, Elem.bitstring, e2, f2, bind, Except.bind, pure, Except.pure]
  · simp only [Bitstring.len] at e3 f3 ⊢
    simp only [Bitstring.join, List.foldl, Bitstring.add, List.nil_append, List.length_append]
    omega

/-- Parsing no data gives an array with one element (the bit string of no bytes is "0"). -/
theorem C45_empty_bytes_counterexample : ∃ es,
    ArrayValue.parseBytes (.int exByte) false (some 0) [] true = .ok es ∧ es.length = 1 := by
  have h0 : IntegerValue.assign exByte 0 true = .ok 0 :=
    (C03_assign_partial exByte exByte_fine.1 exByte_fine.2.1 0).1 ⟨Num.n 0, Num.n 255, rfl, by rfl, by decide, by decide⟩
  have hb : Bitstring.fromBytes [] = ⟨[false]⟩ := by
    simp [Bitstring.fromBytes, formatBin, bytesToNat, binDigits, binDigitsAux]
  have p0 : IntegerValue.parse exByte ⟨[false]⟩ true = .ok 0 := by rw [← h0]; rfl
  refine ⟨[⟨.int exByte, false, .int 0⟩], ?_, rfl⟩
  have hp : ArrayValue.parseBytes (.int exByte) false (some 0) [] true =
    parseLoop (.int exByte) false true 8 (Bitstring.fromBytes []).len (Bitstring.fromBytes []).bits := rfl
  rw [hp, hb]
  simp only [Bitstring.len, List.length, parseLoop, List.take, List.drop, Scalar.parse]
  rw [p0]
  rfl

/-- `assign` compares only the kind of the type: an array of bytes accepts an element of `type T is mod 2 ** 16`. -/
theorem C45_element_type_counterexample : ∃ e : Elem, e.type = .int exMod ∧
    ArrayValue.assign (.int exByte) (some 16) [e] true = .ok [e] := by
  have hm : exMod.ConstModulus := by
    refine ⟨?_, ?_, fun D ρ => ⟨65536, rfl⟩⟩
    · simp [Expr.Const]
    · simp [Expr.WF]
  have ha : exMod.Accepted := ⟨⟨[['P'], ['T']]⟩, .bin .pow (.n 2) (.n 16), by
    rw [C05_modular_iff]; exact ⟨rfl, 16, by omega, ⟨.b0, by rfl⟩, rfl⟩⟩
  obtain ⟨s1, b1, e1, e2, e3, _⟩ := C03_bits_partial exMod ha ⟨16, rfl, by decide⟩ 4711
    ⟨Num.n 0, Num.n 65535, rfl, by rfl, by decide, by decide⟩
  have hsz : exMod.size = .ok ⟨16, .b0⟩ := rfl
  rw [hsz] at e1
  cases e1
  refine ⟨⟨.int exMod, false, .int 4711⟩, rfl, ?_⟩
  have hj : (Bitstring.join [b1]).len = 16 := by
    simp only [Bitstring.len] at e3 ⊢
    simp only [Bitstring.join, List.foldl, Bitstring.add, List.nil_append]
    omega
  have hc : Scalar.sameClass (.int exMod) (.int exByte) = true := rfl
  simp [ArrayValue.assign, List.mapM_cons, Elem.bitstring, e2, bind, Except.bind, pure, Except.pure, checkSize, hj, hc]

end Verif.PyRFLX
