import Verif.PyRFLX.Scalar
import Verif.PyRFLX.Lemmas
import Verif.Types.ConstraintProps
import Verif.Bits.Props

/-! # Properties C03, C04: encoding and decoding of scalar values in PyRFLX -/

namespace Verif.PyRFLX

open Verif Verif.Types Verif.Bits

/-! ## Lemmas -/

theorem subst_three {k : Nat} {m : List (Expr × Expr)} {a b c a' b' c' : Expr}
    (ha : subst k (substitution m) a = .ok a') (hb : subst k (substitution m) b = .ok b')
    (hc : subst k (substitution m) c = .ok c') :
    subst (k + 1) (substitution m) (.bool .and [a, b, c]) = .ok (.bool .and [a', b', c']) := by
  simp [subst, substitution, Expr.isName, List.mapM_cons, ha, hb, hc, bind, Except.bind, pure, Except.pure]

theorem simp_three {a b c : Expr} {x y z : Bool} (ha : a.simplified = .ok (lit x)) (hb : b.simplified = .ok (lit y))
    (hc : c.simplified = .ok (lit z)) :
    (Expr.bool .and [a, b, c]).simplified = .ok (lit (x && y && z)) := by
  let f : Expr → Bool := fun e => match e.simplified with | .ok .tru => true | _ => false
  have hf : ∀ (e : Expr) (b : Bool), e.simplified = .ok (lit b) → f e = b := by
    intro e b h; simp only [f, h]; cases b <;> rfl
  have := simp_bool (o := .and) (ts := [a, b, c]) (f := f) (by
    intro t ht
    simp only [List.mem_cons, List.not_mem_nil, or_false] at ht
    rcases ht with rfl | rfl | rfl
    · rw [hf _ _ ha]; exact ha
    · rw [hf _ _ hb]; exact hb
    · rw [hf _ _ hc]; exact hc)
  rw [this]
  simp [BoolOp.isAnd, hf _ _ ha, hf _ _ hb, hf _ _ hc, Bool.and_assoc]

/-- The mapping used for integers. -/
def intMap (value : Int) (size : Num) : List (Expr × Expr) :=
  [(.var false false valueID, .n value), (.attr false .size (.var false false valueID), size.expr)]

theorem var_eq (a b : ID) : (Expr.var false false a).eq (.var false false b) = true ↔ a.key = b.key := by
  rw [← ID.eq_iff_key]
  simp [Expr.eq, Expr.cls, Expr.Cls.sub]

theorem subst_value (k : Nat) (value : Int) (size : Num) (m : List (Expr × Expr)) :
    subst (k + 1) (substitution (intMap value size ++ m)) (.var false false valueID) = .ok (.n value) := by
  have : (Expr.var false false valueID).eq (.var false false valueID) = true := (var_eq _ _).mpr rfl
  simp [subst_var, substitution, Expr.isName, intMap, this]

theorem subst_size (k : Nat) (value : Int) (size : Num) (m : List (Expr × Expr)) :
    subst (k + 1) (substitution (intMap value size ++ m)) (.attr false .size (.var false false valueID)) =
      .ok size.expr := by
  have e1 : (Expr.var false false valueID).eq (.attr false .size (.var false false valueID)) = false := by
    simp [Expr.eq, Expr.cls, Expr.Cls.sub]
  have e2 : (Expr.attr false .size (.var false false valueID)).eq (.attr false .size (.var false false valueID)) =
      true := by decide
  have : substitution (intMap value size ++ m) (.attr false .size (.var false false valueID)) = size.expr := by
    simp [substitution, Expr.isName, intMap, e1, e2]
  simp [subst, this, Num.expr, Except.bind]

theorem simp_num (n : Num) : n.expr.simplified = .ok (.num n.v n.base) := rfl

theorem simp_n (v : Int) : (Expr.n v).simplified = .ok (.num v .b0) := rfl

/-! ## C03 -/

/-- Whether a value belongs to an integer type. -/
def InRange (t : IntType) (v : Int) : Prop := ∃ f l, t.first = .ok f ∧ t.last = .ok l ∧ f.v ≤ v ∧ v ≤ l.v

/-- Assignment with check succeeds exactly for the values of the type; otherwise it raises `PyRFLXError`. -/
theorem C03_assign_partial (t : IntType) (h : t.Accepted) (hm : t.ConstModulus) (v : Int) :
    (InRange t v → IntegerValue.assign t v true = .ok v) ∧
    (¬ InRange t v → IntegerValue.assign t v true = .error .pyrflx) := by
  have key : ∃ b : Bool, (b = true ↔ InRange t v) ∧
      IntegerValue.assign t v true = if b then .ok v else .error .pyrflx := by
    cases t with
    | modular t =>
      obtain ⟨id, e, h⟩ := h
      obtain ⟨_, n, hn, ⟨b, he⟩, rfl⟩ := (C05_modular_iff id e t).mp h
      obtain ⟨hc, hw, hv⟩ := hm
      have hlast : IntType.last (.modular ⟨id, e, .n n⟩) = .ok (Num.n (2 ^ n - 1)) := by
        simp [IntType.last, he, asNum, bind, Except.bind]
      refine ⟨decide (v < 2 ^ n) && decide (v ≥ 0), ?_, ?_⟩
      · unfold InRange
        rw [hlast]
        simp only [Bool.and_eq_true, decide_eq_true_eq, IntType.first, Except.ok.injEq]
        constructor
        · intro hh; exact ⟨_, _, rfl, rfl, by simp only [Num.n]; omega, by simp only [Num.n]; omega⟩
        · rintro ⟨f, l, rfl, rfl, h1, h2⟩; simp only [Num.n] at h1 h2; omega
      · have hsub : (Expr.bool .and [.rel .lt (.var false false valueID) e, .rel .ge (.var false false valueID) (.n 0),
            .rel .eq (.attr false .size (.var false false valueID)) (.n n)]).substituted (intMap v (Num.n n)) =
            .ok (.bool .and [.rel .lt (.n v) e, .rel .ge (.n v) (.n 0), .rel .eq (.n n) (.n n)]) := by
          have hd : ∃ k, depth (Expr.bool .and [.rel .lt (.var false false valueID) e,
              .rel .ge (.var false false valueID) (.n 0),
              .rel .eq (.attr false .size (.var false false valueID)) (.n n)]) + 1 = k + 3 ∧ depth e ≤ k + 1 := by
            simp only [depth, depthL]
            exact ⟨_, by rw [show ∀ x : Nat, 1 + max (1 + max 1 (depth e)) x + 1 = (max (1 + max 1 (depth e)) x - 1) + 3
              from fun x => by omega], by omega⟩
          obtain ⟨k, hk, hk'⟩ := hd
          have hi : intMap v (Num.n n) = intMap v (Num.n n) ++ [] := by simp
          unfold Expr.substituted
          rw [hk, hi]
          refine subst_three (subst_rel (subst_value k v _ []) (subst_const _ e _ hc hk'))
            (subst_rel (subst_value k v _ []) (subst_num _ _)) (subst_rel (subst_size k v _ []) (subst_num _ _))
        have hsim := simp_three (simp_rel (op := .lt) rfl (simp_n v) he) (simp_rel (op := .ge) rfl (simp_n v) (simp_n 0))
          (simp_rel (op := .eq) rfl (simp_n n) (simp_n n))
        have hcs : IntType.proofConstraints (.modular ⟨id, e, .n n⟩) valueID =
          .ok [.rel .lt (.var false false valueID) e, .rel .ge (.var false false valueID) (.n 0),
            .rel .eq (.attr false .size (.var false false valueID)) (.n n)] := rfl
        have hsz : IntType.size (.modular ⟨id, e, .n n⟩) = .ok (Num.n n) := rfl
        simp only [IntegerValue.assign, if_true, hcs, hsz, bind, Except.bind]
        have := hsub
        unfold intMap at this
        rw [this]
        simp only [hsim, lit_isTru]
        simp [RelOp.intOp, pure, Except.pure]
    | range t =>
      obtain ⟨f, l, s, hf, hl, hs, _⟩ := C05_accepted (.range t) h
      simp only [IntType.size] at hs
      simp only [IntType.first, Except.ok.injEq] at hf
      simp only [IntType.last, Except.ok.injEq] at hl
      subst hf; subst hl
      refine ⟨decide (v ≥ t.first.v) && decide (v ≤ t.last.v), ?_, ?_⟩
      · simp [InRange, IntType.first, IntType.last]
      · have hsub : (Expr.bool .and [.rel .ge (.var false false valueID) t.first.expr,
            .rel .le (.var false false valueID) t.last.expr,
            .rel .eq (.attr false .size (.var false false valueID)) s.expr]).substituted (intMap v s) =
            .ok (.bool .and [.rel .ge (.n v) t.first.expr, .rel .le (.n v) t.last.expr, .rel .eq s.expr s.expr]) := by
          have hi : intMap v s = intMap v s ++ [] := by simp
          unfold Expr.substituted
          rw [hi]
          simp only [Num.expr, depth, depthL]
          exact subst_three (subst_rel (subst_value _ v _ []) (subst_num _ _))
            (subst_rel (subst_value _ v _ []) (subst_num _ _)) (subst_rel (subst_size _ v _ []) (subst_num _ _))
        have hsim := simp_three (simp_rel (op := .ge) rfl (simp_n v) (simp_num t.first))
          (simp_rel (op := .le) rfl (simp_n v) (simp_num t.last))
          (simp_rel (op := .eq) rfl (simp_num s) (simp_num s))
        simp only [IntegerValue.assign, if_true, IntType.proofConstraints, IntType.size, hs, bind, Except.bind, pure,
          Except.pure]
        have := hsub
        unfold intMap at this
        rw [this]
        simp only [hsim, lit_isTru]
        simp [RelOp.intOp]
  obtain ⟨b, hb, he⟩ := key
  rw [he]
  cases b <;> simp_all

/-- Types whose values have a bit string: the size is positive and written without base. -/
def Sized (t : IntType) : Prop := ∃ s, t.size = .ok ⟨s, .b0⟩ ∧ 0 < s

/-- The bits of a value are its big-endian encoding with the size of the type. -/
theorem C03_bits_partial (t : IntType) (h : t.Accepted) (hs : Sized t) (v : Int) (hv : InRange t v) :
    ∃ s b, t.size = .ok s ∧ IntegerValue.bitstring t v = .ok b ∧ (b.len : Int) = s.v ∧ (bitsToNat b.bits : Int) = v := by
  obtain ⟨f, l, s, h1, h2, h3, _, h5, _, h7, _⟩ := C05_accepted t h
  obtain ⟨f', l', g1, g2, g3, g4⟩ := hv
  rw [h1] at g1; rw [h2] at g2
  cases g1; cases g2
  obtain ⟨h0, hlt⟩ := h7 v g3 g4
  obtain ⟨s', hs', hpos⟩ := hs
  rw [h3] at hs'
  cases hs'
  simp only at hpos hlt h5
  have hlt' : v.toNat < 2 ^ s'.toNat := by
    have : ((2 ^ s'.toNat : Nat) : Int) = 2 ^ s'.toNat := by simp
    omega
  refine ⟨_, ⟨formatBin s'.toNat v.toNat⟩, h3, ?_, ?_, ?_⟩
  · simp [IntegerValue.bitstring, h3, bind, Except.bind, fmtBits, show ¬ s' < 0 by omega, show ¬ v < 0 by omega]
  · simp only [Bitstring.len]
    rw [formatBin_eq (by omega) hlt', length_natBits]
    omega
  · simp only
    rw [formatBin_eq (by omega) hlt', bitsToNat_natBits, Nat.mod_eq_of_lt hlt']
    omega

/-- Encoding and parsing gives the value back. -/
theorem C03_roundtrip_partial (t : IntType) (h : t.Accepted) (hm : t.ConstModulus) (hs : Sized t) (v : Int) (hv : InRange t v) :
    ∃ b, IntegerValue.bitstring t v = .ok b ∧ IntegerValue.parse t b true = .ok v := by
  obtain ⟨s, b, h1, h2, h3, h4⟩ := C03_bits_partial t h hs v hv
  refine ⟨b, h2, ?_⟩
  have hne : b.bits ≠ [] := by
    intro he
    obtain ⟨s', hs', hpos⟩ := hs
    rw [h1] at hs'; cases hs'
    simp [Bitstring.len, he] at h3
    omega
  simp only [IntegerValue.parse, Bitstring.toInt, List.isEmpty_iff, hne, if_false, bind, Except.bind]
  rw [h4]
  exact (C03_assign_partial t h hm v).1 hv

/-- Parsing a bit string of the declared size succeeds exactly if the number it encodes belongs to the type, and then
re-encoding gives the same bits. -/
theorem C03_parse_partial (t : IntType) (h : t.Accepted) (hm : t.ConstModulus) (hs : Sized t) (b : Bitstring)
    (hb : ∃ s, t.size = .ok s ∧ (b.len : Int) = s.v) :
    (InRange t (bitsToNat b.bits) → ∃ v, IntegerValue.parse t b true = .ok v ∧ IntegerValue.bitstring t v = .ok b) ∧
    (¬ InRange t (bitsToNat b.bits) → IntegerValue.parse t b true = .error .pyrflx) := by
  obtain ⟨s, h1, h2⟩ := hb
  have hne : b.bits ≠ [] := by
    intro he
    obtain ⟨s', hs', hpos⟩ := hs
    rw [h1] at hs'; cases hs'
    simp [Bitstring.len, he] at h2
    omega
  have hp : IntegerValue.parse t b true = IntegerValue.assign t (bitsToNat b.bits) true := by
    simp [IntegerValue.parse, Bitstring.toInt, hne, bind, Except.bind]
  rw [hp]
  refine ⟨fun hi => ⟨_, (C03_assign_partial t h hm _).1 hi, ?_⟩, (C03_assign_partial t h hm _).2⟩
  obtain ⟨s', b', g1, g2, g3, g4⟩ := C03_bits_partial t h hs _ hi
  rw [h1] at g1; cases g1
  rw [g2]
  congr 1
  obtain ⟨bits⟩ := b
  obtain ⟨bits'⟩ := b'
  simp only [Bitstring.len] at h2 g3 g4
  congr 1
  exact bits_ext (by omega) (by omega)

/-! ### The hypotheses can be met -/

example : Sized exMod ∧ InRange exMod 4711 := ⟨⟨16, rfl, by decide⟩, ⟨Num.n 0, Num.n 65535, rfl, by rfl, by decide, by decide⟩⟩
example : Sized exRange ∧ InRange exRange 1000 ∧ ¬ InRange exRange 1201 :=
  ⟨⟨12, rfl, by decide⟩, ⟨⟨5, .b0⟩, ⟨1200, .b0⟩, rfl, rfl, by decide, by decide⟩, by
    rintro ⟨f, l, h1, h2, _, h3⟩
    cases h1; cases h2
    simp at h3⟩

/-! ### Where it fails -/

/-- Sizes may be written with a base: `range 0 .. 3 with Size => 16#8#` is accepted, but its values have no bits, as
`16#8#` ends up in the format specification. -/
theorem C03_based_size_counterexample : ∃ t : IntType, t.Accepted ∧ IntegerValue.assign t 1 true = .ok 1 ∧
    IntegerValue.bitstring t 1 = .error .valueError := by
  refine ⟨.range ⟨⟨[['P'], ['R']]⟩, .n 0, ⟨0, .b0⟩, .n 3, ⟨3, .b0⟩, .num 8 .b16⟩,
    ⟨⟨[['P'], ['R']]⟩, .n 0, .n 3, .num 8 .b16, rfl⟩, rfl, rfl⟩

/-- A value of a type of size 0 is encoded in one bit. -/
theorem C03_size_zero_counterexample : ∃ t : IntType, t.Accepted ∧ t.size = .ok ⟨0, .b0⟩ ∧
    ∃ b, IntegerValue.bitstring t 0 = .ok b ∧ b.len = 1 := by
  refine ⟨.modular ⟨⟨[['P'], ['T']]⟩, .n 1, .n 0⟩, ⟨⟨[['P'], ['T']]⟩, .n 1, rfl⟩, rfl, ⟨[false]⟩, ?_, rfl⟩
  simp [IntegerValue.bitstring, IntType.size, scalarSize_num, scalarSize, fmtBits, formatBin, binDigits, binDigitsAux,
    bind, Except.bind, show (Expr.n 0).simplified = .ok (.n 0) from rfl, asNum]

end Verif.PyRFLX
