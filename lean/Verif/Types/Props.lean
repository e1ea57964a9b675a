import Verif.Types.Model
import Verif.Expr.Props
import Verif.Ident.Props

/-! # Properties C05, C06, C07: scalar types -/

namespace Verif.Types

open Verif

variable {D : Division}

/-! ## Specification -/

/-- The type was constructed without error. -/
def IntType.Accepted : IntType → Prop
  | .modular t => ∃ id e, ModInt.new id e = .ok t
  | .range t => ∃ id f l s, RangeInt.new id f l s = .ok t

/-! ## Lemmas -/

theorem bitLength_le (n : Int) (hn : 0 ≤ n) (k : Nat) : bitLength n ≤ k ↔ n < 2 ^ k := by
  obtain ⟨n, rfl⟩ := Int.eq_ofNat_of_zero_le hn
  unfold bitLength
  split
  · rename_i h
    have : (n : Int) = 0 := h
    rw [this]
    have : (0 : Int) < 2 ^ k := Int.pow_pos (by omega)
    simp [this]
  · rename_i h
    have h' : n ≠ 0 := by intro h0; exact h (by simp [h0])
    rw [Int.natAbs_natCast, Nat.add_one_le_iff, Nat.log2_lt h']
    constructor
    · intro h; exact_mod_cast h
    · intro h; exact_mod_cast h

theorem pow_cast (k : Nat) : ((2 ^ k : Nat) : Int) = 2 ^ k := by simp

theorem bitLength_pow (k : Nat) : bitLength (2 ^ k - 1) = k := by
  have hp : (0 : Int) < 2 ^ k := Int.pow_pos (by omega)
  apply Nat.le_antisymm
  · rw [bitLength_le _ (by omega)]; omega
  · rcases Nat.lt_or_ge (bitLength (2 ^ k - 1)) k with h | h
    · have h1 : bitLength (2 ^ k - 1) ≤ k - 1 := by omega
      rw [bitLength_le _ (by omega)] at h1
      obtain ⟨j, rfl⟩ : ∃ j, k = j + 1 := ⟨k - 1, by omega⟩
      have hj : (0 : Int) < 2 ^ j := Int.pow_pos (by omega)
      rw [Int.pow_succ] at h1
      simp only [Nat.add_sub_cancel] at h1
      omega
    · exact h

/-- The test for powers of two. -/
theorem pyAnd_pow (m : Int) : (m = 0 ∨ pyAnd m (m - 1) ≠ 0) ↔ ¬ ∃ k : Nat, m = 2 ^ k := by
  cases m with
  | ofNat n =>
    cases n with
    | zero =>
      simp only [Int.ofNat_eq_natCast, Int.cast_ofNat_Int, true_or, true_iff, not_exists]
      intro k hk
      have : (0 : Int) < 2 ^ k := Int.pow_pos (by omega)
      omega
    | succ n =>
      have h1 : (Int.ofNat (n + 1)) - 1 = Int.ofNat n := by simp
      have h2 := Nat.and_sub_one_eq_zero_iff_isPowerOfTwo (n := n + 1) (by omega)
      rw [Nat.add_sub_cancel] at h2
      have h3 : ((Int.ofNat (n + 1)) = 0) ↔ False := by simp; omega
      rw [h1, h3, false_or]
      simp only [pyAnd]
      have h4 : (((n + 1) &&& n : Nat) : Int) ≠ 0 ↔ ¬ (n + 1).isPowerOfTwo := by
        rw [← h2]; simp
      rw [h4]
      simp only [Nat.isPowerOfTwo]
      constructor
      · rintro h ⟨k, hk⟩
        refine h ⟨k, ?_⟩
        rw [Int.ofNat_eq_natCast, ← pow_cast] at hk
        exact_mod_cast hk
      · rintro h ⟨k, hk⟩
        refine h ⟨k, ?_⟩
        rw [hk, Int.ofNat_eq_natCast, pow_cast]
  | negSucc n =>
    have h1 : (Int.negSucc n) - 1 = Int.negSucc (n + 1) := by omega
    rw [h1]
    constructor
    · rintro _ ⟨k, hk⟩
      have : (0 : Int) < 2 ^ k := Int.pow_pos (by omega)
      omega
    · intro _
      right
      simp only [pyAnd]
      exact fun h => by cases h

theorem asNum_some {e : Expr} {n : Num} : asNum e = some n ↔ e = n.expr := by
  cases e <;> simp [asNum, Num.expr]
  rename_i v b
  constructor
  · rintro rfl; exact ⟨rfl, rfl⟩
  · rintro ⟨rfl, rfl⟩; rfl

theorem num_simplified (n : Num) : n.expr.simplified = .ok n.expr := rfl

theorem scalarSize_num (n : Num) : scalarSize n.expr = .ok n := rfl

theorem pow_le_64 {k : Nat} : ((2 : Int) ^ k ≤ 2 ^ 64) ↔ k ≤ 64 := by
  constructor
  · intro h
    rcases Nat.lt_or_ge 64 k with hk | hk
    · have h1 : (2 : Nat) ^ 64 < 2 ^ k := Nat.pow_lt_pow_right (by omega) hk
      have h2 : ((2 ^ 64 : Nat) : Int) < ((2 ^ k : Nat) : Int) := by exact_mod_cast h1
      rw [pow_cast, pow_cast] at h2
      omega
    · exact hk
  · intro h
    have h1 : (2 : Nat) ^ k ≤ 2 ^ 64 := Nat.pow_le_pow_right (by omega) h
    have h2 : ((2 ^ k : Nat) : Int) ≤ ((2 ^ 64 : Nat) : Int) := by exact_mod_cast h1
    rwa [pow_cast, pow_cast] at h2

/-! ## C05 -/

/-- A modular type is accepted exactly if the identifier has two parts and the modulus is a power of two of at
most `2 ** 64`; its size is the exponent. -/
theorem C05_modular_iff (id : ID) (e : Expr) (t : ModInt) :
    ModInt.new id e = .ok t ↔
      id.parts.length = 2 ∧ ∃ k : Nat, k ≤ 64 ∧ (∃ b, e.simplified = .ok (.num (2 ^ k) b)) ∧ t = ⟨id, e, .n k⟩ := by
  unfold ModInt.new
  cases he : e.simplified with
  | error err => simp [bind, Except.bind]
  | ok m =>
    simp only [bind, Except.bind]
    cases hm : asNum m with
    | none =>
      simp only [reduceCtorEq, false_iff, Except.ok.injEq, not_and, not_exists]
      rintro _ k _ ⟨b, rfl⟩
      simp [asNum] at hm
    | some n =>
      rw [asNum_some] at hm
      subst hm
      obtain ⟨v, b⟩ := n
      simp only [Num.expr, Except.ok.injEq, Expr.num.injEq]
      have hpow := pyAnd_pow v
      split
      · rename_i hb
        simp only [badId, Bool.or_eq_true, bne_iff_ne, ne_eq, decide_eq_true_eq, beq_iff_eq] at hb
        simp only [reduceCtorEq, false_iff, not_and, not_exists]
        intro h2 k hk hx _
        obtain ⟨b', hv, _⟩ := hx
        rcases hb with (hb | hb) | hb
        · exact absurd h2 hb
        · have := pow_le_64.mpr hk
          omega
        · exact absurd ⟨k, hv⟩ (hpow.mp hb)
      · rename_i hb
        simp only [badId, Bool.or_eq_true, bne_iff_ne, ne_eq, decide_eq_true_eq, beq_iff_eq, not_or] at hb
        obtain ⟨⟨h2, h3⟩, h4⟩ := hb
        have h5 : ∃ k : Nat, v = 2 ^ k := by
          apply Classical.byContradiction
          intro hn
          rcases hpow.mpr hn with h | h
          · exact h4.1 h
          · exact h4.2 h
        obtain ⟨k, rfl⟩ := h5
        have hk : k ≤ 64 := pow_le_64.mp (by omega)
        simp only [bitLength_pow, Num.n, Except.ok.injEq]
        constructor
        · rintro rfl
          exact ⟨by omega, k, hk, ⟨b, rfl, rfl⟩, rfl⟩
        · rintro ⟨_, k', hk', ⟨b', h6, _⟩, rfl⟩
          have : k = k' := by
            have h7 := bitLength_pow k
            rw [h6, bitLength_pow] at h7
            exact h7.symm
          subst this
          rfl

/-- A range type is accepted exactly if the identifier has two parts and the bounds and the size are numbers with
`0 <= first <= last < 2 ** 63`, `last < 2 ** size` and `size <= 64`. -/
theorem C05_range_iff (id : ID) (fe le se : Expr) (t : RangeInt) :
    RangeInt.new id fe le se = .ok t ↔
      id.parts.length = 2 ∧ ∃ f l s : Num, fe.simplified = .ok f.expr ∧ le.simplified = .ok l.expr ∧
        se.simplified = .ok s.expr ∧ 0 ≤ f.v ∧ f.v ≤ l.v ∧ l.v < 2 ^ 63 ∧ 0 ≤ s.v ∧ l.v < 2 ^ s.v.toNat ∧ s.v ≤ 64 ∧
        t = ⟨id, fe, f, le, l, se⟩ := by
  unfold RangeInt.new
  cases h1 : fe.simplified with
  | error err => simp [bind, Except.bind]
  | ok a =>
  cases h2 : le.simplified with
  | error err => simp [bind, Except.bind]
  | ok b =>
  cases h3 : se.simplified with
  | error err => simp [bind, Except.bind]
  | ok c =>
  simp only [bind, Except.bind]
  cases ha : asNum a with
  | none =>
    simp only [reduceCtorEq, false_iff, Except.ok.injEq]
    rintro ⟨_, f, l, s, rfl, _⟩
    simp [asNum, Num.expr] at ha
  | some f =>
  cases hb : asNum b with
  | none =>
    simp only [reduceCtorEq, false_iff, Except.ok.injEq]
    rintro ⟨_, f, l, s, _, rfl, _⟩
    simp [asNum, Num.expr] at hb
  | some l =>
  cases hc : asNum c with
  | none =>
    simp only [reduceCtorEq, false_iff, Except.ok.injEq]
    rintro ⟨_, f, l, s, _, _, rfl, _⟩
    simp [asNum, Num.expr] at hc
  | some s =>
    rw [asNum_some] at ha hb hc
    subst ha hb hc
    have num_inj : ∀ x y : Num, x.expr = y.expr ↔ x = y := by
      rintro ⟨a, b⟩ ⟨c, d⟩; simp [Num.expr]
    simp only [Except.ok.injEq, num_inj]
    have bl : 0 ≤ l.v → 0 ≤ s.v → ((bitLength l.v : Int) > s.v ↔ ¬ l.v < 2 ^ s.v.toNat) := by
      intro h1 h2
      rw [← bitLength_le _ h1]
      omega
    have bl0 : ¬ (bitLength l.v : Int) > s.v → 0 ≤ s.v := by omega
    constructor
    · intro h
      split at h
      · cases h
      · rename_i c1
        simp only [badId, Bool.or_eq_true, bne_iff_ne, ne_eq, decide_eq_true_eq, not_or] at c1
        split at h
        · cases h
        · rename_i c2
          simp only [Bool.or_eq_true, decide_eq_true_eq, not_or] at c2
          have h0 := bl0 c2.1.2
          have := (not_congr (bl (by omega) h0)).mp c2.1.2
          exact ⟨by omega, f, l, s, rfl, rfl, rfl, by omega, by omega, by omega, h0, by simpa using this, by omega,
            (Except.ok.inj h).symm⟩
    · rintro ⟨h0, _, _, _, rfl, rfl, rfl, g1, g2, g3, g4, g5, g6, rfl⟩
      rw [if_neg, if_neg]
      · simp only [Bool.or_eq_true, decide_eq_true_eq, not_or]
        exact ⟨⟨⟨by omega, by omega⟩, (not_congr (bl (by omega) g4)).mpr (by simpa using g5)⟩, by omega⟩
      · simp only [badId, Bool.or_eq_true, bne_iff_ne, ne_eq, decide_eq_true_eq, not_or]
        exact ⟨by omega, by omega⟩

/-- Accepted integer types fit their size: the bounds are ordered, every value between them is non-negative and
representable in `size <= 64` bits; a modular type has exactly `2 ** size` values. -/
theorem C05_accepted (t : IntType) (h : t.Accepted) :
    ∃ f l s : Num, t.first = .ok f ∧ t.last = .ok l ∧ t.size = .ok s ∧ f.v ≤ l.v ∧ 0 ≤ s.v ∧ s.v ≤ 64 ∧
      (∀ v, f.v ≤ v → v ≤ l.v → 0 ≤ v ∧ v < 2 ^ s.v.toNat) ∧
      (match t with | .modular _ => f.v = 0 ∧ l.v = 2 ^ s.v.toNat - 1 | .range _ => True) := by
  cases t with
  | modular t =>
    obtain ⟨id, e, h⟩ := h
    obtain ⟨_, k, hk, ⟨b, he⟩, rfl⟩ := (C05_modular_iff id e t).mp h
    have hp : (0 : Int) < 2 ^ k := Int.pow_pos (by omega)
    refine ⟨Num.n 0, Num.n (2 ^ k - 1), Num.n k, rfl, ?_, rfl, ?_, ?_, ?_, ?_, ?_⟩
    · simp [IntType.last, he, asNum, bind, Except.bind]
    · simp only [Num.n]; omega
    · simp [Num.n]
    · simp only [Num.n]; omega
    · intro v h1 h2
      simp only [Num.n, Int.toNat_natCast] at h1 h2 ⊢
      omega
    · simp [Num.n]
  | range t =>
    obtain ⟨id, fe, le, se, h⟩ := h
    obtain ⟨_, f, l, s, h1, h2, h3, g1, g2, g3, g4, g5, g6, rfl⟩ := (C05_range_iff id fe le se t).mp h
    refine ⟨f, l, s, rfl, rfl, ?_, g2, g4, g6, ?_, trivial⟩
    · simp [IntType.size, scalarSize, h3, bind, Except.bind, asNum, Num.expr]
    · intro v hv1 hv2
      omega

/-! ### The hypotheses can be met -/

/-- `type T is mod 2 ** 16` in package `P`. -/
def exMod : IntType := .modular ⟨⟨[['P'], ['T']]⟩, .bin .pow (.n 2) (.n 16), .n 16⟩

/-- `type R is range 5 .. 1200 with Size => 12`. -/
def exRange : IntType := .range ⟨⟨[['P'], ['R']]⟩, .n 5, ⟨5, .b0⟩, .n 1200, ⟨1200, .b0⟩, .n 12⟩

example : exMod.Accepted := ⟨⟨[['P'], ['T']]⟩, .bin .pow (.n 2) (.n 16), by
  rw [C05_modular_iff]; exact ⟨rfl, 16, by omega, ⟨.b0, by rfl⟩, rfl⟩⟩

example : exRange.Accepted := ⟨⟨[['P'], ['R']]⟩, .n 5, .n 1200, .n 12, by
  rw [C05_range_iff]
  exact ⟨rfl, ⟨5, .b0⟩, ⟨1200, .b0⟩, ⟨12, .b0⟩, rfl, rfl, rfl, by decide, by decide, by decide, by decide, by decide,
    by decide, rfl⟩⟩

/-- Rejected: modulus 100, last 4096 with 12 bits. -/
example : (ModInt.new ⟨[['P'], ['T']]⟩ (.n 100)).toOption.isNone ∧
    (RangeInt.new ⟨[['P'], ['R']]⟩ (.n 0) (.n 4096) (.n 12)).toOption.isNone := by decide

/-- Types of size 0 are accepted: `mod 1`, and `range 0 .. 0 with Size => 0`. -/
theorem C05_size_zero_accepted : (∃ t, ModInt.new ⟨[['P'], ['T']]⟩ (.n 1) = .ok t ∧ t.size = .n 0) ∧
    ∃ t, RangeInt.new ⟨[['P'], ['R']]⟩ (.n 0) (.n 0) (.n 0) = .ok t :=
  ⟨⟨_, rfl, rfl⟩, ⟨_, rfl⟩⟩

/-! ## C06 -/

/-- The enumeration was constructed without error. -/
def Enum.Accepted (t : Enum) : Prop := ∃ id lits size av, Enum.new id lits size av = .ok t

theorem badValues_false (vs : List Int) (s : Int) :
    badValues vs s = false ↔ ∀ v ∈ vs, 0 ≤ v ∧ v < 2 ^ 63 ∧ 0 ≤ s ∧ v < 2 ^ s.toNat := by
  unfold badValues
  cases vs with
  | nil => simp
  | cons a as =>
    obtain ⟨mn, hmn⟩ : ∃ mn, (a :: as).min? = some mn := ⟨_, List.min?_cons ..⟩
    obtain ⟨mx, hmx⟩ : ∃ mx, (a :: as).max? = some mx := ⟨_, List.max?_cons ..⟩
    rw [hmn, hmx]
    simp only
    obtain ⟨m1, m2⟩ := List.min?_eq_some_iff.mp hmn
    obtain ⟨m3, m4⟩ := List.max?_eq_some_iff.mp hmx
    rw [Bool.eq_false_iff]
    simp only [ne_eq, Bool.or_eq_true, decide_eq_true_eq, not_or]
    have bl : 0 ≤ mx → 0 ≤ s → ((bitLength mx : Int) > s ↔ ¬ mx < 2 ^ s.toNat) := by
      intro h1 h2
      rw [← bitLength_le _ h1]
      omega
    constructor
    · rintro ⟨⟨h1, h2⟩, h3⟩ v hv
      have a1 := m2 v hv
      have a2 := m4 v hv
      have a3 := m2 mx m3
      have hs : 0 ≤ s := by omega
      have := (not_congr (bl (by omega) hs)).mp h3
      exact ⟨by omega, by omega, hs, by omega⟩
    · intro h
      obtain ⟨b1, _, _, _⟩ := h mn m1
      obtain ⟨b2, b3, b4, b5⟩ := h mx m3
      exact ⟨⟨by omega, by omega⟩, (not_congr (bl b2 b4)).mpr (by omega)⟩

theorem dupValues_false (d : List (ID × Int)) :
    dupValues d = false ↔ d.Pairwise (fun a b => a.2 ≠ b.2) := by
  induction d with
  | nil => simp [dupValues]
  | cons a d ih =>
    simp only [dupValues, Bool.or_eq_false_iff, ih, List.pairwise_cons, List.any_eq_false, beq_iff_eq]

theorem dupNames_false (d : List (StrID × Int)) :
    dupNames d = false ↔ d.Pairwise (fun a b => b.1.eq a.1 = false) := by
  induction d with
  | nil => simp [dupNames]
  | cons a d ih =>
    simp [dupNames, Bool.or_eq_false_iff, ih, List.pairwise_cons, List.any_eq_false]

/-- Keys of a dictionary. -/
def Distinct (d : List (ID × Int)) : Prop := d.Pairwise (fun a b => a.1.key ≠ b.1.key)

theorem dictSet_keys (d : List (ID × Int)) (k : ID) (v : Int) :
    ∀ kv ∈ dictSet d k v, kv.1 = k ∨ ∃ kv' ∈ d, kv'.1 = kv.1 := by
  induction d with
  | nil => simp [dictSet]
  | cons a d ih =>
    intro kv hkv
    simp only [dictSet] at hkv
    split at hkv
    · rcases List.mem_cons.mp hkv with rfl | h
      · exact .inr ⟨a, by simp, rfl⟩
      · exact .inr ⟨kv, by simp [h], rfl⟩
    · rcases List.mem_cons.mp hkv with rfl | h
      · exact .inr ⟨_, by simp, rfl⟩
      · rcases ih kv h with h | ⟨kv', h1, h2⟩
        · exact .inl h
        · exact .inr ⟨kv', by simp [h1], h2⟩

theorem dictSet_distinct {d : List (ID × Int)} (h : Distinct d) (k : ID) (v : Int) : Distinct (dictSet d k v) := by
  induction d with
  | nil => simp [Distinct, dictSet]
  | cons a d ih =>
    unfold Distinct at h ih
    rw [List.pairwise_cons] at h
    simp only [dictSet]
    split
    · exact List.pairwise_cons.mpr ⟨h.1, h.2⟩
    · rename_i hne
      refine List.pairwise_cons.mpr ⟨?_, ih h.2⟩
      intro kv hkv
      rcases dictSet_keys d k v kv hkv with h' | ⟨kv', h1, h2⟩
      · rw [h']
        intro he
        exact hne ((ID.eq_iff_key _ _).mpr he)
      · rw [← h2]; exact h.1 kv' h1

/-- A new key is appended. -/
theorem dictSet_new {d : List (ID × Int)} {k : ID} (v : Int) (h : ∀ kv ∈ d, kv.1.key ≠ k.key) :
    dictSet d k v = d ++ [(k, v)] := by
  induction d with
  | nil => rfl
  | cons a d ih =>
    simp only [dictSet]
    have : ¬ a.1.eq k = true := fun he => h a (by simp) ((ID.eq_iff_key _ _).mp he)
    rw [if_neg this, ih (fun kv hkv => h kv (by simp [hkv]))]
    rfl

/-- Every key that is set is a valid identifier. -/
theorem fill_valid {l : List (StrID × Int)} {d d' : List (ID × Int)} {b b' : Bool}
    (h : fillLiterals l d b = .ok (d', b')) (hd : Distinct d) (hv : ∀ kv ∈ d, kv.1.Valid) :
    Distinct d' ∧ (∀ kv ∈ d', kv.1.Valid) := by
  induction l generalizing d b with
  | nil => simp only [fillLiterals, Except.ok.injEq, Prod.mk.injEq] at h; obtain ⟨rfl, rfl⟩ := h; exact ⟨hd, hv⟩
  | cons a l ih =>
    obtain ⟨k, v⟩ := a
    simp only [fillLiterals] at h
    split at h
    · exact ih h hd hv
    · cases hk : k.toID with
      | error e => simp [hk, bind, Except.bind] at h
      | ok i =>
        simp only [hk, bind, Except.bind] at h
        have hi : i.Valid := by
          cases k with
          | str s =>
            obtain ⟨rfl, hv'⟩ := (ID.checked_ok_iff _ _).mp hk
            exact hv'
          | id j =>
            obtain ⟨rfl, hv'⟩ := (ID.checked_ok_iff _ _).mp hk
            exact hv'
        refine ih h (dictSet_distinct hd i v) ?_
        intro kv hkv
        rcases dictSet_keys d i v kv hkv with h' | ⟨kv', h1, h2⟩
        · rw [h']; exact hi
        · rw [← h2]; exact hv kv' h1

/-- With identifiers as names, the dictionary has exactly the given literals. -/
theorem fill_ids {l : List (ID × Int)} {d : List (ID × Int)} (hv : ∀ kv ∈ l, kv.1.Valid) (h : Distinct (d ++ l)) :
    fillLiterals (l.map fun kv => (.id kv.1, kv.2)) d false = .ok (d ++ l, false) := by
  induction l generalizing d with
  | nil => simp [fillLiterals]
  | cons a l ih =>
    have hs : (a.1.str.contains ' ' || a.1.str.contains '.') = false := by
      have hval := hv a (by simp)
      have key : ∀ (c : Char), c ≠ ':' → (∀ p ∈ a.1.parts, c ∉ p) → ∀ ps : List PyStr, (∀ p ∈ ps, p ∈ a.1.parts) →
          c ∉ joinSep ps := by
        intro c hc hp ps
        induction ps with
        | nil => intro _; simp [joinSep]
        | cons p ps ih =>
          intro hps
          cases ps with
          | nil => simpa [joinSep] using hp p (hps p (by simp))
          | cons q qs =>
            simp only [joinSep, List.mem_append, List.mem_cons, not_or]
            exact ⟨hp p (hps p (by simp)), hc, hc, ih (fun x hx => hps x (by simp [hx]))⟩
      rw [Bool.or_eq_false_iff]
      constructor
      · simpa [ID.str] using key ' ' (by decide) (fun p hp => (hval.2 p hp).2.1) a.1.parts (fun _ h => h)
      · simpa [ID.str] using key '.' (by decide) (fun p hp => (hval.2 p hp).2.2.1) a.1.parts (fun _ h => h)
    simp only [List.map_cons, fillLiterals, StrID.text, hs, StrID.toID, ID.ofID, ID.checked_ok _ (hv a (by simp))]
    simp only [Bool.false_eq_true, if_false, bind, Except.bind]
    have hd : ∀ kv ∈ d, kv.1.key ≠ a.1.key := by
      unfold Distinct at h
      rw [List.pairwise_append] at h
      exact fun kv hkv => h.2.2 kv hkv a (by simp)
    rw [dictSet_new a.2 hd, ih (fun kv hkv => hv kv (by simp [hkv])) (by simpa using h)]
    simp

/-- What an enumeration of accepted literals has to satisfy: values are pairwise distinct, non-negative, below
`2 ** 63` and representable; the size is at most 64; not all encodings are named if it is always valid. -/
structure GoodLiterals (lits : List (ID × Int)) (s : Int) (av : Bool) : Prop where
  size : s ≤ 64
  distinct : lits.Pairwise (fun a b => a.2 ≠ b.2)
  range : ∀ kv ∈ lits, 0 ≤ kv.2 ∧ kv.2 < 2 ^ 63 ∧ 0 ≤ s ∧ kv.2 < 2 ^ s.toNat
  unnamed : av = true → 0 ≤ s → (lits.length : Int) ≠ 2 ^ s.toNat

theorem new_iff (id : ID) (l : List (StrID × Int)) (size : Expr) (av : Bool) (t : Enum) :
    Enum.new id l size av = .ok t ↔
      id.parts.length = 2 ∧ l.Pairwise (fun a b => b.1.eq a.1 = false) ∧
      ∃ lits, fillLiterals l [] false = .ok (lits, false) ∧ ∃ s : Num, size.simplified = .ok s.expr ∧
        GoodLiterals lits s.v av ∧ t = ⟨id, lits, size, av⟩ := by
  unfold Enum.new
  cases hf : fillLiterals l [] false with
  | error e => simp [bind, Except.bind]
  | ok r =>
  obtain ⟨lits, bad⟩ := r
  simp only [bind, Except.bind]
  cases hs : size.simplified with
  | error e => simp
  | ok e =>
  simp only
  cases ha : asNum e with
  | none =>
    simp only [reduceCtorEq, false_iff, Except.ok.injEq]
    rintro ⟨_, _, _, _, s, rfl, _⟩
    simp [asNum, Num.expr] at ha
  | some s =>
    rw [asNum_some] at ha
    subst ha
    have num_inj : ∀ x y : Num, x.expr = y.expr ↔ x = y := by
      rintro ⟨a, b⟩ ⟨c, d⟩; simp [Num.expr]
    simp only [Except.ok.injEq, Prod.mk.injEq, num_inj]
    constructor
    · intro h
      split at h
      · cases h
      · rename_i c
        simp only [badId, Bool.or_eq_true, bne_iff_ne, ne_eq, decide_eq_true_eq, not_or, Bool.and_eq_true,
          Bool.not_eq_true, beq_iff_eq, not_and, Decidable.not_not] at c
        obtain ⟨⟨⟨⟨⟨⟨c1, c2⟩, c3⟩, c4⟩, c5⟩, c6⟩, c7⟩ := c
        refine ⟨c1, (dupNames_false l).mp c2, lits, ⟨rfl, c3⟩, s, rfl, ⟨by omega, (dupValues_false _).mp c6, ?_, ?_⟩,
          (Except.ok.inj h).symm⟩
        · intro kv hkv
          exact (badValues_false _ _).mp c4 kv.2 (List.mem_map.mpr ⟨kv, hkv, rfl⟩)
        · intro h1 h2; exact c7 ⟨h1, h2⟩
    · rintro ⟨h1, h2, _, ⟨rfl, rfl⟩, _, rfl, g, rfl⟩
      rw [if_neg]
      simp only [badId, Bool.or_eq_true, bne_iff_ne, ne_eq, decide_eq_true_eq, not_or, Bool.and_eq_true,
          Bool.not_eq_true, beq_iff_eq, not_and, Decidable.not_not]
      refine ⟨⟨⟨⟨⟨⟨h1, (dupNames_false l).mpr h2⟩, trivial⟩, ?_⟩, ?_⟩, (dupValues_false _).mpr g.distinct⟩, ?_⟩
      · rw [badValues_false]
        intro v hv
        obtain ⟨kv, hkv, rfl⟩ := List.mem_map.mp hv
        exact g.range kv hkv
      · have := g.size; omega
      · rintro ⟨h1, h2⟩; exact g.unnamed h1 h2

/-- Fewer distinct literals than encodings leave an encoding unnamed. -/
theorem exists_unnamed {lits : List (ID × Int)} {s : Nat} (hr : ∀ kv ∈ lits, 0 ≤ kv.2 ∧ kv.2 < 2 ^ s)
    (hd : lits.Pairwise (fun a b => a.2 ≠ b.2)) (hl : (lits.length : Int) ≠ 2 ^ s) :
    ∃ v : Int, 0 ≤ v ∧ v < 2 ^ s ∧ ∀ kv ∈ lits, kv.2 ≠ v := by
  apply Classical.byContradiction
  intro hn
  simp only [not_exists, not_and] at hn
  let vals := lits.map (fun kv => kv.2.toNat)
  have nd : vals.Nodup := by
    rw [List.nodup_iff_pairwise_ne, List.pairwise_map]
    refine hd.imp_of_mem ?_
    intro a b ha hb hne he
    have := hr a ha; have := hr b hb
    exact hne (by omega)
  have sub1 : vals ⊆ List.range (2 ^ s) := by
    intro x hx
    obtain ⟨kv, hkv, rfl⟩ := List.mem_map.mp hx
    have := hr kv hkv
    rw [List.mem_range]
    have h2 := this.2
    rw [← pow_cast] at h2
    omega
  have sub2 : List.range (2 ^ s) ⊆ vals := by
    intro x hx
    rw [List.mem_range] at hx
    apply Classical.byContradiction
    intro hx'
    refine hn (x : Int) (by omega) (by rw [← pow_cast]; omega) ?_
    intro kv hkv he
    exact hx' (List.mem_map.mpr ⟨kv, hkv, by omega⟩)
  have l1 := nd.length_le_of_subset sub1
  have l2 := List.nodup_range.length_le_of_subset sub2
  simp only [vals, List.length_map, List.length_range] at l1 l2
  apply hl
  rw [← pow_cast]
  omega

/-- Accepted enumerations: the literals are distinct regardless of letter case, the values are pairwise distinct,
non-negative and representable in `size <= 64` bits, and an always valid enumeration leaves an encoding
unnamed. -/
theorem C06_accepted (t : Enum) (h : t.Accepted) :
    ∃ s : Num, scalarSize t.size = .ok s ∧ s.v ≤ 64 ∧
      t.literals.Pairwise (fun a b => a.1.key ≠ b.1.key) ∧
      t.literals.Pairwise (fun a b => a.2 ≠ b.2) ∧
      (∀ kv ∈ t.literals, 0 ≤ kv.2 ∧ 0 ≤ s.v ∧ kv.2 < 2 ^ s.v.toNat) ∧
      (t.alwaysValid = true → 0 ≤ s.v → ∃ v, 0 ≤ v ∧ v < 2 ^ s.v.toNat ∧ ∀ kv ∈ t.literals, kv.2 ≠ v) := by
  obtain ⟨id, l, size, av, h⟩ := h
  obtain ⟨_, _, lits, hf, s, hs, g, rfl⟩ := (new_iff id l size av t).mp h
  obtain ⟨hd, _⟩ := fill_valid hf (by simp [Distinct]) (by simp)
  refine ⟨s, ?_, g.size, hd, g.distinct, fun kv hkv => ?_, fun hav hs0 => ?_⟩
  · simp [scalarSize, hs, bind, Except.bind, asNum, Num.expr]
  · have := g.range kv hkv; exact ⟨this.1, this.2.2.1, this.2.2.2⟩
  · exact exists_unnamed (fun kv hkv => ⟨(g.range kv hkv).1, (g.range kv hkv).2.2.2⟩) g.distinct (g.unnamed hav hs0)

/-- With identifiers as names (as in specifications) an enumeration is accepted exactly if all this holds, and
then it has the given literals in the given order. -/
theorem C06_iff (id : ID) (l : List (ID × Int)) (hv : ∀ kv ∈ l, kv.1.Valid) (size : Expr) (av : Bool) (t : Enum) :
    Enum.new id (l.map fun kv => (.id kv.1, kv.2)) size av = .ok t ↔
      id.parts.length = 2 ∧ l.Pairwise (fun a b => a.1.key ≠ b.1.key) ∧
      ∃ s : Num, size.simplified = .ok s.expr ∧ GoodLiterals l s.v av ∧ t = ⟨id, l, size, av⟩ := by
  have hdup : (l.map fun kv => (StrID.id kv.1, kv.2)).Pairwise (fun a b => b.1.eq a.1 = false) ↔ Distinct l := by
    rw [List.pairwise_map]
    unfold Distinct
    have : ∀ a b : ID × Int, StrID.eq (.id b.1) (.id a.1) = false ↔ a.1.key ≠ b.1.key := by
      intro a b
      rw [← Bool.not_eq_true]
      show ¬ b.1.eq a.1 = true ↔ _
      rw [ID.eq_iff_key]
      exact not_congr eq_comm
    simp only [this]
  rw [new_iff, hdup]
  constructor
  · rintro ⟨h1, h2, lits, hf, s, hs, g, rfl⟩
    rw [fill_ids hv (d := []) (by simpa using h2)] at hf
    simp only [List.nil_append, Except.ok.injEq, Prod.mk.injEq, and_true] at hf
    subst hf
    exact ⟨h1, h2, s, hs, g, rfl⟩
  · rintro ⟨h1, h2, s, hs, g, rfl⟩
    refine ⟨h1, h2, l, ?_, s, hs, g, rfl⟩
    simpa using fill_ids hv (d := []) (by simpa [Distinct] using h2)

/-! ### The hypotheses can be met -/

/-- `type E is (Zero, Two => 2) with Size => 2, Always_Valid` in package `P`. -/
def exEnum : Enum := ⟨⟨[['P'], ['E']]⟩, [(⟨[['Z', 'e', 'r', 'o']]⟩, 0), (⟨[['T', 'w', 'o']]⟩, 2)], .n 2, true⟩

theorem exEnum_new : Enum.new exEnum.id (exEnum.literals.map fun kv => (.id kv.1, kv.2)) (.n 2) true = .ok exEnum := by
  rfl

example : exEnum.Accepted ∧ ∀ kv ∈ exEnum.literals, kv.1.Valid :=
  ⟨⟨_, _, _, _, exEnum_new⟩, by simp only [ID.Valid]; decide⟩

/-- Rejected: equal values, a value that does not fit, a name repeated with other letter case. -/
example : (Enum.new ⟨[['P'], ['E']]⟩ [(.id ⟨[['A']]⟩, 1), (.id ⟨[['B']]⟩, 1)] (.n 2) false).toOption.isNone ∧
    (Enum.new ⟨[['P'], ['E']]⟩ [(.id ⟨[['A']]⟩, 4)] (.n 2) false).toOption.isNone ∧
    (Enum.new ⟨[['P'], ['E']]⟩ [(.id ⟨[['A']]⟩, 1), (.id ⟨[['a']]⟩, 2)] (.n 2) false).toOption.isNone := by decide

/-- If the names are given as strings, names that differ only in letter case are not reported as duplicates; one
of the literals silently gets lost. -/
theorem C06_string_names_counterexample : ∃ l : List (StrID × Int), l.length = 2 ∧
    ∃ t, Enum.new ⟨[['P'], ['E']]⟩ l (.n 2) false = .ok t ∧ t.literals = [(⟨[['A']]⟩, 2)] :=
  ⟨[(.str ['A'], 1), (.str ['a'], 2)], rfl, _, rfl, rfl⟩

/-- A negative size is accepted if there are no literals. -/
theorem C06_empty_negative_size : ∃ t, Enum.new ⟨[['P'], ['E']]⟩ [] (.n (-1)) false = .ok t := ⟨_, rfl⟩

end Verif.Types
