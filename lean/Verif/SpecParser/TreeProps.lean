import Verif.SpecParser.TreeLemmas

/-! # Property C52: expressions of a specification mean what is written -/

namespace Verif.SpecParser
open Verif

/-- Names are created from names only. -/
theorem create_name {m : Mode} : ∀ {t : Tree} {e : Expr}, create m t = .ok e → ∀ {neg imm : Bool} {i : ID}, e = .var neg imm i →
    ∃ id, t.name? = some id ∧ createId id = .ok i ∧ neg = false
  | .numeral s, e, h, neg, imm, i, he => by
    exfalso
    subst he
    simp only [create] at h
    split at h
    · cases h
    · unfold createNumeral at h
      split at h
      · obtain ⟨_, _, h⟩ := bind_ok' h; cases h
      · obtain ⟨_, _, h⟩ := bind_ok' h
        obtain ⟨_, _, h⟩ := bind_ok' h
        obtain ⟨_, _, h⟩ := bind_ok' h
        cases h
      · cases h
  | .paren t, e, h, neg, imm, i, he => by
    simp only [create] at h
    exact create_name h he
  | .var id, e, h, neg, imm, i, he => by
    subst he
    simp only [create] at h
    obtain ⟨j, h1, h2⟩ := map_ok' h
    cases h2
    exact ⟨id, rfl, h1, rfl⟩
  | .attribute k t, e, h, neg, imm, i, he => by
    exfalso
    subst he
    simp only [create] at h
    obtain ⟨a, h1, h2⟩ := bind_ok' h
    unfold createAttribute at h2
    split at h2 <;> cases h2
  | .aggregate ts, e, h, neg, imm, i, he => by
    exfalso
    subst he
    simp only [create] at h
    split at h
    · cases h
    · obtain ⟨a, h1, h2⟩ := map_ok' h
      cases h2
  | .string s, e, h, neg, imm, i, he => by
    exfalso
    subst he
    simp only [create] at h
    split at h
    · unfold createString at h
      split at h <;> cases h
    · cases h
  | .call id ts, e, h, neg, imm, i, he => by
    exfalso
    subst he
    simp only [create] at h
    obtain ⟨a, h1, h2⟩ := bind_ok' h
    obtain ⟨b, h3, h4⟩ := map_ok' h2
    cases h4
  | .quantified x p it pr, e, h, neg, imm, i, he => by
    exfalso
    subst he
    simp only [create] at h
    split at h
    · cases h
    · obtain ⟨a, h1, h2⟩ := bind_ok' h
      obtain ⟨b, h3, h4⟩ := bind_ok' h2
      obtain ⟨c, h5, h6⟩ := map_ok' h4
      cases h6
  | .negation t, e, h, neg, imm, i, he => by
    exfalso
    subst he
    simp only [create] at h
    split at h
    · cases h
    · obtain ⟨a, h1, h2⟩ := bind_ok' h
      unfold negated at h2
      split at h2 <;> cases h2
  | .concatenation l r, e, h, neg, imm, i, he => by
    exfalso
    subst he
    simp only [create] at h
    split at h
    · obtain ⟨a, h1, h2⟩ := bind_ok' h
      obtain ⟨b, h3, h4⟩ := bind_ok' h2
      unfold concatenated at h4
      split at h4 <;> cases h4
    · cases h
  | .select t s, e, h, neg, imm, i, he => by
    exfalso
    subst he
    simp only [create] at h
    obtain ⟨a, h1, h2⟩ := bind_ok' h
    obtain ⟨b, h3, h4⟩ := map_ok' h2
    cases h4
  | .binop op l r, e, h, neg, imm, i, he => by
    exfalso
    subst he
    simp only [create] at h
    obtain ⟨⟨c, m'⟩, h1, h2⟩ := bind_ok' h
    obtain ⟨a, h3, h4⟩ := bind_ok' h2
    obtain ⟨b, h5, h6⟩ := map_ok' h4
    cases m <;> cases op <;> first | (cases h1; done) | (cases h1; cases h6)

theorem name_create {m : Mode} : ∀ {t : Tree} {id : IdNode}, t.name? = some id → ∀ {e : Expr}, create m t = .ok e →
    ∃ i, e = .var false false i ∧ createId id = .ok i
  | .paren t, id, hn, e, h => by
    simp only [create] at h
    exact name_create (t := t) hn h
  | .var id', id, hn, e, h => by
    cases hn
    simp only [create] at h
    obtain ⟨j, h1, h2⟩ := map_ok' h
    exact ⟨j, h2.symm, h1⟩

theorem name_lexical : ∀ {t : Tree} {id : IdNode}, t.name? = some id → Lexical t → id.Lexical
  | .paren t, id, hn, h => name_lexical (t := t) hn (by simpa [Lexical] using h)
  | .var id', id, hn, h => by
    cases hn
    simpa [Lexical] using h

theorem allSome_int (xs : List Int) : allSome Val.int? (xs.map Val.int) = some xs := by
  induction xs with
  | nil => rfl
  | cons x xs ih => simp [allSome, Val.int?, ih]

theorem allSome_int_iff : ∀ {vs : List Val} {xs : List Int}, allSome Val.int? vs = some xs ↔ vs = xs.map Val.int
  | [], xs => by cases xs <;> simp [allSome]
  | v :: vs, xs => by
    constructor
    · intro h
      simp only [allSome] at h
      split at h
      · rename_i b bs h1 h2
        cases h
        have := allSome_int_iff.1 h2
        cases v with
        | int i => cases h1; simp [this]
        | bool => cases h1
        | seq => cases h1
      · cases h
    · intro h; rw [h, allSome_int]

theorem evalL_append (D : Division) (ρ : Env) : ∀ {es fs : List Expr} {a b : List Val}, evalL D ρ es = some a → evalL D ρ fs = some b →
    evalL D ρ (es ++ fs) = some (a ++ b)
  | [], fs, a, b, h1, h2 => by
    simp only [evalL] at h1
    cases h1
    exact h2
  | e :: es, fs, a, b, h1, h2 => by
    simp only [evalL] at h1
    split at h1
    · rename_i w ws h3 h4
      cases h1
      simp only [List.cons_append, evalL, h3, evalL_append D ρ h4 h2]
    · cases h1

theorem evalL_append_inv (D : Division) (ρ : Env) : ∀ {es fs : List Expr} {c : List Val}, evalL D ρ (es ++ fs) = some c →
    ∃ a b, evalL D ρ es = some a ∧ evalL D ρ fs = some b ∧ c = a ++ b
  | [], fs, c, h => ⟨[], c, by simp [evalL], h, rfl⟩
  | e :: es, fs, c, h => by
    simp only [List.cons_append, evalL] at h
    split at h
    · rename_i w ws h3 h4
      cases h
      obtain ⟨a, b, h5, h6, rfl⟩ := evalL_append_inv D ρ h4
      exact ⟨w :: a, b, by simp only [evalL, h3, h5], h6, rfl⟩
    · cases h

theorem eval_agg (D : Division) (ρ : Env) (es : List Expr) (v : Val) :
    eval D ρ (.agg es) = some v ↔ ∃ xs, evalL D ρ es = some (xs.map .int) ∧ v = .seq xs := by
  simp only [eval]
  constructor
  · intro h
    split at h
    · rename_i xs h1
      cases h
      obtain ⟨vs, h2, h3⟩ := Option.bind_eq_some_iff.1 h1
      exact ⟨xs, by rw [h2, allSome_int_iff.1 h3], rfl⟩
    · cases h
  · rintro ⟨xs, h1, rfl⟩
    rw [h1, Option.bind_some, allSome_int]

theorem evalL_codes (D : Division) (ρ : Env) (s : PyStr) :
    evalL D ρ (s.map fun c => .num c.toNat .b0) = some ((s.map fun c => (c.toNat : Int)).map .int) := by
  induction s with
  | nil => rfl
  | cons c s ih => simp only [List.map_cons, evalL, eval, ih]

theorem predicate_iff {D : Division} {ρ : Env} {p : IdNode} {pr : Tree} {b : Expr} {i : ID} (hi : i.key = p.key)
    (hb : ∀ ρ v, eval D ρ b = some v ↔ Means D ρ pr v) : ∀ {xs : List Int} {bs : List Bool},
    allSome (fun x => (eval D (ρ.set i.key (.int x)) b).bind Val.bool?) xs = some bs ↔ MeansQ D ρ p pr xs bs
  | [], bs => by
    constructor
    · intro h; cases h; exact .nil
    · intro h; cases h; rfl
  | x :: xs, bs => by
    constructor
    · intro h
      simp only [allSome] at h
      split at h
      · rename_i w ws h1 h2
        cases h
        obtain ⟨v, h3, h4⟩ := Option.bind_eq_some_iff.1 h1
        rw [hi, hb] at h3
        cases v with
        | bool v => cases h4; exact .cons h3 ((predicate_iff hi hb).1 h2)
        | int => cases h4
        | seq => cases h4
      · cases h
    · intro h
      cases h with
      | cons h1 h2 =>
        rw [← hb, ← hi] at h1
        simp only [allSome, h1, (predicate_iff hi hb).2 h2]
        rfl

mutual

/-- **C52**: an expression created from a text has a value exactly if the text has one, and it is the same: operators, parentheses, numerals
of all bases with underscores, names, quantifiers. This holds for all three functions of the parser. -/
theorem C52_value {m : Mode} : ∀ (t : Tree) (e : Expr), Lexical t → create m t = .ok e → ∀ (D : Division) (ρ : Env) (v : Val),
    eval D ρ e = some v ↔ Means D ρ t v
  | .numeral s, e, hl, h, D, ρ, v => by
    obtain ⟨n, hn⟩ := (by simpa [Lexical] using hl : ∃ n, Numeral s n)
    simp only [create] at h
    split at h
    · cases h
    · obtain ⟨b, rfl⟩ := createNumeral_value hn h
      simp only [eval]
      constructor
      · intro h; cases h; exact .numeral hn
      · intro h
        cases h with
        | numeral hn' => rw [numeral_unique hn hn']
  | .paren t, e, hl, h, D, ρ, v => by
    simp only [create] at h
    have ih := C52_value t e (by simpa [Lexical] using hl) h D ρ v
    constructor
    · intro he; exact .paren (ih.1 he)
    · intro hm
      cases hm with
      | paren hm => exact ih.2 hm
  | .var id, e, hl, h, D, ρ, v => by
    simp only [create] at h
    obtain ⟨i, h1, rfl⟩ := map_ok' h
    have hk := createId_key (by simpa [Lexical] using hl) h1
    simp only [eval, Val.negIf, hk]
    constructor
    · intro he; cases he; exact .var
    · intro hm; cases hm; rfl
  | .attribute k t, e, hl, h, D, ρ, v => by
    simp only [create] at h
    obtain ⟨a, h1, h2⟩ := bind_ok' h
    have he : e = .attr false k a := by
      unfold createAttribute at h2
      split at h2 <;> first | (cases h2; done) | (cases h2; rfl)
    subst he
    constructor
    · intro he
      simp only [eval] at he
      split at he
      · obtain ⟨id, h3, h4, _⟩ := create_name h1 rfl
        rw [createId_key (name_lexical h3 (by simpa [Lexical] using hl)) h4] at he
        cases he
        exact .attribute h3
      · cases he
    · intro hm
      cases hm with
      | «attribute» hn =>
        obtain ⟨i, rfl, h4⟩ := name_create hn h1
        simp only [eval, Val.negIf]
        rw [createId_key (name_lexical hn (by simpa [Lexical] using hl)) h4]
        rfl
  | .aggregate ts, e, hl, h, D, ρ, v => by
    simp only [create] at h
    split at h
    · cases h
    · obtain ⟨es, h1, rfl⟩ := map_ok' h
      have ih := C52_values ts es (by simpa [Lexical] using hl) h1 D ρ
      rw [eval_agg]
      constructor
      · rintro ⟨xs, h2, rfl⟩
        exact .aggregate ((ih _).1 h2)
      · intro hm
        cases hm with
        | aggregate hm => exact ⟨_, (ih _).2 hm, rfl⟩
  | .string s, e, hl, h, D, ρ, v => by
    obtain ⟨u, rfl, hu⟩ := (by simpa [Lexical] using hl : ∃ u, s = '"' :: (u ++ ['"']) ∧ '"' ∉ u)
    simp only [create] at h
    split at h
    · unfold createString at h
      have hs : splitChar '"' ('"' :: (u ++ ['"'])) = [[], u, []] := by
        have h1 := splitChar_append (c := '"') (s := []) (t := u ++ ['"']) (by simp)
        rw [List.nil_append] at h1
        rw [h1, splitChar_append hu]
        rfl
      rw [hs] at h
      cases h
      rw [eval_agg, evalL_codes]
      constructor
      · rintro ⟨xs, h1, rfl⟩
        have h2 := allSome_int (u.map fun c => (c.toNat : Int))
        rw [Option.some.inj h1, allSome_int] at h2
        cases h2
        exact .string u
      · intro hm
        generalize hs' : '"' :: (u ++ ['"']) = s' at hm
        cases hm with
        | string w =>
          have := List.append_cancel_right (List.cons.inj hs').2
          subst this
          exact ⟨_, rfl, rfl⟩
    · cases h
  | .call id ts, e, hl, h, D, ρ, v => by
    simp only [create] at h
    obtain ⟨i, h1, h2⟩ := bind_ok' h
    obtain ⟨es, h3, rfl⟩ := map_ok' h2
    obtain ⟨l1, l2⟩ := (by simpa [Lexical] using hl : id.Lexical ∧ LexicalL ts)
    have hk := createId_key l1 h1
    have ih := C52_values ts es l2 h3 D ρ
    cases ts with
    | nil =>
      cases h3
      simp only [eval, Val.negIf, hk]
      constructor
      · intro he; cases he; exact .name
      · intro hm; cases hm; rfl
    | cons t ts =>
      cases es with
      | nil =>
        simp only [createL] at h3
        obtain ⟨_, _, h3⟩ := bind_ok' h3
        obtain ⟨_, _, h3⟩ := map_ok' h3
        cases h3
      | cons e es =>
        constructor
        · intro he
          simp only [eval] at he
          split at he
          · rename_i vs hv
            simp only [Val.negIf, hk] at he
            cases he
            exact .call ((ih _).1 hv)
          · cases he
        · intro hm
          cases hm with
          | call hm =>
            have := (ih _).2 hm
            simp only [eval, this, Val.negIf, hk]
            rfl
  | .quantified x p it pr, e, hl, h, D, ρ, v => by
    simp only [create] at h
    split at h
    · cases h
    · obtain ⟨i, h1, h2⟩ := bind_ok' h
      obtain ⟨a, h3, h4⟩ := bind_ok' h2
      obtain ⟨b, h5, rfl⟩ := map_ok' h4
      obtain ⟨l1, l2, l3⟩ := (by simpa [Lexical] using hl : p.Lexical ∧ Lexical it ∧ Lexical pr)
      have hk := createId_key l1 h1
      have ih1 := C52_value it a l2 h3 D ρ
      have ih2 := fun ρ v => C52_value pr b l3 h5 D ρ v
      constructor
      · intro he
        simp only [eval] at he
        split at he
        · rename_i xs hx
          split at he
          · rename_i bs hb
            have hq := (predicate_iff hk ih2).1 hb
            have hi := (ih1 _).1 hx
            cases x with
            | true => cases he; exact .exist hi hq
            | false => cases he; exact .all hi hq
          · cases he
        · cases he
      · intro hm
        cases hm with
        | all h6 h7 =>
          have h8 := (ih1 _).2 h6
          have h9 := (predicate_iff hk ih2).2 h7
          simp [eval, h8, h9]
        | exist h6 h7 =>
          have h8 := (ih1 _).2 h6
          have h9 := (predicate_iff hk ih2).2 h7
          simp [eval, h8, h9]
  | .negation t, e, hl, h, D, ρ, v => by
    simp only [create] at h
    split at h
    · cases h
    · obtain ⟨a, h1, h2⟩ := bind_ok' h
      have ih := C52_value t a (by simpa [Lexical] using hl) h1 D ρ
      unfold negated at h2
      split at h2
      · rename_i n b
        cases h2
        have hn := (ih (.int n)).1 (by simp [eval])
        simp only [eval]
        constructor
        · intro he; cases he; exact .negation hn
        · intro hm
          cases hm with
          | negation hm =>
            have := (ih _).2 hm
            simp only [eval] at this
            cases this
            rfl
      · cases h2
  | .concatenation l r, e, hl, h, D, ρ, v => by
    simp only [create] at h
    split at h
    · obtain ⟨a, h1, h2⟩ := bind_ok' h
      obtain ⟨b, h3, h4⟩ := bind_ok' h2
      obtain ⟨l1, l2⟩ := (by simpa [Lexical] using hl : Lexical l ∧ Lexical r)
      have ih1 := C52_value l a l1 h1 D ρ
      have ih2 := C52_value r b l2 h3 D ρ
      unfold concatenated at h4
      split at h4
      · rename_i es fs
        cases h4
        rw [eval_agg]
        constructor
        · rintro ⟨xs, h5, rfl⟩
          obtain ⟨c, d, h6, h7, h8⟩ := evalL_append_inv D ρ h5
          obtain ⟨ys, zs, rfl, rfl, rfl⟩ := List.map_eq_append_iff.1 h8
          exact .concatenation ((ih1 _).1 ((eval_agg D ρ _ _).2 ⟨_, h6, rfl⟩)) ((ih2 _).1 ((eval_agg D ρ _ _).2 ⟨_, h7, rfl⟩))
        · intro hm
          cases hm with
          | concatenation h5 h6 =>
            obtain ⟨ys, h7, h8⟩ := (eval_agg D ρ _ _).1 ((ih1 _).2 h5)
            obtain ⟨zs, h9, h10⟩ := (eval_agg D ρ _ _).1 ((ih2 _).2 h6)
            cases h8
            cases h10
            exact ⟨_, by rw [evalL_append D ρ h7 h9, List.map_append], rfl⟩
      · cases h4
    · cases h
  | .select t s, e, hl, h, D, ρ, v => by
    simp only [create] at h
    obtain ⟨a, h1, h2⟩ := bind_ok' h
    obtain ⟨i, h3, rfl⟩ := map_ok' h2
    obtain ⟨l1, l2⟩ := (by simpa [Lexical] using hl : Lexical t ∧ s.Lexical)
    have hk := createId_key l2 h3
    constructor
    · intro he
      simp only [eval] at he
      split at he
      · obtain ⟨id, h5, h4, _⟩ := create_name h1 rfl
        rw [createId_key (name_lexical h5 l1) h4, hk] at he
        cases he
        exact .select h5
      · cases he
    · intro hm
      cases hm with
      | select hn =>
        obtain ⟨i, rfl, h4⟩ := name_create hn h1
        simp only [eval, Val.negIf]
        rw [createId_key (name_lexical hn l1) h4, hk]
        rfl
  | .binop op l r, e, hl, h, D, ρ, v => by
    simp only [create] at h
    obtain ⟨⟨c, m'⟩, h1, h2⟩ := bind_ok' h
    obtain ⟨a, h3, h4⟩ := bind_ok' h2
    obtain ⟨b, h5, rfl⟩ := map_ok' h4
    obtain ⟨l1, l2⟩ := (by simpa [Lexical] using hl : Lexical l ∧ Lexical r)
    have ih1 := C52_value l a l1 h3 D ρ
    have ih2 := C52_value r b l2 h5 D ρ
    rw [eval_binop h1]
    constructor
    · rintro ⟨x, y, h6, h7, h8⟩
      exact .binop ((ih1 _).1 h6) ((ih2 _).1 h7) h8
    · intro hm
      cases hm with
      | binop h6 h7 h8 => exact ⟨_, _, (ih1 _).2 h6, (ih2 _).2 h7, h8⟩

/-- `C52_value` for lists. -/
theorem C52_values {m : Mode} : ∀ (ts : List Tree) (es : List Expr), LexicalL ts → createL m ts = .ok es → ∀ (D : Division) (ρ : Env)
    (vs : List Val), evalL D ρ es = some vs ↔ MeansL D ρ ts vs
  | [], es, hl, h, D, ρ, vs => by
    cases h
    simp only [evalL]
    constructor
    · intro h; cases h; exact .nil
    · intro h; cases h; rfl
  | t :: ts, es, hl, h, D, ρ, vs => by
    simp only [createL] at h
    obtain ⟨a, h1, h2⟩ := bind_ok' h
    obtain ⟨as, h3, rfl⟩ := map_ok' h2
    obtain ⟨l1, l2⟩ := (by simpa [LexicalL] using hl : Lexical t ∧ LexicalL ts)
    have ih1 := C52_value t a l1 h1 D ρ
    have ih2 := C52_values ts as l2 h3 D ρ
    constructor
    · intro h
      simp only [evalL] at h
      split at h
      · rename_i w ws h4 h5
        cases h
        exact .cons ((ih1 _).1 h4) ((ih2 _).1 h5)
      · cases h
    · intro h
      cases h with
      | cons h4 h5 => simp only [evalL, (ih1 _).2 h4, (ih2 _).2 h5]

end

/-! ## Which expressions are created -/

theorem number_created {m : Mode} : ∀ {t : Tree} {n : Expr}, IsNumber t → create m t = .ok n → ∃ v b, n = .num v b
  | .numeral s, n, _, h => by
    simp only [create] at h
    split at h
    · cases h
    · unfold createNumeral at h
      split at h
      · obtain ⟨v, _, h⟩ := bind_ok' h
        exact ⟨_, _, (Except.ok.inj h).symm⟩
      · obtain ⟨_, _, h⟩ := bind_ok' h
        obtain ⟨v, _, h⟩ := bind_ok' h
        obtain ⟨b, _, h⟩ := bind_ok' h
        exact ⟨_, _, (Except.ok.inj h).symm⟩
      · cases h
  | .paren t, n, hn, h => by
    simp only [create] at h
    exact number_created (t := t) (by simpa [IsNumber] using hn) h
  | .negation t, n, hn, h => by
    simp only [create] at h
    split at h
    · cases h
    · obtain ⟨a, h1, h2⟩ := bind_ok' h
      unfold negated at h2
      split at h2
      · exact ⟨_, _, (Except.ok.inj h2).symm⟩
      · cases h2
  | .var _, _, hn, _ => by simp [IsNumber] at hn
  | .attribute _ _, _, hn, _ => by simp [IsNumber] at hn
  | .aggregate _, _, hn, _ => by simp [IsNumber] at hn
  | .string _, _, hn, _ => by simp [IsNumber] at hn
  | .call _ _, _, hn, _ => by simp [IsNumber] at hn
  | .quantified _ _ _ _, _, hn, _ => by simp [IsNumber] at hn
  | .concatenation _ _, _, hn, _ => by simp [IsNumber] at hn
  | .select _ _, _, hn, _ => by simp [IsNumber] at hn
  | .binop _ _ _, _, hn, _ => by simp [IsNumber] at hn

theorem sequence_created {m : Mode} : ∀ {t : Tree} {n : Expr}, IsSequence t → create m t = .ok n → ∃ es, n = .agg es
  | .aggregate ts, n, _, h => by
    simp only [create] at h
    split at h
    · cases h
    · obtain ⟨es, _, h⟩ := map_ok' h
      exact ⟨es, h.symm⟩
  | .string s, n, _, h => by
    simp only [create] at h
    split at h
    · unfold createString at h
      split at h
      · exact ⟨_, (Except.ok.inj h).symm⟩
      · cases h
    · cases h
  | .paren t, n, hn, h => by
    simp only [create] at h
    exact sequence_created (t := t) (by simpa [IsSequence] using hn) h
  | .concatenation l r, n, hn, h => by
    simp only [create] at h
    split at h
    · obtain ⟨a, h1, h2⟩ := bind_ok' h
      obtain ⟨b, h3, h4⟩ := bind_ok' h2
      unfold concatenated at h4
      split at h4
      · exact ⟨_, (Except.ok.inj h4).symm⟩
      · cases h4
    · cases h
  | .numeral _, _, hn, _ => by simp [IsSequence] at hn
  | .var _, _, hn, _ => by simp [IsSequence] at hn
  | .attribute _ _, _, hn, _ => by simp [IsSequence] at hn
  | .call _ _, _, hn, _ => by simp [IsSequence] at hn
  | .quantified _ _ _ _, _, hn, _ => by simp [IsSequence] at hn
  | .negation _, _, hn, _ => by simp [IsSequence] at hn
  | .select _ _, _, hn, _ => by simp [IsSequence] at hn
  | .binop _ _ _, _, hn, _ => by simp [IsSequence] at hn

theorem name_created {m : Mode} : ∀ {t : Tree} {id : IdNode}, t.name? = some id → Lexical t → Supported m t → ∃ e, create m t = .ok e
  | .paren t, id, hn, hl, hs => by
    simp only [create]
    exact name_created (t := t) hn (by simpa [Lexical] using hl) (by simpa [Supported] using hs)
  | .var id', id, hn, hl, hs => by
    obtain ⟨i, hi, _⟩ := createId_of (by simpa [Lexical] using hl) (by simpa [Supported] using hs)
    exact ⟨_, by simp only [create, hi]; rfl⟩

/-- A value of an operator fits the place only if the operator is known there, and the operands fit their places. -/
theorem binop_exists {D : Division} {m : Mode} {op : Op} {a b v : Val} (hv : op.apply D a b = some v) (hf : Fits m v) :
    ∃ c, binop m op = .ok (c, operandMode m op) ∧ Fits (operandMode m op) a ∧ Fits (operandMode m op) b := by
  cases m with
  | any =>
    cases op <;> refine ⟨_, rfl, ?_, ?_⟩ <;> first | trivial | (cases a <;> cases b <;> first | exact ⟨_, rfl⟩ | cases hv)
  | math =>
    obtain ⟨i, rfl⟩ := hf
    cases op <;> first
      | (refine ⟨_, rfl, ?_, ?_⟩ <;> (cases a <;> cases b <;> first | exact ⟨_, rfl⟩ | cases hv))
      | (exfalso; cases a <;> cases b <;> cases hv)
  | bool =>
    obtain ⟨i, rfl⟩ := hf
    cases op <;> first
      | (refine ⟨_, rfl, ?_, ?_⟩ <;> first | trivial | (cases a <;> cases b <;> first | exact ⟨_, rfl⟩ | cases hv))
      | (exfalso; cases a <;> cases b <;> simp only [Op.apply] at hv <;> first | (cases hv; done) | (split at hv <;> cases hv))

mutual

theorem created : ∀ (t : Tree) {D : Division} {m : Mode} {ρ : Env} {v : Val}, Lexical t → Supported m t → Means D ρ t v → Fits m v →
    ∃ e, create m t = .ok e
  | .numeral s, D, m, ρ, v, hl, hs, hm, hf => by
    cases hm with
    | numeral hn =>
      obtain ⟨e, he⟩ := createNumeral_ok hn (by simpa [Supported] using hs)
      refine ⟨e, ?_⟩
      simp only [create]
      rw [if_neg]
      · exact he
      · rintro rfl
        obtain ⟨b, hb⟩ := hf
        cases hb
  | .paren t, D, m, ρ, v, hl, hs, hm, hf => by
    cases hm with
    | paren hm =>
      simp only [create]
      exact created t (by simpa [Lexical] using hl) (by simpa [Supported] using hs) hm hf
  | .var id, D, m, ρ, v, hl, hs, hm, hf => name_created rfl hl hs
  | .attribute k t, D, m, ρ, v, hl, hs, hm, hf => by
    cases hm with
    | «attribute» hn =>
      obtain ⟨s1, s2, s3⟩ := (by simpa [Supported] using hs : (m = .math → isBitAttribute k = true) ∧ k ≠ .length ∧ Supported .any t)
      obtain ⟨a, ha⟩ := name_created hn (by simpa [Lexical] using hl) s3
      have : ∃ e, createAttribute m k a = .ok e := by
        cases m <;> cases k <;> first | exact ⟨_, rfl⟩ | exact absurd rfl s2 | exact absurd (s1 rfl) (by simp [isBitAttribute])
      obtain ⟨e, he⟩ := this
      exact ⟨e, by simp only [create, ha]; exact he⟩
  | .aggregate ts, D, m, ρ, v, hl, hs, hm, hf => by
    cases hm with
    | aggregate hm =>
      obtain ⟨es, he⟩ := createdL ts (m := .math) (by simpa [Lexical] using hl) (by simpa [Supported] using hs) hm (by
        intro v hv
        obtain ⟨i, _, rfl⟩ := List.mem_map.1 hv
        exact ⟨i, rfl⟩)
      refine ⟨.agg es, ?_⟩
      simp only [create, he]
      rw [if_neg]
      · rfl
      · rintro rfl
        obtain ⟨b, hb⟩ := hf
        cases hb
  | .string s, D, m, ρ, v, hl, hs, hm, hf => by
    generalize hs' : s = s' at hm
    cases hm with
    | string u =>
      obtain ⟨w, h1, hw⟩ := (by simpa [Lexical] using hl : ∃ u, s = '"' :: (u ++ ['"']) ∧ '"' ∉ u)
      have hsp : splitChar '"' s = [[], w, []] := by
        have h2 := splitChar_append (c := '"') (s := []) (t := w ++ ['"']) (by simp)
        rw [List.nil_append] at h2
        rw [h1, h2, splitChar_append hw]
        rfl
      refine ⟨.agg (w.map fun c => .num c.toNat .b0), ?_⟩
      simp only [create]
      rw [if_pos, createString, ← hs', hsp]
      cases m with
      | any => rfl
      | math => obtain ⟨b, hb⟩ := hf; cases hb
      | bool => obtain ⟨b, hb⟩ := hf; cases hb
  | .call id ts, D, m, ρ, v, hl, hs, hm, hf => by
    obtain ⟨l1, l2⟩ := (by simpa [Lexical] using hl : id.Lexical ∧ LexicalL ts)
    obtain ⟨s1, s2⟩ := (by simpa [Supported] using hs : id.Free ∧ SupportedL .any ts)
    obtain ⟨i, hi, _⟩ := createId_of l1 s1
    have : ∃ es, createL .any ts = .ok es := by
      cases hm with
      | name => exact ⟨[], by simp [createL]⟩
      | call hm => exact createdL _ (m := .any) l2 s2 hm (fun _ _ => trivial)
    obtain ⟨es, he⟩ := this
    exact ⟨.call false i es, by simp only [create, hi, he]; rfl⟩
  | .quantified x p it pr, D, m, ρ, v, hl, hs, hm, hf => by
    obtain ⟨l1, l2, l3⟩ := (by simpa [Lexical] using hl : p.Lexical ∧ Lexical it ∧ Lexical pr)
    obtain ⟨s1, s2, s3, D', ρ', b', s4⟩ := (by simpa [Supported] using hs :
      p.Free ∧ Supported .any it ∧ Supported .any pr ∧ ∃ D ρ b, Means D ρ pr (.bool b))
    obtain ⟨i, hi, _⟩ := createId_of l1 s1
    obtain ⟨b, hb⟩ := created pr (m := .any) l3 s3 s4 trivial
    have : m ≠ .math ∧ ∃ xs, Means D ρ it (.seq xs) := by
      cases hm with
      | all h1 h2 => exact ⟨(by rintro rfl; obtain ⟨i, hi⟩ := hf; cases hi), _, h1⟩
      | exist h1 h2 => exact ⟨(by rintro rfl; obtain ⟨i, hi⟩ := hf; cases hi), _, h1⟩
    obtain ⟨hne, xs, h1⟩ := this
    obtain ⟨a, ha⟩ := created it (m := .any) l2 s2 h1 trivial
    refine ⟨.quant (if x then .someIn else .allIn) i a b, ?_⟩
    simp only [create, hi, ha, hb, if_neg hne]
    rfl
  | .negation t, D, m, ρ, v, hl, hs, hm, hf => by
    obtain ⟨s1, s2⟩ := (by simpa [Supported] using hs : IsNumber t ∧ Supported .math t)
    cases hm with
    | negation hm =>
      obtain ⟨a, ha⟩ := created t (m := .math) (by simpa [Lexical] using hl) s2 hm ⟨_, rfl⟩
      obtain ⟨n, b, rfl⟩ := number_created s1 ha
      refine ⟨.num (-n) b, ?_⟩
      simp only [create, ha]
      rw [if_neg]
      · rfl
      · rintro rfl
        obtain ⟨b, hb⟩ := hf
        cases hb
  | .concatenation l r, D, m, ρ, v, hl, hs, hm, hf => by
    obtain ⟨l1, l2⟩ := (by simpa [Lexical] using hl : Lexical l ∧ Lexical r)
    obtain ⟨s1, s2, s3, s4⟩ := (by simpa [Supported] using hs : IsSequence l ∧ IsSequence r ∧ Supported .any l ∧ Supported .any r)
    cases hm with
    | concatenation h1 h2 =>
      obtain ⟨a, ha⟩ := created l (m := .any) l1 s3 h1 trivial
      obtain ⟨b, hb⟩ := created r (m := .any) l2 s4 h2 trivial
      obtain ⟨es, rfl⟩ := sequence_created s1 ha
      obtain ⟨fs, rfl⟩ := sequence_created s2 hb
      refine ⟨.agg (es ++ fs), ?_⟩
      simp only [create, ha, hb]
      rw [if_pos]
      · rfl
      · cases m with
        | any => rfl
        | math => obtain ⟨b, hb⟩ := hf; cases hb
        | bool => obtain ⟨b, hb⟩ := hf; cases hb
  | .select t s, D, m, ρ, v, hl, hs, hm, hf => by
    obtain ⟨l1, l2⟩ := (by simpa [Lexical] using hl : Lexical t ∧ s.Lexical)
    obtain ⟨s1, s2⟩ := (by simpa [Supported] using hs : Supported .any t ∧ s.Free)
    cases hm with
    | select hn =>
      obtain ⟨a, ha⟩ := name_created hn l1 s1
      obtain ⟨i, hi, _⟩ := createId_of l2 s2
      exact ⟨.sel false a i, by simp only [create, ha, hi]; rfl⟩
  | .binop op l r, D, m, ρ, v, hl, hs, hm, hf => by
    obtain ⟨l1, l2⟩ := (by simpa [Lexical] using hl : Lexical l ∧ Lexical r)
    obtain ⟨s1, s2⟩ := (by simpa [Supported] using hs : Supported (operandMode m op) l ∧ Supported (operandMode m op) r)
    cases hm with
    | binop h1 h2 h3 =>
      obtain ⟨c, hc, f1, f2⟩ := binop_exists h3 hf
      obtain ⟨a, ha⟩ := created l l1 s1 h1 f1
      obtain ⟨b, hb⟩ := created r l2 s2 h2 f2
      exact ⟨c a b, by simp only [create, hc, Except.bind, ha, hb]; rfl⟩

theorem createdL : ∀ (ts : List Tree) {D : Division} {m : Mode} {ρ : Env} {vs : List Val}, LexicalL ts → SupportedL m ts → MeansL D ρ ts vs →
    (∀ v ∈ vs, Fits m v) → ∃ es, createL m ts = .ok es
  | [], _, _, _, _, _, _, _, _ => ⟨[], by simp [createL]⟩
  | t :: ts, D, m, ρ, vs, hl, hs, hm, hf => by
    obtain ⟨l1, l2⟩ := (by simpa [LexicalL] using hl : Lexical t ∧ LexicalL ts)
    obtain ⟨s1, s2⟩ := (by simpa [SupportedL] using hs : Supported m t ∧ SupportedL m ts)
    cases hm with
    | cons h1 h2 =>
      obtain ⟨a, ha⟩ := created t l1 s1 h1 (hf _ (by simp))
      obtain ⟨as, has⟩ := createdL ts l2 s2 h2 (fun v hv => hf v (by simp [hv]))
      exact ⟨a :: as, by simp only [createL, ha, has]; rfl⟩

end

/-- **C52**, success: an expression that has a value of the kind that is expected at its place (any value, a number, a truth value) is created
and has this value. Missing: expressions that are not `Supported`, see the counterexamples. -/
theorem C52_created_partial (m : Mode) (t : Tree) (hl : Lexical t) (hs : Supported m t) (D : Division) (ρ : Env) (v : Val)
    (hv : Means D ρ t v) (hf : Fits m v) : ∃ e, create m t = .ok e ∧ eval D ρ e = some v := by
  obtain ⟨e, he⟩ := created t hl hs hv hf
  exact ⟨e, he, (C52_value t e hl he D ρ v).2 hv⟩

/-! ## Examples and counterexamples -/

/-- The name `X` of a specification. -/
def exName (c : Char) : Tree := .var (.qualified none [c])

/-- `(X + 16#2_0#) * 3 < 10_000 and (for all Y in Z => Y /= 1)`. -/
def exTree : Tree :=
  .binop .and
    (.binop .lt (.binop .mul (.paren (.binop .add (exName 'X') (.numeral ['1', '6', '#', '2', '_', '0', '#']))) (.numeral ['3']))
      (.numeral ['1', '0', '_', '0', '0', '0']))
    (.quantified false (.unqualified ['Y']) (exName 'Z') (.binop .neq (exName 'Y') (.numeral ['1'])))

theorem exNumeral {c : Char} {d : Nat} (h : IsDigit c d) (hd : d < 10) : Numeral [c] d := by
  have := Numeral.decimal (.one h hd)
  simpa [positional] using this

theorem exNumeral1 : Numeral ['1'] 1 := exNumeral (.inl rfl) (by omega)
theorem exNumeral3 : Numeral ['3'] 3 := exNumeral (.inl rfl) (by omega)
theorem exNumeral10000 : Numeral ['1', '0', '_', '0', '0', '0'] 10000 :=
  Numeral.decimal (.cons (d := 1) (.inl rfl) (by omega) (.underscore (d := 0) (.inl rfl) (by omega) (.cons (d := 0) (.inl rfl) (by omega)
    (.cons (d := 0) (.inl rfl) (by omega) (.one (d := 0) (.inl rfl) (by omega))))))
theorem exNumeral32 : Numeral ['1', '6', '#', '2', '_', '0', '#'] 32 :=
  Numeral.based (bs := ['1', '6']) (s := ['2', '_', '0']) (.cons (d := 1) (.inl rfl) (by omega) (.one (d := 6) (.inl rfl) (by omega)))
    (by decide) (by decide) (.underscore (d := 2) (.inl rfl) (by decide) (.one (d := 0) (.inl rfl) (by decide)))

theorem exTree_lexical : Lexical exTree := by
  simp only [exTree, exName, Lexical]
  exact ⟨⟨⟨⟨by simp [IdNode.Lexical, IsName], _, exNumeral32⟩, _, exNumeral3⟩, _, exNumeral10000⟩, by simp [IdNode.Lexical, IsName],
    by simp [IdNode.Lexical, IsName], by simp [IdNode.Lexical, IsName], _, exNumeral1⟩

/-- `X = x` and `Z = zs`. -/
def exEnvT (x : Int) (zs : List Int) : Env :=
  ⟨fun n => if n = [['x']] then .int x else if n = [['z']] then .seq zs else .int 0, fun _ _ => .int 0, fun _ _ => .int 0, fun _ _ => .int 0⟩

theorem exTree_supported : Supported .bool exTree := by
  simp only [exTree, exName, Supported, operandMode, IdNode.Free, true_and, and_true]
  refine ⟨⟨⟨.inr ⟨['1', '6'], by simp, _, rfl⟩, .inl (by decide)⟩, .inl (by decide)⟩, by decide, .inl (by decide), Division.ada,
    exEnvT 0 [], _, .binop (a := .int 0) (b := .int 1) .var (.numeral exNumeral1) rfl⟩

example : ∃ e, create .bool exTree = .ok e := ⟨_, rfl⟩

/-- `(1 + 32) * 3 < 10000` and `2 /= 1`. -/
theorem exTree_means : Means Division.ada (exEnvT 1 [2]) exTree (.bool true) :=
  .binop (a := .bool true) (b := .bool true)
    (.binop (a := .int 99) (b := .int 10000)
      (.binop (a := .int 33) (b := .int 3) (.paren (.binop (a := .int 1) (b := .int 32) .var (.numeral exNumeral32) rfl)) (.numeral exNumeral3) rfl)
      (.numeral exNumeral10000) rfl)
    (.all (bs := [true]) (xs := [2]) .var (.cons (.binop (a := .int 2) (b := .int 1) .var (.numeral exNumeral1) rfl) .nil)) rfl

example : ∃ e, create .bool exTree = .ok e ∧ eval Division.ada (exEnvT 1 [2]) e = some (.bool true) :=
  C52_created_partial .bool exTree exTree_lexical exTree_supported _ _ _ exTree_means ⟨true, rfl⟩

/-- The value of `L'Head + 1` is a number if the first element of `L` is one, but the parser raises `NotImplementedError`. -/
theorem C52_attribute_counterexample (D : Division) (ρ : Env) (i : Int) (h : ρ.attr .head [['l']] = .int i) :
    Means D ρ (.binop .add (.attribute .head (exName 'L')) (.numeral ['1'])) (.int (i + 1)) ∧
      create .any (.binop .add (.attribute .head (exName 'L')) (.numeral ['1'])) = .error .notImplemented :=
  ⟨.binop (a := .int i) (b := .int 1) (by
    have : Means D ρ (.attribute .head (exName 'L')) (ρ.attr .head [['l']]) := .attribute (id := .qualified none ['L']) rfl
    rwa [h] at this) (.numeral exNumeral1) rfl, rfl⟩

/-- `- X` has a value but raises `AssertionError`. -/
theorem C52_negation_counterexample (D : Division) (ρ : Env) (i : Int) (h : ρ.var [['x']] = .int i) :
    Means D ρ (.negation (exName 'X')) (.int (-i)) ∧ create .any (.negation (exName 'X')) = .error .assertion :=
  ⟨.negation (by
    have : Means D ρ (exName 'X') (ρ.var [['x']]) := .var (id := .qualified none ['X'])
    rwa [h] at this), rfl⟩

/-- `X & [1]` has a value but raises `AssertionError`. -/
theorem C52_concatenation_counterexample (D : Division) (ρ : Env) (l : List Int) (h : ρ.var [['x']] = .seq l) :
    Means D ρ (.concatenation (exName 'X') (.aggregate [.numeral ['1']])) (.seq (l ++ [1])) ∧
      create .any (.concatenation (exName 'X') (.aggregate [.numeral ['1']])) = .error .assertion :=
  ⟨.concatenation (by
    have : Means D ρ (exName 'X') (ρ.var [['x']]) := .var (id := .qualified none ['X'])
    rwa [h] at this) (.aggregate (.cons (.numeral exNumeral1) .nil)), rfl⟩

end Verif.SpecParser
