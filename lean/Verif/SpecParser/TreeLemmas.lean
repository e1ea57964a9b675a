import Verif.SpecParser.TreeSpec
import Verif.Ident.Lemmas

/-! # Lemmas about numerals, names and operators -/

namespace Verif.SpecParser
open Verif

/-! ## Numerals -/

theorem bind_ok' {α β : Type} {x : Py α} {f : α → Py β} {b : β} (h : x.bind f = .ok b) : ∃ a, x = .ok a ∧ f a = .ok b := by
  cases x with
  | error e => cases h
  | ok a => exact ⟨a, rfl, h⟩

theorem map_ok' {α β : Type} {x : Py α} {f : α → β} {b : β} (h : x.map f = .ok b) : ∃ a, x = .ok a ∧ f a = b := by
  cases x with
  | error e => cases h
  | ok a => exact ⟨a, rfl, Except.ok.inj h⟩

theorem isDigit_lt {c : Char} {d : Nat} (h : IsDigit c d) : d < 16 := by
  rcases h with h | h <;>
  · rw [List.getElem?_eq_some_iff] at h
    obtain ⟨h, _⟩ := h
    simpa using h

theorem isDigit_py {c : Char} {d : Nat} (h : IsDigit c d) : pyDigit c = some d := by
  have hd := isDigit_lt h
  have h1 : ∀ d : Fin 16, pyDigit (['0', '1', '2', '3', '4', '5', '6', '7', '8', '9', 'A', 'B', 'C', 'D', 'E', 'F'][d.val]'(by simp)) = some d.val := by
    decide
  have h2 : ∀ d : Fin 16, pyDigit (['0', '1', '2', '3', '4', '5', '6', '7', '8', '9', 'a', 'b', 'c', 'd', 'e', 'f'][d.val]'(by simp)) = some d.val := by
    decide
  rcases h with h | h <;> rw [List.getElem?_eq_some_iff] at h <;> obtain ⟨h, rfl⟩ := h
  · exact h1 ⟨d, hd⟩
  · exact h2 ⟨d, hd⟩

theorem isDigit_char {c : Char} {d : Nat} (h : IsDigit c d) : c ≠ '_' ∧ c ≠ '#' ∧ c ≠ '"' := by
  have := isDigit_py h
  refine ⟨?_, ?_, ?_⟩ <;> rintro rfl <;> cases this

theorem pyDigits_cons {b : Nat} {c : Char} {d : Nat} {s : PyStr} {acc : Nat} (hc : IsDigit c d) (hd : d < b) :
    pyDigits b (c :: s) acc = pyDigits b s (acc * b + d) := by
  have h1 := (isDigit_char hc).1
  have h2 := isDigit_py hc
  rw [pyDigits]
  · simp [h2, hd]
  · intro c' s' h
    exact absurd h h1

theorem digits_head {b : Nat} {s : PyStr} {ds : List Nat} (h : Digits b s ds) : ∃ c d s', s = c :: s' ∧ IsDigit c d ∧ d < b := by
  cases h with
  | one h1 h2 => exact ⟨_, _, _, rfl, h1, h2⟩
  | cons h1 h2 _ => exact ⟨_, _, _, rfl, h1, h2⟩
  | underscore h1 h2 _ => exact ⟨_, _, _, rfl, h1, h2⟩

theorem pyDigits_eq {b : Nat} {s : PyStr} {ds : List Nat} (h : Digits b s ds) :
    ∀ acc, pyDigits b s acc = .ok (ds.foldl (fun a d => a * b + d) acc) := by
  induction h with
  | one h1 h2 => intro acc; rw [pyDigits_cons h1 h2]; rfl
  | cons h1 h2 _ ih => intro acc; rw [pyDigits_cons h1 h2, ih]; rfl
  | @underscore c d s ds h1 h2 h3 ih =>
    intro acc
    obtain ⟨c', d', s', rfl, h4, h5⟩ := digits_head h3
    have h6 := ih (acc * b + d)
    rw [pyDigits_cons h4 h5] at h6
    rw [pyDigits_cons h1 h2, pyDigits]
    simp only [isDigit_py h4, h5, if_true]
    exact h6

theorem pyDigits1_eq {b : Nat} {s : PyStr} {ds : List Nat} (h : Digits b s ds) : pyDigits1 b s = .ok (positional b ds) := by
  obtain ⟨c, d, s', rfl, h1, h2⟩ := digits_head h
  have h3 := pyDigits_eq h 0
  rw [pyDigits_cons h1 h2, Nat.zero_mul, Nat.zero_add] at h3
  simp only [pyDigits1, isDigit_py h1, h2, if_true]
  exact h3

theorem dropPrefix_eq {b : Nat} {s : PyStr} {ds : List Nat} (h : Digits b s ds) : dropPrefix b s = s := by
  unfold dropPrefix
  split
  · rename_i c r
    have hc : c = '_' ∨ ∃ d, IsDigit c d ∧ d < b := by
      cases h with
      | cons _ _ h3 =>
        obtain ⟨c', d', s', h4, h5, h6⟩ := digits_head h3
        cases h4
        exact .inr ⟨_, h5, h6⟩
      | underscore _ _ _ => exact .inl rfl
    rw [if_neg]
    rintro (⟨rfl, hc'⟩ | ⟨rfl, hc'⟩ | ⟨rfl, hc'⟩) <;> rcases hc with rfl | ⟨d, h5, h6⟩
    all_goals first
      | (rcases hc' with hc' | hc' <;> cases hc'; done)
      | (have h7 := isDigit_py h5
         rcases hc' with rfl | rfl <;> cases h7 <;> exact absurd h6 (by decide))
  · rfl

theorem pyInt_eq {b : Nat} {s : PyStr} {ds : List Nat} (h : Digits b s ds) (h2 : 2 ≤ b) (h36 : b ≤ 36) :
    pyInt s b = .ok (positional b ds) := by
  unfold pyInt
  rw [if_neg (by omega), if_neg (by omega), dropPrefix_eq h, pyDigits1_eq h]

theorem digits_no {b : Nat} {s : PyStr} {ds : List Nat} (h : Digits b s ds) : '#' ∉ s := by
  induction h with
  | one h1 _ => simpa using fun h => (isDigit_char h1).2.1 h.symm
  | cons h1 _ _ ih => simpa [ih] using fun h => (isDigit_char h1).2.1 h.symm
  | underscore h1 _ _ ih => simpa [ih] using fun h => (isDigit_char h1).2.1 h.symm

theorem splitChar_no {c : Char} {s : PyStr} (h : c ∉ s) : splitChar c s = [s] := by
  induction s with
  | nil => rfl
  | cons d s ih =>
    simp only [List.mem_cons, not_or] at h
    rw [splitChar, ih h.2]
    simp [show ¬ d = c from fun h' => h.1 h'.symm]

theorem splitChar_append {c : Char} {s t : PyStr} (h : c ∉ s) : splitChar c (s ++ c :: t) = s :: splitChar c t := by
  have hne : ∀ u, splitChar c u ≠ [] := by
    intro u
    induction u with
    | nil => simp [splitChar]
    | cons d u ih =>
      rw [splitChar]
      split
      · simp
      · split <;> simp
  induction s with
  | nil =>
    rw [List.nil_append, splitChar]
    split
    · rename_i h'; exact absurd h' (hne t)
    · rename_i h'; rw [if_pos rfl, h']
  | cons d s ih =>
    simp only [List.mem_cons, not_or] at h
    rw [List.cons_append, splitChar, ih h.2]
    simp [show ¬ d = c from fun h' => h.1 h'.symm]

/-- The created number of a numeral. -/
theorem createNumeral_value {s : PyStr} {n : Nat} (hn : Numeral s n) {e : Expr} (h : createNumeral s = .ok e) : ∃ b, e = .num n b := by
  unfold createNumeral at h
  cases hn with
  | decimal hd =>
    rw [splitChar_no (digits_no hd)] at h
    obtain ⟨v, h1, h2⟩ := bind_ok' h
    rw [pyInt_eq hd (by omega) (by omega)] at h1
    cases h1
    exact ⟨_, (Except.ok.inj h2).symm⟩
  | @based bs b s ds hb h2 h16 hd =>
    rw [List.append_assoc, List.cons_append, splitChar_append (digits_no hb), splitChar_append (digits_no hd)] at h
    simp only [splitChar] at h
    obtain ⟨v, h1, h⟩ := bind_ok' h
    rw [pyInt_eq hb (by omega) (by omega)] at h1
    cases h1
    obtain ⟨v, h1, h⟩ := bind_ok' h
    rw [pyInt_eq hd h2 (by omega)] at h1
    cases h1
    obtain ⟨v, h1, h⟩ := bind_ok' h
    exact ⟨_, (Except.ok.inj h).symm⟩

theorem numeral_unique {s : PyStr} {n n' : Nat} (h : Numeral s n) (h' : Numeral s n') : n = n' := by
  cases h with
  | decimal hd =>
    generalize hs : s = s' at h'
    cases h' with
    | decimal hd' =>
      subst hs
      have := pyInt_eq hd (by omega) (by omega)
      rw [pyInt_eq hd' (by omega) (by omega)] at this
      exact (Except.ok.inj this).symm
    | based hb h2 h16 hd' => exact absurd (by rw [hs]; simp) (digits_no hd)
  | @based bs b t ds hb h2 h16 hd =>
    generalize hs : bs ++ '#' :: t ++ ['#'] = s' at h'
    cases h' with
    | decimal hd' => exact absurd (by rw [← hs]; simp) (digits_no hd')
    | @based bs' b' t' ds' hb' h2' h16' hd' =>
      have h1 := congrArg (splitChar '#') hs
      simp only [List.append_assoc, List.cons_append] at h1
      rw [splitChar_append (digits_no hb), splitChar_append (digits_no hd), splitChar_append (digits_no hb'),
        splitChar_append (digits_no hd')] at h1
      simp only [splitChar, List.cons.injEq] at h1
      obtain ⟨rfl, rfl, _⟩ := h1
      have h3 := pyInt_eq hb (by omega) (by omega)
      rw [pyInt_eq hb' (by omega) (by omega)] at h3
      have h3 := Except.ok.inj h3
      have h4 := pyInt_eq hd h2 (by omega)
      rw [← h3, pyInt_eq hd' h2' (by omega)] at h4
      rw [← h3]
      exact (Except.ok.inj h4).symm

/-- Numbers in supported bases are created. -/
theorem createNumeral_ok {s : PyStr} {n : Nat} (hn : Numeral s n) (hs : IsPrintable s) : ∃ e, createNumeral s = .ok e := by
  unfold createNumeral
  cases hn with
  | @decimal _ ds hd =>
    rw [splitChar_no (digits_no hd)]
    refine ⟨.num (positional 10 ds : Nat) .b0, ?_⟩
    show (pyInt _ 10).bind _ = _
    rw [pyInt_eq hd (by omega) (by omega)]
    rfl
  | @based bs b s ds hb h2 h16 hd =>
    rw [List.append_assoc, List.cons_append, splitChar_append (digits_no hb), splitChar_append (digits_no hd)]
    simp only [splitChar]
    rcases hs with hs | ⟨c, hc, r, hr⟩
    · simp at hs
    · have h5 : '#' ∉ c := by
        simp only [List.mem_cons, List.not_mem_nil, or_false] at hc
        rcases hc with rfl | rfl | rfl | rfl <;> decide
      have h6 := congrArg (splitChar '#') hr
      rw [List.append_assoc, List.cons_append, splitChar_append (digits_no hb), splitChar_append h5] at h6
      have h6 := (List.cons.inj h6).1
      subst h6
      have h7 := pyInt_eq hb (by omega) (by omega)
      have h8 : ∃ x, toBase (positional 10 b) = .ok x := by
        simp only [List.mem_cons, List.not_mem_nil, or_false] at hc
        rcases hc with rfl | rfl | rfl | rfl
        · have h9 : pyInt ['2'] 10 = .ok 2 := rfl
          rw [h9] at h7; rw [← Except.ok.inj h7]; exact ⟨_, rfl⟩
        · have h9 : pyInt ['8'] 10 = .ok 8 := rfl
          rw [h9] at h7; rw [← Except.ok.inj h7]; exact ⟨_, rfl⟩
        · have h9 : pyInt ['1', '0'] 10 = .ok 10 := rfl
          rw [h9] at h7; rw [← Except.ok.inj h7]; exact ⟨_, rfl⟩
        · have h9 : pyInt ['1', '6'] 10 = .ok 16 := rfl
          rw [h9] at h7; rw [← Except.ok.inj h7]; exact ⟨_, rfl⟩
      obtain ⟨x, hx⟩ := h8
      refine ⟨.num (positional (positional 10 b) ds : Nat) x, ?_⟩
      rw [h7]
      show (pyInt s (positional 10 b)).bind _ = _
      rw [pyInt_eq hd h2 (by omega)]
      show (toBase (positional 10 b)).bind _ = _
      rw [hx]
      rfl

/-! ## Names -/

theorem ofStr_name {t : PyStr} (h : IsName t) : ID.ofStr t = .ok ⟨[t]⟩ := by
  rw [ID.ofStr, splitSep_noColon _ h.2.2.2]
  exact (ID.checked_ok_iff _ _).2 ⟨rfl, by simp, by simpa [IsName] using h⟩

theorem createId_of {id : IdNode} (h : id.Lexical) (hf : id.Free) : ∃ i, createId id = .ok i ∧ i.key = id.key := by
  cases id with
  | unqualified t => exact ⟨⟨[t]⟩, by rw [createId, if_neg hf, ofStr_name h], rfl⟩
  | qualified p n =>
    cases p with
    | none => exact ⟨⟨[n]⟩, by rw [createId, ofStr_name h]; rfl, rfl⟩
    | some p =>
      obtain ⟨h1, h2⟩ := h
      refine ⟨⟨[p, n]⟩, ?_, rfl⟩
      rw [createId, ofStr_name h2]
      show (ID.ofStr p).bind _ = _
      rw [ofStr_name h1]
      show ID.mulStr _ _ = _
      have h3 : (ID.mk [n]).str = n := rfl
      have h4 : (ID.mk [p]).str = p := rfl
      rw [ID.mulStr, h3, h4, if_neg (by simpa using h2.1)]
      show ID.ofStr (p ++ [':', ':'] ++ n) = _
      rw [List.append_assoc, ID.ofStr]
      show ID.checked (splitSep (p ++ ':' :: ':' :: n)) = _
      rw [splitSep_append _ _ h1.2.2.2, splitSep_noColon _ h2.2.2.2]
      exact (ID.checked_ok_iff _ _).2 ⟨rfl, by simp, by
        intro q hq
        simp only [List.mem_cons, List.not_mem_nil, or_false] at hq
        rcases hq with rfl | rfl
        · exact h1
        · exact h2⟩

theorem createId_free {id : IdNode} {i : ID} (h : createId id = .ok i) : id.Free := by
  cases id with
  | unqualified t =>
    intro ht
    rw [createId, if_pos ht] at h
    cases h
  | qualified p n => trivial

theorem createId_key {id : IdNode} {i : ID} (hl : id.Lexical) (h : createId id = .ok i) : i.key = id.key := by
  obtain ⟨j, h1, h2⟩ := createId_of hl (createId_free h)
  rw [h1] at h
  rw [← Except.ok.inj h]
  exact h2

/-! ## Operators -/

/-- The expression of an operator. -/
def opExpr (op : Op) : Expr → Expr → Expr :=
  match op with
    | .pow => .bin .pow
    | .add => fun l r => .add [l, r]
    | .sub => .bin .sub
    | .mul => fun l r => .mul [l, r]
    | .div => .bin .div
    | .mod => .bin .mod
    | .lt => .rel .lt
    | .gt => .rel .gt
    | .le => .rel .le
    | .ge => .rel .ge
    | .and => fun l r => .bool .and [l, r]
    | .or => fun l r => .bool .or [l, r]
    | .isIn => .rel .isIn
    | .notIn => .rel .notIn
    | .eq => .rel .eq
    | .neq => .rel .ne

theorem eval_rel2 (D : Division) (ρ : Env) (o : RelOp) (l r : Expr) :
    eval D ρ (.rel o l r) = ((eval D ρ l).bind fun a => (eval D ρ r).bind fun b => (o.eval a b).map .bool) := by
  simp only [eval]
  cases eval D ρ l <;> cases eval D ρ r <;> rfl

theorem eval_bin2 (D : Division) (ρ : Env) (o : ArithOp) (l r : Expr) :
    eval D ρ (.bin o l r) = ((eval D ρ l).bind fun a => (eval D ρ r).bind fun b => a.int?.bind fun x => b.int?.bind fun y => (o.eval D x y).map .int) := by
  simp only [eval]
  rcases eval D ρ l with _ | (a | a | a) <;> rcases eval D ρ r with _ | (b | b | b) <;> rfl

theorem eval_add2 (D : Division) (ρ : Env) (l r : Expr) :
    eval D ρ (.add [l, r]) = ((eval D ρ l).bind fun a => (eval D ρ r).bind fun b => a.int?.bind fun x => b.int?.bind fun y => some (.int (x + y))) := by
  simp only [eval, evalL]
  rcases eval D ρ l with _ | (a | a | a) <;> rcases eval D ρ r with _ | (b | b | b) <;> simp [allSome, Val.int?, intSum]

theorem eval_mul2 (D : Division) (ρ : Env) (l r : Expr) :
    eval D ρ (.mul [l, r]) = ((eval D ρ l).bind fun a => (eval D ρ r).bind fun b => a.int?.bind fun x => b.int?.bind fun y => some (.int (x * y))) := by
  simp only [eval, evalL]
  rcases eval D ρ l with _ | (a | a | a) <;> rcases eval D ρ r with _ | (b | b | b) <;> simp [allSome, Val.int?, intProd]

theorem eval_bool2 (D : Division) (ρ : Env) (o : BoolOp) (l r : Expr) :
    eval D ρ (.bool o [l, r]) = ((eval D ρ l).bind fun a => (eval D ρ r).bind fun b => a.bool?.bind fun x => b.bool?.bind fun y =>
      some (.bool (if o.isAnd then x && y else x || y))) := by
  simp only [eval, evalL]
  rcases eval D ρ l with _ | (a | a | a) <;> rcases eval D ρ r with _ | (b | b | b) <;> simp [allSome, Val.bool?]

theorem eval_binop {m m' : Mode} {op : Op} {c : Expr → Expr → Expr} (h : binop m op = .ok (c, m')) (D : Division) (ρ : Env) (l r : Expr) (v : Val) :
    eval D ρ (c l r) = some v ↔ ∃ a b, eval D ρ l = some a ∧ eval D ρ r = some b ∧ op.apply D a b = some v := by
  suffices h : eval D ρ (c l r) = ((eval D ρ l).bind fun a => (eval D ρ r).bind fun b => op.apply D a b) by
    rw [h]
    simp only [Option.bind_eq_some_iff]
    constructor
    · rintro ⟨a, h1, b, h2, h3⟩; exact ⟨a, b, h1, h2, h3⟩
    · rintro ⟨a, b, h1, h2, h3⟩; exact ⟨a, h1, b, h2, h3⟩
  have hc : c = opExpr op := by
    cases m <;> cases op <;> first | (cases h; done) | (cases h; rfl)
  clear h
  subst hc
  have h2 : ∀ f g : Val → Val → Option Val, (∀ a b, f a b = g a b) →
      ((eval D ρ l).bind fun a => (eval D ρ r).bind fun b => f a b) = ((eval D ρ l).bind fun a => (eval D ρ r).bind fun b => g a b) := by
    intro f g h
    have : f = g := funext fun a => funext fun b => h a b
    rw [this]
  cases op <;> simp only [opExpr, eval_rel2, eval_bin2, eval_add2, eval_mul2, eval_bool2] <;> refine h2 _ _ ?_ <;> intro a b <;>
    cases a <;> cases b <;> first | rfl | (simp only [Val.int?, Option.bind_some, ArithOp.eval, Op.apply]; split <;> rfl)

theorem binop_operands {m m' : Mode} {op : Op} {c : Expr → Expr → Expr} (h : binop m op = .ok (c, m')) : m' = operandMode m op := by
  cases m <;> cases op <;> first | (cases h; done) | (cases h; rfl)

end Verif.SpecParser
