import Verif.Ada.Seps
import Verif.Ada.Value

/-! # Helper lemmas: the text of an expression can be read as the expression -/

namespace Verif.Ada
open Verif

/-! ## Tails -/

/-- A text that may follow another text. -/
def Tail (s : PyStr) (ts : List Tok) : Prop := ∀ rest, Bnd rest → Bnd (s ++ rest) ∧ scan [] (s ++ rest) = ts ++ scan [] rest

theorem Tail.nil : Tail [] [] := fun _ h => ⟨h, rfl⟩

theorem Tail.cons {m s r : PyStr} {us ts vs : List Tok} (hm : Sep m us) (hs : Scans s ts) (hr : Tail r vs) :
    Tail (m ++ s ++ r) (us ++ ts ++ vs) := fun rest h => by
  obtain ⟨h1, h2⟩ := hr rest h
  refine ⟨by rw [List.append_assoc, List.append_assoc]; exact hm.bnd _, ?_⟩
  rw [List.append_assoc, List.append_assoc, hm.scan _ hs.start.append, hs.scan _ h1, h2]
  simp

theorem Tail.line {m s r : PyStr} {us ts vs : List Tok} {k : Nat} (hm : Closes m us) (hs : Scans s ts) (hr : Tail r vs) :
    Tail (m ++ indent s k ++ r) (us ++ ts ++ vs) := fun rest h => by
  obtain ⟨h1, h2⟩ := hr rest h
  refine ⟨by rw [List.append_assoc, List.append_assoc]; exact hm.bnd _, ?_⟩
  rw [List.append_assoc, List.append_assoc, hm.scan, scan_indent, hs.scan _ h1, h2]
  simp

theorem Tail.close {m : PyStr} {us : List Tok} (hm : Closes m us) : Tail m us := fun rest _ => ⟨hm.bnd rest, hm.scan rest⟩

theorem Tail.append {s r : PyStr} {ts us : List Tok} (hs : Tail s ts) (hr : Tail r us) : Tail (s ++ r) (ts ++ us) := fun rest h => by
  obtain ⟨h1, h2⟩ := hr rest h
  obtain ⟨h3, h4⟩ := hs _ h1
  rw [List.append_assoc]
  exact ⟨h3, by rw [h4, h2, List.append_assoc]⟩

theorem Scans.tail {s r : PyStr} {ts us : List Tok} (hs : Scans s ts) (hr : Tail r us) : Scans (s ++ r) (ts ++ us) := by
  refine ⟨hs.start.append, fun rest h => ?_⟩
  obtain ⟨h1, h2⟩ := hr rest h
  rw [List.append_assoc, hs.scan _ h1, h2, List.append_assoc]

theorem Scans.if_ {s : PyStr} {ts : List Tok} {k : Nat} (hs : Scans s ts) :
    Scans (['(', 'i', 'f', '\n'] ++ indent s k) (.lpar :: .if_ :: ts) := by
  refine ⟨⟨'(', _, rfl, .inr rfl⟩, fun rest h => ?_⟩
  rw [List.append_assoc, scan_if, scan_indent, hs.scan rest h]
  rfl

/-! ## Names -/

theorem Reads.isName {ts : List Tok} {t : Tree} (h : Reads .name ts t) : t.isName = true := by
  generalize hc : Cat.name = c at h
  cases h <;> first | rfl | simp at hc

theorem Tree.value_name {t : Tree} (h : t.isName = true) (W : World) : t.value W = (t.ent W).bind W.val := by
  cases t <;> simp [Tree.isName] at h <;> simp only [Tree.value, Tree.ent, Option.bind_map, Function.comp_def, Option.bind_some]

/-- A text that can be read as an expression of a category with a value. -/
def Good (c : Cat) (s : PyStr) (V : World → Option Val) : Prop :=
  ∃ ts t, Scans s ts ∧ Reads c ts t ∧ ∀ W : World, W.Std → t.value W = V W

/-- A text that can be read as a name. -/
def GoodName (s : PyStr) (E : (W : World) → Option W.Ent) : Prop :=
  ∃ ts t, Scans s ts ∧ Reads .name ts t ∧ ∀ W : World, W.Std → t.ent W = E W

theorem GoodName.good {s : PyStr} {E : (W : World) → Option W.Ent} (h : GoodName s E) : Good .primary s (fun W => (E W).bind W.val) := by
  obtain ⟨ts, t, h1, h2, h3⟩ := h
  exact ⟨ts, t, h1, .name h2, fun W hW => by rw [Tree.value_name h2.isName, h3 W hW]⟩

theorem Reads.cast {c : Cat} {ts ts' : List Tok} {t : Tree} (h : Reads c ts t) (he : ts = ts') : Reads c ts' t := he ▸ h

theorem Scans.cast {s s' : PyStr} {ts ts' : List Tok} (h : Scans s ts) (hs : s = s') (ht : ts = ts') : Scans s' ts' := hs ▸ ht ▸ h

theorem Word.ne {p : PyStr} (h : Word p) : p ≠ [] := by
  obtain ⟨⟨c, s, rfl, _⟩, _⟩ := h
  simp

theorem Word.scans {p : PyStr} (h : Word p) : Scans p [.ident p.lower] := by
  have hs := Scans.word h.ne (fun c hc => by simp [inWord, h.2.1 c hc])
  obtain ⟨⟨c, s, rfl, hd⟩, _, hk, hr⟩ := h
  have : word (c :: s) = .ident (PyStr.lower (c :: s)) := by
    simp only [word, hd, Bool.false_eq_true, if_false, hk, if_neg hr]
  rwa [this] at hs

theorem Attr.lower (k : Attr) : k.str.lower = k.name := by cases k <;> decide +kernel

theorem AttrFn.lower (k : AttrFn) : k.str.lower = k.name := by cases k <;> decide +kernel

theorem Attr.scans (k : Attr) : ∃ t, Scans k.str [t] ∧ (t = .ident k.str.lower ∨ t = .range ∧ k.str.lower = "range".toList) := by
  refine ⟨word k.str, Scans.word (by cases k <;> decide) (by cases k <;> decide +kernel), ?_⟩
  cases k <;> decide +kernel

theorem AttrFn.word (k : AttrFn) : Word k.str := by cases k <;> decide +kernel

theorem scans_all : Scans ['a', 'l', 'l'] [.all] := by
  have := Scans.word (w := ['a', 'l', 'l']) (by decide) (by decide)
  rwa [show word ['a', 'l', 'l'] = .all by decide +kernel] at this

theorem GoodName.select {s : PyStr} {E : (W : World) → Option W.Ent} (h : GoodName s E) {p : PyStr} (hp : Part p) :
    GoodName (s ++ '.' :: p) (fun W => (E W).map fun n => W.sel n p.lower) := by
  obtain ⟨ts, t, h1, h2, h3⟩ := h
  rcases hp with hp | rfl
  case inr =>
    refine ⟨_, .sel t "all".toList, (h1.append sep_dot scans_all).cast (by simp) rfl, (Reads.dereference h2).cast (by simp), fun W hW => ?_⟩
    simp only [Tree.ent, h3 W hW]
    rfl
  refine ⟨_, .sel t p.lower, (h1.append sep_dot hp.scans).cast (by simp) rfl, (Reads.selected h2).cast (by simp), fun W hW => ?_⟩
  simp only [Tree.ent, h3 W hW]

theorem GoodName.selects {ps : List PyStr} (hn : ps ≠ []) (hp : ∀ p ∈ ps, Part p) : ∀ {s : PyStr} {E : (W : World) → Option W.Ent},
    GoodName s E → GoodName (s ++ '.' :: joinDot ps) (fun W => (E W).map fun n => selPath W n ps) := by
  induction ps with
  | nil => exact absurd rfl hn
  | cons p ps ih =>
    intro s E h
    have h' := h.select (hp p (by simp))
    cases ps with
    | nil => exact h'
    | cons q ps =>
      have := ih (by simp) (fun x hx => hp x (List.mem_cons_of_mem _ hx)) h'
      simp only [List.append_assoc, List.cons_append, Option.map_map, Function.comp_def] at this
      simpa only [joinDot, selPath, List.foldl_cons] using this

theorem Dotted.good {i : ID} (h : Dotted i) : GoodName (dotted i) (fun W => path W i.parts) := by
  obtain ⟨hn, hw⟩ := h
  obtain ⟨p, ps, hp⟩ := List.exists_cons_of_ne_nil hn
  have hb : GoodName p (fun W => some (W.id p.lower)) :=
    ⟨_, .id p.lower, (hw.1 p (by simp [hp])).scans, .ident, fun W _ => rfl⟩
  simp only [dotted, hp]
  cases ps with
  | nil => exact hb
  | cons q ps =>
    exact hb.selects (ps := q :: ps) (by simp) (fun x hx => hw.2 x (by rw [hp]; exact hx))

theorem GoodName.attr {s : PyStr} {E : (W : World) → Option W.Ent} (h : GoodName s E) (k : Attr) :
    GoodName (s ++ '\'' :: k.str) (fun W => (E W).map fun n => W.attr n k.name) := by
  rw [← k.lower]
  obtain ⟨ts, t, h1, h2, h3⟩ := h
  obtain ⟨tok, hk, ht⟩ := k.scans
  have hs := (h1.append sep_tick hk).cast (s' := s ++ '\'' :: k.str) (by simp) rfl
  rcases ht with rfl | ⟨rfl, hr⟩
  · exact ⟨_, .attr t k.str.lower, hs, (Reads.attribute h2).cast (by simp), fun W hW => by simp only [Tree.ent, h3 W hW]⟩
  · exact ⟨_, .attr t "range".toList, hs, (Reads.range h2).cast (by simp), fun W hW => by simp only [Tree.ent, h3 W hW, hr]⟩

theorem GoodName.attrFn {s : PyStr} {E : (W : World) → Option W.Ent} (h : GoodName s E) (k : AttrFn) :
    GoodName (s ++ '\'' :: k.str) (fun W => (E W).map fun n => W.attr n k.name) := by
  rw [← k.lower]
  obtain ⟨ts, t, h1, h2, h3⟩ := h
  exact ⟨_, .attr t k.str.lower, (h1.append sep_tick k.word.scans).cast (by simp) rfl, (Reads.attribute h2).cast (by simp),
    fun W hW => by simp only [Tree.ent, h3 W hW]⟩

/-- A text that can be read as a list of expressions. -/
def GoodList (s : PyStr) (n : Nat) (V : World → Option (List Val)) : Prop :=
  ∃ ts es, Scans s ts ∧ Reads .list ts (.agg es) ∧ es.length = n ∧ ∀ W : World, W.Std → Tree.values W es = V W

theorem GoodName.apply {s r : PyStr} {E : (W : World) → Option W.Ent} {n : Nat} {V : World → Option (List Val)} (h : GoodName s E)
    (hr : GoodList r n V) : GoodName (s ++ [' ', '('] ++ r ++ [')']) (fun W => appEnt W (E W) (V W)) := by
  obtain ⟨ts, t, h1, h2, h3⟩ := h
  obtain ⟨us, es, r1, r2, _, r3⟩ := hr
  exact ⟨_, .app t es, (h1.append sep_apply r1).close closes_rpar, (Reads.apply h2 r2).cast (by simp),
    fun W hW => by simp only [Tree.ent, h3 W hW, r3 W hW]⟩

theorem GoodList.one {s : PyStr} {V : World → Option Val} (h : Good .expression s V) : GoodList s 1 (fun W => (V W).map fun v => [v]) := by
  obtain ⟨ts, t, h1, h2, h3⟩ := h
  refine ⟨ts, [t], h1, .one h2, rfl, fun W hW => ?_⟩
  simp only [Tree.values, h3 W hW]
  cases V W <;> rfl

theorem GoodList.cons {s r : PyStr} {V : World → Option Val} {n : Nat} {U : World → Option (List Val)} (h : Good .expression s V)
    (hr : GoodList r n U) :
    GoodList (s ++ ',' :: ' ' :: r) (n + 1) (fun W => match V W, U W with | some v, some vs => some (v :: vs) | _, _ => none) := by
  obtain ⟨ts, t, h1, h2, h3⟩ := h
  obtain ⟨us, es, r1, r2, rn, r3⟩ := hr
  refine ⟨_, t :: es, (h1.append sep_comma r1).cast (by simp) rfl, (Reads.cons h2 r2).cast (by simp), by simp [rn], fun W hW => ?_⟩
  simp only [Tree.values, h3 W hW, r3 W hW]
  cases V W <;> cases U W <;> rfl

theorem GoodName.slice {s r q : PyStr} {E : (W : World) → Option W.Ent} {V U : World → Option Val} (h : GoodName s E)
    (hr : Good .simple r V) (hq : Good .simple q U) :
    GoodName (s ++ [' ', '('] ++ r ++ [' ', '.', '.', ' '] ++ q ++ [')']) (fun W => sliceEnt W (E W) (V W) (U W)) := by
  obtain ⟨ts, t, h1, h2, h3⟩ := h
  obtain ⟨us, u, r1, r2, r3⟩ := hr
  obtain ⟨vs, v, q1, q2, q3⟩ := hq
  exact ⟨_, .slice t u v, ((h1.append sep_apply r1).append sep_dots q1).close closes_rpar, (Reads.slice h2 r2 q2).cast (by simp),
    fun W hW => by simp only [Tree.ent, h3 W hW, r3 W hW, q3 W hW]⟩

/-! ## Categories -/

/-- The category of an expression by its precedence. -/
def catOf : Nat → Cat
  | 0 | 1 => .expression
  | 2 => .relation
  | 3 => .simple
  | 4 | 5 => .term
  | 6 => .factor
  | _ => .primary

theorem Reads.succ {p : Nat} {ts : List Tok} {t : Tree} (h : Reads (catOf (p + 1)) ts t) : Reads (catOf p) ts t := by
  match p with
  | 0 => exact h
  | 1 => exact .relation h
  | 2 => exact .simple h
  | 3 => exact .term h
  | 4 => exact h
  | 5 => exact .factor h
  | 6 => exact .primary h
  | p + 7 => exact h

theorem Reads.le {p q : Nat} {ts : List Tok} {t : Tree} (h : Reads (catOf p) ts t) (hq : q ≤ p) : Reads (catOf q) ts t := by
  induction p with
  | zero => rwa [show q = 0 by omega]
  | succ p ih =>
    by_cases he : q = p + 1
    · rwa [he]
    · exact ih h.succ (by omega)

theorem Good.le {p q : Nat} {s : PyStr} {V : World → Option Val} (h : Good (catOf p) s V) (hq : q ≤ p) : Good (catOf q) s V := by
  obtain ⟨ts, t, h1, h2, h3⟩ := h
  exact ⟨ts, t, h1, h2.le hq, h3⟩

theorem Good.expr {p : Nat} {s : PyStr} {V : World → Option Val} (h : Good (catOf p) s V) : Good .expression s V :=
  h.le (q := 0) (by omega)

theorem Good.paren {s : PyStr} {V : World → Option Val} (h : Good .expression s V) : Good .primary ('(' :: s ++ [')']) V := by
  obtain ⟨ts, t, h1, h2, h3⟩ := h
  exact ⟨_, t, h1.paren, .paren h2, h3⟩

theorem Good.indentNext {c : Cat} {s : PyStr} {V : World → Option Val} (h : Good c s V) (k : Nat) : Good c (indentNext s k) V := by
  obtain ⟨ts, t, h1, h2, h3⟩ := h
  exact ⟨ts, t, h1.indentNext k, h2, h3⟩

theorem Good.primary {p : Nat} {s : PyStr} {V : World → Option Val} (h : Good .primary s V) (hp : p ≤ 7) : Good (catOf p) s V :=
  Good.le (p := 7) h hp

theorem Good.parens {e : AExpr} {s : PyStr} {V : World → Option Val} (h : Good (catOf e.prec) s V) {p : Nat} (hp : p ≤ 6) :
    Good (catOf (p + 1)) (AExpr.parens p e s) V := by
  unfold AExpr.parens
  split
  · exact ((h.expr.indentNext 1).paren).primary (by omega)
  · exact h.le (by omega)

theorem Good.congr {c : Cat} {s : PyStr} {V U : World → Option Val} (h : Good c s V) (he : ∀ W, V W = U W) : Good c s U := by
  rwa [show U = V from (funext he).symm]

/-! ## Signs and numbers -/

theorem Good.minus {s : PyStr} {V : World → Option Val} (h : Good .primary s V) :
    Good .primary (wrapNeg true s) (fun W => negVal (V W)) := by
  obtain ⟨ts, t, h1, h2, h3⟩ := h
  refine ⟨_, .neg t, h1.minus, .paren (.relation (.simple (.minus (.factor (.primary h2))))), fun W hW => ?_⟩
  simp only [Tree.value, h3 W hW]

theorem Good.nat (b : NBase) (m : Nat) : Good .primary (natStr b m) (fun _ => some (.int m)) := by
  have hw : ∀ c ∈ natStr b m, inWord c = true := by
    intro c hc
    have hd : ∀ k, c ∈ digits k m → wordChar c = true := fun k h => by
      obtain ⟨d, rfl⟩ := mem_digitsAux h
      exact digitChar_word d
    have hw : (∃ k, c ∈ digits k m) ∨ c = '#' ∨ c.isDigit = true := by
      cases b <;> simp only [natStr, List.mem_append, List.mem_cons, List.not_mem_nil, or_false] at hc
      · exact .inl ⟨_, hc⟩
      all_goals
        first
        | (rcases hc with ((rfl | rfl) | h) | rfl <;> first | exact .inl ⟨_, h⟩ | (right; decide))
        | (rcases hc with ((rfl | rfl | rfl) | h) | rfl <;> first | exact .inl ⟨_, h⟩ | (right; decide))
    rcases hw with ⟨k, h⟩ | rfl | h
    · simp [inWord, hd k h]
    · decide
    · simp [inWord, wordChar, Char.isAlphanum, h]
  obtain ⟨c, s, hs, hd⟩ := natStr_head (b := b) (m := m)
  have : word (natStr b m) = .num m := by
    have hl : literal (natStr b m) = m := numOf_natStr b m
    rw [hs] at hl ⊢
    simp only [word, hd, if_true, hl]
  refine ⟨[.num m], .num m, ?_, .num, fun W _ => rfl⟩
  have h := Scans.word (w := natStr b m) (by rw [hs]; simp) hw
  rwa [this] at h

theorem Good.int (v : Int) (b : NBase) : Good .primary (intStr v b) (fun _ => some (.int v)) := by
  have h := Good.nat b v.natAbs
  unfold intStr
  by_cases hv : v < 0
  · simp only [hv, decide_true]
    refine h.minus.congr fun W => ?_
    simp only [negVal]
    congr 2
    omega
  · simp only [hv, decide_false]
    refine h.congr fun W => ?_
    congr 2
    omega

end Verif.Ada
