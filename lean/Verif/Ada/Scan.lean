import Verif.Ada.Grammar
import Verif.Ada.Syntax
import Verif.Expr.Parse

/-! # Helper lemmas: the lexical elements of a text -/

namespace Verif.Ada
open Verif

/-- The delimiter at the start of a text. -/
def compound? (c : Char) : PyStr → Option Tok
  | [] => none
  | d :: _ => compound c d

theorem scan_cons {cur : PyStr} {c : Char} {s : PyStr} : scan cur (c :: s) =
    if inWord c then scan (cur ++ [c]) s
    else match compound? c s with
      | some t => endWord cur ++ t :: scan [] s.tail
      | none => endWord cur ++ single c ++ scan [] s := by
  cases s with
  | nil =>
    simp only [scan, compound?]
    split
    · simp [endWord]
    · simp [endWord]
  | cons d s => rw [scan]; rfl

theorem compound_plain {c d : Char} (h : c ≠ '*' ∧ c ≠ '/' ∧ c ≠ '<' ∧ c ≠ '>' ∧ c ≠ '=' ∧ c ≠ '.' ∧ c ≠ '-' ∧ c ≠ ':') : compound c d = none := by
  simp [compound, h]

theorem compound?_plain {c : Char} {s : PyStr} (h : c ≠ '*' ∧ c ≠ '/' ∧ c ≠ '<' ∧ c ≠ '>' ∧ c ≠ '=' ∧ c ≠ '.' ∧ c ≠ '-' ∧ c ≠ ':') :
    compound? c s = none := by
  cases s with
  | nil => rfl
  | cons d s => exact compound_plain h

/-- A text that does not start with a character of a word. -/
def Bnd : PyStr → Prop
  | [] => True
  | c :: _ => inWord c = false

theorem endWord_nil : endWord [] = [] := rfl

theorem scan_bnd {cur s : PyStr} (h : Bnd s) : scan cur s = endWord cur ++ scan [] s := by
  cases s with
  | nil => simp [scan, endWord]
  | cons c s =>
    rw [scan_cons, scan_cons, show inWord c = false from h, endWord_nil]
    cases compound? c s <;> simp

theorem scan_plain {c : Char} {s : PyStr} (hw : inWord c = false)
    (h : c ≠ '*' ∧ c ≠ '/' ∧ c ≠ '<' ∧ c ≠ '>' ∧ c ≠ '=' ∧ c ≠ '.' ∧ c ≠ '-' ∧ c ≠ ':') : scan [] (c :: s) = single c ++ scan [] s := by
  rw [scan_cons, hw, compound?_plain h, endWord_nil]
  simp

theorem scan_space {s : PyStr} : scan [] (' ' :: s) = scan [] s := by
  rw [scan_plain (by decide) (by decide)]; rfl

theorem scan_nl {s : PyStr} : scan [] ('\n' :: s) = scan [] s := by
  rw [scan_plain (by decide) (by decide)]; rfl

theorem scan_lpar {s : PyStr} : scan [] ('(' :: s) = .lpar :: scan [] s := by
  rw [scan_plain (by decide) (by decide)]; rfl

theorem scan_rpar {s : PyStr} : scan [] (')' :: s) = .rpar :: scan [] s := by
  rw [scan_plain (by decide) (by decide)]; rfl

theorem scan_comma {s : PyStr} : scan [] (',' :: s) = .comma :: scan [] s := by
  rw [scan_plain (by decide) (by decide)]; rfl

theorem scan_tick {s : PyStr} : scan [] ('\'' :: s) = .tick :: scan [] s := by
  rw [scan_plain (by decide) (by decide)]; rfl

theorem scan_word_aux {cur w rest : PyStr} (hw : ∀ c ∈ w, inWord c = true) : scan cur (w ++ rest) = scan (cur ++ w) rest := by
  induction w generalizing cur with
  | nil => simp
  | cons c w ih =>
    rw [List.cons_append, scan_cons, hw c (by simp), if_pos rfl, ih (fun d hd => hw d (by simp [hd]))]
    simp

theorem scan_word {w rest : PyStr} (hn : w ≠ []) (hw : ∀ c ∈ w, inWord c = true) (h : Bnd rest) :
    scan [] (w ++ rest) = word w :: scan [] rest := by
  rw [scan_word_aux hw, scan_bnd h]
  simp [endWord, hn]

/-- A text with additional spaces after line breaks. -/
inductive Pad : PyStr → PyStr → Prop
  | nil : Pad [] []
  | cons {c s s'} : c ≠ '\n' → Pad s s' → Pad (c :: s) (c :: s')
  | nl {s s'} (k : Nat) : Pad s s' → Pad ('\n' :: s) ('\n' :: List.replicate k ' ' ++ s')

theorem scan_spaces {k : Nat} {s : PyStr} : scan [] (List.replicate k ' ' ++ s) = scan [] s := by
  induction k with
  | zero => rfl
  | succ k ih => rw [List.replicate_succ, List.cons_append, scan_space, ih]

theorem compound?_nl {c : Char} {s : PyStr} : compound? c ('\n' :: s) = none := by
  simp [compound?, compound]

theorem scan_pad {s s' rest : PyStr} (h : Pad s s') : ∀ cur, scan cur (s' ++ rest) = scan cur (s ++ rest) := by
  generalize hn : s.length = n
  induction n using Nat.strongRecOn generalizing s s' with
  | _ n ih =>
    subst hn
    cases h with
    | nil => exact fun _ => rfl
    | @nl s s' k h =>
      intro cur
      simp only [List.cons_append, List.append_assoc]
      rw [scan_cons, scan_cons, if_neg (by decide), if_neg (by decide), compound?_plain (by decide), compound?_plain (by decide)]
      simp only [scan_spaces, ih s.length (by simp) h rfl]
    | @cons c s s' hc h =>
      intro cur
      simp only [List.cons_append]
      rw [scan_cons, scan_cons]
      by_cases hw : inWord c = true
      · rw [if_pos hw, if_pos hw, ih s.length (by simp) h rfl]
      · rw [if_neg hw, if_neg hw]
        have hi := ih s.length (by simp) h rfl
        cases h with
        | nil => rfl
        | nl k h =>
          simp only [List.cons_append, List.append_assoc, compound?_nl]
          simp only [List.cons_append, List.append_assoc] at hi
          rw [hi]
        | @cons d s s' hd h =>
          simp only [List.cons_append, compound?, List.tail_cons] at hi ⊢
          rw [hi, ih s.length (by simp; omega) h rfl]

theorem indentNext_pad (s : PyStr) (k : Nat) : Pad s (indentNext s k) := by
  induction s with
  | nil => exact .nil
  | cons c s ih =>
    by_cases hc : c = '\n'
    · subst hc
      have : indentNext ('\n' :: s) k = '\n' :: List.replicate k ' ' ++ indentNext s k := by simp [indentNext]
      rw [this]
      exact .nl k ih
    · have : indentNext (c :: s) k = c :: indentNext s k := by simp [indentNext, hc]
      rw [this]
      exact .cons hc ih

theorem indentGo_pad (s : PyStr) (k : Nat) : Pad s (indentGo k false s) ∧ ∃ j s', indentGo k true s = List.replicate j ' ' ++ s' ∧ Pad s s' := by
  induction s with
  | nil => exact ⟨.nil, 0, [], rfl, .nil⟩
  | cons c s ih =>
    obtain ⟨h1, j, s', h2, h3⟩ := ih
    by_cases hc : c = '\n'
    · subst hc
      simp only [indentGo, if_true, h2]
      exact ⟨.nl j h3, 0, _, rfl, .nl j h3⟩
    · simp only [indentGo, hc, if_false, if_true, Bool.false_eq_true, List.nil_append]
      exact ⟨.cons hc h1, k, _, rfl, .cons hc h1⟩

theorem scan_indentNext {s rest : PyStr} {k : Nat} : scan [] (indentNext s k ++ rest) = scan [] (s ++ rest) :=
  scan_pad (indentNext_pad s k) []

theorem scan_indent {s rest : PyStr} {k : Nat} : scan [] (indent s k ++ rest) = scan [] (s ++ rest) := by
  rw [(indent_go s).1]
  obtain ⟨_, j, s', h2, h3⟩ := indentGo_pad s k
  rw [h2, List.append_assoc, scan_spaces, scan_pad h3]

/-! ## Texts that are scanned on their own -/

/-- A text begins with a word, a number or a parenthesis. -/
def Start (s : PyStr) : Prop := ∃ c s', s = c :: s' ∧ (inWord c = true ∨ c = '(')

theorem Start.append {s r : PyStr} (h : Start s) : Start (s ++ r) := by
  obtain ⟨c, s', rfl, hc⟩ := h
  exact ⟨c, s' ++ r, rfl, hc⟩

/-- The elements of a text do not depend on what follows, unless a word follows immediately. -/
structure Scans (s : PyStr) (ts : List Tok) : Prop where
  start : Start s
  scan : ∀ rest, Bnd rest → scan [] (s ++ rest) = ts ++ scan [] rest

theorem Scans.elements {s : PyStr} {ts : List Tok} (h : Scans s ts) : elements s = ts := by
  have := h.scan [] trivial
  simpa [Ada.scan, Ada.elements, endWord] using this

theorem Scans.word {w : PyStr} (hn : w ≠ []) (hw : ∀ c ∈ w, inWord c = true) : Scans w [Ada.word w] := by
  refine ⟨?_, fun rest h => by rw [scan_word hn hw h]; rfl⟩
  obtain ⟨c, w', rfl⟩ := List.exists_cons_of_ne_nil hn
  exact ⟨c, w', rfl, .inl (hw c (by simp))⟩

/-- A separating text between two texts. -/
structure Sep (m : PyStr) (us : List Tok) : Prop where
  bnd : ∀ r, Bnd (m ++ r)
  scan : ∀ s, Start s → scan [] (m ++ s) = us ++ scan [] s

theorem Scans.append {s m s' : PyStr} {ts us ts' : List Tok} (h : Scans s ts) (hm : Sep m us) (h' : Scans s' ts') :
    Scans (s ++ m ++ s') (ts ++ us ++ ts') := by
  refine ⟨(h.start.append).append, fun rest hr => ?_⟩
  rw [List.append_assoc, List.append_assoc, h.scan _ (hm.bnd _), hm.scan _ h'.start.append, h'.scan rest hr]
  simp

/-- A closing text. -/
structure Closes (m : PyStr) (us : List Tok) : Prop where
  bnd : ∀ r, Bnd (m ++ r)
  scan : ∀ s, scan [] (m ++ s) = us ++ scan [] s

theorem Scans.close {s m : PyStr} {ts us : List Tok} (h : Scans s ts) (hm : Closes m us) : Scans (s ++ m) (ts ++ us) := by
  refine ⟨h.start.append, fun rest _ => ?_⟩
  rw [List.append_assoc, h.scan _ (hm.bnd _), hm.scan]
  simp

theorem closes_rpar : Closes [')'] [.rpar] := ⟨fun _ => (by decide : inWord ')' = false), fun _ => scan_rpar⟩

/-- An opening text. -/
structure Opens (m : PyStr) (us : List Tok) : Prop where
  start : Start m
  scan : ∀ s, Start s → scan [] (m ++ s) = us ++ scan [] s

theorem Scans.open {s m : PyStr} {ts us : List Tok} (hm : Opens m us) (h : Scans s ts) : Scans (m ++ s) (us ++ ts) := by
  refine ⟨hm.start.append, fun rest hr => ?_⟩
  rw [List.append_assoc, hm.scan _ h.start.append, h.scan rest hr]
  simp

theorem opens_lpar : Opens ['('] [.lpar] := ⟨⟨'(', [], rfl, .inr rfl⟩, fun _ _ => scan_lpar⟩

theorem scan_minus {s : PyStr} (h : Start s) : scan [] ('-' :: s) = .minus :: scan [] s := by
  obtain ⟨c, s', rfl, hc⟩ := h
  rw [scan_cons, if_neg (by decide)]
  have : compound '-' c = none := by
    have : c ≠ '-' := by rintro rfl; revert hc; decide
    simp [compound, this]
  simp [compound?, this, endWord, single]

theorem opens_minus : Opens ['(', '-'] [.lpar, .minus] :=
  ⟨⟨'(', ['-'], rfl, .inr rfl⟩, fun s h => by
    rw [show ['(', '-'] ++ s = '(' :: '-' :: s from rfl, scan_lpar, scan_minus h]; rfl⟩

theorem indentNext_start {s : PyStr} {k : Nat} (h : Start s) : Start (indentNext s k) := by
  obtain ⟨c, s', rfl, hc⟩ := h
  refine ⟨c, indentNext s' k, ?_, hc⟩
  have : c ≠ '\n' := by rintro rfl; revert hc; decide
  simp [indentNext, this]

theorem Scans.indentNext {s : PyStr} {ts : List Tok} (h : Scans s ts) (k : Nat) : Scans (indentNext s k) ts :=
  ⟨indentNext_start h.start, fun rest hr => by rw [scan_indentNext, h.scan rest hr]⟩

theorem Scans.paren {s : PyStr} {ts : List Tok} (h : Scans s ts) : Scans ('(' :: s ++ [')']) (.lpar :: ts ++ [.rpar]) :=
  (Scans.open opens_lpar h).close closes_rpar

theorem Scans.minus {s : PyStr} {ts : List Tok} (h : Scans s ts) : Scans (['(', '-'] ++ s ++ [')']) (.lpar :: .minus :: ts ++ [.rpar]) :=
  (Scans.open opens_minus h).close closes_rpar

end Verif.Ada
