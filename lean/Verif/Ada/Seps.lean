import Verif.Ada.Scan

/-! # Helper lemmas: the fixed parts of the text of an expression -/

namespace Verif.Ada
open Verif

theorem scan_two {c d : Char} {s : PyStr} {t : Tok} (hw : inWord c = false) (h : compound c d = some t) :
    scan [] (c :: d :: s) = t :: scan [] s := by
  rw [scan_cons, hw, compound?, h, endWord_nil]
  simp

theorem scan_one {c d : Char} {s : PyStr} (hw : inWord c = false) (h : compound c d = none) :
    scan [] (c :: d :: s) = single c ++ scan [] (d :: s) := by
  rw [scan_cons, hw, compound?, h, endWord_nil]
  simp

theorem scan_kw (w : PyStr) {t : Tok} {c : Char} {s : PyStr} (hn : w ≠ []) (hw : ∀ d ∈ w, inWord d = true) (ht : word w = t)
    (hc : inWord c = false) : scan [] (w ++ c :: s) = t :: scan [] (c :: s) := by
  rw [scan_word hn hw (show Bnd (c :: s) from hc), ht]

theorem kw_and {s : PyStr} : scan [] ('a' :: 'n' :: 'd' :: ' ' :: s) = .and :: scan [] s := by
  rw [show 'a' :: 'n' :: 'd' :: ' ' :: s = ['a', 'n', 'd'] ++ ' ' :: s from rfl,
    scan_kw _ (t := .and) (by decide) (by decide) (by decide +kernel) (by decide), scan_space]

theorem kw_then {s : PyStr} : scan [] ('t' :: 'h' :: 'e' :: 'n' :: ' ' :: s) = .then_ :: scan [] s := by
  rw [show 't' :: 'h' :: 'e' :: 'n' :: ' ' :: s = ['t', 'h', 'e', 'n'] ++ ' ' :: s from rfl,
    scan_kw _ (t := .then_) (by decide) (by decide) (by decide +kernel) (by decide), scan_space]

theorem kw_or {s : PyStr} : scan [] ('o' :: 'r' :: ' ' :: s) = .or :: scan [] s := by
  rw [show 'o' :: 'r' :: ' ' :: s = ['o', 'r'] ++ ' ' :: s from rfl,
    scan_kw _ (t := .or) (by decide) (by decide) (by decide +kernel) (by decide), scan_space]

theorem kw_else {s : PyStr} : scan [] ('e' :: 'l' :: 's' :: 'e' :: ' ' :: s) = .else_ :: scan [] s := by
  rw [show 'e' :: 'l' :: 's' :: 'e' :: ' ' :: s = ['e', 'l', 's', 'e'] ++ ' ' :: s from rfl,
    scan_kw _ (t := .else_) (by decide) (by decide) (by decide +kernel) (by decide), scan_space]

theorem kw_not {s : PyStr} : scan [] ('n' :: 'o' :: 't' :: ' ' :: s) = .not :: scan [] s := by
  rw [show 'n' :: 'o' :: 't' :: ' ' :: s = ['n', 'o', 't'] ++ ' ' :: s from rfl,
    scan_kw _ (t := .not) (by decide) (by decide) (by decide +kernel) (by decide), scan_space]

theorem kw_mod {s : PyStr} : scan [] ('m' :: 'o' :: 'd' :: ' ' :: s) = .mod :: scan [] s := by
  rw [show 'm' :: 'o' :: 'd' :: ' ' :: s = ['m', 'o', 'd'] ++ ' ' :: s from rfl,
    scan_kw _ (t := .mod) (by decide) (by decide) (by decide +kernel) (by decide), scan_space]

theorem kw_in {s : PyStr} : scan [] ('i' :: 'n' :: ' ' :: s) = .in_ :: scan [] s := by
  rw [show 'i' :: 'n' :: ' ' :: s = ['i', 'n'] ++ ' ' :: s from rfl,
    scan_kw _ (t := .in_) (by decide) (by decide) (by decide +kernel) (by decide), scan_space]

theorem kw_of {s : PyStr} : scan [] ('o' :: 'f' :: ' ' :: s) = .of :: scan [] s := by
  rw [show 'o' :: 'f' :: ' ' :: s = ['o', 'f'] ++ ' ' :: s from rfl,
    scan_kw _ (t := .of) (by decide) (by decide) (by decide +kernel) (by decide), scan_space]

theorem kw_for {s : PyStr} : scan [] ('f' :: 'o' :: 'r' :: ' ' :: s) = .for_ :: scan [] s := by
  rw [show 'f' :: 'o' :: 'r' :: ' ' :: s = ['f', 'o', 'r'] ++ ' ' :: s from rfl,
    scan_kw _ (t := .for_) (by decide) (by decide) (by decide +kernel) (by decide), scan_space]

theorem kw_all {s : PyStr} : scan [] ('a' :: 'l' :: 'l' :: ' ' :: s) = .all :: scan [] s := by
  rw [show 'a' :: 'l' :: 'l' :: ' ' :: s = ['a', 'l', 'l'] ++ ' ' :: s from rfl,
    scan_kw _ (t := .all) (by decide) (by decide) (by decide +kernel) (by decide), scan_space]

theorem kw_some {s : PyStr} : scan [] ('s' :: 'o' :: 'm' :: 'e' :: ' ' :: s) = .some :: scan [] s := by
  rw [show 's' :: 'o' :: 'm' :: 'e' :: ' ' :: s = ['s', 'o', 'm', 'e'] ++ ' ' :: s from rfl,
    scan_kw _ (t := .some) (by decide) (by decide) (by decide +kernel) (by decide), scan_space]

theorem sep_logical (op : BoolOp) : Sep ('\n' :: (boolSymbol op).tail) (logical op) := by
  constructor
  · intro r; show inWord '\n' = false; decide
  · intro s _
    cases op <;> simp only [boolSymbol, List.tail_cons, List.cons_append, List.nil_append, logical, scan_nl, kw_and, kw_then, kw_or, kw_else]

theorem sep_relational (op : RelOp) : Sep (relSymbol op) (relational op) := by
  constructor
  · intro r; cases op <;> (show inWord ' ' = false; decide)
  · intro s _
    cases op <;> simp only [relSymbol, List.cons_append, List.nil_append, relational, scan_space, kw_in, kw_not]
    · rw [scan_one (by decide) (by decide), scan_space]; rfl
    · rw [scan_two (t := .le) (by decide) (by decide), scan_space]
    · rw [scan_one (by decide) (by decide), scan_space]; rfl
    · rw [scan_two (t := .ge) (by decide) (by decide), scan_space]
    · rw [scan_one (by decide) (by decide), scan_space]; rfl
    · rw [scan_two (t := .ne) (by decide) (by decide), scan_space]

theorem sep_minus : Sep [' ', '-', ' '] [.minus] := by
  constructor
  · intro r; show inWord ' ' = false; decide
  · intro s _
    simp only [List.cons_append, List.nil_append, scan_space]
    rw [scan_one (by decide) (by decide), scan_space]; rfl

theorem sep_plus : Sep [' ', '+', ' '] [.plus] := by
  constructor
  · intro r; show inWord ' ' = false; decide
  · intro s _
    simp only [List.cons_append, List.nil_append, scan_space]
    rw [scan_one (by decide) (by decide), scan_space]; rfl

theorem sep_star : Sep [' ', '*', ' '] [.star] := by
  constructor
  · intro r; show inWord ' ' = false; decide
  · intro s _
    simp only [List.cons_append, List.nil_append, scan_space]
    rw [scan_one (by decide) (by decide), scan_space]; rfl

theorem sep_slash : Sep [' ', '/', ' '] [.slash] := by
  constructor
  · intro r; show inWord ' ' = false; decide
  · intro s _
    simp only [List.cons_append, List.nil_append, scan_space]
    rw [scan_one (by decide) (by decide), scan_space]; rfl

theorem sep_mod : Sep [' ', 'm', 'o', 'd', ' '] [.mod] := by
  constructor
  · intro r; show inWord ' ' = false; decide
  · intro s _
    simp only [List.cons_append, List.nil_append, scan_space, kw_mod]

theorem sep_pow : Sep ['*', '*'] [.pow] := by
  constructor
  · intro r; show inWord '*' = false; decide
  · intro s _
    simp only [List.cons_append, List.nil_append]
    rw [scan_two (t := .pow) (by decide) (by decide)]

theorem sep_comma : Sep [',', ' '] [.comma] := by
  constructor
  · intro r; show inWord ',' = false; decide
  · intro s _
    simp only [List.cons_append, List.nil_append, scan_comma, scan_space]

theorem sep_apply : Sep [' ', '('] [.lpar] := by
  constructor
  · intro r; show inWord ' ' = false; decide
  · intro s _
    simp only [List.cons_append, List.nil_append, scan_lpar, scan_space]

theorem sep_tick : Sep ['\''] [.tick] := by
  constructor
  · intro r; show inWord '\'' = false; decide
  · intro s _
    simp only [List.cons_append, List.nil_append, scan_tick]

theorem sep_dot : Sep ['.'] [.dot] := by
  constructor
  · intro r; show inWord '.' = false; decide
  · rintro s ⟨c, s', rfl, hc⟩
    have : c ≠ '.' := by rintro rfl; revert hc; decide
    simp only [List.cons_append, List.nil_append]
    rw [scan_one (by decide) (by simp [compound, this])]; rfl

theorem sep_dots : Sep [' ', '.', '.', ' '] [.dots] := by
  constructor
  · intro r; show inWord ' ' = false; decide
  · intro s _
    simp only [List.cons_append, List.nil_append, scan_space]
    rw [scan_two (t := .dots) (by decide) (by decide), scan_space]

theorem closes_arrow : Closes [' ', '=', '>', '\n'] [.arrow] := by
  constructor
  · intro r; show inWord ' ' = false; decide
  · intro s
    simp only [List.cons_append, List.nil_append, scan_space]
    rw [scan_two (t := .arrow) (by decide) (by decide), scan_nl]

theorem closes_then : Closes ['\n', ' ', 't', 'h', 'e', 'n', '\n'] [.then_] := by
  constructor
  · intro r; show inWord '\n' = false; decide
  · intro s
    simp only [List.cons_append, List.nil_append, scan_space, scan_nl]
    rw [show 't' :: 'h' :: 'e' :: 'n' :: '\n' :: s = ['t', 'h', 'e', 'n'] ++ '\n' :: s from rfl,
      scan_kw _ (t := .then_) (by decide) (by decide) (by decide +kernel) (by decide), scan_nl]

theorem closes_else : Closes ['\n', ' ', 'e', 'l', 's', 'e', '\n'] [.else_] := by
  constructor
  · intro r; show inWord '\n' = false; decide
  · intro s
    simp only [List.cons_append, List.nil_append, scan_space, scan_nl]
    rw [show 'e' :: 'l' :: 's' :: 'e' :: '\n' :: s = ['e', 'l', 's', 'e'] ++ '\n' :: s from rfl,
      scan_kw _ (t := .else_) (by decide) (by decide) (by decide +kernel) (by decide), scan_nl]

theorem closes_elsif : Closes ['\n', ' ', 'e', 'l', 's', 'i', 'f', '\n'] [.elsif] := by
  constructor
  · intro r; show inWord '\n' = false; decide
  · intro s
    simp only [List.cons_append, List.nil_append, scan_space, scan_nl]
    rw [show 'e' :: 'l' :: 's' :: 'i' :: 'f' :: '\n' :: s = ['e', 'l', 's', 'i', 'f'] ++ '\n' :: s from rfl,
      scan_kw _ (t := .elsif) (by decide) (by decide) (by decide +kernel) (by decide), scan_nl]

theorem scan_if {s : PyStr} : scan [] (['(', 'i', 'f', '\n'] ++ s) = .lpar :: .if_ :: scan [] s := by
  simp only [List.cons_append, List.nil_append, scan_lpar]
  rw [show 'i' :: 'f' :: '\n' :: s = ['i', 'f'] ++ '\n' :: s from rfl,
    scan_kw _ (t := .if_) (by decide) (by decide) (by decide +kernel) (by decide), scan_nl]

theorem sep_arrow : Sep [' ', '=', '>', ' '] [.arrow] := by
  constructor
  · intro r; show inWord ' ' = false; decide
  · intro s _
    simp only [List.cons_append, List.nil_append, scan_space]
    rw [scan_two (t := .arrow) (by decide) (by decide), scan_space]

theorem sep_bar : Sep [' ', '|', ' '] [.bar] := by
  constructor
  · intro r; show inWord ' ' = false; decide
  · intro s _
    simp only [List.cons_append, List.nil_append, scan_space]
    rw [scan_one (by decide) (by decide), scan_space]; rfl

theorem kw_case {s : PyStr} : scan [] ('c' :: 'a' :: 's' :: 'e' :: ' ' :: s) = kw "case" :: scan [] s := by
  rw [show 'c' :: 'a' :: 's' :: 'e' :: ' ' :: s = ['c', 'a', 's', 'e'] ++ ' ' :: s from rfl,
    scan_kw _ (t := kw "case") (by decide) (by decide) (by decide +kernel) (by decide), scan_space]

theorem kw_when {s : PyStr} : scan [] ('w' :: 'h' :: 'e' :: 'n' :: ' ' :: s) = kw "when" :: scan [] s := by
  rw [show 'w' :: 'h' :: 'e' :: 'n' :: ' ' :: s = ['w', 'h', 'e', 'n'] ++ ' ' :: s from rfl,
    scan_kw _ (t := kw "when") (by decide) (by decide) (by decide +kernel) (by decide), scan_space]

theorem opens_case : Opens ['(', 'c', 'a', 's', 'e', ' '] [.lpar, kw "case"] := by
  refine ⟨⟨'(', _, rfl, .inr rfl⟩, fun s _ => ?_⟩
  simp only [List.cons_append, List.nil_append, scan_lpar, kw_case]

theorem sep_when : Sep ['\n', 'w', 'h', 'e', 'n', ' '] [kw "when"] := by
  constructor
  · intro r; show inWord '\n' = false; decide
  · intro s _
    simp only [List.cons_append, List.nil_append, scan_nl, kw_when]

theorem opens_not : Opens ['n', 'o', 't', ' '] [.not] := by
  refine ⟨⟨'n', _, rfl, .inl (by decide)⟩, fun s _ => ?_⟩
  simp only [List.cons_append, List.nil_append, kw_not]

theorem opens_for (k : QKind) : Opens (['(', 'f', 'o', 'r', ' '] ++ (quantWords k).1 ++ [' ']) [.lpar, .for_, (quantifier k).1] := by
  refine ⟨⟨'(', _, rfl, .inr rfl⟩, fun s _ => ?_⟩
  cases k <;> simp only [quantWords, List.cons_append, List.nil_append, scan_lpar, kw_for, kw_all, kw_some, quantifier]

theorem sep_quant (k : QKind) : Sep (' ' :: (quantWords k).2 ++ [' ']) [(quantifier k).2] := by
  constructor
  · intro r; show inWord ' ' = false; decide
  · intro s _
    cases k <;> simp only [quantWords, List.cons_append, List.nil_append, scan_space, kw_of, kw_in, quantifier]

end Verif.Ada
