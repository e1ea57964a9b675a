import Verif.Expr.Sound
import Verif.Expr.Print
import Verif.Ident.Lemmas

/-! # Helper lemmas: the printed form of an expression as a list of tokens

Proof device for C11. The text of an expression is cut into tokens; white space, and with it the
line breaks and indentation added by `str`, carries no information. -/

namespace Verif

/-- Classes of characters: 0 white space, 1 word, 2 operator, 3 all others. -/
def ccls (c : Char) : Nat :=
  if c = ' ' ∨ c = '\n' then 0
  else if wordChar c = true ∨ c = ':' ∨ c = '#' then 1
  else if c = '+' ∨ c = '-' ∨ c = '*' ∨ c = '/' ∨ c = '<' ∨ c = '=' ∨ c = '>' then 2
  else 3

def flush (cur : PyStr) : List PyStr := if cur.isEmpty then [] else [cur]

def lexAux : PyStr → PyStr → List PyStr
  | cur, [] => flush cur
  | cur, c :: s =>
    if ccls c = 0 then flush cur ++ lexAux [] s
    else if ccls c = 3 then flush cur ++ [c] :: lexAux [] s
    else
      match cur with
      | [] => lexAux [c] s
      | d :: cur => if ccls d = ccls c then lexAux (d :: cur ++ [c]) s else (d :: cur) :: lexAux [c] s

inductive Tok
  | and | then_ | or | else_ | not | mod | in_ | for_ | all | some | of | lpar | rpar | lbrk | rbrk
  | comma | quote | dot | plus | minus | star | slash | pow | lt | le | eq | ge | gt | ne | arrow
  | tru | fls | word (w : PyStr)
deriving DecidableEq, Repr

def tokTable : List (PyStr × Tok) :=
  [(['a','n','d'], .and), (['t','h','e','n'], .then_), (['o','r'], .or), (['e','l','s','e'], .else_),
   (['n','o','t'], .not), (['m','o','d'], .mod), (['i','n'], .in_), (['f','o','r'], .for_),
   (['a','l','l'], .all), (['s','o','m','e'], .some), (['o','f'], .of), (['('], .lpar), ([')'], .rpar),
   (['['], .lbrk), ([']'], .rbrk), ([','], .comma), (['\''], .quote), (['.'], .dot), (['+'], .plus),
   (['-'], .minus), (['*'], .star), (['/'], .slash), (['*','*'], .pow), (['<'], .lt), (['<','='], .le),
   (['='], .eq), (['>','='], .ge), (['>'], .gt), (['/','='], .ne), (['=','>'], .arrow),
   (['T','r','u','e'], .tru), (['F','a','l','s','e'], .fls)]

def classify (w : PyStr) : Tok := (tokTable.lookup w).getD (.word w)

/-- The tokens of a text. -/
def lexT (s : PyStr) : List Tok := (lexAux [] s).map classify

def HeadNe (k : Nat) : PyStr → Prop
  | [] => True
  | c :: _ => ccls c ≠ k

theorem lexAux_end {cur rest : PyStr} {k : Nat} (hc : ∃ d cur', cur = d :: cur' ∧ ccls d = k)
    (h : HeadNe k rest) : lexAux cur rest = cur :: lexAux [] rest := by
  obtain ⟨d, cur', rfl, hd⟩ := hc
  cases rest with
  | nil => simp [lexAux, flush]
  | cons c s =>
    simp only [HeadNe] at h
    simp only [lexAux]
    split
    · simp [flush]
    · split
      · simp [flush]
      · rw [if_neg (by omega)]

theorem lexAux_run {cur w rest : PyStr} {k : Nat} (hk : k = 1 ∨ k = 2)
    (hc : ∃ d cur', cur = d :: cur' ∧ ccls d = k) (hw : ∀ c ∈ w, ccls c = k) (h : HeadNe k rest) :
    lexAux cur (w ++ rest) = (cur ++ w) :: lexAux [] rest := by
  induction w generalizing cur with
  | nil => simpa using lexAux_end hc h
  | cons c w ih =>
    obtain ⟨d, cur', rfl, hd⟩ := hc
    have hcc := hw c (by simp)
    simp only [List.cons_append, lexAux]
    rw [if_neg (by omega), if_neg (by omega), if_pos (by omega)]
    rw [ih ⟨d, cur' ++ [c], by simp, hd⟩ (fun c h => hw c (by simp [h]))]
    simp

theorem lexT_run {w rest : PyStr} {k : Nat} (hk : k = 1 ∨ k = 2) (hn : w ≠ [])
    (hw : ∀ c ∈ w, ccls c = k) (h : HeadNe k rest) :
    lexT (w ++ rest) = classify w :: lexT rest := by
  cases w with
  | nil => exact absurd rfl hn
  | cons c w =>
    have hcc := hw c (by simp)
    simp only [lexT, List.cons_append, lexAux]
    rw [if_neg (by omega), if_neg (by omega)]
    rw [lexAux_run hk ⟨c, [], rfl, hcc⟩ (fun c h => hw c (by simp [h])) h]
    simp

theorem lexT_space {s : PyStr} : lexT (' ' :: s) = lexT s := by
  simp [lexT, lexAux, ccls, flush]

theorem lexT_nl {s : PyStr} : lexT ('\n' :: s) = lexT s := by
  simp [lexT, lexAux, ccls, flush]

theorem lexT_single {c : Char} {s : PyStr} (h : ccls c = 3) :
    lexT (c :: s) = classify [c] :: lexT s := by
  simp [lexT, lexAux, h, flush]

theorem lexAux_spaces {k : Nat} {s : PyStr} : lexAux [] (List.replicate k ' ' ++ s) = lexAux [] s := by
  induction k with
  | zero => simp
  | succ k ih =>
    rw [List.replicate_succ, List.cons_append]
    simp only [lexAux]
    rw [if_pos (by simp [ccls])]
    simpa [flush] using ih

theorem lexAux_congr {c : Char} {s t : PyStr} (h : ∀ cur, lexAux cur s = lexAux cur t) (cur : PyStr) :
    lexAux cur (c :: s) = lexAux cur (c :: t) := by
  simp only [lexAux]
  split
  · rw [h]
  · split
    · rw [h]
    · cases cur with
      | nil => exact h _
      | cons d cur =>
        simp only
        split
        · exact h _
        · rw [h]

theorem lexAux_indentNext {s rest : PyStr} {k : Nat} (cur : PyStr) :
    lexAux cur (indentNext s k ++ rest) = lexAux cur (s ++ rest) := by
  induction s generalizing cur with
  | nil => rfl
  | cons c s ih =>
    have : indentNext (c :: s) k = (if c = '\n' then '\n' :: List.replicate k ' ' else [c]) ++ indentNext s k := by
      simp [indentNext]
    rw [this]
    split
    · rename_i hc
      subst hc
      simp only [List.cons_append, List.append_assoc, lexAux]
      rw [if_pos (by simp [ccls]), if_pos (by simp [ccls]), lexAux_spaces, ih]
    · simp only [List.cons_append, List.nil_append]
      exact lexAux_congr ih cur

theorem lexT_indentNext {s rest : PyStr} {k : Nat} : lexT (indentNext s k ++ rest) = lexT (s ++ rest) := by
  simp only [lexT, lexAux_indentNext]

/-- `indent` as a pass over the characters. -/
def indentGo (k : Nat) : Bool → PyStr → PyStr
  | _, [] => []
  | bol, c :: s =>
    if c = '\n' then '\n' :: indentGo k true s
    else (if bol then List.replicate k ' ' else []) ++ c :: indentGo k false s

theorem splitLines_ne_nil (s : PyStr) : ∃ l ls, splitLines s = l :: ls := by
  cases s with
  | nil => exact ⟨[], [], rfl⟩
  | cons c s =>
    simp only [splitLines]
    split
    · exact ⟨_, _, rfl⟩
    · split <;> exact ⟨_, _, rfl⟩

theorem indent_go {k : Nat} (s : PyStr) :
    indent s k = indentGo k true s ∧
    ∀ l ls, splitLines s = l :: ls → indentGo k false s =
      joinLines (l :: ls.map (fun l => if l.isEmpty then [] else List.replicate k ' ' ++ l)) := by
  induction s with
  | nil =>
    constructor
    · simp [indent, splitLines, joinLines, indentGo]
    · intro l ls h
      simp only [splitLines, List.cons.injEq] at h
      obtain ⟨rfl, rfl⟩ := h
      simp [indentGo, joinLines]
  | cons c s ih =>
    obtain ⟨m, ms, hm⟩ := splitLines_ne_nil s
    obtain ⟨ih1, ih2⟩ := ih
    have ih2 := ih2 m ms hm
    simp only [indent, hm, List.map_cons] at ih1
    by_cases hc : c = '\n'
    · subst hc
      constructor
      · simp only [indent, splitLines, if_true, hm, List.map_cons, joinLines, indentGo, ← ih1]
        simp
      · intro l ls h
        simp only [splitLines, if_true, hm, List.cons.injEq] at h
        obtain ⟨rfl, rfl⟩ := h
        simp only [List.map_cons, joinLines, indentGo, if_true, ← ih1]
        simp
    · have hs : splitLines (c :: s) = (c :: m) :: ms := by simp [splitLines, hc, hm]
      have hj : ∀ (x : PyStr) (ls : List PyStr), joinLines ((c :: x) :: ls) = c :: joinLines (x :: ls) := by
        intro x ls; cases ls <;> simp [joinLines]
      have hj2 : ∀ (y x : PyStr) (ls : List PyStr), joinLines ((y ++ x) :: ls) = y ++ joinLines (x :: ls) := by
        intro y x ls; cases ls <;> simp [joinLines]
      constructor
      · simp only [indent, hs, List.map_cons, indentGo, hc, if_false, if_true, ih2]
        simp [hj2, hj]
      · intro l ls h
        rw [hs] at h
        simp only [List.cons.injEq] at h
        obtain ⟨rfl, rfl⟩ := h
        simp only [indentGo, hc, if_false, ih2, hj]
        simp

theorem lexAux_indentGo {s rest : PyStr} {k : Nat} (cur : PyStr) :
    lexAux cur (indentGo k false s ++ rest) = lexAux cur (s ++ rest) ∧
    lexAux [] (indentGo k true s ++ rest) = lexAux [] (s ++ rest) := by
  induction s generalizing cur with
  | nil => exact ⟨rfl, rfl⟩
  | cons c s ih =>
    by_cases hc : c = '\n'
    · subst hc
      have h : ∀ cur, lexAux cur (('\n' :: indentGo k true s) ++ rest) = lexAux cur (('\n' :: s) ++ rest) := by
        intro cur
        simp only [List.cons_append, lexAux]
        rw [if_pos (by simp [ccls]), if_pos (by simp [ccls]), (ih []).2]
      simp only [indentGo, if_true]
      exact ⟨h cur, h []⟩
    · simp only [indentGo, hc, if_false, if_true, List.append_assoc, List.cons_append]
      refine ⟨lexAux_congr (fun cur => (ih cur).1) cur, ?_⟩
      rw [lexAux_spaces]
      exact lexAux_congr (fun cur => (ih cur).1) []

theorem lexT_indent {s rest : PyStr} {k : Nat} : lexT (indent s k ++ rest) = lexT (s ++ rest) := by
  rw [(indent_go s).1]
  simp only [lexT, (lexAux_indentGo []).2]

/-! ## Tokens of an expression -/

def wrapT (neg : Bool) (ts : List Tok) : List Tok := if neg then .lpar :: .minus :: ts ++ [.rpar] else ts

def parT (p : Nat) (e : Expr) (ts : List Tok) : List Tok :=
  if e.prec ≤ p then .lpar :: ts ++ [.rpar] else ts

def BoolOp.toks : BoolOp → List Tok
  | .and => [.and]
  | .andThen => [.and, .then_]
  | .or => [.or]
  | .orElse => [.or, .else_]

def ArithOp.tok : ArithOp → Tok
  | .sub => .minus
  | .div => .slash
  | .pow => .pow
  | .mod => .mod

def RelOp.toks : RelOp → List Tok
  | .lt => [.lt]
  | .le => [.le]
  | .eq => [.eq]
  | .ge => [.ge]
  | .gt => [.gt]
  | .ne => [.ne]
  | .isIn => [.in_]
  | .notIn => [.not, .in_]

def QKind.toks : QKind → Tok × Tok
  | .allOf => (.all, .of)
  | .allIn => (.all, .in_)
  | .someIn => (.some, .in_)

mutual
/-- The tokens printed by `strF`. -/
def toksF (flip : Bool) : Expr → List Tok
  | .tru => [.tru]
  | .fls => [.fls]
  | .undefined => [.word ['_', '_', 'U', 'N', 'D', 'E', 'F', 'I', 'N', 'E', 'D', '_', '_']]
  | .num v b =>
    if flip then wrapT (-v < 0) [.word (natStr .b0 (-v).natAbs)] else wrapT (v < 0) [.word (natStr b v.natAbs)]
  | .var neg _ id => wrapT (neg ^^ flip) [.word id.str]
  | .attr neg k pre => wrapT (neg ^^ flip) (toksF false pre ++ [.quote, .word k.str])
  | .sel neg pre s => wrapT (neg ^^ flip) (toksF false pre ++ [.dot, .word s.str])
  | .call neg id args =>
    wrapT (neg ^^ flip)
      (.word id.str :: (if args.isEmpty then [] else .lpar :: toksL args ++ [.rpar]))
  | .not e => .not :: parT 6 e (toksF false e)
  | .bool op ts =>
    match ts with
    | [] => [.tru]
    | t :: ts => parT 1 t (toksF false t) ++ toksBoolTail op ts
  | .add ts =>
    match ts with
    | [] => [.word ['0']]
    | t :: ts => toksF false t ++ toksAddTail ts
  | .mul ts =>
    match ts with
    | [] => [.word ['1']]
    | t :: ts => parT 5 t (toksF false t) ++ toksMulTail ts
  | .bin op l r => parT op.prec l (toksF false l) ++ op.tok :: parT op.prec r (toksF false r)
  | .rel op l r => parT 2 l (toksF false l) ++ op.toks ++ parT 2 r (toksF false r)
  | .agg es => .lbrk :: toksL es ++ [.rbrk]
  | .quant k p it pr =>
    .lpar :: .for_ :: k.toks.1 :: .word p.str :: k.toks.2 :: toksF false it ++ .arrow :: toksF false pr ++ [.rpar]

/-- Elements separated by commas. -/
def toksL : List Expr → List Tok
  | [] => []
  | e :: es => toksF false e ++ toksLTail es

def toksLTail : List Expr → List Tok
  | [] => []
  | e :: es => .comma :: toksF false e ++ toksLTail es

def toksBoolTail (op : BoolOp) : List Expr → List Tok
  | [] => []
  | t :: ts => op.toks ++ parT 1 t (toksF false t) ++ toksBoolTail op ts

def toksAddTail : List Expr → List Tok
  | [] => []
  | t :: ts =>
    (if t.isNegative then .minus :: toksF true t else .plus :: parT 3 t (toksF false t)) ++ toksAddTail ts

def toksMulTail : List Expr → List Tok
  | [] => []
  | t :: ts => .star :: parT 5 t (toksF false t) ++ toksMulTail ts
end

theorem ccls_word {c : Char} (h : wordChar c = true) : ccls c = 1 := by
  have h1 : ¬ (c = ' ' ∨ c = '\n') := by
    rintro (rfl | rfl) <;> simp [wordChar, Char.isAlphanum, Char.isAlpha, Char.isUpper, Char.isLower, Char.isDigit] at h
  simp [ccls, h1, h]

theorem mem_joinSep {c : Char} {ps : List PyStr} (h : c ∈ joinSep ps) : c = ':' ∨ ∃ p ∈ ps, c ∈ p := by
  induction ps with
  | nil => cases h
  | cons p ps ih =>
    cases ps with
    | nil => simp only [joinSep] at h; exact Or.inr ⟨p, by simp, h⟩
    | cons q qs =>
      simp only [joinSep, List.mem_append, List.mem_cons] at h
      rcases h with h | rfl | rfl | h
      · exact Or.inr ⟨p, by simp, h⟩
      · exact Or.inl rfl
      · exact Or.inl rfl
      · rcases ih h with h | ⟨r, hr, h⟩
        · exact Or.inl h
        · exact Or.inr ⟨r, List.mem_cons_of_mem _ hr, h⟩

theorem ID.Lex.cls {i : ID} (h : i.Lex) : ∀ c ∈ i.str, ccls c = 1 := by
  intro c hc
  rcases mem_joinSep hc with rfl | ⟨p, hp, hc⟩
  · rfl
  · exact ccls_word ((h.2.1 p hp).2 c hc)

theorem ID.Lex.valid {i : ID} (h : i.Lex) : i.Valid := by
  refine ⟨h.1, fun p hp => ?_⟩
  obtain ⟨⟨c, s, rfl, _⟩, h2⟩ := h.2.1 p hp
  refine ⟨by simp, ?_, ?_, ?_⟩ <;> intro hm <;> have := h2 _ hm <;>
    simp [wordChar, Char.isAlphanum, Char.isAlpha, Char.isUpper, Char.isLower, Char.isDigit] at this

theorem ID.Lex.head {i : ID} (h : i.Lex) : ∃ c s, i.str = c :: s ∧ ccls c = 1 ∧ c.isDigit = false := by
  obtain ⟨ps⟩ := i
  cases ps with
  | nil => exact absurd rfl h.1
  | cons p ps =>
    obtain ⟨⟨c, s, hp, hd⟩, h2⟩ := h.2.1 p (by simp)
    have hp' : p = c :: s := hp
    subst hp'
    have hc := ccls_word (h2 c (by simp))
    cases ps with
    | nil => exact ⟨c, s, rfl, hc, hd⟩
    | cons q qs => exact ⟨c, _, rfl, hc, hd⟩

theorem ID.Lex.ne_nil {i : ID} (h : i.Lex) : i.str ≠ [] := by
  obtain ⟨c, s, h, _⟩ := h.head
  simp [h]

theorem lookup_none {w : PyStr} (h : w ∉ tokTable.map Prod.fst) : tokTable.lookup w = none := by
  rw [List.lookup_eq_none_iff]
  intro p hp
  simp only [bne_iff_ne, ne_eq]
  intro h'
  exact h (by rw [List.mem_map]; exact ⟨p, hp, h'.symm⟩)

theorem ID.Lex.classify {i : ID} (h : i.Lex) : classify i.str = .word i.str := by
  have hn : i.str ∉ tokTable.map Prod.fst := by
    intro hm
    obtain ⟨ps⟩ := i
    cases ps with
    | nil => exact absurd rfl h.1
    | cons p ps =>
      cases ps with
      | nil =>
        have hk := h.2.2
        obtain ⟨c, s, he, hc, _⟩ := h.head
        simp only [ID.str, joinSep] at hm he
        simp only [keywords, List.mem_cons, List.not_mem_nil, or_false, ne_eq, List.cons.injEq, and_true,
          forall_eq_or_imp, forall_eq] at hk
        simp only [tokTable, List.map_cons, List.map_nil, List.mem_cons, List.not_mem_nil, or_false] at hm
        have hs : ∀ d : Char, ccls d ≠ 1 → ∀ t, p ≠ d :: t := by
          intro d hd t hp
          rw [hp] at he
          cases he
          exact hd hc
        simp at hk
        rcases hm with h | h | h | h | h | h | h | h | h | h | h | h | h | h | h | h | h | h | h | h | h
          | h | h | h | h | h | h | h | h | h | h | h
        all_goals first
          | (exfalso; exact hs _ (by decide) _ h)
          | (exfalso; simp [h] at hk)
      | cons q qs =>
        have hc : ':' ∈ (ID.mk (p :: q :: qs)).str := by simp [ID.str, joinSep]
        have : ∀ w ∈ tokTable.map Prod.fst, ':' ∉ w := by decide
        exact this _ hm hc
  simp [Verif.classify, lookup_none hn]

theorem digitChar_word (d : Nat) : wordChar (digitChar d) = true := by
  unfold digitChar
  by_cases h : d < 16
  · have : ∀ d : Fin 16, wordChar (['0', '1', '2', '3', '4', '5', '6', '7', '8', '9', 'A', 'B', 'C', 'D', 'E', 'F'].getD d.val '0') = true := by decide
    exact this ⟨d, h⟩
  · have : ['0', '1', '2', '3', '4', '5', '6', '7', '8', '9', 'A', 'B', 'C', 'D', 'E', 'F'].getD d '0' = '0' := by
      rw [List.getD_eq_getElem?_getD, List.getElem?_eq_none]
      · rfl
      · have : ['0', '1', '2', '3', '4', '5', '6', '7', '8', '9', 'A', 'B', 'C', 'D', 'E', 'F'].length = 16 := by decide
        omega
    rw [this]; rfl

theorem mem_digitsAux {b f m : Nat} {c : Char} (h : c ∈ digitsAux b f m) : ∃ d, c = digitChar d := by
  induction f generalizing m with
  | zero => simp only [digitsAux, List.mem_singleton] at h; exact ⟨_, h⟩
  | succ f ih =>
    simp only [digitsAux] at h
    split at h
    · simp only [List.mem_singleton] at h; exact ⟨_, h⟩
    · rcases List.mem_append.1 h with h | h
      · exact ih h
      · simp only [List.mem_singleton] at h; exact ⟨_, h⟩

theorem digitsAux_head {b f m : Nat} (hb : 1 < b) (hm : m ≤ f) :
    ∃ d s, digitsAux b f m = digitChar d :: s ∧ d < b := by
  induction f generalizing m with
  | zero => exact ⟨m % b, [], rfl, Nat.mod_lt _ (by omega)⟩
  | succ f ih =>
    simp only [digitsAux]
    split
    · rename_i h; exact ⟨m, [], rfl, h⟩
    · rename_i h
      have : m / b < m := Nat.div_lt_self (by omega) hb
      obtain ⟨d, s, h1, h2⟩ := ih (m := m / b) (by omega)
      exact ⟨d, s ++ [digitChar (m % b)], by simp [h1], h2⟩

theorem natStr_cls {b : NBase} {m : Nat} : ∀ c ∈ natStr b m, ccls c = 1 := by
  intro c hc
  have hd : ∀ k, c ∈ digits k m → ccls c = 1 := by
    intro k h
    obtain ⟨d, rfl⟩ := mem_digitsAux h
    exact ccls_word (digitChar_word d)
  cases b <;> simp [natStr] at hc
  · exact hd _ hc
  · rcases hc with rfl | rfl | h | rfl <;> first | rfl | exact hd _ h
  · rcases hc with rfl | rfl | h | rfl <;> first | rfl | exact hd _ h
  · rcases hc with rfl | rfl | rfl | h | rfl <;> first | rfl | exact hd _ h
  · rcases hc with rfl | rfl | rfl | h | rfl <;> first | rfl | exact hd _ h

theorem natStr_head {b : NBase} {m : Nat} : ∃ c s, natStr b m = c :: s ∧ c.isDigit = true := by
  cases b
  · obtain ⟨d, s, h, hd⟩ := digitsAux_head (b := 10) (f := m) (m := m) (by omega) (Nat.le_refl _)
    refine ⟨digitChar d, s, h, ?_⟩
    have : ∀ d : Fin 10, (digitChar d.val).isDigit = true := by decide
    exact this ⟨d, hd⟩
  all_goals exact ⟨_, _, rfl, rfl⟩

theorem natStr_classify {b : NBase} {m : Nat} : classify (natStr b m) = .word (natStr b m) := by
  have hn : natStr b m ∉ tokTable.map Prod.fst := by
    intro hm
    have : ∀ w ∈ tokTable.map Prod.fst, (w.headD ' ').isDigit = false := by decide
    have h1 := this _ hm
    obtain ⟨c, s, h, hd⟩ := natStr_head (b := b) (m := m)
    rw [h] at h1
    simp only [List.headD_cons] at h1
    rw [hd] at h1; cases h1
  simp [classify, lookup_none hn]

theorem HeadNe.cons {k : Nat} {c : Char} {s : PyStr} (h : ccls c ≠ k) : HeadNe k (c :: s) := h

def HeadX (s : PyStr) : Prop := ∃ c t, s = c :: t ∧ ccls c ≠ 2

theorem HeadX.headNe {s rest : PyStr} (h : HeadX s) : HeadNe 2 (s ++ rest) := by
  obtain ⟨c, t, rfl, h⟩ := h
  exact h

theorem lexT_paren {s rest : PyStr} (ts : List Tok)
    (h : ∀ rest, HeadNe 1 rest → lexT (s ++ rest) = ts ++ lexT rest) :
    lexT ('(' :: indentNext s 1 ++ [')'] ++ rest) = .lpar :: ts ++ .rpar :: lexT rest := by
  simp only [List.cons_append, List.append_assoc, List.nil_append]
  rw [lexT_single (by decide), lexT_indentNext, h _ (HeadNe.cons (by decide)), lexT_single (by decide)]
  rfl

theorem lexT_parens {p : Nat} {e : Expr} {s rest : PyStr} {ts : List Tok}
    (h : ∀ rest, HeadNe 1 rest → lexT (s ++ rest) = ts ++ lexT rest) (hr : HeadNe 1 rest) :
    lexT (e.parens p s ++ rest) = parT p e ts ++ lexT rest := by
  unfold Expr.parens parT
  split
  · rw [lexT_paren ts h]; simp
  · exact h rest hr

theorem HeadX.parens {p : Nat} {e : Expr} {s : PyStr} (h : HeadX s) : HeadX (e.parens p s) := by
  unfold Expr.parens
  split
  · exact ⟨'(', _, rfl, by decide⟩
  · exact h

theorem lexT_wrapNeg {ng : Bool} {s rest : PyStr} {ts : List Tok} (hs : HeadX s)
    (h : ∀ rest, HeadNe 1 rest → lexT (s ++ rest) = ts ++ lexT rest) (hr : HeadNe 1 rest) :
    lexT (wrapNeg ng s ++ rest) = wrapT ng ts ++ lexT rest := by
  unfold wrapNeg wrapT
  split
  · have h1 : ['(', '-'] = '(' :: ['-'] := by simp
    rw [h1]
    simp only [List.cons_append, List.append_assoc, List.nil_append]
    rw [lexT_single (by decide)]
    have := lexT_run (w := ['-']) (k := 2) (rest := s ++ ')' :: rest) (by simp) (by simp)
      (by simp; decide) hs.headNe
    simp only [List.cons_append, List.nil_append] at this
    rw [this, h _ (HeadNe.cons (by decide)), lexT_single (by decide)]
    rfl
  · exact h rest hr

theorem HeadX.wrapNeg {ng : Bool} {s : PyStr} (h : HeadX s) : HeadX (wrapNeg ng s) := by
  unfold Verif.wrapNeg
  split
  · exact ⟨'(', _, rfl, by decide⟩
  · exact h

theorem kw {k : Nat} (w : PyStr) (t : Tok) (hk : k = 1 ∨ k = 2) (hw : w ≠ [] ∧ ∀ c ∈ w, ccls c = k)
    (ht : classify w = t) (s : PyStr) : lexT (w ++ ' ' :: s) = t :: lexT s := by
  rw [lexT_run hk hw.1 hw.2 (HeadNe.cons (by rcases hk with rfl | rfl <;> decide)), lexT_space, ht]

theorem kw_and (s : PyStr) : lexT ('a' :: 'n' :: 'd' :: ' ' :: s) = .and :: lexT s :=
  kw (k := 1) ['a', 'n', 'd'] .and (by simp) (by decide) (by decide) s

theorem kw_or (s : PyStr) : lexT ('o' :: 'r' :: ' ' :: s) = .or :: lexT s :=
  kw (k := 1) ['o', 'r'] .or (by simp) (by decide) (by decide) s

theorem kw_then (s : PyStr) : lexT ('t' :: 'h' :: 'e' :: 'n' :: ' ' :: s) = .then_ :: lexT s :=
  kw (k := 1) ['t', 'h', 'e', 'n'] .then_ (by simp) (by decide) (by decide) s

theorem kw_else (s : PyStr) : lexT ('e' :: 'l' :: 's' :: 'e' :: ' ' :: s) = .else_ :: lexT s :=
  kw (k := 1) ['e', 'l', 's', 'e'] .else_ (by simp) (by decide) (by decide) s

theorem kw_lt (s : PyStr) : lexT ('<' :: ' ' :: s) = .lt :: lexT s :=
  kw (k := 2) ['<'] .lt (by simp) (by decide) (by decide) s

theorem kw_le (s : PyStr) : lexT ('<' :: '=' :: ' ' :: s) = .le :: lexT s :=
  kw (k := 2) ['<', '='] .le (by simp) (by decide) (by decide) s

theorem kw_eq (s : PyStr) : lexT ('=' :: ' ' :: s) = .eq :: lexT s :=
  kw (k := 2) ['='] .eq (by simp) (by decide) (by decide) s

theorem kw_ge (s : PyStr) : lexT ('>' :: '=' :: ' ' :: s) = .ge :: lexT s :=
  kw (k := 2) ['>', '='] .ge (by simp) (by decide) (by decide) s

theorem kw_gt (s : PyStr) : lexT ('>' :: ' ' :: s) = .gt :: lexT s :=
  kw (k := 2) ['>'] .gt (by simp) (by decide) (by decide) s

theorem kw_ne (s : PyStr) : lexT ('/' :: '=' :: ' ' :: s) = .ne :: lexT s :=
  kw (k := 2) ['/', '='] .ne (by simp) (by decide) (by decide) s

theorem kw_in (s : PyStr) : lexT ('i' :: 'n' :: ' ' :: s) = .in_ :: lexT s :=
  kw (k := 1) ['i', 'n'] .in_ (by simp) (by decide) (by decide) s

theorem kw_not (s : PyStr) : lexT ('n' :: 'o' :: 't' :: ' ' :: s) = .not :: lexT s :=
  kw (k := 1) ['n', 'o', 't'] .not (by simp) (by decide) (by decide) s

theorem kw_slash (s : PyStr) : lexT ('/' :: ' ' :: s) = .slash :: lexT s :=
  kw (k := 2) ['/'] .slash (by simp) (by decide) (by decide) s

theorem kw_mod (s : PyStr) : lexT ('m' :: 'o' :: 'd' :: ' ' :: s) = .mod :: lexT s :=
  kw (k := 1) ['m', 'o', 'd'] .mod (by simp) (by decide) (by decide) s

theorem kw_for (s : PyStr) : lexT ('f' :: 'o' :: 'r' :: ' ' :: s) = .for_ :: lexT s :=
  kw (k := 1) ['f', 'o', 'r'] .for_ (by simp) (by decide) (by decide) s

theorem kw_all (s : PyStr) : lexT ('a' :: 'l' :: 'l' :: ' ' :: s) = .all :: lexT s :=
  kw (k := 1) ['a', 'l', 'l'] .all (by simp) (by decide) (by decide) s

theorem kw_some (s : PyStr) : lexT ('s' :: 'o' :: 'm' :: 'e' :: ' ' :: s) = .some :: lexT s :=
  kw (k := 1) ['s', 'o', 'm', 'e'] .some (by simp) (by decide) (by decide) s

theorem kw_of (s : PyStr) : lexT ('o' :: 'f' :: ' ' :: s) = .of :: lexT s :=
  kw (k := 1) ['o', 'f'] .of (by simp) (by decide) (by decide) s

theorem lexT_bool (op : BoolOp) (s : PyStr) : lexT ('\n' :: op.symbol.tail ++ s) = op.toks ++ lexT s := by
  cases op
  · rw [show BoolOp.and.symbol.tail = ['a', 'n', 'd', ' '] from rfl]
    simp only [List.cons_append, List.nil_append, lexT_nl, kw_and, BoolOp.toks]
  · rw [show BoolOp.andThen.symbol.tail = ['a', 'n', 'd', ' ', 't', 'h', 'e', 'n', ' '] from rfl]
    simp only [List.cons_append, List.nil_append, lexT_nl, kw_and, kw_then, BoolOp.toks]
  · rw [show BoolOp.or.symbol.tail = ['o', 'r', ' '] from rfl]
    simp only [List.cons_append, List.nil_append, lexT_nl, kw_or, BoolOp.toks]
  · rw [show BoolOp.orElse.symbol.tail = ['o', 'r', ' ', 'e', 'l', 's', 'e', ' '] from rfl]
    simp only [List.cons_append, List.nil_append, lexT_nl, kw_or, kw_else, BoolOp.toks]

theorem lexT_rel (op : RelOp) (s : PyStr) : lexT (op.symbol ++ s) = op.toks ++ lexT s := by
  cases op
  · rw [show RelOp.lt.symbol = [' ', '<', ' '] from rfl]
    simp only [List.cons_append, List.nil_append, lexT_space, kw_lt, RelOp.toks]
  · rw [show RelOp.le.symbol = [' ', '<', '=', ' '] from rfl]
    simp only [List.cons_append, List.nil_append, lexT_space, kw_le, RelOp.toks]
  · rw [show RelOp.eq.symbol = [' ', '=', ' '] from rfl]
    simp only [List.cons_append, List.nil_append, lexT_space, kw_eq, RelOp.toks]
  · rw [show RelOp.ge.symbol = [' ', '>', '=', ' '] from rfl]
    simp only [List.cons_append, List.nil_append, lexT_space, kw_ge, RelOp.toks]
  · rw [show RelOp.gt.symbol = [' ', '>', ' '] from rfl]
    simp only [List.cons_append, List.nil_append, lexT_space, kw_gt, RelOp.toks]
  · rw [show RelOp.ne.symbol = [' ', '/', '=', ' '] from rfl]
    simp only [List.cons_append, List.nil_append, lexT_space, kw_ne, RelOp.toks]
  · rw [show RelOp.isIn.symbol = [' ', 'i', 'n', ' '] from rfl]
    simp only [List.cons_append, List.nil_append, lexT_space, kw_in, RelOp.toks]
  · rw [show RelOp.notIn.symbol = [' ', 'n', 'o', 't', ' ', 'i', 'n', ' '] from rfl]
    simp only [List.cons_append, List.nil_append, lexT_space, kw_not, kw_in, RelOp.toks]

theorem lexT_plus (s : PyStr) : lexT (' ' :: '+' :: ' ' :: s) = .plus :: lexT s := by
  rw [lexT_space]; exact kw (k := 2) ['+'] .plus (by simp) (by decide) (by decide) s

theorem lexT_minus (s : PyStr) : lexT (' ' :: '-' :: ' ' :: s) = .minus :: lexT s := by
  rw [lexT_space]; exact kw (k := 2) ['-'] .minus (by simp) (by decide) (by decide) s

theorem lexT_star (s : PyStr) : lexT (' ' :: '*' :: ' ' :: s) = .star :: lexT s := by
  rw [lexT_space]; exact kw (k := 2) ['*'] .star (by simp) (by decide) (by decide) s

theorem lexT_arith (op : ArithOp) (s : PyStr) (h : HeadNe 2 s) : lexT (op.symbol ++ s) = op.tok :: lexT s := by
  cases op
  · simp [ArithOp.symbol, ArithOp.tok, lexT_minus]
  · have := kw (k := 2) ['/'] .slash (by simp) (by decide) (by decide) s
    simp only [List.cons_append, List.nil_append] at this
    simp [ArithOp.symbol, ArithOp.tok, lexT_space, this]
  · have := lexT_run (w := ['*', '*']) (k := 2) (by simp) (by simp) (by simp; decide) h
    rw [show classify ['*', '*'] = .pow by decide] at this
    simpa [ArithOp.symbol, ArithOp.tok] using this
  · have := kw (k := 1) ['m', 'o', 'd'] .mod (by simp) (by decide) (by decide) s
    simp only [List.cons_append, List.nil_append] at this
    simp [ArithOp.symbol, ArithOp.tok, lexT_space, this]

theorem lexT_true {rest : PyStr} (hr : HeadNe 1 rest) : lexT (['T', 'r', 'u', 'e'] ++ rest) = .tru :: lexT rest := by
  have := lexT_run (w := ['T','r','u','e']) (k := 1) (by simp) (by simp) (by simp; decide) hr
  rw [show classify ['T','r','u','e'] = .tru by decide] at this
  simpa using this

theorem lexT_false {rest : PyStr} (hr : HeadNe 1 rest) : lexT (['F', 'a', 'l', 's', 'e'] ++ rest) = .fls :: lexT rest := by
  have := lexT_run (w := ['F','a','l','s','e']) (k := 1) (by simp) (by simp) (by simp; decide) hr
  rw [show classify ['F','a','l','s','e'] = .fls by decide] at this
  simpa using this

theorem headNe_symbol (op : ArithOp) (s : PyStr) : HeadNe 1 (op.symbol ++ s) := by
  cases op <;> exact HeadNe.cons (by decide)

theorem headNe_rel (op : RelOp) (s : PyStr) : HeadNe 1 (op.symbol ++ s) := by
  cases op <;> exact HeadNe.cons (by decide)

/-- The tokens of a printed expression. -/
structure LexOK (e : Expr) : Prop where
  lex : ∀ f rest, HeadNe 1 rest → lexT (e.strF f ++ rest) = toksF f e ++ lexT rest
  head : HeadX (e.strF false)

theorem lexT_word {i : ID} (h : i.Lex) {rest : PyStr} (hr : HeadNe 1 rest) :
    lexT (i.str ++ rest) = .word i.str :: lexT rest := by
  rw [lexT_run (Or.inl rfl) h.ne_nil h.cls hr, h.classify]

theorem ID.Lex.headX {i : ID} (h : i.Lex) {s : PyStr} : HeadX (i.str ++ s) := by
  obtain ⟨c, t, hc, h1, _⟩ := h.head
  exact ⟨c, t ++ s, by simp [hc], by omega⟩

theorem natStr_headX {b : NBase} {m : Nat} : HeadX (natStr b m) := by
  obtain ⟨c, s, h, _⟩ := natStr_head (b := b) (m := m)
  refine ⟨c, s, h, ?_⟩
  have := natStr_cls (b := b) (m := m) c (by simp [h])
  omega

theorem lexT_nat {b : NBase} {m : Nat} {rest : PyStr} (hr : HeadNe 1 rest) :
    lexT (natStr b m ++ rest) = [.word (natStr b m)] ++ lexT rest := by
  obtain ⟨c, s, h, _⟩ := natStr_head (b := b) (m := m)
  rw [lexT_run (Or.inl rfl) (by simp [h]) natStr_cls hr, natStr_classify]; rfl

theorem lexT_int {v : Int} {b : NBase} {rest : PyStr} (hr : HeadNe 1 rest) :
    lexT (intStr v b ++ rest) = wrapT (v < 0) [.word (natStr b v.natAbs)] ++ lexT rest :=
  lexT_wrapNeg natStr_headX (fun _ h => lexT_nat h) hr

theorem lexT_comma {es : List Expr} (h : ∀ e ∈ es, LexOK e) {rest : PyStr} (hr : HeadNe 1 rest) :
    lexT (joinComma (Expr.strL es) ++ rest) = toksL es ++ lexT rest := by
  have key : ∀ (es : List Expr) (e : Expr), (∀ x ∈ e :: es, LexOK x) →
      lexT (joinComma (Expr.strL (e :: es)) ++ rest) = toksL (e :: es) ++ lexT rest := by
    intro es
    induction es with
    | nil =>
      intro e he
      simp only [Expr.strL, joinComma, toksL, toksLTail, List.append_nil]
      exact (he e (by simp)).lex false rest hr
    | cons e' es ih =>
      intro e he
      have hc := ih e' (fun x hx => he x (by simp [List.mem_cons.1 hx]))
      simp only [Expr.strL, joinComma, toksL, toksLTail, List.append_assoc, List.cons_append] at hc ⊢
      rw [(he e (by simp)).lex false _ (HeadNe.cons (by decide)), lexT_single (by decide), lexT_space, hc]
      rfl
  cases es with
  | nil => rfl
  | cons e es => exact key es e h

theorem headX_true : HeadX ['T', 'r', 'u', 'e'] := ⟨'T', ['r', 'u', 'e'], by rfl, by decide⟩

theorem headX_false : HeadX ['F', 'a', 'l', 's', 'e'] := ⟨'F', ['a', 'l', 's', 'e'], by rfl, by decide⟩

theorem attr_word_aux {w s : PyStr} (hw : w = s) (h : s ≠ [] ∧ (∀ c ∈ s, ccls c = 1) ∧ classify s = .word s) :
    w ≠ [] ∧ (∀ c ∈ w, ccls c = 1) ∧ classify w = .word w := hw ▸ h

theorem attr_word (k : AttrKind) : k.str ≠ [] ∧ (∀ c ∈ k.str, ccls c = 1) ∧ classify k.str = .word k.str := by
  cases k
  · exact attr_word_aux (s := ['S', 'i', 'z', 'e']) (by rfl) (by decide)
  · exact attr_word_aux (s := ['L', 'e', 'n', 'g', 't', 'h']) (by rfl) (by decide)
  · exact attr_word_aux (s := ['F', 'i', 'r', 's', 't']) (by rfl) (by decide)
  · exact attr_word_aux (s := ['L', 'a', 's', 't']) (by rfl) (by decide)
  · exact attr_word_aux (s := ['V', 'a', 'l', 'i', 'd', '_', 'C', 'h', 'e', 'c', 'k', 's', 'u', 'm']) (by rfl) (by decide)
  · exact attr_word_aux (s := ['V', 'a', 'l', 'i', 'd']) (by rfl) (by decide)
  · exact attr_word_aux (s := ['P', 'r', 'e', 's', 'e', 'n', 't']) (by rfl) (by decide)
  · exact attr_word_aux (s := ['H', 'e', 'a', 'd']) (by rfl) (by decide)
  · exact attr_word_aux (s := ['O', 'p', 'a', 'q', 'u', 'e']) (by rfl) (by decide)

theorem lexOK (e : Expr) : e.WF → LexOK e := by
  induction e using Expr.ind with
  | tru =>
    intro _
    exact ⟨fun f rest hr => lexT_true hr, headX_true⟩
  | fls =>
    intro _
    exact ⟨fun f rest hr => lexT_false hr, headX_false⟩
  | undefined => intro h; simp [Expr.WF] at h
  | num v b =>
    intro _
    refine ⟨fun f rest hr => ?_, ?_⟩
    · cases f
      · exact lexT_int hr
      · exact lexT_int hr
    · exact natStr_headX.wrapNeg
  | var ng imm id =>
    intro hw
    simp only [Expr.WF] at hw
    have hx : HeadX id.str := by have := hw.headX (s := []); simpa using this
    exact ⟨fun f rest hr => lexT_wrapNeg hx (fun _ h => lexT_word hw h) hr, hx.wrapNeg⟩
  | attr ng k pre ih =>
    intro hw
    cases pre with
    | var n2 imm id =>
      simp only [Expr.WF] at hw
      obtain ⟨rfl, hl⟩ := hw
      have hx : HeadX (id.str ++ '\'' :: k.str) := hl.headX
      refine ⟨fun f rest hr => ?_, hx.wrapNeg⟩
      simp only [Expr.strF, toksF]
      refine lexT_wrapNeg hx (fun rest hr => ?_) hr
      simp only [wrapNeg, wrapT, Bool.xor_false, Bool.false_eq_true, if_false, List.append_assoc, List.cons_append]
      rw [lexT_word hl (HeadNe.cons (by decide)), lexT_single (by decide)]
      have : lexT (k.str ++ rest) = .word k.str :: lexT rest := by
        have hk := attr_word k
        rw [lexT_run (k := 1) (by simp) hk.1 hk.2.1 hr, hk.2.2]
      rw [this]
      rfl
    | _ => simp [Expr.WF] at hw
  | sel ng pre s ih =>
    intro hw
    cases pre with
    | var n2 imm id =>
      simp only [Expr.WF] at hw
      obtain ⟨rfl, hl, hs⟩ := hw
      have hx : HeadX (id.str ++ '.' :: s.str) := hl.headX
      refine ⟨fun f rest hr => ?_, hx.wrapNeg⟩
      simp only [Expr.strF, toksF]
      refine lexT_wrapNeg hx (fun rest hr => ?_) hr
      simp only [wrapNeg, wrapT, Bool.xor_false, Bool.false_eq_true, if_false, List.append_assoc, List.cons_append]
      rw [lexT_word hl (HeadNe.cons (by decide)), lexT_single (by decide), lexT_word hs hr]
      rfl
    | _ => simp [Expr.WF] at hw
  | call ng id args ih =>
    intro hw
    simp only [Expr.WF, WFL_iff] at hw
    have hx : HeadX (id.str ++ (if args.isEmpty then [] else [' ', '('] ++ joinComma (Expr.strL args) ++ [')'])) :=
      hw.1.headX
    refine ⟨fun f rest hr => ?_, by simp only [Expr.strF]; exact hx.wrapNeg⟩
    simp only [Expr.strF, toksF]
    refine lexT_wrapNeg hx (fun rest hr => ?_) hr
    split
    · simp only [List.append_nil]
      rw [lexT_word hw.1 hr]; rfl
    · have h1 : [' ', '('] = [' ', '('] := by simp
      rw [h1]
      simp only [List.append_assoc, List.cons_append, List.nil_append]
      rw [lexT_word hw.1 (HeadNe.cons (by decide)), lexT_space, lexT_single (by decide),
        lexT_comma (fun e he => ih e he (hw.2 e he)) (HeadNe.cons (by decide)), lexT_single (by decide)]
      rfl
  | not e ih =>
    intro hw
    refine ⟨fun f rest hr => ?_, 'n', _, rfl, by decide⟩
    have h := lexT_parens (p := 6) (e := e) (fun _ hr => (ih hw).lex false _ hr) hr
    have hn := kw (k := 1) ['n', 'o', 't'] .not (by simp) (by decide) (by decide)
    simp only [List.cons_append, List.nil_append] at hn
    have h1 : ['n', 'o', 't', ' '] = ['n', 'o', 't', ' '] := by simp
    simp only [Expr.strF, toksF, List.cons_append, List.nil_append]
    rw [hn, h]
  | bool op ts ih =>
    intro hw
    simp only [Expr.WF, WFL_iff] at hw
    have tail : ∀ ts : List Expr, (∀ t ∈ ts, LexOK t) → ∀ rest, HeadNe 1 rest →
        lexT (Expr.strBoolTail op ts ++ rest) = toksBoolTail op ts ++ lexT rest := by
      intro ts
      induction ts with
      | nil => intro _ rest _; rfl
      | cons t ts ih =>
        intro h rest hr
        have hn : HeadNe 1 (Expr.strBoolTail op ts ++ rest) := by
          cases ts with
          | nil => exact hr
          | cons u us => exact HeadNe.cons (by decide)
        have := lexT_bool op (indentNext (t.parens 1 (t.strF false)) (op.symbol.length - 1) ++
          (Expr.strBoolTail op ts ++ rest))
        simp only [Expr.strBoolTail, toksBoolTail, List.append_assoc, List.cons_append] at this ⊢
        rw [this, lexT_indentNext, lexT_parens (fun _ hr => (h t (by simp)).lex false _ hr) hn,
          ih (fun t ht => h t (by simp [ht])) rest hr]
    cases ts with
    | nil =>
      refine ⟨fun f rest hr => ?_, 'T', _, rfl, by decide⟩
      exact lexT_true hr
    | cons t ts =>
      have hall : ∀ u ∈ t :: ts, LexOK u := fun u hu => ih u hu (hw.1 u hu)
      refine ⟨fun f rest hr => ?_, ?_⟩
      · have hn : HeadNe 1 (Expr.strBoolTail op ts ++ rest) := by
          cases ts with
          | nil => exact hr
          | cons u us => exact HeadNe.cons (by decide)
        simp only [Expr.strF, toksF, List.append_assoc]
        rw [lexT_parens (fun _ hr => (hall t (by simp)).lex false _ hr) hn,
          tail ts (fun u hu => hall u (by simp [hu])) rest hr]
      · simp only [Expr.strF]
        obtain ⟨c, s, h, hc⟩ := (hall t (by simp)).head.parens (p := 1) (e := t)
        exact ⟨c, s ++ Expr.strBoolTail op ts, by simp [h], hc⟩
  | add ts ih =>
    intro hw
    simp only [Expr.WF, WFL_iff] at hw
    have hnt : ∀ (ts : List Expr) rest, HeadNe 1 rest → HeadNe 1 (Expr.strAddTail ts ++ rest) := by
      intro ts rest hr
      cases ts with
      | nil => exact hr
      | cons u us =>
        simp only [Expr.strAddTail]
        split <;> exact HeadNe.cons (by decide)
    have tail : ∀ ts : List Expr, (∀ t ∈ ts, LexOK t) → ∀ rest, HeadNe 1 rest →
        lexT (Expr.strAddTail ts ++ rest) = toksAddTail ts ++ lexT rest := by
      intro ts
      induction ts with
      | nil => intro _ rest _; rfl
      | cons t ts ih =>
        intro h rest hr
        have hn := hnt ts rest hr
        have h1 : [' ', '-', ' '] = [' ', '-', ' '] := by simp
        have h2 : [' ', '+', ' '] = [' ', '+', ' '] := by simp
        simp only [Expr.strAddTail, toksAddTail, List.append_assoc]
        split
        · simp only [List.cons_append, List.nil_append]
          rw [lexT_minus, (h t (by simp)).lex true _ hn, ih (fun t ht => h t (by simp [ht])) rest hr]
        · simp only [List.cons_append, List.nil_append]
          rw [lexT_plus, lexT_parens (fun _ hr => (h t (by simp)).lex false _ hr) hn,
            ih (fun t ht => h t (by simp [ht])) rest hr]
    cases ts with
    | nil =>
      refine ⟨fun f rest hr => ?_, '0', _, rfl, by decide⟩
      exact lexT_nat (b := .b0) (m := 0) hr
    | cons t ts =>
      have hall : ∀ u ∈ t :: ts, LexOK u := fun u hu => ih u hu (hw.1 u hu)
      refine ⟨fun f rest hr => ?_, ?_⟩
      · simp only [Expr.strF, toksF, List.append_assoc]
        rw [(hall t (by simp)).lex false _ (hnt ts rest hr),
          tail ts (fun u hu => hall u (by simp [hu])) rest hr]
      · simp only [Expr.strF]
        obtain ⟨c, s, h, hc⟩ := (hall t (by simp)).head
        exact ⟨c, s ++ Expr.strAddTail ts, by simp [h], hc⟩
  | mul ts ih =>
    intro hw
    simp only [Expr.WF, WFL_iff] at hw
    have hnt : ∀ (ts : List Expr) rest, HeadNe 1 rest → HeadNe 1 (Expr.strMulTail ts ++ rest) := by
      intro ts rest hr
      cases ts with
      | nil => exact hr
      | cons u us => exact HeadNe.cons (by decide)
    have tail : ∀ ts : List Expr, (∀ t ∈ ts, LexOK t) → ∀ rest, HeadNe 1 rest →
        lexT (Expr.strMulTail ts ++ rest) = toksMulTail ts ++ lexT rest := by
      intro ts
      induction ts with
      | nil => intro _ rest _; rfl
      | cons t ts ih =>
        intro h rest hr
        have hn := hnt ts rest hr
        have h1 : [' ', '*', ' '] = [' ', '*', ' '] := by simp
        simp only [Expr.strMulTail, toksMulTail, List.append_assoc, List.cons_append, List.nil_append]
        rw [lexT_star, lexT_parens (fun _ hr => (h t (by simp)).lex false _ hr) hn,
          ih (fun t ht => h t (by simp [ht])) rest hr]
    cases ts with
    | nil =>
      refine ⟨fun f rest hr => ?_, '1', _, rfl, by decide⟩
      exact lexT_nat (b := .b0) (m := 1) hr
    | cons t ts =>
      have hall : ∀ u ∈ t :: ts, LexOK u := fun u hu => ih u hu (hw u hu)
      refine ⟨fun f rest hr => ?_, ?_⟩
      · simp only [Expr.strF, toksF, List.append_assoc]
        rw [lexT_parens (fun _ hr => (hall t (by simp)).lex false _ hr) (hnt ts rest hr),
          tail ts (fun u hu => hall u (by simp [hu])) rest hr]
      · simp only [Expr.strF]
        obtain ⟨c, s, h, hc⟩ := (hall t (by simp)).head.parens (p := 5) (e := t)
        exact ⟨c, s ++ Expr.strMulTail ts, by simp [h], hc⟩
  | bin op l r ihl ihr =>
    intro hw
    simp only [Expr.WF] at hw
    have hl := ihl hw.1
    have hr := ihr hw.2
    refine ⟨fun f rest hrest => ?_, ?_⟩
    · simp only [Expr.strF, toksF, List.append_assoc, List.cons_append]
      rw [lexT_parens (fun _ h => hl.lex false _ h) (headNe_symbol op _),
        lexT_arith op _ (hr.head.parens.headNe), lexT_parens (fun _ h => hr.lex false _ h) hrest]
    · simp only [Expr.strF, List.append_assoc]
      obtain ⟨c, s, h, hc⟩ := hl.head.parens (p := op.prec) (e := l)
      exact ⟨c, _, by rw [h]; rfl, hc⟩
  | rel op l r ihl ihr =>
    intro hw
    simp only [Expr.WF] at hw
    have hl := ihl hw.1
    have hr := ihr hw.2
    refine ⟨fun f rest hrest => ?_, ?_⟩
    · simp only [Expr.strF, toksF, List.append_assoc]
      rw [lexT_parens (fun _ h => hl.lex false _ h) (headNe_rel op _),
        lexT_rel, lexT_parens (fun _ h => hr.lex false _ h) hrest]
    · simp only [Expr.strF, List.append_assoc]
      obtain ⟨c, s, h, hc⟩ := hl.head.parens (p := 2) (e := l)
      exact ⟨c, _, by rw [h]; rfl, hc⟩
  | agg es ih =>
    intro hw
    simp only [Expr.WF, WFL_iff] at hw
    refine ⟨fun f rest hr => ?_, '[', _, rfl, by decide⟩
    simp only [Expr.strF, toksF, List.append_assoc, List.cons_append, List.nil_append]
    rw [lexT_single (by decide), lexT_comma (fun e he => ih e he (hw e he)) (HeadNe.cons (by decide)),
      lexT_single (by decide)]
    rfl
  | quant k p it pr ihi ihp =>
    intro hw
    simp only [Expr.WF] at hw
    refine ⟨fun f rest hr => ?_, '(', _, rfl, by decide⟩
    simp only [Expr.strF, toksF, List.append_assoc, List.cons_append]
    have hf := kw (k := 1) ['f', 'o', 'r'] .for_ (by simp) (by decide) (by decide)
    have ha := kw (k := 1) ['a', 'l', 'l'] .all (by simp) (by decide) (by decide)
    have hs := kw (k := 1) ['s', 'o', 'm', 'e'] .some (by simp) (by decide) (by decide)
    have ho := kw (k := 1) ['o', 'f'] .of (by simp) (by decide) (by decide)
    have hi := kw (k := 1) ['i', 'n'] .in_ (by simp) (by decide) (by decide)
    simp only [List.cons_append, List.nil_append] at hf ha hs ho hi
    have e1 : ∀ s, lexT (['(', 'f', 'o', 'r', ' '] ++ (k.words.1 ++ ' ' :: s)) = .lpar :: .for_ :: k.toks.1 :: lexT s := by
      intro s
      have : ∀ s, lexT ('(' :: s) = .lpar :: lexT s := fun s => lexT_single (by decide)
      cases k <;> simp [QKind.words, QKind.toks, this, hf, ha, hs]
    have e2 : ∀ s, lexT (' ' :: (k.words.2 ++ ' ' :: s)) = k.toks.2 :: lexT s := by
      intro s
      cases k <;> simp [QKind.words, QKind.toks, lexT_space, ho, hi]
    have e3 : ∀ s, lexT ([' ', '=', '>', '\n'] ++ s) = .arrow :: lexT s := by
      intro s
      have := lexT_run (w := ['=', '>']) (k := 2) (rest := '\n' :: s) (by simp) (by simp) (by simp; decide)
        (HeadNe.cons (by decide))
      rw [show classify ['=', '>'] = .arrow by decide, lexT_nl] at this
      simp only [List.cons_append, List.nil_append] at this
      simp [lexT_space, this]
    have e4 : ∀ s, HeadNe 1 ([' ', '=', '>', '\n'] ++ s) := fun s => HeadNe.cons (c := ' ') (by decide)
    simp only [List.cons_append, List.nil_append] at e1 e3 e4 ⊢
    rw [e1, lexT_word hw.1 (HeadNe.cons (by decide)), e2, (ihi hw.2.1).lex false _ (e4 _),
      e3, lexT_indent, (ihp hw.2.2).lex false _ (HeadNe.cons (by decide)), lexT_single (by decide)]
    rfl

end Verif
