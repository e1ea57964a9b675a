import Verif.Expr.Lex
import Verif.Expr.Sound2

/-! # Helper lemmas: reading back the tokens of an expression

Proof device for C11. A parser for the printed form is defined; it returns a meaning. Every
well-formed expression's tokens are read back with the meaning of the expression, so two expressions
with the same printed form cannot have different values. -/

namespace Verif

/-- A meaning. -/
abbrev Den := Env → Option Val

def dInt2 (f : Int → Int → Option Int) (a b : Den) : Den := fun ρ =>
  match a ρ, b ρ with
  | some (.int x), some (.int y) => (f x y).map .int
  | _, _ => none

def dBool2 (f : Bool → Bool → Bool) (a b : Den) : Den := fun ρ =>
  match a ρ, b ρ with
  | some (.bool x), some (.bool y) => some (.bool (f x y))
  | _, _ => none

def dRel (op : RelOp) (a b : Den) : Den := fun ρ =>
  match a ρ, b ρ with
  | some x, some y => (op.eval x y).map .bool
  | _, _ => none

def dNot (a : Den) : Den := fun ρ =>
  match a ρ with
  | some (.bool b) => some (.bool (!b))
  | _ => none

def dNeg (a : Den) : Den := fun ρ => (a ρ).bind (Val.negIf true)

def dList (ds : List Den) (ρ : Env) : Option (List Val) := allSome (fun d => d ρ) ds

def dAgg (ds : List Den) : Den := fun ρ =>
  match (dList ds ρ).bind (allSome Val.int?) with
  | some xs => some (.seq xs)
  | none => none

def keyOf (w : PyStr) : List PyStr := (splitSep w).map PyStr.lower

def dCall (w : PyStr) (ds : List Den) : Den := fun ρ => (dList ds ρ).map (ρ.call (keyOf w))

def dQuant (some_ : Bool) (w : PyStr) (it pr : Den) : Den := fun ρ =>
  match it ρ with
  | some (.seq xs) =>
    match allSome (fun x => (pr (ρ.set (keyOf w) (.int x))).bind Val.bool?) xs with
    | some bs => some (.bool (if some_ then bs.any id else bs.all id))
    | none => none
  | _ => none

def kindOf (w : PyStr) : Option AttrKind :=
  [AttrKind.size, .length, .first, .last, .validChecksum, .valid, .present, .head, .opaque].find?
    (fun k => k.str == w)

def digitVal (c : Char) : Nat :=
  ['0', '1', '2', '3', '4', '5', '6', '7', '8', '9', 'A', 'B', 'C', 'D', 'E', 'F'].idxOf c

def fromDigits (b : Nat) (s : PyStr) : Nat := s.foldl (fun a c => a * b + digitVal c) 0

def numOf (w : PyStr) : Nat :=
  if w.contains '#' then
    fromDigits (fromDigits 10 (w.takeWhile (· ≠ '#'))) ((w.dropWhile (· ≠ '#')).tail.dropLast)
  else fromDigits 10 w

/-- The binary operator at the start of a list of tokens, by level: 0 boolean, 1 relation, 2 sum,
3 product, 4 power. -/
def opOf (D : Division) (L : Nat) (ts : List Tok) : Option ((Den → Den → Den) × List Tok) :=
  match L, ts with
  | 0, .and :: .then_ :: r => some (dBool2 and, r)
  | 0, .and :: r => some (dBool2 and, r)
  | 0, .or :: .else_ :: r => some (dBool2 or, r)
  | 0, .or :: r => some (dBool2 or, r)
  | 1, .lt :: r => some (dRel .lt, r)
  | 1, .le :: r => some (dRel .le, r)
  | 1, .eq :: r => some (dRel .eq, r)
  | 1, .ge :: r => some (dRel .ge, r)
  | 1, .gt :: r => some (dRel .gt, r)
  | 1, .ne :: r => some (dRel .ne, r)
  | 1, .in_ :: r => some (dRel .isIn, r)
  | 1, .not :: .in_ :: r => some (dRel .notIn, r)
  | 2, .plus :: r => some (dInt2 (fun a b => some (a + b)), r)
  | 2, .minus :: r => some (dInt2 (fun a b => some (a - b)), r)
  | 3, .star :: r => some (dInt2 (fun a b => some (a * b)), r)
  | 3, .slash :: r => some (dInt2 (ArithOp.eval D .div), r)
  | 3, .mod :: r => some (dInt2 (ArithOp.eval D .mod), r)
  | 4, .pow :: r => some (dInt2 (ArithOp.eval D .pow), r)
  | _, _ => none

/-- The next token must be `t`. -/
def expect {α : Type} (t : Tok) (x : Option (α × List Tok)) : Option (α × List Tok) :=
  x.bind fun p =>
    match p.2 with
    | u :: r => if u = t then some (p.1, r) else none
    | [] => none

mutual
def pP (D : Division) : Nat → Nat → List Tok → Option (Den × List Tok)
  | 0, _, _ => none
  | n + 1, L, ts => if L ≥ 5 then pAtom D n ts else (pP D n (L + 1) ts).bind fun p => pLoop D n L p.1 p.2

def pLoop (D : Division) : Nat → Nat → Den → List Tok → Option (Den × List Tok)
  | 0, _, _, _ => none
  | n + 1, L, d, ts =>
    match opOf D L ts with
    | none => some (d, ts)
    | some (f, r) => (pP D n (L + 1) r).bind fun p => pLoop D n L (f d p.1) p.2

def pAtom (D : Division) : Nat → List Tok → Option (Den × List Tok)
  | 0, _ => none
  | n + 1, ts =>
    match ts with
    | .tru :: r => some (fun _ => some (.bool true), r)
    | .fls :: r => some (fun _ => some (.bool false), r)
    | .not :: r => (pAtom D n r).map fun p => (dNot p.1, p.2)
    | .lpar :: .minus :: r => (expect .rpar (pAtom D n r)).map fun p => (dNeg p.1, p.2)
    | .lpar :: .for_ :: q :: .word w :: _ :: r =>
      (expect .arrow (pP D n 0 r)).bind fun p =>
        (expect .rpar (pP D n 0 p.2)).map fun p' => (dQuant (q == .some) w p.1 p'.1, p'.2)
    | .lpar :: r => expect .rpar (pP D n 0 r)
    | .lbrk :: .rbrk :: r => some (dAgg [], r)
    | .lbrk :: r => (expect .rbrk (pList D n r)).map fun p => (dAgg p.1, p.2)
    | .word (c :: w) :: r =>
      if c.isDigit then some (fun _ => some (.int (numOf (c :: w))), r)
      else
        match r with
        | .quote :: .word k :: r =>
          some (fun ρ => (kindOf k).map fun k => ρ.attr k (keyOf (c :: w)), r)
        | .dot :: .word s :: r => some (fun ρ => some (ρ.sel (keyOf (c :: w)) (keyOf s)), r)
        | .lpar :: r => (expect .rpar (pList D n r)).map fun p => (dCall (c :: w) p.1, p.2)
        | r => some (fun ρ => some (ρ.var (keyOf (c :: w))), r)
    | _ => none

def pList (D : Division) : Nat → List Tok → Option (List Den × List Tok)
  | 0, _ => none
  | n + 1, ts => (pP D n 0 ts).bind fun p =>
    match p.2 with
    | .comma :: r => (pList D n r).map fun q => (p.1 :: q.1, q.2)
    | r => some ([p.1], r)
end

variable {D : Division}

/-- From some amount of fuel on, reading gives this result. -/
def Parses (D : Division) (L : Nat) (ts : List Tok) (d : Den) (r : List Tok) : Prop :=
  ∃ n, ∀ m, n ≤ m → pP D m L ts = some (d, r)

def Loops (D : Division) (L : Nat) (d : Den) (ts : List Tok) (d' : Den) (r : List Tok) : Prop :=
  ∃ n, ∀ m, n ≤ m → pLoop D m L d ts = some (d', r)

def Atoms (D : Division) (ts : List Tok) (d : Den) (r : List Tok) : Prop :=
  ∃ n, ∀ m, n ≤ m → pAtom D m ts = some (d, r)

def Lists (D : Division) (ts : List Tok) (ds : List Den) (r : List Tok) : Prop :=
  ∃ n, ∀ m, n ≤ m → pList D m ts = some (ds, r)

theorem Parses.unique {L : Nat} {ts r r' : List Tok} {d d' : Den} (h : Parses D L ts d r)
    (h' : Parses D L ts d' r') : d = d' ∧ r = r' := by
  obtain ⟨n, h⟩ := h
  obtain ⟨n', h'⟩ := h'
  have := (h (n + n') (by omega)).symm.trans (h' (n + n') (by omega))
  simpa using this

theorem Atoms.parses {ts r : List Tok} {d : Den} (h : Atoms D ts d r) : Parses D 5 ts d r := by
  obtain ⟨n, h⟩ := h
  refine ⟨n + 1, fun m hm => ?_⟩
  obtain ⟨k, rfl⟩ : ∃ k, m = k + 1 := ⟨m - 1, by omega⟩
  rw [pP, if_pos (by omega), h k (by omega)]

theorem Parses.atoms {ts r : List Tok} {d : Den} (h : Parses D 5 ts d r) : Atoms D ts d r := by
  obtain ⟨n, h⟩ := h
  refine ⟨n, fun m hm => ?_⟩
  have := h (m + 1) (by omega)
  rwa [pP, if_pos (by omega)] at this

theorem Parses.step {L : Nat} {ts r r' : List Tok} {d d' : Den} (hL : L < 5)
    (h : Parses D (L + 1) ts d r) (hl : Loops D L d r d' r') : Parses D L ts d' r' := by
  obtain ⟨n, h⟩ := h
  obtain ⟨n', hl⟩ := hl
  refine ⟨n + n' + 1, fun m hm => ?_⟩
  obtain ⟨k, rfl⟩ : ∃ k, m = k + 1 := ⟨m - 1, by omega⟩
  rw [pP, if_neg (by omega), h k (by omega)]
  exact hl k (by omega)

theorem Loops.stop {L : Nat} {ts : List Tok} {d : Den} (h : opOf D L ts = none) :
    Loops D L d ts d ts := by
  refine ⟨1, fun m hm => ?_⟩
  obtain ⟨k, rfl⟩ : ∃ k, m = k + 1 := ⟨m - 1, by omega⟩
  rw [pLoop, h]

theorem Loops.step {L : Nat} {ts r r2 r' : List Tok} {d d2 d' : Den} {f : Den → Den → Den}
    (h : opOf D L ts = some (f, r)) (hp : Parses D (L + 1) r d2 r2)
    (hl : Loops D L (f d d2) r2 d' r') : Loops D L d ts d' r' := by
  obtain ⟨n, hp⟩ := hp
  obtain ⟨n', hl⟩ := hl
  refine ⟨n + n' + 1, fun m hm => ?_⟩
  obtain ⟨k, rfl⟩ : ∃ k, m = k + 1 := ⟨m - 1, by omega⟩
  rw [pLoop, h]
  simp only [hp k (by omega)]
  exact hl k (by omega)

/-! ## Where reading stops -/

/-- The rest does not continue a name. -/
def Follow : List Tok → Prop
  | t :: _ => t ≠ .lpar ∧ t ≠ .quote ∧ t ≠ .dot
  | [] => True

/-- The rest does not continue an operand of level `L` or higher. -/
structure Stops (D : Division) (L : Nat) (ts : List Tok) : Prop where
  op : ∀ j, L ≤ j → opOf D j ts = none
  follow : Follow ts

theorem Stops.mono {L L' : Nat} {ts : List Tok} (h : Stops D L ts) (hL : L ≤ L') : Stops D L' ts :=
  ⟨fun j hj => h.op j (by omega), h.follow⟩

theorem opOf_big {j : Nat} {ts : List Tok} (h : 5 ≤ j) : opOf D j ts = none := by
  obtain ⟨k, rfl⟩ : ∃ k, j = k + 5 := ⟨j - 5, by omega⟩
  simp [opOf]

theorem Stops.of {L : Nat} {ts : List Tok} (h : ∀ j, j < 5 → L ≤ j → opOf D j ts = none)
    (hf : Follow ts) : Stops D L ts := by
  refine ⟨fun j hj => ?_, hf⟩
  by_cases h5 : j < 5
  · exact h j h5 hj
  · exact opOf_big (by omega)

theorem stops_nil : Stops D 0 [] := by
  refine Stops.of (fun j hj _ => ?_) (by simp [Follow])
  match j, hj with
  | 0, _ | 1, _ | 2, _ | 3, _ | 4, _ => rfl

theorem stops_rpar {r : List Tok} : Stops D 0 (.rpar :: r) := by
  refine Stops.of (fun j hj _ => ?_) (by simp [Follow])
  match j, hj with
  | 0, _ | 1, _ | 2, _ | 3, _ | 4, _ => rfl

theorem stops_rbrk {r : List Tok} : Stops D 0 (.rbrk :: r) := by
  refine Stops.of (fun j hj _ => ?_) (by simp [Follow])
  match j, hj with
  | 0, _ | 1, _ | 2, _ | 3, _ | 4, _ => rfl

theorem stops_comma {r : List Tok} : Stops D 0 (.comma :: r) := by
  refine Stops.of (fun j hj _ => ?_) (by simp [Follow])
  match j, hj with
  | 0, _ | 1, _ | 2, _ | 3, _ | 4, _ => rfl

theorem stops_arrow {r : List Tok} : Stops D 0 (.arrow :: r) := by
  refine Stops.of (fun j hj _ => ?_) (by simp [Follow])
  match j, hj with
  | 0, _ | 1, _ | 2, _ | 3, _ | 4, _ => rfl

theorem stops_bool {op : BoolOp} {r : List Tok} : Stops D 1 (op.toks ++ r) := by
  refine Stops.of (fun j hj h1 => ?_) (by cases op <;> simp [Follow, BoolOp.toks])
  match j, hj with
  | 0, _ => omega
  | 1, _ | 2, _ | 3, _ | 4, _ => cases op <;> rfl

theorem stops_rel {op : RelOp} {r : List Tok} : Stops D 2 (op.toks ++ r) := by
  refine Stops.of (fun j hj h1 => ?_) (by cases op <;> simp [Follow, RelOp.toks])
  match j, hj with
  | 0, _ => omega
  | 1, _ => omega
  | 2, _ | 3, _ | 4, _ => cases op <;> rfl

theorem stops_plus {r : List Tok} : Stops D 3 (.plus :: r) := by
  refine Stops.of (fun j hj h1 => ?_) (by simp [Follow])
  match j, hj with
  | 0, _ | 1, _ | 2, _ => omega
  | 3, _ | 4, _ => rfl

theorem stops_minus {r : List Tok} : Stops D 3 (.minus :: r) := by
  refine Stops.of (fun j hj h1 => ?_) (by simp [Follow])
  match j, hj with
  | 0, _ | 1, _ | 2, _ => omega
  | 3, _ | 4, _ => rfl

theorem stops_star {r : List Tok} : Stops D 4 (.star :: r) := by
  refine Stops.of (fun j hj h1 => ?_) (by simp [Follow])
  match j, hj with
  | 0, _ | 1, _ | 2, _ | 3, _ => omega
  | 4, _ => rfl

/-- Level of an arithmetic operator. -/
def ArithOp.lvl : ArithOp → Nat
  | .sub => 2
  | .div => 3
  | .pow => 4
  | .mod => 3

theorem stops_arith {op : ArithOp} {r : List Tok} : Stops D (op.lvl + 1) (op.tok :: r) := by
  refine Stops.of (fun j hj h1 => ?_) (by cases op <;> simp [Follow, ArithOp.tok])
  match j, hj with
  | 0, _ | 1, _ | 2, _ | 3, _ | 4, _ => cases op <;> simp [ArithOp.lvl] at h1 <;> rfl

/-! ## Reading back an expression -/

/-- Level by precedence. -/
def lvlOf : Nat → Nat
  | 1 => 0
  | 2 => 1
  | 3 => 2
  | 5 => 3
  | 6 => 4
  | _ => 5

theorem lvl_le (e : Expr) : lvlOf e.prec ≤ 5 := by
  cases e <;> simp [Expr.prec, lvlOf]
  rename_i op _ _; cases op <;> simp [ArithOp.prec]

/-- The meaning `d` agrees with the value of `e` where that exists. -/
def Ref (D : Division) (e : Expr) (d : Den) : Prop := ∀ ρ v, eval D ρ e = some v → d ρ = some v

/-- Tokens `ts` are read at level `L` with meaning `d`, and reading goes on with the rest. -/
def Reads (D : Division) (L : Nat) (ts : List Tok) (d : Den) : Prop :=
  ∀ rest d' r', Stops D (L + 1) rest → Loops D L d rest d' r' → Parses D L (ts ++ rest) d' r'

theorem Reads.of_atoms {ts : List Tok} {d : Den} (h : ∀ rest, Follow rest → Atoms D (ts ++ rest) d rest) :
    Reads D 5 ts d := by
  intro rest d' r' hs hl
  have h1 : Loops D 5 d rest d rest := Loops.stop (opOf_big (by omega))
  obtain ⟨n, hl⟩ := hl
  obtain ⟨n', h1⟩ := h1
  have := (hl (n + n') (by omega)).symm.trans (h1 (n + n') (by omega))
  simp only [Option.some.injEq, Prod.mk.injEq] at this
  rw [this.1, this.2]
  exact (h rest hs.follow).parses

theorem Reads.down {L L' : Nat} {ts : List Tok} {d : Den} (h : Reads D L ts d) (hL : L' ≤ L)
    (hl5 : L ≤ 5) : Reads D L' ts d := by
  induction L with
  | zero => obtain rfl : L' = 0 := by omega
            exact h
  | succ L ih =>
    by_cases he : L' = L + 1
    · subst he; exact h
    · refine ih (fun rest d' r' hs hl => ?_) (by omega) (by omega)
      refine Parses.step (by omega) (h rest d rest (hs.mono (by omega)) (Loops.stop (hs.op _ (by omega)))) hl

theorem Reads.parses {L : Nat} {ts rest : List Tok} {d : Den} (h : Reads D L ts d)
    (hs : Stops D L rest) : Parses D L (ts ++ rest) d rest :=
  h rest d rest (hs.mono (by omega)) (Loops.stop (hs.op _ (by omega)))

theorem Reads.atoms {ts rest : List Tok} {d : Den} (h : Reads D 5 ts d)
    (hs : Stops D 5 rest) : Atoms D (ts ++ rest) d rest :=
  (h.parses hs).atoms

/-- The claim proved by induction over expressions. -/
def Back (D : Division) (e : Expr) : Prop :=
  ∃ d, Ref D e d ∧ Reads D (lvlOf e.prec) (toksF false e) d

theorem expect_some {α : Type} {t : Tok} {a : α} {r : List Tok} :
    expect t (some (a, t :: r)) = some (a, r) := by simp [expect]

/-- A text that is neither a negative name nor a quantifier after `(`, nor empty before `]`. -/
def Plain (ts : List Tok) : Prop := ∃ t r, ts = t :: r ∧ t ≠ .minus ∧ t ≠ .for_ ∧ t ≠ .rbrk ∧ t ≠ .then_ ∧ t ≠ .else_

theorem Plain.append {ts r : List Tok} (h : Plain ts) : Plain (ts ++ r) := by
  obtain ⟨t, s, rfl, h⟩ := h
  exact ⟨t, _, rfl, h⟩

theorem pAtom_paren {n : Nat} {ts : List Tok} (h : Plain ts) :
    pAtom D (n + 1) (.lpar :: ts) = expect .rpar (pP D n 0 ts) := by
  obtain ⟨t, r, rfl, h1, h2, _⟩ := h
  rw [pAtom]
  · simp [h1]
  · simp [h2]

theorem Atoms.paren {ts rest : List Tok} {d : Den} (h : Reads D 0 ts d) (hp : Plain ts) :
    Atoms D (.lpar :: ts ++ [.rpar] ++ rest) d rest := by
  obtain ⟨n, hn⟩ := h.parses (rest := .rpar :: rest) stops_rpar
  refine ⟨n + 1, fun m hm => ?_⟩
  obtain ⟨k, rfl⟩ : ∃ k, m = k + 1 := ⟨m - 1, by omega⟩
  simp only [List.cons_append, List.append_assoc, List.nil_append]
  rw [pAtom_paren hp.append, hn k (by omega), expect_some]

theorem Plain.wrapT {ng : Bool} {ts : List Tok} (h : Plain ts) : Plain (wrapT ng ts) := by
  unfold Verif.wrapT
  split
  · exact ⟨_, _, rfl, by simp⟩
  · exact h

theorem plain_word {w : PyStr} {ts : List Tok} : Plain (.word w :: ts) := ⟨_, _, rfl, by simp⟩

theorem Plain.parT {p : Nat} {e : Expr} {ts : List Tok} (h : Plain ts) : Plain (parT p e ts) := by
  unfold Verif.parT
  split
  · exact ⟨_, _, rfl, by simp⟩
  · exact h

theorem plain_toks (e : Expr) : Plain (toksF false e) := by
  induction e using Expr.ind with
  | tru => exact ⟨_, _, rfl, by simp⟩
  | fls => exact ⟨_, _, rfl, by simp⟩
  | undefined => exact ⟨_, _, rfl, by simp⟩
  | num v b => exact plain_word.wrapT
  | var ng imm id => exact plain_word.wrapT
  | attr ng k pre ih => exact ih.append.wrapT
  | sel ng pre s ih => exact ih.append.wrapT
  | call ng id args ih => exact plain_word.wrapT
  | not e ih => exact ⟨_, _, rfl, by simp⟩
  | bool op ts ih =>
    cases ts with
    | nil => exact ⟨_, _, rfl, by simp⟩
    | cons t ts => simp only [toksF]; exact (ih t (by simp)).parT.append
  | add ts ih =>
    cases ts with
    | nil => exact ⟨_, _, rfl, by simp⟩
    | cons t ts => simp only [toksF]; exact (ih t (by simp)).append
  | mul ts ih =>
    cases ts with
    | nil => exact ⟨_, _, rfl, by simp⟩
    | cons t ts => simp only [toksF]; exact (ih t (by simp)).parT.append
  | bin op l r ihl ihr => simp only [toksF]; exact ihl.parT.append
  | rel op l r ihl ihr => simp only [toksF]; exact ihl.parT.append.append
  | agg es ih => exact ⟨_, _, rfl, by simp⟩
  | quant k p it pr ihi ihp => exact ⟨_, _, rfl, by simp⟩

theorem Back.operand {e : Expr} (h : Back D e) {p L : Nat} (hL : L ≤ 5)
    (hp : p < e.prec → L ≤ lvlOf e.prec) :
    ∃ d, Ref D e d ∧ Reads D L (parT p e (toksF false e)) d := by
  obtain ⟨d, hr, hd⟩ := h
  refine ⟨d, hr, ?_⟩
  unfold parT
  split
  · refine Reads.down (L := 5) (Reads.of_atoms fun rest _ => ?_) hL (by omega)
    exact Atoms.paren (hd.down (by omega) (lvl_le e)) (plain_toks e)
  · exact hd.down (hp (by omega)) (lvl_le e)

/-! ### Numbers -/

theorem digitVal_char {d : Nat} (h : d < 16) : digitVal (digitChar d) = d := by
  have : ∀ d : Fin 16, digitVal (digitChar d.val) = d.val := by decide
  exact this ⟨d, h⟩

theorem fromDigits_digits {b f m : Nat} (hb : 2 ≤ b) (hb' : b ≤ 16) (hm : m ≤ f) :
    fromDigits b (digitsAux b f m) = m := by
  induction f generalizing m with
  | zero =>
    obtain rfl : m = 0 := by omega
    simp [digitsAux, fromDigits, digitVal_char]
  | succ f ih =>
    rw [digitsAux]
    split
    · simp [fromDigits, digitVal_char (d := m) (by omega)]
    · have h1 : m / b ≤ f := by
        have : m / b < m := Nat.div_lt_self (by omega) (by omega)
        omega
      have h2 : m % b < b := Nat.mod_lt _ (by omega)
      have := ih h1
      simp only [fromDigits] at this
      simp only [fromDigits, List.foldl_append, this, List.foldl_cons, List.foldl_nil]
      rw [digitVal_char (by omega), Nat.mul_comm]
      exact Nat.div_add_mod m b

theorem hash_digits {b m : Nat} : '#' ∉ digits b m := by
  intro h
  obtain ⟨d, hd⟩ := mem_digitsAux h
  have := digitChar_word d
  rw [← hd] at this
  simp [wordChar] at this

theorem numOf_natStr (b : NBase) (m : Nat) : numOf (natStr b m) = m := by
  have hd : ∀ b, 2 ≤ b → b ≤ 16 → fromDigits b (digits b m) = m := fun b h h' =>
    fromDigits_digits h h' (Nat.le_refl _)
  cases b
  case b0 => simp [numOf, natStr, hash_digits, hd]
  all_goals
    unfold numOf
    rw [if_pos (by simp [natStr])]
    simp only [natStr]
    simp
    first
    | exact hd 2 (by omega) (by omega)
    | exact hd 8 (by omega) (by omega)
    | exact hd 10 (by omega) (by omega)
    | exact hd 16 (by omega) (by omega)

/-! ### Names -/

theorem keyOf_str {i : ID} (h : i.Lex) : keyOf i.str = i.key := by
  have hv := h.valid
  unfold keyOf ID.str ID.key
  rw [split_join i.parts hv.1 (fun p hp => (hv.2 p hp).2.2.2)]

theorem kindOf_str (k : AttrKind) : kindOf k.str = some k := by cases k <;> decide

theorem Atoms.wrap {ts : List Tok} {d : Den} (h : ∀ rest, Follow rest → Atoms D (ts ++ rest) d rest) (ng : Bool)
    (rest : List Tok) (hf : Follow rest) : Atoms D (wrapT ng ts ++ rest) (if ng then dNeg d else d) rest := by
  cases ng with
  | false => exact h rest hf
  | true =>
    obtain ⟨n, hn⟩ := h (.rpar :: rest) (by simp [Follow])
    refine ⟨n + 1, fun m hm => ?_⟩
    obtain ⟨k, rfl⟩ : ∃ k, m = k + 1 := ⟨m - 1, by omega⟩
    simp only [wrapT, if_true, List.cons_append, List.append_assoc, List.nil_append]
    rw [pAtom, hn k (by omega), expect_some]
    rfl

/-- `- e` is read back, for a negative number or name `e`. -/
def Flip (D : Division) (e : Expr) : Prop :=
  ∃ d : Den, (∀ ρ x, eval D ρ e = some (.int x) → d ρ = some (.int (-x))) ∧
    ∀ rest, Follow rest → Atoms D (toksF true e ++ rest) d rest

theorem name_back {ng : Bool} {ts : List Tok} {d : Den} {e : Expr}
    (ha : ∀ rest, Follow rest → Atoms D (ts ++ rest) d rest)
    (hv : ∀ ρ v, eval D ρ e = some v → ∃ x, d ρ = some x ∧ x.negIf ng = some v)
    (ht : ∀ f, toksF f e = wrapT (ng ^^ f) ts) (hp : e.prec = 7) :
    Back D e ∧ (ng = true → Flip D e) := by
  constructor
  · refine ⟨if ng then dNeg d else d, ?_, ?_⟩
    · intro ρ v h
      obtain ⟨x, h1, h2⟩ := hv ρ v h
      cases ng
      · simpa [Val.negIf, h1] using h2
      · simp [dNeg, h1, h2]
    · rw [hp, ht false, Bool.xor_false]
      exact Reads.of_atoms (Atoms.wrap ha ng)
  · rintro rfl
    refine ⟨d, ?_, ?_⟩
    · intro ρ v h
      obtain ⟨x, h1, h2⟩ := hv ρ _ h
      rw [h1]
      cases x <;> simp [Val.negIf, Val.int?] at h2
      simp [← h2]
    · rw [ht true]
      exact ha

/-! ### Lists -/

theorem dList_cons {d : Den} {ds : List Den} {ρ : Env} {v : Val} {vs : List Val} (h : d ρ = some v)
    (hs : dList ds ρ = some vs) : dList (d :: ds) ρ = some (v :: vs) := by
  unfold dList at hs ⊢
  rw [allSome, h, hs]

theorem evalL_cons {ρ : Env} {e : Expr} {es : List Expr} {vs : List Val} :
    evalL D ρ (e :: es) = some vs ↔ ∃ w ws, eval D ρ e = some w ∧ evalL D ρ es = some ws ∧ vs = w :: ws := by
  rw [evalL]
  split
  · rename_i w ws h1 h2
    simp [h1, h2, eq_comm]
  · rename_i h
    simp only [reduceCtorEq, false_iff, not_exists]
    rintro w ws ⟨h1, h2, _⟩
    exact h w ws h1 h2

theorem list_back {es : List Expr} {e : Expr} (h : Back D e) (hs : ∀ t ∈ es, Back D t) :
    ∃ ds, (∀ ρ vs, evalL D ρ (e :: es) = some vs → dList ds ρ = some vs) ∧
      ∀ rest, Stops D 0 rest → (∀ r, rest ≠ .comma :: r) → Lists D (toksL (e :: es) ++ rest) ds rest := by
  induction es generalizing e with
  | nil =>
    obtain ⟨d, hr, hd⟩ := h
    refine ⟨[d], ?_, ?_⟩
    · intro ρ vs hv
      obtain ⟨w, ws, h1, h2, rfl⟩ := evalL_cons.1 hv
      simp only [evalL, Option.some.injEq] at h2
      subst h2
      exact dList_cons (hr _ _ h1) rfl
    · intro rest hs hc
      obtain ⟨n, hn⟩ := (hd.down (Nat.zero_le _) (lvl_le e)).parses hs
      refine ⟨n + 1, fun m hm => ?_⟩
      obtain ⟨k, rfl⟩ : ∃ k, m = k + 1 := ⟨m - 1, by omega⟩
      simp only [toksL, toksLTail, List.append_nil]
      rw [pList, hn k (by omega)]
      simp only [Option.bind_some]
  | cons e' es ih =>
    obtain ⟨d, hr, hd⟩ := h
    obtain ⟨ds, hdr, hds⟩ := ih (hs e' (by simp)) (fun t ht => hs t (by simp [ht]))
    refine ⟨d :: ds, ?_, ?_⟩
    · intro ρ vs hv
      obtain ⟨w, ws, h1, h2, rfl⟩ := evalL_cons.1 hv
      exact dList_cons (hr _ _ h1) (hdr _ _ h2)
    · intro rest hs hc
      obtain ⟨n, hn⟩ := (hd.down (Nat.zero_le _) (lvl_le e)).parses
        (rest := .comma :: (toksL (e' :: es) ++ rest)) stops_comma
      obtain ⟨n', hn'⟩ := hds rest hs hc
      refine ⟨n + n' + 1, fun m hm => ?_⟩
      obtain ⟨k, rfl⟩ : ∃ k, m = k + 1 := ⟨m - 1, by omega⟩
      simp only [toksL, toksLTail, List.append_assoc, List.cons_append] at hn hn' ⊢
      rw [pList, hn k (by omega)]
      simp only [Option.bind_some, hn' k (by omega), Option.map_some]

/-! ### Operators -/

theorem bind_cons {α : Type} {f : Val → Option α} {ρ : Env} {t : Expr} {ts : List Expr} {xs : List α}
    (h : (evalL D ρ (t :: ts)).bind (allSome f) = some xs) :
    ∃ w x ys, eval D ρ t = some w ∧ f w = some x ∧ (evalL D ρ ts).bind (allSome f) = some ys ∧ xs = x :: ys := by
  cases he : evalL D ρ (t :: ts) with
  | none => simp [he] at h
  | some vs =>
    obtain ⟨w, ws, h1, h2, rfl⟩ := evalL_cons.1 he
    rw [he, Option.bind_some, allSome] at h
    split at h
    · rename_i x ys hx hy
      exact ⟨w, x, ys, h1, hx, by rw [h2]; exact hy, by simpa using h.symm⟩
    · simp at h

theorem int?_some {w : Val} {x : Int} (h : w.int? = some x) : w = .int x := by
  cases w <;> simp_all [Val.int?]

theorem bool?_some {w : Val} {x : Bool} (h : w.bool? = some x) : w = .bool x := by
  cases w <;> simp_all [Val.bool?]

theorem opOf_bool (op : BoolOp) (t : Tok) (r : List Tok) (h1 : t ≠ .then_) (h2 : t ≠ .else_) :
    opOf D 0 (op.toks ++ t :: r) = some (dBool2 (if op.isAnd then and else or), t :: r) := by
  cases op
  · cases t <;> first | rfl | exact absurd rfl h1
  · rfl
  · cases t <;> first | rfl | exact absurd rfl h2
  · rfl

theorem opOf_rel (op : RelOp) (r : List Tok) : opOf D 1 (op.toks ++ r) = some (dRel op, r) := by
  cases op <;> simp [RelOp.toks, opOf]

theorem opOf_arith (op : ArithOp) (r : List Tok) :
    opOf D op.lvl (op.tok :: r) = some (dInt2 (ArithOp.eval D op), r) := by
  cases op <;> simp [ArithOp.tok, ArithOp.lvl, opOf] <;> rfl

theorem stops_addTail {ts : List Expr} {rest : List Tok} (h : Stops D 3 rest) :
    Stops D 3 (toksAddTail ts ++ rest) := by
  cases ts with
  | nil => exact h
  | cons t ts =>
    simp only [toksAddTail]
    split
    · exact stops_minus
    · exact stops_plus

theorem stops_mulTail {ts : List Expr} {rest : List Tok} (h : Stops D 4 rest) :
    Stops D 4 (toksMulTail ts ++ rest) := by
  cases ts with
  | nil => exact h
  | cons t ts => exact stops_star

theorem stops_boolTail {op : BoolOp} {ts : List Expr} {rest : List Tok} (h : Stops D 1 rest) :
    Stops D 1 (toksBoolTail op ts ++ rest) := by
  cases ts with
  | nil => exact h
  | cons t ts =>
    simp only [toksBoolTail, List.append_assoc]
    exact stops_bool

theorem operand_lvl {e : Expr} (p : Nat) (hp : p = 1 ∨ p = 2 ∨ p = 3 ∨ p = 5 ∨ p = 6) :
    p < e.prec → lvlOf p + 1 ≤ lvlOf e.prec := by
  intro h
  rcases hp with rfl | rfl | rfl | rfl | rfl <;> cases e <;> simp [Expr.prec, lvlOf] at h ⊢ <;>
    (rename_i op _ _; cases op <;> simp [ArithOp.prec] at h ⊢)

theorem add_tail {ts : List Expr} (h : ∀ t ∈ ts, Back D t ∧ (t.isNegative = true → Flip D t)) :
    ∃ F : Den → Den,
      (∀ ρ d x xs, d ρ = some (.int x) → (evalL D ρ ts).bind (allSome Val.int?) = some xs →
        F d ρ = some (.int (x + intSum xs))) ∧
      ∀ d rest d' r', Stops D 3 rest → Loops D 2 (F d) rest d' r' → Loops D 2 d (toksAddTail ts ++ rest) d' r' := by
  induction ts with
  | nil =>
    refine ⟨id, ?_, ?_⟩
    · intro ρ d x xs hd hx
      simp [evalL, allSome] at hx
      subst hx
      simp [hd, intSum]
    · intro d rest d' r' _ hl
      exact hl
  | cons t ts ih =>
    obtain ⟨F, hF, hL⟩ := ih (fun t ht => h t (by simp [ht]))
    obtain ⟨hb, hf⟩ := h t (by simp)
    by_cases hn : t.isNegative = true
    · obtain ⟨dt, hdt, hat⟩ := hf hn
      refine ⟨fun d => F (dInt2 (fun a b => some (a - b)) d dt), ?_, ?_⟩
      · intro ρ d x xs hd hx
        obtain ⟨w, y, ys, h1, h2, h3, rfl⟩ := bind_cons hx
        show F _ ρ = _
        rw [hF ρ _ (x + y) ys ?_ h3]
        · simp [intSum, Int.add_assoc]
        · rw [int?_some h2] at h1
          simp [dInt2, hd, hdt ρ y h1]
      · intro d rest d' r' hs hl
        simp only [toksAddTail, hn, if_true, List.cons_append, List.append_assoc]
        have h3 := stops_addTail (ts := ts) hs
        refine Loops.step (f := dInt2 (fun a b => some (a - b))) rfl ?_ (hL _ rest d' r' hs hl)
        have hr : Reads D 5 (toksF true t) dt := Reads.of_atoms hat
        exact (hr.down (L' := 3) (by omega) (by omega)).parses h3
    · obtain ⟨dt, hrt, hat⟩ := hb.operand (p := 3) (L := 3) (by omega) (operand_lvl 3 (by simp))
      refine ⟨fun d => F (dInt2 (fun a b => some (a + b)) d dt), ?_, ?_⟩
      · intro ρ d x xs hd hx
        obtain ⟨w, y, ys, h1, h2, h3, rfl⟩ := bind_cons hx
        show F _ ρ = _
        rw [hF ρ _ (x + y) ys ?_ h3]
        · simp [intSum, Int.add_assoc]
        · rw [int?_some h2] at h1
          simp [dInt2, hd, hrt ρ _ h1]
      · intro d rest d' r' hs hl
        simp only [toksAddTail, hn, if_false, List.cons_append, List.append_assoc, Bool.false_eq_true]
        have h3 := stops_addTail (ts := ts) hs
        exact Loops.step (f := dInt2 (fun a b => some (a + b))) rfl (hat.parses h3) (hL _ rest d' r' hs hl)

theorem mul_tail {ts : List Expr} (h : ∀ t ∈ ts, Back D t) :
    ∃ F : Den → Den,
      (∀ ρ d x xs, d ρ = some (.int x) → (evalL D ρ ts).bind (allSome Val.int?) = some xs →
        F d ρ = some (.int (x * intProd xs))) ∧
      ∀ d rest d' r', Stops D 4 rest → Loops D 3 (F d) rest d' r' → Loops D 3 d (toksMulTail ts ++ rest) d' r' := by
  induction ts with
  | nil =>
    refine ⟨id, ?_, ?_⟩
    · intro ρ d x xs hd hx
      simp [evalL, allSome] at hx
      subst hx
      simp [hd, intProd]
    · intro d rest d' r' _ hl
      exact hl
  | cons t ts ih =>
    obtain ⟨F, hF, hL⟩ := ih (fun t ht => h t (by simp [ht]))
    have hb := h t (by simp)
    obtain ⟨dt, hrt, hat⟩ := hb.operand (p := 5) (L := 4) (by omega) (operand_lvl 5 (by simp))
    refine ⟨fun d => F (dInt2 (fun a b => some (a * b)) d dt), ?_, ?_⟩
    · intro ρ d x xs hd hx
      obtain ⟨w, y, ys, h1, h2, h3, rfl⟩ := bind_cons hx
      show F _ ρ = _
      rw [hF ρ _ (x * y) ys ?_ h3]
      · simp [intProd, Int.mul_assoc]
      · rw [int?_some h2] at h1
        simp [dInt2, hd, hrt ρ _ h1]
    · intro d rest d' r' hs hl
      simp only [toksMulTail, List.cons_append, List.append_assoc]
      have h3 := stops_mulTail (ts := ts) hs
      exact Loops.step (f := dInt2 (fun a b => some (a * b))) rfl (hat.parses h3) (hL _ rest d' r' hs hl)

theorem bool_tail {op : BoolOp} {ts : List Expr} (h : ∀ t ∈ ts, Back D t) :
    ∃ F : Den → Den,
      (∀ ρ d x xs, d ρ = some (.bool x) → (evalL D ρ ts).bind (allSome Val.bool?) = some xs →
        F d ρ = some (.bool (if op.isAnd then x && xs.all id else x || xs.any id))) ∧
      ∀ d rest d' r', Stops D 1 rest → Loops D 0 (F d) rest d' r' → Loops D 0 d (toksBoolTail op ts ++ rest) d' r' := by
  induction ts with
  | nil =>
    refine ⟨id, ?_, ?_⟩
    · intro ρ d x xs hd hx
      simp [evalL, allSome] at hx
      subst hx
      simp [hd]
    · intro d rest d' r' _ hl
      exact hl
  | cons t ts ih =>
    obtain ⟨F, hF, hL⟩ := ih (fun t ht => h t (by simp [ht]))
    have hb := h t (by simp)
    obtain ⟨dt, hrt, hat⟩ := hb.operand (p := 1) (L := 1) (by omega) (operand_lvl 1 (by simp))
    refine ⟨fun d => F (dBool2 (if op.isAnd then and else or) d dt), ?_, ?_⟩
    · intro ρ d x xs hd hx
      obtain ⟨w, y, ys, h1, h2, h3, rfl⟩ := bind_cons hx
      show F _ ρ = _
      rw [hF ρ _ (if op.isAnd then x && y else x || y) ys ?_ h3]
      · cases op.isAnd <;> simp [Bool.and_assoc, Bool.or_assoc]
      · rw [bool?_some h2] at h1
        simp only [dBool2, hd, hrt ρ _ h1]
        cases op.isAnd <;> rfl
    · intro d rest d' r' hs hl
      obtain ⟨k, r, hk, _, _, _, hk1, hk2⟩ := (plain_toks t).parT (p := 1) (e := t)
      have h3 := stops_boolTail (op := op) (ts := ts) hs
      have hp := hat.parses h3
      simp only [toksBoolTail, List.append_assoc]
      rw [hk] at hp ⊢
      exact Loops.step (opOf_bool op k _ hk1 hk2) hp (hL _ rest d' r' hs hl)

/-- Numbers. -/
theorem Atoms.num (b : NBase) (m : Nat) (rest : List Tok) :
    Atoms D ([.word (natStr b m)] ++ rest) (fun _ => some (.int m)) rest := by
  obtain ⟨c, s, h, hd⟩ := natStr_head (b := b) (m := m)
  refine ⟨1, fun k hk => ?_⟩
  obtain ⟨k, rfl⟩ : ∃ j, k = j + 1 := ⟨k - 1, by omega⟩
  have hn := numOf_natStr b m
  rw [h] at hn ⊢
  simp [pAtom, hd, hn]

theorem Atoms.var {i : ID} (h : i.Lex) (rest : List Tok) (hf : Follow rest) :
    Atoms D ([.word i.str] ++ rest) (fun ρ => some (ρ.var i.key)) rest := by
  obtain ⟨c, s, hs, _, hd⟩ := h.head
  refine ⟨1, fun k hk => ?_⟩
  obtain ⟨k, rfl⟩ : ∃ j, k = j + 1 := ⟨k - 1, by omega⟩
  have hk := keyOf_str h
  rw [hs] at hk ⊢
  simp only [List.cons_append, List.nil_append, pAtom, hd, Bool.false_eq_true, if_false, hk]
  match rest with
  | [] => rfl
  | t :: r =>
    simp only [Follow] at hf
    obtain ⟨h1, h2, h3⟩ := hf
    cases t <;> simp_all

theorem Atoms.attr {i : ID} (h : i.Lex) (k : AttrKind) (rest : List Tok) :
    Atoms D ([.word i.str, .quote, .word k.str] ++ rest) (fun ρ => some (ρ.attr k i.key)) rest := by
  obtain ⟨c, s, hs, _, hd⟩ := h.head
  refine ⟨1, fun m hm => ?_⟩
  obtain ⟨m, rfl⟩ : ∃ j, m = j + 1 := ⟨m - 1, by omega⟩
  have hk := keyOf_str h
  rw [hs] at hk ⊢
  simp [pAtom, hd, hk, kindOf_str]

theorem Atoms.sel {i j : ID} (h : i.Lex) (hj : j.Lex) (rest : List Tok) :
    Atoms D ([.word i.str, .dot, .word j.str] ++ rest) (fun ρ => some (ρ.sel i.key j.key)) rest := by
  obtain ⟨c, s, hs, _, hd⟩ := h.head
  refine ⟨1, fun m hm => ?_⟩
  obtain ⟨m, rfl⟩ : ∃ j, m = j + 1 := ⟨m - 1, by omega⟩
  have hk := keyOf_str h
  have hj := keyOf_str hj
  rw [hs] at hk ⊢
  simp [pAtom, hd, hk, hj]

theorem Atoms.call {i : ID} (h : i.Lex) {ts rest : List Tok} {ds : List Den}
    (hl : Lists D (ts ++ .rpar :: rest) ds (.rpar :: rest)) :
    Atoms D (.word i.str :: .lpar :: ts ++ [.rpar] ++ rest)
      (fun ρ => (dList ds ρ).map (ρ.call i.key)) rest := by
  obtain ⟨c, s, hs, _, hd⟩ := h.head
  obtain ⟨n, hn⟩ := hl
  refine ⟨n + 1, fun m hm => ?_⟩
  obtain ⟨m, rfl⟩ : ∃ j, m = j + 1 := ⟨m - 1, by omega⟩
  have hk := keyOf_str h
  rw [hs] at hk ⊢
  simp only [List.cons_append, List.append_assoc, List.nil_append, pAtom, hd, Bool.false_eq_true, if_false]
  rw [hn m (by omega), expect_some]
  simp only [Option.map_some, Option.some.injEq, Prod.mk.injEq, and_true]
  funext ρ
  rw [dCall, hk]

/-- Every well-formed expression is read back. -/
theorem back (e : Expr) : e.WF → Back D e ∧ (e.isNegative = true → Flip D e) := by
  induction e using Expr.ind with
  | tru =>
    refine fun _ => ⟨⟨fun _ => some (.bool true), fun _ _ h => h, ?_⟩, by simp [Expr.isNegative]⟩
    refine Reads.of_atoms fun rest _ => ⟨1, fun m hm => ?_⟩
    obtain ⟨k, rfl⟩ : ∃ j, m = j + 1 := ⟨m - 1, by omega⟩
    simp [toksF, pAtom]
  | fls =>
    refine fun _ => ⟨⟨fun _ => some (.bool false), fun _ _ h => h, ?_⟩, by simp [Expr.isNegative]⟩
    refine Reads.of_atoms fun rest _ => ⟨1, fun m hm => ?_⟩
    obtain ⟨k, rfl⟩ : ∃ j, m = j + 1 := ⟨m - 1, by omega⟩
    simp [toksF, pAtom]
  | undefined => intro h; simp [Expr.WF] at h
  | num v b =>
    intro _
    constructor
    · refine ⟨_, ?_, Reads.of_atoms (Atoms.wrap (fun rest _ => Atoms.num b v.natAbs rest) (v < 0))⟩
      intro ρ w h
      simp only [eval, Option.some.injEq] at h
      subst h
      by_cases hv : v < 0
      · simp only [hv, decide_true, if_true, dNeg, Val.negIf, Option.bind_some, Val.int?, Option.map_some,
          Option.some.injEq, Val.int.injEq]
        omega
      · simp only [hv, decide_false, Bool.false_eq_true, if_false]
        congr 2; omega
    · intro hn
      simp only [Expr.isNegative, decide_eq_true_eq] at hn
      refine ⟨fun _ => some (.int (-v).natAbs), ?_, ?_⟩
      · intro ρ x h
        simp only [eval, Option.some.injEq, Val.int.injEq] at h
        subst h
        simp only [Option.some.injEq, Val.int.injEq]; omega
      · intro rest _
        have : ¬ (-v < 0) := by omega
        simp only [toksF, if_true, wrapT, this, decide_false, Bool.false_eq_true, if_false]
        exact Atoms.num _ _ rest
  | var ng imm id =>
    intro hw
    simp only [Expr.WF] at hw
    refine name_back (ng := ng) (Atoms.var hw) ?_ (fun f => by simp [toksF]) rfl
    intro ρ v h
    exact ⟨_, rfl, h⟩
  | attr ng k pre ih =>
    intro hw
    cases pre with
    | var n2 imm id =>
      simp only [Expr.WF] at hw
      obtain ⟨rfl, hl⟩ := hw
      refine name_back (ng := ng) (fun rest _ => Atoms.attr hl k rest) ?_ (fun f => by simp [toksF, wrapT]) rfl
      intro ρ v h
      exact ⟨_, rfl, h⟩
    | _ => simp [Expr.WF] at hw
  | sel ng pre s ih =>
    intro hw
    cases pre with
    | var n2 imm id =>
      simp only [Expr.WF] at hw
      obtain ⟨rfl, hl, hs⟩ := hw
      refine name_back (ng := ng) (fun rest _ => Atoms.sel hl hs rest) ?_ (fun f => by simp [toksF, wrapT]) rfl
      intro ρ v h
      exact ⟨_, rfl, h⟩
    | _ => simp [Expr.WF] at hw
  | call ng id args ih =>
    intro hw
    simp only [Expr.WF, WFL_iff] at hw
    cases args with
    | nil =>
      refine name_back (ng := ng) (Atoms.var hw.1) ?_ (fun f => by simp [toksF]) rfl
      intro ρ v h
      exact ⟨_, rfl, h⟩
    | cons a as =>
      obtain ⟨ds, hdr, hds⟩ := list_back (D := D) (es := as) (ih a (by simp) (hw.2 a (by simp))).1
        (fun t ht => (ih t (by simp [ht]) (hw.2 t (by simp [ht]))).1)
      refine name_back (ng := ng) (fun rest _ => Atoms.call hw.1 (hds (.rpar :: rest) stops_rpar (by simp))) ?_
        (fun f => by simp [toksF]) rfl
      intro ρ v h
      simp only [eval] at h
      split at h
      · rename_i vs hvs
        exact ⟨_, by rw [hdr ρ _ hvs]; rfl, h⟩
      · simp at h
  | not e ih =>
    intro hw
    simp only [Expr.WF] at hw
    refine ⟨?_, by simp [Expr.isNegative]⟩
    obtain ⟨d, hr, hd⟩ := (ih hw).1.operand (p := 6) (L := 5) (by omega) (operand_lvl 6 (by simp))
    refine ⟨dNot d, ?_, ?_⟩
    · intro ρ v h
      simp only [eval] at h
      split at h
      · rename_i b hb
        simp only [dNot, hr _ _ hb]
        exact h
      · simp at h
    · refine Reads.down (L := 5) (Reads.of_atoms fun rest hf => ?_) (by simp [Expr.prec, lvlOf]) (by omega)
      obtain ⟨n, hn⟩ := hd.atoms (rest := rest) ⟨fun j hj => opOf_big hj, hf⟩
      refine ⟨n + 1, fun m hm => ?_⟩
      obtain ⟨k, rfl⟩ : ∃ j, m = j + 1 := ⟨m - 1, by omega⟩
      simp only [toksF, List.cons_append, pAtom]
      rw [hn k (by omega)]
      rfl
  | bool op ts ih =>
    intro hw
    simp only [Expr.WF, WFL_iff] at hw
    refine ⟨?_, by simp [Expr.isNegative]⟩
    cases ts with
    | nil =>
      refine ⟨fun _ => some (.bool true), ?_, ?_⟩
      · intro ρ v h
        simpa [eval, evalL, allSome, hw.2 rfl] using h
      · refine Reads.down (L := 5) (Reads.of_atoms fun rest _ => ⟨1, fun m hm => ?_⟩) (by simp [Expr.prec, lvlOf]) (by omega)
        obtain ⟨k, rfl⟩ : ∃ j, m = j + 1 := ⟨m - 1, by omega⟩
        simp [toksF, pAtom]
    | cons t ts =>
      obtain ⟨d, hr, hd⟩ := (ih t (by simp) (hw.1 t (by simp))).1.operand (p := 1) (L := 1) (by omega)
        (operand_lvl 1 (by simp))
      obtain ⟨F, hF, hL⟩ := bool_tail (op := op) (ts := ts) (fun t ht => (ih t (by simp [ht]) (hw.1 t (by simp [ht]))).1)
      refine ⟨F d, ?_, ?_⟩
      · intro ρ v h
        simp only [eval] at h
        split at h
        · rename_i bs hbs
          obtain ⟨w, y, ys, h1, h2, h3, rfl⟩ := bind_cons hbs
          rw [bool?_some h2] at h1
          rw [hF ρ d y ys (hr _ _ h1) h3, ← h]
          simp
        · simp at h
      · intro rest d' r' hs hl
        simp only [toksF, List.append_assoc]
        exact Parses.step (by simp [Expr.prec, lvlOf]) (hd.parses (stops_boolTail hs)) (hL d rest d' r' hs hl)
  | add ts ih =>
    intro hw
    simp only [Expr.WF, WFL_iff] at hw
    refine ⟨?_, by simp [Expr.isNegative]⟩
    cases ts with
    | nil =>
      refine ⟨fun _ => some (.int 0), ?_, ?_⟩
      · intro ρ v h
        simpa [eval, evalL, allSome, intSum] using h
      · exact Reads.down (L := 5) (Reads.of_atoms fun rest _ => Atoms.num .b0 0 rest)
          (by simp [Expr.prec, lvlOf]) (by omega)
    | cons t ts =>
      obtain ⟨d, hr, hd⟩ := (ih t (by simp) (hw.1 t (by simp))).1
      have h2 : 2 ≤ lvlOf t.prec := by
        have := hw.2
        cases t <;> simp [Expr.prec, lvlOf, Expr.headOK] at this ⊢
        rename_i op _ _; cases op <;> simp [ArithOp.prec]
      obtain ⟨F, hF, hL⟩ := add_tail (ts := ts) (fun t ht => ih t (by simp [ht]) (hw.1 t (by simp [ht])))
      refine ⟨F d, ?_, ?_⟩
      · intro ρ v h
        simp only [eval] at h
        split at h
        · rename_i bs hbs
          obtain ⟨w, y, ys, h1, h2, h3, rfl⟩ := bind_cons hbs
          rw [int?_some h2] at h1
          rw [hF ρ d y ys (hr _ _ h1) h3, ← h]
          simp [intSum]
        · simp at h
      · intro rest d' r' hs hl
        simp only [toksF, List.append_assoc]
        exact hd.down h2 (lvl_le t) _ _ _ (stops_addTail hs) (hL d rest d' r' hs hl)
  | mul ts ih =>
    intro hw
    simp only [Expr.WF, WFL_iff] at hw
    refine ⟨?_, by simp [Expr.isNegative]⟩
    cases ts with
    | nil =>
      refine ⟨fun _ => some (.int 1), ?_, ?_⟩
      · intro ρ v h
        simpa [eval, evalL, allSome, intProd] using h
      · exact Reads.down (L := 5) (Reads.of_atoms fun rest _ => Atoms.num .b0 1 rest)
          (by simp [Expr.prec, lvlOf]) (by omega)
    | cons t ts =>
      obtain ⟨d, hr, hd⟩ := (ih t (by simp) (hw t (by simp))).1.operand (p := 5) (L := 4) (by omega)
        (operand_lvl 5 (by simp))
      obtain ⟨F, hF, hL⟩ := mul_tail (ts := ts) (fun t ht => (ih t (by simp [ht]) (hw t (by simp [ht]))).1)
      refine ⟨F d, ?_, ?_⟩
      · intro ρ v h
        simp only [eval] at h
        split at h
        · rename_i bs hbs
          obtain ⟨w, y, ys, h1, h2, h3, rfl⟩ := bind_cons hbs
          rw [int?_some h2] at h1
          rw [hF ρ d y ys (hr _ _ h1) h3, ← h]
          simp [intProd]
        · simp at h
      · intro rest d' r' hs hl
        simp only [toksF, List.append_assoc]
        exact Parses.step (by simp [Expr.prec, lvlOf]) (hd.parses (stops_mulTail hs)) (hL d rest d' r' hs hl)
  | bin op l r ihl ihr =>
    intro hw
    simp only [Expr.WF] at hw
    refine ⟨?_, by simp [Expr.isNegative]⟩
    have hp : op.prec = 1 ∨ op.prec = 2 ∨ op.prec = 3 ∨ op.prec = 5 ∨ op.prec = 6 := by
      cases op <;> simp [ArithOp.prec]
    have hlv : lvlOf op.prec = op.lvl := by cases op <;> rfl
    have h5 : op.lvl < 5 := by cases op <;> simp [ArithOp.lvl]
    obtain ⟨dl, hrl, hdl⟩ := (ihl hw.1).1.operand (p := op.prec) (L := op.lvl + 1) (by omega)
      (hlv ▸ operand_lvl _ hp)
    obtain ⟨dr, hrr, hdr⟩ := (ihr hw.2).1.operand (p := op.prec) (L := op.lvl + 1) (by omega)
      (hlv ▸ operand_lvl _ hp)
    refine ⟨dInt2 (ArithOp.eval D op) dl dr, ?_, ?_⟩
    · intro ρ v h
      simp only [eval] at h
      split at h
      · rename_i a b ha hb
        simp only [dInt2, hrl _ _ ha, hrr _ _ hb]
        exact h
      · simp at h
    · intro rest d' r' hs hl
      simp only [Expr.prec, hlv] at hs hl ⊢
      simp only [toksF, List.append_assoc, List.cons_append]
      exact Parses.step h5 (hdl.parses stops_arith)
        (Loops.step (opOf_arith op _) (hdr.parses hs) hl)
  | rel op l r ihl ihr =>
    intro hw
    simp only [Expr.WF] at hw
    refine ⟨?_, by simp [Expr.isNegative]⟩
    obtain ⟨dl, hrl, hdl⟩ := (ihl hw.1).1.operand (p := 2) (L := 2) (by omega) (operand_lvl 2 (by simp))
    obtain ⟨dr, hrr, hdr⟩ := (ihr hw.2).1.operand (p := 2) (L := 2) (by omega) (operand_lvl 2 (by simp))
    refine ⟨dRel op dl dr, ?_, ?_⟩
    · intro ρ v h
      simp only [eval] at h
      split at h
      · rename_i a b ha hb
        simp only [dRel, hrl _ _ ha, hrr _ _ hb]
        exact h
      · simp at h
    · intro rest d' r' hs hl
      simp only [Expr.prec, lvlOf] at hs hl ⊢
      simp only [toksF, List.append_assoc]
      exact Parses.step (by omega) (hdl.parses stops_rel)
        (Loops.step (opOf_rel op _) (hdr.parses hs) hl)
  | agg es ih =>
    intro hw
    simp only [Expr.WF, WFL_iff] at hw
    refine ⟨?_, by simp [Expr.isNegative]⟩
    cases es with
    | nil =>
      refine ⟨dAgg [], ?_, Reads.of_atoms fun rest _ => ⟨1, fun m hm => ?_⟩⟩
      · intro ρ v h
        exact h
      · obtain ⟨k, rfl⟩ : ∃ j, m = j + 1 := ⟨m - 1, by omega⟩
        simp [toksF, toksL, pAtom]
    | cons a as =>
      obtain ⟨ds, hdr, hds⟩ := list_back (D := D) (es := as) (ih a (by simp) (hw a (by simp))).1
        (fun t ht => (ih t (by simp [ht]) (hw t (by simp [ht]))).1)
      refine ⟨dAgg ds, ?_, Reads.of_atoms fun rest _ => ?_⟩
      · intro ρ v h
        simp only [eval] at h
        split at h
        · rename_i xs hxs
          cases he : evalL D ρ (a :: as) with
          | none => simp [he] at hxs
          | some vs =>
            rw [he] at hxs
            simp only [dAgg, hdr ρ vs he, hxs]
            exact h
        · simp at h
      · obtain ⟨n, hn⟩ := hds (.rbrk :: rest) stops_rbrk (by simp)
        refine ⟨n + 1, fun m hm => ?_⟩
        obtain ⟨k, rfl⟩ : ∃ j, m = j + 1 := ⟨m - 1, by omega⟩
        obtain ⟨t, r, ht, _, _, h3, _⟩ := (plain_toks a).append (r := toksLTail as)
        have hn := hn k (by omega)
        simp only [toksF, toksL, List.append_assoc, List.cons_append, List.nil_append] at hn ht ⊢
        rw [← List.append_assoc] at hn ⊢
        rw [ht] at hn ⊢
        rw [List.cons_append] at hn ⊢
        rw [pAtom, hn, expect_some]
        · rfl
        · simp [h3]
  | quant k p it pr ihi ihp =>
    intro hw
    simp only [Expr.WF] at hw
    refine ⟨?_, by simp [Expr.isNegative]⟩
    obtain ⟨di, hri, hdi⟩ := (ihi hw.2.1).1
    obtain ⟨dp, hrp, hdp⟩ := (ihp hw.2.2).1
    refine ⟨dQuant (k.toks.1 == .some) p.str di dp, ?_, Reads.of_atoms fun rest _ => ?_⟩
    · intro ρ v h
      simp only [eval] at h
      split at h
      · rename_i xs hxs
        split at h
        · rename_i bs hbs
          simp only [dQuant, hri _ _ hxs, keyOf_str hw.1]
          have : allSome (fun x => (dp (ρ.set p.key (.int x))).bind Val.bool?) xs = some bs := by
            rw [allSome_some] at hbs ⊢
            refine forall₂_imp hbs ?_
            intro x b hb
            obtain ⟨w, hw1, hw2⟩ := Option.bind_eq_some_iff.1 hb
            rw [hrp _ _ hw1]
            exact hw2
          rw [this]
          simp only
          rw [← h]
          cases k <;> rfl
        · simp at h
      · simp at h
    · obtain ⟨n, hn⟩ := (hdi.down (Nat.zero_le _) (lvl_le it)).parses
        (rest := .arrow :: (toksF false pr ++ .rpar :: rest)) stops_arrow
      obtain ⟨n', hn'⟩ := (hdp.down (Nat.zero_le _) (lvl_le pr)).parses (rest := .rpar :: rest) stops_rpar
      refine ⟨n + n' + 1, fun m hm => ?_⟩
      obtain ⟨j, rfl⟩ : ∃ j, m = j + 1 := ⟨m - 1, by omega⟩
      simp only [toksF, List.append_assoc, List.cons_append, List.nil_append]
      rw [pAtom, hn j (by omega), expect_some]
      simp only [Option.bind_some]
      rw [hn' j (by omega), expect_some]
      rfl

/-- Printed forms are unambiguous. -/
theorem str_sound {a b : Expr} (ha : a.WF) (hb : b.WF) (h : a.str = b.str) {ρ : Env} {x y : Val}
    (hx : eval D ρ a = some x) (hy : eval D ρ b = some y) : x = y := by
  have ta := (lexOK a ha).lex false [] trivial
  have tb := (lexOK b hb).lex false [] trivial
  have e0 : lexT [] = [] := rfl
  simp only [List.append_nil, e0] at ta tb
  have ht : toksF false a = toksF false b := by
    rw [← ta, ← tb]; exact congrArg lexT h
  obtain ⟨⟨da, hra, hda⟩, _⟩ := back (D := D) a ha
  obtain ⟨⟨db, hrb, hdb⟩, _⟩ := back (D := D) b hb
  have pa := (hda.down (Nat.zero_le _) (lvl_le a)).parses (rest := []) stops_nil
  have pb := (hdb.down (Nat.zero_le _) (lvl_le b)).parses (rest := []) stops_nil
  rw [ht] at pa
  obtain ⟨rfl, _⟩ := pa.unique pb
  have := (hra _ _ hx).symm.trans (hrb _ _ hy)
  simpa using this

theorem eqSound (D : Division) : EqSound D := by
  intro a b ha hb h ρ x y hx hy
  have hs : (a.str == b.str) = true → x = y := fun h => str_sound ha hb (by simpa using h) hx hy
  simp only [Expr.eq, Bool.and_eq_true] at h
  have h := h.2
  split at h
  · simp only [eval, Option.some.injEq] at hx hy
    subst hx; subst hy
    simpa using h
  · simp only [Bool.and_eq_true, beq_iff_eq, ID.eq_iff_key] at h
    simp only [eval, h.1, h.2] at hx hy
    exact Option.some.inj (hx.symm.trans hy)
  · exact hs h

end Verif
