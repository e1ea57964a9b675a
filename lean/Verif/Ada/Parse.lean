import Verif.Ada.Grammar

/-! # Helper lemmas: a text can be read in one way only

A parser with a bound on the number of steps reads every sequence of elements that belongs to the grammar; as the parser is a function, there
is only one tree. The parser accepts more than the grammar. -/

namespace Verif.Ada
open Verif

/-- The operator at the start, by level: 0 logical, 1 relational, 2 adding, 3 multiplying, 4 exponentiation. -/
def opOf (L : Nat) (ts : List Tok) : Option ((Tree → Tree → Tree) × List Tok) :=
  match L, ts with
  | 0, .and :: .then_ :: r => some (.bool .andThen, r)
  | 0, .and :: r => some (.bool .and, r)
  | 0, .or :: .else_ :: r => some (.bool .orElse, r)
  | 0, .or :: r => some (.bool .or, r)
  | 1, .lt :: r => some (.rel .lt, r)
  | 1, .le :: r => some (.rel .le, r)
  | 1, .eq :: r => some (.rel .eq, r)
  | 1, .ge :: r => some (.rel .ge, r)
  | 1, .gt :: r => some (.rel .gt, r)
  | 1, .ne :: r => some (.rel .ne, r)
  | 1, .in_ :: r => some (.rel .isIn, r)
  | 1, .not :: .in_ :: r => some (.rel .notIn, r)
  | 2, .plus :: r => some (.math .add, r)
  | 2, .minus :: r => some (.math .sub, r)
  | 3, .star :: r => some (.math .mul, r)
  | 3, .slash :: r => some (.math .div, r)
  | 3, .mod :: r => some (.math .mod, r)
  | 4, .pow :: r => some (.math .pow, r)
  | _, _ => none

/-- What is read next. -/
inductive Mode | lvl (L : Nat) | loop (L : Nat) (t : Tree) | atom | name (t : Tree) | list | cond | assocs | alts | choices

/-- The next element must be `t`. -/
def expect (t : Tok) (x : Option (Tree × List Tok)) : Option (Tree × List Tok) :=
  x.bind fun p =>
    match p.2 with
    | u :: r => if u = t then some (p.1, r) else none
    | [] => none

/-- The kind of a quantified expression. -/
def quantOf : Tok → Tok → Option QKind
  | .all, .of => some .allOf
  | .all, .in_ => some .allIn
  | .some, .in_ => some .someIn
  | _, _ => none

/-- A parenthesised expression or an aggregate. -/
def unwrap : Tree → Tree
  | .agg [t] => t
  | t => t

def lvlStep (f : Mode → List Tok → Option (Tree × List Tok)) (L : Nat) (ts : List Tok) : Option (Tree × List Tok) :=
  match L, ts with
  | 2, .minus :: r => (f (.lvl 3) r).bind fun p => f (.loop 2 (.neg p.1)) p.2
  | L, ts => if L ≥ 5 then f .atom ts else (f (.lvl (L + 1)) ts).bind fun p => f (.loop L p.1) p.2

def loopStep (f : Mode → List Tok → Option (Tree × List Tok)) (L : Nat) (t : Tree) (ts : List Tok) : Option (Tree × List Tok) :=
  match opOf L ts with
  | none => some (t, ts)
  | some (g, r) => (f (.lvl (L + 1)) r).bind fun p => f (.loop L (g t p.1)) p.2

/-- What follows a list after an opening parenthesis: the end, or the first of several named components. -/
def parenStep (f : Mode → List Tok → Option (Tree × List Tok)) : Tree × List Tok → Option (Tree × List Tok)
  | (.agg [.id x], .arrow :: r) => expect .rpar (f .assocs (.ident x :: .arrow :: r))
  | (t, .rpar :: r) => some (unwrap t, r)
  | _ => none

/-- What follows the first expression of a quantified expression: the predicate, or the end of a range. -/
def overStep (f : Mode → List Tok → Option (Tree × List Tok)) (k : QKind) (x : PyStr) : Tree × List Tok → Option (Tree × List Tok)
  | (t, .arrow :: r) => (expect .rpar (f (.lvl 0) r)).map fun p => (.quant k x t p.1, p.2)
  | (t, .dots :: r) => (expect .arrow (f (.lvl 0) r)).bind fun u =>
      (expect .rpar (f (.lvl 0) u.2)).map fun p => (.quant k x (.range t u.1) p.1, p.2)
  | _ => none

def atomStep (f : Mode → List Tok → Option (Tree × List Tok)) : List Tok → Option (Tree × List Tok)
  | .num n :: r => some (.num n, r)
  | .ident x :: r => f (.name (.id x)) r
  | .not :: r => (f .atom r).map fun p => (.not p.1, p.2)
  | .lpar :: .if_ :: r => expect .rpar (f .cond r)
  | .lpar :: .for_ :: q :: .ident x :: o :: r =>
    (quantOf q o).bind fun k => (f (.lvl 0) r).bind (overStep f k x)
  | .lpar :: .reserved w :: r =>
    if w = "case".toList then
      (expect (kw "is") (f (.lvl 0) r)).bind fun c => (expect .rpar (f .alts c.2)).map fun p => (.case c.1 p.1, p.2)
    else expect .rpar (f .assocs (.reserved w :: r))
  | .lpar :: r => (f .list r).bind (parenStep f)
  | _ => none

def argStep (f : Mode → List Tok → Option (Tree × List Tok)) (t : Tree) : Tree × List Tok → Option (Tree × List Tok)
  | (.agg es, .rpar :: r) => f (.name (.app t es)) r
  | (.agg [lo], .dots :: r) => (expect .rpar (f (.lvl 0) r)).bind fun q => f (.name (.slice t lo q.1)) q.2
  | _ => none

def nameStep (f : Mode → List Tok → Option (Tree × List Tok)) (t : Tree) : List Tok → Option (Tree × List Tok)
  | .dot :: .ident x :: r => f (.name (.sel t x)) r
  | .dot :: .all :: r => f (.name (.sel t "all".toList)) r
  | .tick :: .ident x :: r => f (.name (.attr t x)) r
  | .tick :: .range :: r => f (.name (.attr t "range".toList)) r
  | .lpar :: r => (f .list r).bind (argStep f t)
  | r => some (t, r)

def moreStep (f : Mode → List Tok → Option (Tree × List Tok)) : Tree × List Tok → Option (Tree × List Tok)
  | (t, .comma :: r) => (f .list r).bind fun q => match q.1 with | .agg es => some (.agg (t :: es), q.2) | _ => none
  | (t, r) => some (.agg [t], r)

def elseStep (f : Mode → List Tok → Option (Tree × List Tok)) (c : Tree) : Tree × List Tok → Option (Tree × List Tok)
  | (t, .else_ :: r) => (f (.lvl 0) r).map fun e => (.cond c t (some e.1), e.2)
  | (t, .elsif :: r) => (f .cond r).map fun e => (.cond c t (some e.1), e.2)
  | (t, r) => some (.cond c t none, r)

def assocsStep (f : Mode → List Tok → Option (Tree × List Tok)) (x : PyStr) : Tree × List Tok → Option (Tree × List Tok)
  | (t, .comma :: r) => (f .assocs r).bind fun q => match q.1 with | .named es => some (.named ((x, t) :: es), q.2) | _ => none
  | (t, r) => some (.named [(x, t)], r)

def altStep (f : Mode → List Tok → Option (Tree × List Tok)) (cs : List Tree) : Tree × List Tok → Option (Tree × List Tok)
  | (t, .comma :: r) => (f .alts r).map fun q => (.alt cs t (some q.1), q.2)
  | (t, r) => some (.alt cs t none, r)

def choiceStep (f : Mode → List Tok → Option (Tree × List Tok)) : Tree × List Tok → Option (Tree × List Tok)
  | (t, .bar :: r) => (f .choices r).bind fun q => match q.1 with | .agg cs => some (.agg (t :: cs), q.2) | _ => none
  | (t, r) => some (.agg [t], r)

def choicesStep (f : Mode → List Tok → Option (Tree × List Tok)) : List Tok → Option (Tree × List Tok)
  | .reserved _ :: r => choiceStep f (.others, r)
  | r => (f (.lvl 0) r).bind (choiceStep f)

def step (f : Mode → List Tok → Option (Tree × List Tok)) : Mode → List Tok → Option (Tree × List Tok)
  | .lvl L, ts => lvlStep f L ts
  | .loop L t, ts => loopStep f L t ts
  | .atom, ts => atomStep f ts
  | .name t, ts => nameStep f t ts
  | .list, ts => (f (.lvl 0) ts).bind (moreStep f)
  | .cond, ts => (expect .then_ (f (.lvl 0) ts)).bind fun c => (f (.lvl 0) c.2).bind (elseStep f c.1)
  | .assocs, k :: .arrow :: r => (selector k).bind fun x => (f (.lvl 0) r).bind (assocsStep f x)
  | .assocs, _ => none
  | .alts, _ :: r => (expect .arrow (f .choices r)).bind fun c => match c.1 with | .agg cs => (f (.lvl 0) c.2).bind (altStep f cs) | _ => none
  | .alts, _ => none
  | .choices, ts => choicesStep f ts

def run : Nat → Mode → List Tok → Option (Tree × List Tok)
  | 0, _, _ => none
  | n + 1, m, ts => step (run n) m ts

/-- From some number of steps on, reading gives this result. -/
def Runs (m : Mode) (ts : List Tok) (t : Tree) (r : List Tok) : Prop := ∃ n, ∀ k, n ≤ k → run k m ts = some (t, r)

theorem Runs.unique {m : Mode} {ts r r' : List Tok} {t t' : Tree} (h : Runs m ts t r) (h' : Runs m ts t' r') : t = t' ∧ r = r' := by
  obtain ⟨n, h⟩ := h
  obtain ⟨n', h'⟩ := h'
  have := (h (n + n') (by omega)).symm.trans (h' (n + n') (by omega))
  simpa using this

theorem Runs.zero {m : Mode} {ts r : List Tok} {t : Tree} (h : ∀ f, step f m ts = some (t, r)) : Runs m ts t r := by
  refine ⟨1, fun k hk => ?_⟩
  obtain ⟨k, rfl⟩ : ∃ j, k = j + 1 := ⟨k - 1, by omega⟩
  exact h _

theorem Runs.one {m m1 : Mode} {ts r ts1 r1 : List Tok} {t t1 : Tree} (h1 : Runs m1 ts1 t1 r1)
    (h : ∀ f, f m1 ts1 = some (t1, r1) → step f m ts = some (t, r)) : Runs m ts t r := by
  obtain ⟨n, h1⟩ := h1
  refine ⟨n + 1, fun k hk => ?_⟩
  obtain ⟨k, rfl⟩ : ∃ j, k = j + 1 := ⟨k - 1, by omega⟩
  exact h _ (h1 k (by omega))

theorem Runs.two {m m1 m2 : Mode} {ts r ts1 r1 ts2 r2 : List Tok} {t t1 t2 : Tree} (h1 : Runs m1 ts1 t1 r1) (h2 : Runs m2 ts2 t2 r2)
    (h : ∀ f, f m1 ts1 = some (t1, r1) → f m2 ts2 = some (t2, r2) → step f m ts = some (t, r)) : Runs m ts t r := by
  obtain ⟨n, h1⟩ := h1
  obtain ⟨n', h2⟩ := h2
  refine ⟨n + n' + 1, fun k hk => ?_⟩
  obtain ⟨k, rfl⟩ : ∃ j, k = j + 1 := ⟨k - 1, by omega⟩
  exact h _ (h1 k (by omega)) (h2 k (by omega))

theorem Runs.three {m m1 m2 m3 : Mode} {ts r ts1 r1 ts2 r2 ts3 r3 : List Tok} {t t1 t2 t3 : Tree} (h1 : Runs m1 ts1 t1 r1)
    (h2 : Runs m2 ts2 t2 r2) (h3 : Runs m3 ts3 t3 r3)
    (h : ∀ f, f m1 ts1 = some (t1, r1) → f m2 ts2 = some (t2, r2) → f m3 ts3 = some (t3, r3) → step f m ts = some (t, r)) :
    Runs m ts t r := by
  obtain ⟨n, h1⟩ := h1
  obtain ⟨n', h2⟩ := h2
  obtain ⟨n'', h3⟩ := h3
  refine ⟨n + n' + n'' + 1, fun k hk => ?_⟩
  obtain ⟨k, rfl⟩ : ∃ j, k = j + 1 := ⟨k - 1, by omega⟩
  exact h _ (h1 k (by omega)) (h2 k (by omega)) (h3 k (by omega))

/-! ## Where reading stops -/

/-- The rest does not continue a name. -/
def Follow : List Tok → Prop
  | t :: _ => t ≠ .lpar ∧ t ≠ .tick ∧ t ≠ .dot
  | [] => True

/-- The rest does not continue an operand of level `L` or higher. -/
structure Stops (L : Nat) (ts : List Tok) : Prop where
  op : ∀ j, L ≤ j → opOf j ts = none
  follow : Follow ts

theorem Stops.mono {L L' : Nat} {ts : List Tok} (h : Stops L ts) (hL : L ≤ L') : Stops L' ts := ⟨fun j hj => h.op j (by omega), h.follow⟩

theorem opOf_big {j : Nat} {ts : List Tok} (h : 5 ≤ j) : opOf j ts = none := by
  obtain ⟨k, rfl⟩ : ∃ k, j = k + 5 := ⟨j - 5, by omega⟩
  simp [opOf]

theorem Stops.of {L : Nat} {ts : List Tok} (h : ∀ j, j < 5 → L ≤ j → opOf j ts = none) (hf : Follow ts) : Stops L ts := by
  refine ⟨fun j hj => ?_, hf⟩
  by_cases h5 : j < 5
  · exact h j h5 hj
  · exact opOf_big (by omega)

theorem stops_nil : Stops 0 [] := by
  refine Stops.of (fun j hj _ => ?_) (by simp [Follow])
  match j, hj with
  | 0, _ | 1, _ | 2, _ | 3, _ | 4, _ => rfl

/-- The elements after an expression. -/
def closing : Tok → Bool
  | .rpar | .comma | .arrow | .dots | .then_ | .else_ | .elsif | .bar | .semi | .colon | .assign | .reserved _ => true
  | _ => false

theorem stops_closing {k : Tok} {r : List Tok} (hk : closing k = true) : Stops 0 (k :: r) := by
  refine Stops.of (fun j hj _ => ?_) (by cases k <;> simp [closing] at hk <;> simp [Follow])
  match j, hj with
  | 0, _ | 1, _ | 2, _ | 3, _ | 4, _ => cases k <;> simp [closing] at hk <;> rfl

theorem stops_logical {op : BoolOp} {r : List Tok} : Stops 1 (logical op ++ r) := by
  refine Stops.of (fun j hj h1 => ?_) (by cases op <;> simp [Follow, logical])
  match j, hj with
  | 0, _ => omega
  | 1, _ | 2, _ | 3, _ | 4, _ => cases op <;> rfl

theorem stops_relational {op : RelOp} {r : List Tok} : Stops 2 (relational op ++ r) := by
  refine Stops.of (fun j hj h1 => ?_) (by cases op <;> simp [Follow, relational])
  match j, hj with
  | 0, _ => omega
  | 1, _ => omega
  | 2, _ | 3, _ | 4, _ => cases op <;> rfl

theorem stops_adding {op : MathOp} {o : Tok} (ho : op.adding = some o) {r : List Tok} : Stops 3 (o :: r) := by
  cases op <;> simp [MathOp.adding] at ho <;> subst ho
  all_goals
    refine Stops.of (fun j hj h1 => ?_) (by simp [Follow])
    match j, hj with
    | 0, _ | 1, _ | 2, _ => omega
    | 3, _ | 4, _ => rfl

theorem stops_multiplying {op : MathOp} {o : Tok} (ho : op.multiplying = some o) {r : List Tok} : Stops 4 (o :: r) := by
  cases op <;> simp [MathOp.multiplying] at ho <;> subst ho
  all_goals
    refine Stops.of (fun j hj h1 => ?_) (by simp [Follow])
    match j, hj with
    | 0, _ | 1, _ | 2, _ | 3, _ => omega
    | 4, _ => rfl

/-! ## First elements -/

/-- The elements at the start of an expression. -/
def starting : Tok → Bool
  | .ident _ | .num _ | .not | .lpar | .minus => true
  | _ => false

/-- The first element. -/
def First (p : Tok → Bool) (ts : List Tok) : Prop := ∃ k r, ts = k :: r ∧ p k = true

theorem First.append {p : Tok → Bool} {ts r : List Tok} (h : First p ts) : First p (ts ++ r) := by
  obtain ⟨k, s, rfl, h⟩ := h
  exact ⟨k, s ++ r, rfl, h⟩

/-- Without sign. -/
def unsigned (k : Tok) : Bool := starting k && k ≠ .minus

theorem First.starting {ts : List Tok} (h : First unsigned ts) : First starting ts := by
  obtain ⟨k, s, rfl, h⟩ := h
  exact ⟨k, s, rfl, by simp [unsigned] at h; exact h.1⟩

/-! ## Reading -/

theorem Runs.level {L : Nat} {ts r r' : List Tok} {t t' : Tree} (hL : L < 5) (hm : L = 2 → First unsigned ts) (h : Runs (.lvl (L + 1)) ts t r)
    (hl : Runs (.loop L t) r t' r') : Runs (.lvl L) ts t' r' := by
  refine Runs.two h hl fun f h1 h2 => ?_
  simp only [step, lvlStep]
  split
  · obtain ⟨k, s, hk, hu⟩ := hm rfl
    simp only [List.cons.injEq] at hk
    rw [← hk.1] at hu
    simp [unsigned] at hu
  · rw [if_neg (by omega), h1]
    exact h2

theorem Runs.stop {L : Nat} {ts : List Tok} {t : Tree} (h : opOf L ts = none) : Runs (.loop L t) ts t ts :=
  Runs.zero fun f => by simp only [step, loopStep, h]

theorem Runs.next {L : Nat} {ts r r2 r' : List Tok} {t t2 t' : Tree} {g : Tree → Tree → Tree} (h : opOf L ts = some (g, r))
    (hp : Runs (.lvl (L + 1)) r t2 r2) (hl : Runs (.loop L (g t t2)) r2 t' r') : Runs (.loop L t) ts t' r' :=
  Runs.two hp hl fun f h1 h2 => by simp only [step, loopStep, h, h1, Option.bind_some, h2]

/-- Elements are read at a level, and reading goes on with the rest. -/
def RL (L : Nat) (ts : List Tok) (t : Tree) : Prop :=
  ∀ rest t' r', Stops (L + 1) rest → Runs (.loop L t) rest t' r' → Runs (.lvl L) (ts ++ rest) t' r'

theorem RL.down {L : Nat} {ts : List Tok} {t : Tree} (h : RL (L + 1) ts t) (hL : L < 5) (hm : L = 2 → First unsigned ts) : RL L ts t :=
  fun rest t' r' hs hl => Runs.level hL (fun h => (hm h).append) (h rest t rest (hs.mono (by omega)) (Runs.stop (hs.op _ (by omega)))) hl

theorem RL.runs {L : Nat} {ts rest : List Tok} {t : Tree} (h : RL L ts t) (hs : Stops L rest) : Runs (.lvl L) (ts ++ rest) t rest :=
  h rest t rest (hs.mono (by omega)) (Runs.stop (hs.op _ (by omega)))

/-- Elements are read as a primary. -/
def RA (ts : List Tok) (t : Tree) : Prop := ∀ rest, Follow rest → Runs .atom (ts ++ rest) t rest

theorem RA.level {ts : List Tok} {t : Tree} (h : RA ts t) : RL 5 ts t := by
  intro rest t' r' hs hl
  obtain ⟨rfl, rfl⟩ := (Runs.stop (t := t) (opOf_big (ts := rest) (j := 5) (by omega))).unique hl
  exact Runs.one (h rest hs.follow) fun f h1 => by simp [step, lvlStep, h1]

/-- What a derivation gives. -/
def Fit : Cat → List Tok → Tree → Prop
  | .expression, ts, t => RL 0 ts t ∧ First starting ts
  | .chain _, ts, t => RL 0 ts t ∧ First starting ts
  | .relation, ts, t => RL 1 ts t ∧ First starting ts
  | .simple, ts, t => RL 2 ts t ∧ First starting ts
  | .term, ts, t => RL 3 ts t ∧ First unsigned ts
  | .factor, ts, t => RL 4 ts t ∧ First unsigned ts
  | .primary, ts, t => RA ts t ∧ First unsigned ts
  | .name, ts, t => (∀ rest t' r', Runs (.name t) rest t' r' → Runs .atom (ts ++ rest) t' r') ∧ First unsigned ts
  | .list, ts, t => (∀ k rest, closing k = true → k ≠ .comma → Runs .list (ts ++ k :: rest) t (k :: rest)) ∧ First starting ts
  | .cond, ts, t => ∀ rest, Runs .cond (ts ++ .rpar :: rest) t (.rpar :: rest)
  | .assocs, ts, t => (∀ rest, Runs .assocs (ts ++ .rpar :: rest) t (.rpar :: rest)) ∧
      ((∃ w r, ts = .reserved w :: r ∧ w ≠ "case".toList) ∨ ∃ x r, ts = .ident x :: .arrow :: r)
  | .alts, ts, t => ∀ rest, Runs .alts (ts ++ .rpar :: rest) t (.rpar :: rest)
  | .choices, ts, t => ∀ rest, Runs .choices (ts ++ .arrow :: rest) t (.arrow :: rest)
  | .choice, ts, t => (RL 0 ts t ∧ First starting ts) ∨ (ts = [kw "others"] ∧ t = .others)

theorem opOf_logical {op : BoolOp} {us : List Tok} (h : First starting us) : opOf 0 (logical op ++ us) = some (.bool op, us) := by
  obtain ⟨k, r, rfl, hk⟩ := h
  cases op <;> simp only [logical, List.cons_append, List.nil_append]
  all_goals cases k <;> simp [starting] at hk <;> rfl

theorem opOf_relational {op : RelOp} {us : List Tok} : opOf 1 (relational op ++ us) = some (.rel op, us) := by
  cases op <;> rfl

theorem opOf_adding {op : MathOp} {o : Tok} (h : op.adding = some o) {us : List Tok} : opOf 2 (o :: us) = some (.math op, us) := by
  cases op <;> simp [MathOp.adding] at h <;> subst h <;> rfl

theorem opOf_multiplying {op : MathOp} {o : Tok} (h : op.multiplying = some o) {us : List Tok} : opOf 3 (o :: us) = some (.math op, us) := by
  cases op <;> simp [MathOp.multiplying] at h <;> subst h <;> rfl

theorem RL.operator {L : Nat} {ts us os : List Tok} {t u : Tree} {g : Tree → Tree → Tree} (ht : RL L ts t) (hu : RL (L + 1) us u)
    (ho : ∀ r, opOf L (os ++ (us ++ r)) = some (g, us ++ r)) (hs : ∀ r, Stops (L + 1) (os ++ r)) : RL L (ts ++ os ++ us) (g t u) := by
  intro rest t' r' hst hl
  have := ht (os ++ (us ++ rest)) t' r' (hs _) (Runs.next (ho rest) (hu.runs hst) hl)
  simpa only [List.append_assoc] using this

theorem quantOf_quantifier (k : QKind) : quantOf (quantifier k).1 (quantifier k).2 = some k := by cases k <;> rfl

theorem atomStep_lpar {f : Mode → List Tok → Option (Tree × List Tok)} {us : List Tok} (h : First starting us) :
    atomStep f (.lpar :: us) = (f .list us).bind (parenStep f) := by
  obtain ⟨k, r, rfl, hk⟩ := h
  cases k <;> simp [starting] at hk <;> simp [atomStep]

theorem expect_some {t : Tok} {a : Tree} {r : List Tok} : expect t (some (a, t :: r)) = some (a, r) := by simp [expect]

theorem Runs.name_stop {t : Tree} {rest : List Tok} (h : Follow rest) : Runs (.name t) rest t rest := by
  refine Runs.zero fun f => ?_
  cases rest with
  | nil => rfl
  | cons k r =>
    simp only [step]
    unfold nameStep
    split <;> simp_all [Follow]

theorem moreStep_stop {f : Mode → List Tok → Option (Tree × List Tok)} {t : Tree} {k : Tok} {r : List Tok} (h : k ≠ .comma) :
    moreStep f (t, k :: r) = some (.agg [t], k :: r) := by
  unfold moreStep
  split
  · next h' => simp only [Prod.mk.injEq, List.cons.injEq] at h'; exact absurd h'.2.1 h
  · next h' => simp only [Prod.mk.injEq] at h'; simp [← h'.1, ← h'.2]

theorem RL.list {ts : List Tok} {t : Tree} (h : RL 0 ts t) {k : Tok} (hk : closing k = true) (hc : k ≠ .comma) (rest : List Tok) :
    Runs .list (ts ++ k :: rest) (.agg [t]) (k :: rest) :=
  Runs.one (h.runs (rest := k :: rest) (stops_closing hk)) fun f h1 => by simp only [step, h1, Option.bind_some, moreStep_stop hc]

theorem RA.expr {ts : List Tok} {t : Tree} (h : RA ts t) (hs : First unsigned ts) : RL 0 ts t :=
  ((((h.level.down (by omega) (by omega)).down (by omega) (by omega)).down (by omega) (fun _ => hs)).down (by omega) (by omega)).down
    (by omega) (by omega)

theorem selector_cases {k : Tok} {x : PyStr} {ts : List Tok} (h : selector k = some x) :
    (∃ w r, k :: .arrow :: ts = .reserved w :: r ∧ w ≠ "case".toList) ∨ ∃ x r, k :: .arrow :: ts = .ident x :: .arrow :: r := by
  cases k <;> simp only [selector, reduceCtorEq] at h
  · exact .inr ⟨_, _, rfl⟩
  · split at h
    · next hw => exact .inl ⟨_, _, rfl, by rw [hw]; decide⟩
    · cases h

theorem choicesStep_expr {f : Mode → List Tok → Option (Tree × List Tok)} {us : List Tok} (h : First starting us) :
    choicesStep f us = (f (.lvl 0) us).bind (choiceStep f) := by
  obtain ⟨k, r, rfl, hk⟩ := h
  cases k <;> simp [starting] at hk <;> simp [choicesStep]

theorem fit {c : Cat} {ts : List Tok} {t : Tree} (h : Reads c ts t) : Fit c ts t := by
  induction h with
  | relation _ ih => exact ⟨ih.1.down (by omega) (by omega), ih.2⟩
  | chain _ ih => exact ih
  | @two op ts us t u _ _ iht ihu =>
    exact ⟨(iht.1.down (by omega) (by omega)).operator ihu.1 (fun r => opOf_logical ihu.2.append) (fun r => stops_logical),
      iht.2.append.append⟩
  | @more op ts us t u _ _ iht ihu =>
    exact ⟨iht.1.operator ihu.1 (fun r => opOf_logical ihu.2.append) (fun r => stops_logical), iht.2.append.append⟩
  | simple _ ih => exact ⟨ih.1.down (by omega) (by omega), ih.2⟩
  | @compare op ts us t u _ _ iht ihu =>
    exact ⟨(iht.1.down (by omega) (by omega)).operator ihu.1 (fun r => opOf_relational) (fun r => stops_relational), iht.2.append.append⟩
  | term _ ih => exact ⟨ih.1.down (by omega) (fun _ => ih.2), ih.2.starting⟩
  | @minus ts t _ ih =>
    refine ⟨fun rest t' r' hs hl => ?_, ⟨_, _, rfl, rfl⟩⟩
    exact Runs.two (ih.1.runs hs) hl fun f h1 h2 => by simp only [step, List.cons_append, lvlStep, h1, Option.bind_some, h2]
  | @adding op o ts us t u ho _ _ iht ihu =>
    refine ⟨?_, iht.2.append⟩
    have := iht.1.operator (os := [o]) ihu.1 (fun r => opOf_adding ho) (fun r => stops_adding ho)
    simpa only [List.append_assoc, List.cons_append, List.nil_append] using this
  | factor _ ih => exact ⟨ih.1.down (by omega) (by omega), ih.2⟩
  | @multiplying op o ts us t u ho _ _ iht ihu =>
    refine ⟨?_, iht.2.append⟩
    have := iht.1.operator (os := [o]) ihu.1 (fun r => opOf_multiplying ho) (fun r => stops_multiplying ho)
    simpa only [List.append_assoc, List.cons_append, List.nil_append] using this
  | primary _ ih => exact ⟨ih.1.level.down (by omega) (by omega), ih.2⟩
  | @power ts us t u _ _ iht ihu =>
    refine ⟨?_, iht.2.append⟩
    have := (iht.1.level.down (by omega) (by omega)).operator (os := [.pow]) (g := .math .pow) ihu.1.level (fun r => rfl)
      (fun r => Stops.of (fun j hj h1 => by omega) (by simp [Follow]))
    simpa only [List.append_assoc, List.cons_append, List.nil_append] using this
  | @not ts t _ ih =>
    have : RA (.not :: ts) (.not t) := fun rest hf =>
      Runs.one (ih.1 rest hf) fun f h1 => by simp only [step, List.cons_append, atomStep, h1, Option.map_some]
    exact ⟨this.level.down (by omega) (by omega), ⟨_, _, rfl, rfl⟩⟩
  | num => exact ⟨fun rest _ => Runs.zero fun f => rfl, ⟨_, _, rfl, rfl⟩⟩
  | name _ ih => exact ⟨fun rest hf => ih.1 rest _ rest (Runs.name_stop hf), ih.2⟩
  | @paren ts t _ ih =>
    refine ⟨fun rest _ => ?_, ⟨_, _, rfl, rfl⟩⟩
    have := ih.1.list (k := .rpar) rfl (by simp) rest
    refine Runs.one this fun f h1 => ?_
    simp only [step, List.append_assoc, List.cons_append, List.nil_append]
    rw [atomStep_lpar ih.2.append, h1]
    simp [parenStep, unwrap]
  | @aggregate ts es _ hl ih =>
    refine ⟨fun rest _ => ?_, ⟨_, _, rfl, rfl⟩⟩
    refine Runs.one (ih.1 .rpar rest rfl (by simp)) fun f h1 => ?_
    simp only [step, List.append_assoc, List.cons_append, List.nil_append]
    rw [atomStep_lpar ih.2.append, h1]
    match es, hl with
    | _ :: _ :: _, _ => simp [parenStep, unwrap]
  | @conditional ts t _ ih =>
    refine ⟨fun rest _ => ?_, ⟨_, _, rfl, rfl⟩⟩
    refine Runs.one (ih rest) fun f h1 => ?_
    simp only [step, List.append_assoc, List.cons_append, List.nil_append, atomStep, h1, expect_some]
  | @quantified k x ts us t u _ _ iht ihu =>
    refine ⟨fun rest _ => ?_, ⟨_, _, rfl, rfl⟩⟩
    have h1 := (RA.expr (fun rest hf => iht.1 rest _ rest (Runs.name_stop hf)) iht.2).runs (rest := .arrow :: (us ++ .rpar :: rest)) (stops_closing rfl)
    have h2 := ihu.1.runs (rest := .rpar :: rest) (stops_closing rfl)
    refine Runs.two h1 h2 fun f h1 h2 => ?_
    simp only [step, List.append_assoc, List.cons_append, List.nil_append, atomStep, quantOf_quantifier, Option.bind_some, h1, overStep, expect_some, h2,
      Option.map_some]
  | @quantifiedRange k x ts us vs t u v _ _ _ _ iht ihu ihv =>
    refine ⟨fun rest _ => ?_, ⟨_, _, rfl, rfl⟩⟩
    have ht : RL 0 ts t := (iht.1.down (by omega) (by omega)).down (by omega) (by omega)
    have hu : RL 0 us u := (ihu.1.down (by omega) (by omega)).down (by omega) (by omega)
    have h1 := ht.runs (rest := .dots :: (us ++ .arrow :: (vs ++ .rpar :: rest))) (stops_closing rfl)
    have h2 := hu.runs (rest := .arrow :: (vs ++ .rpar :: rest)) (stops_closing rfl)
    have h3 := ihv.1.runs (rest := .rpar :: rest) (stops_closing rfl)
    refine Runs.three h1 h2 h3 fun f h1 h2 h3 => ?_
    simp only [step, List.append_assoc, List.cons_append, List.nil_append, atomStep, quantOf_quantifier, Option.bind_some, h1, overStep, expect_some, h2,
      h3, Option.map_some]
  | @caseOf ts us t u _ _ iht ihu =>
    refine ⟨fun rest _ => ?_, ⟨_, _, rfl, rfl⟩⟩
    have h1 := iht.1.runs (rest := kw "is" :: (us ++ .rpar :: rest)) (stops_closing rfl)
    refine Runs.two h1 (ihu rest) fun f h1 h2 => ?_
    simp only [step, List.append_assoc, List.cons_append, List.nil_append]
    rw [show kw "case" = .reserved "case".toList from rfl]
    simp only [atomStep, if_true, h1, expect_some, Option.bind_some, h2, Option.map_some]
  | @named ts t _ ih =>
    refine ⟨fun rest _ => ?_, ⟨_, _, rfl, rfl⟩⟩
    have h0 := ih.1 rest
    rcases ih.2 with ⟨w, r, rfl, hw⟩ | ⟨x, r, rfl⟩
    · refine Runs.one h0 fun f h1 => ?_
      simp only [step, List.append_assoc, List.cons_append, List.nil_append, atomStep, if_neg hw] at h1 ⊢
      simp only [h1, expect_some]
    · have hx : RL 0 [.ident x] (.id x) :=
        RA.expr (fun rest hf => Runs.one (Runs.name_stop (t := .id x) hf) fun f h1 => h1) ⟨_, _, rfl, rfl⟩
      refine Runs.two (hx.list (k := .arrow) rfl (by simp) (r ++ .rpar :: rest)) h0 fun f h1 h2 => ?_
      simp only [step, List.append_assoc, List.cons_append, List.nil_append, atomStep] at h1 h2 ⊢
      simp only [h1, Option.bind_some, parenStep, h2, expect_some]
  | ident =>
    exact ⟨fun rest t' r' h => Runs.one h fun f h1 => h1, ⟨_, _, rfl, rfl⟩⟩
  | @selected x ts t _ ih =>
    refine ⟨fun rest t' r' h => ?_, ih.2.append⟩
    rw [List.append_assoc]
    exact ih.1 _ _ _ (Runs.one h fun f h1 => h1)
  | @dereference ts t _ ih =>
    refine ⟨fun rest t' r' h => ?_, ih.2.append⟩
    rw [List.append_assoc]
    exact ih.1 _ _ _ (Runs.one h fun f h1 => h1)
  | @«attribute» x ts t _ ih =>
    refine ⟨fun rest t' r' h => ?_, ih.2.append⟩
    rw [List.append_assoc]
    exact ih.1 _ _ _ (Runs.one h fun f h1 => h1)
  | @range ts t _ ih =>
    refine ⟨fun rest t' r' h => ?_, ih.2.append⟩
    rw [List.append_assoc]
    exact ih.1 _ _ _ (Runs.one h fun f h1 => h1)
  | @apply ts us t es _ _ iht ihu =>
    refine ⟨fun rest t' r' h => ?_, iht.2.append.append⟩
    have := iht.1 (.lpar :: (us ++ .rpar :: rest)) t' r' (Runs.two (ihu.1 .rpar rest rfl (by simp)) h fun f h1 h2 => by
      simp only [step, nameStep, h1, Option.bind_some, argStep, h2])
    simpa only [List.append_assoc, List.cons_append, List.nil_append] using this
  | @slice ts us vs t u v _ _ _ iht ihu ihv =>
    refine ⟨fun rest t' r' h => ?_, iht.2.append.append.append⟩
    have hu : RL 0 us u := (ihu.1.down (by omega) (by omega)).down (by omega) (by omega)
    have hv : RL 0 vs v := (ihv.1.down (by omega) (by omega)).down (by omega) (by omega)
    have := iht.1 (.lpar :: (us ++ .dots :: (vs ++ .rpar :: rest))) t' r'
      (Runs.three (hu.list (k := .dots) rfl (by simp) (vs ++ .rpar :: rest)) (hv.runs (rest := .rpar :: rest) (stops_closing rfl)) h
        fun f h1 h2 h3 => by simp only [step, nameStep, h1, Option.bind_some, argStep, h2, expect_some, h3])
    simpa only [List.append_assoc, List.cons_append, List.nil_append] using this
  | one _ ih => exact ⟨fun k rest hk hc => ih.1.list hk hc rest, ih.2⟩
  | @cons ts us t es _ _ iht ihu =>
    refine ⟨fun k rest hk hc => ?_, iht.2.append⟩
    have h1 := iht.1.runs (rest := .comma :: (us ++ k :: rest)) (stops_closing rfl)
    refine Runs.two h1 (ihu.1 k rest hk hc) fun f h1 h2 => ?_
    simp only [step, List.append_assoc, List.cons_append, h1, Option.bind_some, moreStep, h2]
  | @then_ ts us c t _ _ ihc iht =>
    intro rest
    have h1 := ihc.1.runs (rest := .then_ :: (us ++ .rpar :: rest)) (stops_closing rfl)
    refine Runs.two h1 (iht.1.runs (rest := .rpar :: rest) (stops_closing rfl)) fun f h1 h2 => ?_
    simp only [step, List.append_assoc, List.cons_append, h1, expect_some, Option.bind_some, h2, elseStep]
  | @else_ ts us vs c t e _ _ _ ihc iht ihe =>
    intro rest
    have h1 := ihc.1.runs (rest := .then_ :: (us ++ .else_ :: (vs ++ .rpar :: rest))) (stops_closing rfl)
    refine Runs.three h1 (iht.1.runs (rest := .else_ :: (vs ++ .rpar :: rest)) (stops_closing rfl))
      (ihe.1.runs (rest := .rpar :: rest) (stops_closing rfl)) fun f h1 h2 h3 => ?_
    simp only [step, List.append_assoc, List.cons_append, h1, expect_some, Option.bind_some, h2, elseStep, h3, Option.map_some]
  | @elsif ts us vs c t e _ _ _ ihc iht ihe =>
    intro rest
    have h1 := ihc.1.runs (rest := .then_ :: (us ++ .elsif :: (vs ++ .rpar :: rest))) (stops_closing rfl)
    refine Runs.three h1 (iht.1.runs (rest := .elsif :: (vs ++ .rpar :: rest)) (stops_closing rfl)) (ihe rest) fun f h1 h2 h3 => ?_
    simp only [step, List.append_assoc, List.cons_append, h1, expect_some, Option.bind_some, h2, elseStep, h3, Option.map_some]

  | @assoc k x ts t hk _ ih =>
    refine ⟨fun rest => ?_, selector_cases hk⟩
    have h1 := ih.1.runs (rest := .rpar :: rest) (stops_closing rfl)
    refine Runs.one h1 fun f h1 => ?_
    simp only [step, List.cons_append, hk, Option.bind_some, h1, assocsStep]
  | @assocs k x ts us t es hk _ _ iht ihu =>
    refine ⟨fun rest => ?_, selector_cases hk⟩
    have h1 := iht.1.runs (rest := .comma :: (us ++ .rpar :: rest)) (stops_closing rfl)
    refine Runs.two h1 (ihu.1 rest) fun f h1 h2 => ?_
    simp only [step, List.append_assoc, List.cons_append, hk, Option.bind_some, h1, assocsStep, h2]
  | @alt ts us cs u _ _ iht ihu =>
    intro rest
    have h1 := iht (us ++ .rpar :: rest)
    have h2 := ihu.1.runs (rest := .rpar :: rest) (stops_closing rfl)
    refine Runs.two h1 h2 fun f h1 h2 => ?_
    simp only [step, List.append_assoc, List.cons_append, h1, expect_some, Option.bind_some, h2, altStep]
  | @alts ts us vs cs u v _ _ _ iht ihu ihv =>
    intro rest
    have h1 := iht (us ++ .comma :: (vs ++ .rpar :: rest))
    have h2 := ihu.1.runs (rest := .comma :: (vs ++ .rpar :: rest)) (stops_closing rfl)
    refine Runs.three h1 h2 (ihv rest) fun f h1 h2 h3 => ?_
    simp only [step, List.append_assoc, List.cons_append, h1, expect_some, Option.bind_some, h2, altStep, h3, Option.map_some]
  | @choice ts t _ ih =>
    intro rest
    rcases ih with ⟨h, hs⟩ | ⟨rfl, rfl⟩
    · refine Runs.one (h.runs (rest := .arrow :: rest) (stops_closing rfl)) fun f h1 => ?_
      simp only [step, choicesStep_expr hs.append, h1, Option.bind_some, choiceStep]
    · exact Runs.zero fun f => rfl
  | @choices ts us t cs _ _ ih ihu =>
    intro rest
    rcases ih with ⟨h, hs⟩ | ⟨rfl, rfl⟩
    · have h1 := h.runs (rest := .bar :: (us ++ .arrow :: rest)) (stops_closing rfl)
      refine Runs.two h1 (ihu rest) fun f h1 h2 => ?_
      simp only [step, List.append_assoc, choicesStep_expr hs.append, List.cons_append, h1, Option.bind_some, choiceStep, h2]
    · refine Runs.one (ihu rest) fun f h1 => ?_
      simp only [step, List.append_assoc, List.cons_append, List.nil_append, kw, choicesStep, choiceStep, h1, Option.bind_some]
  | chosen _ ih => exact .inl ih
  | others => exact .inr ⟨rfl, rfl⟩

/-- An expression can be read in one way only. -/
theorem Reads.unique {ts : List Tok} {t u : Tree} (ht : Reads .expression ts t) (hu : Reads .expression ts u) : t = u := by
  have h1 := (fit ht).1.runs stops_nil
  have h2 := (fit hu).1.runs stops_nil
  exact (h1.unique h2).1

end Verif.Ada
