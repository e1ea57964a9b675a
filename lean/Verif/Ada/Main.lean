import Verif.Ada.Text

/-! # Helper lemmas: the text of an expression can be read as the expression (induction) -/

namespace Verif.Ada
open Verif

/-- The text of an expression, the text with the opposite sign and the text of a name are right. -/
structure IsText (e : AExpr) : Prop where
  good : Good (catOf e.prec) (e.strF false) (fun W => e.value W)
  flip : e.isNegative = true → ∃ V, Good .primary (e.strF true) V ∧ ∀ W, e.value W = negVal (V W)
  name : e.isName = true → GoodName (e.strF false) (fun W => e.ent W)

theorem IsText.ofName {e : AExpr} {neg : Bool} {s : PyStr} {E : (W : World) → Option W.Ent} (h : GoodName s E) (hp : e.prec = 7)
    (hs : ∀ flip, e.strF flip = wrapNeg (neg ^^ flip) s) (hv : ∀ W, e.value W = signed neg ((E W).bind W.val))
    (he : ∀ W, e.ent W = E W) (hn : e.isName = !neg) (hg : e.isNegative = neg) : IsText e := by
  cases neg with
  | false =>
    have h0 : e.strF false = s := by rw [hs]; rfl
    refine ⟨?_, fun h => by simp [hg] at h, fun _ => ?_⟩
    · rw [hp, h0]
      exact h.good.congr fun W => by rw [hv]; rfl
    · rw [h0, show (fun W => e.ent W) = E from funext he]
      exact h
  | true =>
    have h0 : e.strF false = wrapNeg true s := by rw [hs]; rfl
    have h1 : e.strF true = s := by rw [hs]; rfl
    refine ⟨?_, fun _ => ⟨_, by rw [h1]; exact h.good, fun W => by rw [hv]; rfl⟩, fun h => by simp [hn] at h⟩
    rw [hp, h0]
    exact h.good.minus.congr fun W => by rw [hv]; rfl

theorem IsText.ofGood {e : AExpr} (h : Good (catOf e.prec) (e.strF false) (fun W => e.value W)) (hg : e.isNegative = false)
    (hn : e.isName = false) : IsText e :=
  ⟨h, fun h => by simp [hg] at h, fun h => by simp [hn] at h⟩

theorem IsText.ofPlainName {e : AExpr} {E : (W : World) → Option W.Ent} (h : GoodName (e.strF false) E) (hp : e.prec = 7)
    (hv : ∀ W, e.value W = (E W).bind W.val) (he : ∀ W, e.ent W = E W) (hg : e.isNegative = false) : IsText e := by
  refine ⟨?_, fun h => by simp [hg] at h, fun _ => ?_⟩
  · rw [hp]
    exact h.good.congr fun W => by rw [hv]
  · rw [show (fun W => e.ent W) = E from funext he]
    exact h

/-! ## Lists -/

theorem goodList {es : List AExpr} (hn : es ≠ []) (h : ∀ e ∈ es, IsText e) :
    GoodList (joinComma (AExpr.strL es)) es.length (fun W => AExpr.values W es) := by
  induction es with
  | nil => exact absurd rfl hn
  | cons e es ih =>
    cases es with
    | nil =>
      have := GoodList.one (h e (by simp)).good.expr
      simp only [AExpr.strL, joinComma]
      rwa [show (fun W => AExpr.values W [e]) = fun W => (AExpr.value W e).map fun v => [v] from by
        funext W; simp only [AExpr.values]; cases AExpr.value W e <;> rfl]
    | cons e' es =>
      have := GoodList.cons (h e (by simp)).good.expr (ih (by simp) fun x hx => h x (List.mem_cons_of_mem _ hx))
      simp only [AExpr.strL, joinComma, List.length_cons] at this ⊢
      rwa [show (fun W => AExpr.values W (e :: e' :: es)) = _ from funext fun W => by rw [AExpr.values]]

/-! ## Logical operators -/

/-- A relation or relations joined by an operator. -/
def Chain (op : BoolOp) (ts : List Tok) (t : Tree) : Prop := Reads .relation ts t ∨ Reads (.chain op) ts t

theorem Chain.step {op : BoolOp} {ts us : List Tok} {t u : Tree} (h : Chain op ts t) (hu : Reads .relation us u) :
    Chain op (ts ++ logical op ++ us) (.bool op t u) := by
  rcases h with h | h
  · exact .inr (.two h hu)
  · exact .inr (.more h hu)

theorem Chain.expr {op : BoolOp} {ts : List Tok} {t : Tree} (h : Chain op ts t) : Reads .expression ts t := by
  rcases h with h | h
  · exact .relation h
  · exact .chain h

theorem boolTail {op : BoolOp} {es : List AExpr} (h : ∀ e ∈ es, IsText e) :
    ∃ us, Tail (AExpr.strBoolTail op es) us ∧ ∀ ts t, Chain op ts t →
      ∃ t', Chain op (ts ++ us) t' ∧ ∀ W : World, W.Std → t'.value W = AExpr.boolVals W op (t.value W) es := by
  induction es with
  | nil => exact ⟨[], Tail.nil, fun ts t ht => ⟨t, by simpa using ht, fun W _ => by simp [AExpr.boolVals]⟩⟩
  | cons e es ih =>
    obtain ⟨us, h1, h2⟩ := ih fun x hx => h x (List.mem_cons_of_mem _ hx)
    obtain ⟨vs, v, g1, g2, g3⟩ := ((h e (by simp)).good.parens (p := 1) (by omega)).indentNext ((boolSymbol op).length - 1)
    refine ⟨_, by rw [AExpr.strBoolTail]; exact Tail.cons (sep_logical op) g1 h1, fun ts t ht => ?_⟩
    obtain ⟨t', k1, k2⟩ := h2 _ _ (ht.step g2)
    refine ⟨t', by simpa using k1, fun W hW => ?_⟩
    rw [k2 W hW, AExpr.boolVals, Tree.value, g3 W hW]

/-! ## Sums and products -/

theorem addTail {es : List AExpr} (h : ∀ e ∈ es, IsText e) :
    ∃ us, Tail (AExpr.strAddTail es) us ∧ ∀ ts t, Reads .simple ts t →
      ∃ t', Reads .simple (ts ++ us) t' ∧ ∀ W : World, W.Std → t'.value W = AExpr.mathVals W .add (t.value W) es := by
  induction es with
  | nil => exact ⟨[], Tail.nil, fun ts t ht => ⟨t, by simpa using ht, fun W _ => by simp [AExpr.mathVals]⟩⟩
  | cons e es ih =>
    obtain ⟨us, h1, h2⟩ := ih fun x hx => h x (List.mem_cons_of_mem _ hx)
    by_cases hn : e.isNegative = true
    · obtain ⟨V, hV, hneg⟩ := (h e (by simp)).flip hn
      obtain ⟨vs, v, g1, g2, g3⟩ := hV
      refine ⟨_, by rw [AExpr.strAddTail, if_pos hn]; exact Tail.cons sep_minus g1 h1, fun ts t ht => ?_⟩
      obtain ⟨t', k1, k2⟩ := h2 _ _ (Reads.adding (op := .sub) rfl ht (.factor (.primary g2)))
      refine ⟨t', by simpa using k1, fun W hW => ?_⟩
      rw [k2 W hW, AExpr.mathVals, Tree.value, g3 W hW, hneg]
      congr 1
      cases ht : t.value W with
      | none => rfl
      | some a =>
        cases hv : V W with
        | none => cases a <;> rfl
        | some b => cases a <;> cases b <;> simp [mathVal, negVal, MathOp.eval, Int.sub_eq_add_neg]
    · obtain ⟨vs, v, g1, g2, g3⟩ := (h e (by simp)).good.parens (p := 3) (by omega)
      refine ⟨_, by rw [AExpr.strAddTail, if_neg hn]; exact Tail.cons sep_plus g1 h1, fun ts t ht => ?_⟩
      obtain ⟨t', k1, k2⟩ := h2 _ _ (Reads.adding (op := .add) rfl ht g2)
      refine ⟨t', by simpa using k1, fun W hW => ?_⟩
      rw [k2 W hW, AExpr.mathVals, Tree.value, g3 W hW]

theorem mulTail {es : List AExpr} (h : ∀ e ∈ es, IsText e) :
    ∃ us, Tail (AExpr.strMulTail es) us ∧ ∀ ts t, Reads .term ts t →
      ∃ t', Reads .term (ts ++ us) t' ∧ ∀ W : World, W.Std → t'.value W = AExpr.mathVals W .mul (t.value W) es := by
  induction es with
  | nil => exact ⟨[], Tail.nil, fun ts t ht => ⟨t, by simpa using ht, fun W _ => by simp [AExpr.mathVals]⟩⟩
  | cons e es ih =>
    obtain ⟨us, h1, h2⟩ := ih fun x hx => h x (List.mem_cons_of_mem _ hx)
    obtain ⟨vs, v, g1, g2, g3⟩ := (h e (by simp)).good.parens (p := 5) (by omega)
    refine ⟨_, by rw [AExpr.strMulTail]; exact Tail.cons sep_star g1 h1, fun ts t ht => ?_⟩
    obtain ⟨t', k1, k2⟩ := h2 _ _ (Reads.multiplying (op := .mul) rfl ht g2)
    refine ⟨t', by simpa using k1, fun W hW => ?_⟩
    rw [k2 W hW, AExpr.mathVals, Tree.value, g3 W hW]

theorem good_bin {op : ArithOp} {l r : AExpr} (hl : IsText l) (hr : IsText r) :
    Good (catOf (arithPrec op)) ((AExpr.bin op l r).strF false) (fun W => (AExpr.bin op l r).value W) := by
  have hp : arithPrec op ≤ 6 := by cases op <;> decide
  obtain ⟨ts, t, l1, l2, l3⟩ := hl.good.parens hp
  obtain ⟨us, u, r1, r2, r3⟩ := hr.good.parens hp
  have hval : ∀ W : World, W.Std → (Tree.math (mathOp op) t u).value W = (AExpr.bin op l r).value W := fun W hW => by
    rw [Tree.value, AExpr.value, l3 W hW, r3 W hW]
  cases op with
  | sub => exact ⟨_, _, by rw [AExpr.strF]; exact l1.append sep_minus r1, (Reads.adding (op := .sub) rfl (.term l2) r2).cast (by simp), hval⟩
  | div =>
    exact ⟨_, _, by rw [AExpr.strF]; exact l1.append sep_slash r1, (Reads.multiplying (op := .div) rfl (.factor l2) r2).cast (by simp), hval⟩
  | mod =>
    exact ⟨_, _, by rw [AExpr.strF]; exact l1.append sep_mod r1, (Reads.multiplying (op := .mod) rfl (.factor l2) r2).cast (by simp), hval⟩
  | pow => exact ⟨_, _, by rw [AExpr.strF]; exact l1.append sep_pow r1, (Reads.power l2 r2).cast (by simp), hval⟩

theorem relVal_name {op : RelOp} {b : Bool} {x y : Option Val} (h : op = .isIn ∨ op = .notIn → b = true) : relVal op b x y = relVal op true x y := by
  cases x <;> cases y <;> simp only [relVal]
  cases b with
  | true => rfl
  | false => cases op <;> simp_all

theorem AExpr.isName_prec {e : AExpr} (h : e.isName = true) : e.prec = 7 := by
  cases e <;> simp [AExpr.isName] at h <;> rfl

theorem AExpr.value_name {e : AExpr} (h : e.isName = true) (W : World) : e.value W = (e.ent W).bind W.val := by
  match e, h with
  | .var false _, _ => rw [AExpr.value, AExpr.ent]; rfl
  | .attr false _ _, _ => rw [AExpr.value, AExpr.ent, Option.bind_map]; rfl
  | .fn _ _ _, _ => rw [AExpr.value, AExpr.ent]
  | .indexed false _ _, _ => rw [AExpr.value, AExpr.ent]; rfl
  | .sel false _ _, _ => rw [AExpr.value, AExpr.ent, Option.bind_map]; rfl
  | .call false _ [], _ => rw [AExpr.value, AExpr.ent]; rfl
  | .call false _ (_ :: _), _ => rw [AExpr.value, AExpr.ent]; rfl
  | .slice _ _ _, _ => rw [AExpr.value, AExpr.ent]
  | .conv _ _, _ => rw [AExpr.value, AExpr.ent]

theorem good_rel {op : RelOp} {l r : AExpr} (hl : IsText l) (hr : IsText r) (h : op = .isIn ∨ op = .notIn → r.isName = true) :
    Good .relation ((AExpr.rel op l r).strF false) (fun W => (AExpr.rel op l r).value W) := by
  obtain ⟨ts, t, l1, l2, l3⟩ := hl.good.parens (p := 2) (by omega)
  have key : ∃ us u, Scans (AExpr.parens 2 r (r.strF false)) us ∧ Reads .simple us u ∧ (∀ W : World, W.Std → u.value W = r.value W) ∧
      (op = .isIn ∨ op = .notIn → u.isName = true) := by
    by_cases ho : op = .isIn ∨ op = .notIn
    · obtain ⟨us, u, r1, r2, r3⟩ := hr.name (h ho)
      obtain ⟨us', u', s1, s2, s3⟩ := hr.good
      have hp := AExpr.isName_prec (h ho)
      refine ⟨us, u, by rw [AExpr.parens, hp, if_neg (by omega)]; exact r1, .term (.factor (.primary (.name r2))), fun W hW => ?_, fun _ => r2.isName⟩
      rw [Tree.value_name r2.isName, r3 W hW]
      rw [AExpr.value_name (h ho)]
    · obtain ⟨us, u, r1, r2, r3⟩ := hr.good.parens (p := 2) (by omega)
      exact ⟨us, u, r1, r2, r3, fun h => absurd h ho⟩
  obtain ⟨us, u, r1, r2, r3, r4⟩ := key
  refine ⟨_, _, by rw [AExpr.strF]; exact l1.append (sep_relational op) r1, (Reads.compare (op := op) l2 r2).cast (by simp), fun W hW => ?_⟩
  rw [Tree.value, l3 W hW, r3 W hW, relVal_name r4]
  simp only [AExpr.value]

/-! ## Conditional expressions -/

theorem condVal_none {c t : Option Val} : condVal c t none = condVal c t (some (some (.bool true))) := by
  cases c with
  | none => rfl
  | some v => cases v <;> try rfl

/-- The text after the first alternative. -/
def CondTail (s : PyStr) (V : World → Option Val) : Prop :=
  ∃ vs, Tail s vs ∧ ∀ ts us c t, Reads .expression ts c → Reads .expression us t →
    ∃ t', Reads .cond (ts ++ .then_ :: us ++ vs) t' ∧ ∀ W : World, W.Std → t'.value W = condVal (c.value W) (t.value W) (some (V W))

theorem CondTail.none : CondTail [] (fun _ => some (.bool true)) :=
  ⟨[], Tail.nil, fun ts us c t hc ht => ⟨.cond c t Option.none, (Reads.then_ hc ht).cast (by simp), fun W _ => by
    rw [Tree.value]; exact condVal_none⟩⟩

theorem CondTail.els {s : PyStr} {V : World → Option Val} (h : Good .expression s V) :
    CondTail (['\n', ' ', 'e', 'l', 's', 'e', '\n'] ++ indent s 4) V := by
  obtain ⟨vs, v, h1, h2, h3⟩ := h
  refine ⟨_, by have := Tail.line (k := 4) closes_else h1 Tail.nil; simpa only [List.append_nil] using this, fun ts us c t hc ht => ?_⟩
  exact ⟨.cond c t (some v), (Reads.else_ hc ht h2).cast (by simp), fun W hW => by rw [Tree.value, h3 W hW]⟩

theorem CondTail.elsif {s r q : PyStr} {V U T : World → Option Val} (h : Good .expression s V) (hr : Good .expression r U) (hq : CondTail q T) :
    CondTail (['\n', ' ', 'e', 'l', 's', 'i', 'f', '\n'] ++ indent s 4 ++ ['\n', ' ', 't', 'h', 'e', 'n', '\n'] ++ indent r 4 ++ q)
      (fun W => condVal (V W) (U W) (some (T W))) := by
  obtain ⟨as, a, a1, a2, a3⟩ := h
  obtain ⟨bs, b, b1, b2, b3⟩ := hr
  obtain ⟨vs, q1, q2⟩ := hq
  obtain ⟨d, d1, d2⟩ := q2 as bs a b a2 b2
  refine ⟨_, by have := Tail.line (k := 4) closes_elsif a1 (Tail.line (k := 4) closes_then b1 q1); simpa only [List.append_assoc] using this,
    fun ts us c t hc ht => ⟨.cond c t (some d), (Reads.elsif hc ht d1).cast (by simp), fun W hW => ?_⟩⟩
  rw [Tree.value, d2 W hW, a3 W hW, b3 W hW]

theorem Good.cond {s r q : PyStr} {V U T : World → Option Val} (h : Good .expression s V) (hr : Good .expression r U) (hq : CondTail q T) :
    Good .primary (['(', 'i', 'f', '\n'] ++ indent s 4 ++ ['\n', ' ', 't', 'h', 'e', 'n', '\n'] ++ indent r 4 ++ q ++ [')'])
      (fun W => condVal (V W) (U W) (some (T W))) := by
  obtain ⟨as, a, a1, a2, a3⟩ := h
  obtain ⟨bs, b, b1, b2, b3⟩ := hr
  obtain ⟨vs, q1, q2⟩ := hq
  obtain ⟨d, d1, d2⟩ := q2 as bs a b a2 b2
  refine ⟨.lpar :: .if_ :: as ++ ([.then_] ++ bs ++ vs) ++ [.rpar], d, ?_, (Reads.conditional d1).cast ?_,
    fun W hW => by rw [d2 W hW, a3 W hW, b3 W hW]⟩
  · have := ((a1.if_ (k := 4)).tail (Tail.line (k := 4) closes_then b1 q1)).close closes_rpar
    simpa only [List.append_assoc] using this
  · simp

theorem condTail {as : List (AExpr × AExpr)} {q : PyStr} {V : World → Option (Option Val)}
    (h : ∀ a ∈ as, IsText a.1 ∧ IsText a.2) (hq : CondTail q (fun W => (V W).getD (some (.bool true)))) :
    CondTail (AExpr.strArms as ++ q) (fun W => AExpr.condVals W as (V W)) := by
  induction as with
  | nil =>
    rw [AExpr.strArms, show (fun W => AExpr.condVals W [] (V W)) = _ from funext fun W => AExpr.condVals.eq_1 _ _]
    exact hq
  | cons a as ih =>
    obtain ⟨c, e⟩ := a
    have := CondTail.elsif (h (c, e) (by simp)).1.good.expr (h (c, e) (by simp)).2.good.expr (ih fun x hx => h x (List.mem_cons_of_mem _ hx))
    rw [AExpr.strArms, show (fun W => AExpr.condVals W ((c, e) :: as) (V W)) = _ from funext fun W => AExpr.condVals.eq_2 _ _ _ _ _]
    simpa only [List.append_assoc] using this

/-! ## Quantified expressions -/

theorem Std.bind {W : World} (h : W.Std) {x : PyStr} (ht : x ≠ "true".toList) (hf : x ≠ "false".toList) (v : Val) : (W.bind x v).Std := by
  constructor
  · show W.val (if "true".toList = x then _ else _) = _
    rw [if_neg (Ne.symm ht)]; exact h.tru
  · show W.val (if "false".toList = x then _ else _) = _
    rw [if_neg (Ne.symm hf)]; exact h.fls

theorem Good.quant {k : QKind} {x s r : PyStr} {E : (W : World) → Option W.Ent} {V : World → Option Val} (hx : Word x) (h : GoodName s E)
    (hr : Good .expression r V) (ht : x.lower ≠ "true".toList) (hf : x.lower ≠ "false".toList) :
    Good .primary (['(', 'f', 'o', 'r', ' '] ++ (quantWords k).1 ++ ' ' :: x ++ ' ' :: (quantWords k).2 ++ ' ' :: s
      ++ [' ', '=', '>', '\n'] ++ indent r 4 ++ [')'])
      (fun W => quantVal k ((E W).bind W.val) fun v => V (W.bind x.lower (.int v))) := by
  obtain ⟨as, a, a1, a2, a3⟩ := h
  obtain ⟨bs, b, b1, b2, b3⟩ := hr
  refine ⟨.lpar :: .for_ :: (quantifier k).1 :: .ident x.lower :: (quantifier k).2 :: as ++ .arrow :: bs ++ [.rpar], .quant k x.lower a b, ?_,
    .quantified a2 b2, fun W hW => ?_⟩
  · have := (((Scans.open (opens_for k) hx.scans).append (sep_quant k) a1).tail (Tail.line (k := 4) closes_arrow b1 Tail.nil)).close closes_rpar
    exact this.cast (by simp) (by simp)
  · rw [Tree.value, Tree.value_name a2.isName, a3 W hW]
    congr 1
    funext v
    exact b3 _ (Std.bind hW ht hf _)

theorem Good.quantR {k : QKind} {x s q r : PyStr} {U T V : World → Option Val} (hk : k ≠ .allOf) (hx : Word x) (h : Good .simple s U)
    (hq : Good .simple q T) (hr : Good .expression r V) (ht : x.lower ≠ "true".toList) (hf : x.lower ≠ "false".toList) :
    Good .primary (['(', 'f', 'o', 'r', ' '] ++ (quantWords k).1 ++ ' ' :: x ++ ' ' :: (quantWords k).2 ++ ' ' :: s ++ [' ', '.', '.', ' '] ++ q
      ++ [' ', '=', '>', '\n'] ++ indent r 4 ++ [')'])
      (fun W => quantVal k (rangeVal (U W) (T W)) fun v => V (W.bind x.lower (.int v))) := by
  obtain ⟨as, a, a1, a2, a3⟩ := h
  obtain ⟨cs, c, c1, c2, c3⟩ := hq
  obtain ⟨bs, b, b1, b2, b3⟩ := hr
  refine ⟨.lpar :: .for_ :: (quantifier k).1 :: .ident x.lower :: (quantifier k).2 :: as ++ .dots :: cs ++ .arrow :: bs ++ [.rpar],
    .quant k x.lower (.range a c) b, ?_, .quantifiedRange hk a2 c2 b2, fun W hW => ?_⟩
  · have := ((((Scans.open (opens_for k) hx.scans).append (sep_quant k) a1).append sep_dots c1).tail
      (Tail.line (k := 4) closes_arrow b1 Tail.nil)).close closes_rpar
    exact this.cast (by simp) (by simp)
  · rw [Tree.value, Tree.value, a3 W hW, c3 W hW]
    congr 1
    funext v
    exact b3 _ (Std.bind hW ht hf _)

/-! ## Aggregates with named components -/

theorem scans_others : Scans ['o', 't', 'h', 'e', 'r', 's'] [kw "others"] := by
  have := Scans.word (w := ['o', 't', 'h', 'e', 'r', 's']) (by decide) (by decide)
  rwa [show word ['o', 't', 'h', 'e', 'r', 's'] = kw "others" by decide +kernel] at this

theorem AExpr.Selector.scans {i : ID} (h : AExpr.Selector i) : ∃ k, Scans (dotted i) [k] ∧ selector k = some (joinDot i.parts).lower := by
  obtain ⟨x, hi, hx⟩ := h
  simp only [dotted, hi, joinDot]
  rcases hx with hx | rfl
  · exact ⟨_, hx.scans, rfl⟩
  · exact ⟨_, scans_others, by decide +kernel⟩

theorem goodNamed {es : List (ID × AExpr)} (hn : es ≠ []) (h : ∀ p ∈ es, AExpr.Selector p.1 ∧ IsText p.2) :
    ∃ ts us, Scans (joinComma (AExpr.strN es)) ts ∧ Reads .assocs ts (.named us) ∧
      ∀ W : World, W.Std → Tree.fields W us = AExpr.fields W es := by
  induction es with
  | nil => exact absurd rfl hn
  | cons p es ih =>
    obtain ⟨x, e⟩ := p
    obtain ⟨hx, he⟩ := h (x, e) (by simp)
    obtain ⟨k, k1, k2⟩ := AExpr.Selector.scans hx
    obtain ⟨ts, t, h1, h2, h3⟩ := he.good.expr
    cases es with
    | nil =>
      refine ⟨_, [((joinDot x.parts).lower, t)], by simp only [AExpr.strN, joinComma]; exact k1.append sep_arrow h1,
        (Reads.assoc k2 h2).cast (by simp), fun W hW => ?_⟩
      have h3' : t.value W = e.value W := h3 W hW
      rw [Tree.fields, AExpr.fields, h3', Tree.fields, AExpr.fields]
      cases AExpr.value W e <;> rfl
    | cons p' es =>
      obtain ⟨vs, us, i1, i2, i3⟩ := ih (by simp) fun q hq => h q (List.mem_cons_of_mem _ hq)
      refine ⟨k :: .arrow :: ts ++ .comma :: vs, ((joinDot x.parts).lower, t) :: us, ?_, Reads.assocs k2 h2 i2, fun W hW => ?_⟩
      · simp only [AExpr.strN, joinComma] at i1 ⊢
        exact ((k1.append sep_arrow h1).append sep_comma i1).cast (by simp) (by simp)
      · have h3' : t.value W = e.value W := h3 W hW
        rw [Tree.fields, AExpr.fields, h3', i3 W hW]
        cases AExpr.value W e <;> cases AExpr.fields W (p' :: es) <;> rfl

/-! ## Equality -/

/-- Expressions with the same meaning. -/
structure Same (a b : AExpr) : Prop where
  value : ∀ W, a.value W = b.value W
  ent : ∀ W, a.ent W = b.ent W
  others : a.isOthers = b.isOthers

theorem path_key {W : World} {i j : ID} (h : i.eq j = true) : path W i.parts = path W j.parts := by
  have := (ID.eq_iff_key i j).mp h
  have sp : ∀ (n : W.Ent) (ps : List PyStr), selPath W n ps = (ps.map PyStr.lower).foldl W.sel n := fun n ps => by
    simp only [selPath, List.foldl_map]
  have pp : ∀ ps : List PyStr, path W ps = match ps.map PyStr.lower with | [] => none | x :: xs => some (xs.foldl W.sel (W.id x)) := by
    intro ps; cases ps <;> simp [path, sp]
  rw [pp, pp, show i.parts.map PyStr.lower = j.parts.map PyStr.lower from this]

theorem selPath_key {W : World} {n : W.Ent} {i j : ID} (h : i.eq j = true) : selPath W n i.parts = selPath W n j.parts := by
  have := (ID.eq_iff_key i j).mp h
  have sp : ∀ (n : W.Ent) (ps : List PyStr), selPath W n ps = (ps.map PyStr.lower).foldl W.sel n := fun n ps => by
    simp only [selPath, List.foldl_map]
  rw [sp, sp, show i.parts.map PyStr.lower = j.parts.map PyStr.lower from this]

theorem joinDot_lower (ps : List PyStr) : (joinDot ps).lower = joinDot (ps.map PyStr.lower) := by
  induction ps with
  | nil => rfl
  | cons p ps ih =>
    cases ps with
    | nil => rfl
    | cons q ps =>
      simp only [joinDot, PyStr.lower, List.map_append, List.map_cons] at ih ⊢
      rw [ih]
      rfl

theorem joinDot_key {i j : ID} (h : i.eq j = true) : (joinDot i.parts).lower = (joinDot j.parts).lower := by
  rw [joinDot_lower, joinDot_lower, show i.parts.map PyStr.lower = j.parts.map PyStr.lower from (ID.eq_iff_key i j).mp h]

theorem eq_others {i j k : ID} (h : i.eq j = true) : i.eq k = j.eq k := by
  rw [Bool.eq_iff_iff, ID.eq_iff_key, ID.eq_iff_key, (ID.eq_iff_key i j).mp h]

theorem same_values {W : World} {es es' : List AExpr} (h : List.Forall₂ Same es es') : AExpr.values W es = AExpr.values W es' := by
  induction h with
  | nil => rfl
  | cons h _ ih => rw [AExpr.values, AExpr.values, h.value, ih]

theorem same_bools {W : World} {op : BoolOp} {es es' : List AExpr} (h : List.Forall₂ Same es es') :
    ∀ v, AExpr.boolVals W op v es = AExpr.boolVals W op v es' := by
  induction h with
  | nil => intro v; rfl
  | cons h _ ih => intro v; rw [AExpr.boolVals, AExpr.boolVals, h.value, ih]

theorem same_maths {W : World} {op : MathOp} {es es' : List AExpr} (h : List.Forall₂ Same es es') :
    ∀ v, AExpr.mathVals W op v es = AExpr.mathVals W op v es' := by
  induction h with
  | nil => intro v; rfl
  | cons h _ ih => intro v; rw [AExpr.mathVals, AExpr.mathVals, h.value, ih]

theorem same_conds {W : World} {v : Option (Option Val)} {as as' : List (AExpr × AExpr)}
    (h : List.Forall₂ (fun a b => Same a.1 b.1 ∧ Same a.2 b.2) as as') : AExpr.condVals W as v = AExpr.condVals W as' v := by
  induction h with
  | nil => rfl
  | @cons a b _ _ h _ ih => obtain ⟨a, c⟩ := a; obtain ⟨b, d⟩ := b; rw [AExpr.condVals, AExpr.condVals, h.1.value, h.2.value, ih]

theorem same_cases {W : World} {v : Val} {as as' : List (AExpr × AExpr)}
    (h : List.Forall₂ (fun a b => Same a.1 b.1 ∧ Same a.2 b.2) as as') : AExpr.caseVals W v as = AExpr.caseVals W v as' := by
  induction h with
  | nil => rfl
  | @cons a b _ _ h _ ih =>
    obtain ⟨a, c⟩ := a
    obtain ⟨b, d⟩ := b
    have h1 := h.1
    simp only at h1
    rw [AExpr.caseVals, AExpr.caseVals, h1.value, h.2.value, ih, h1.others]

theorem same_fields {W : World} {as as' : List (ID × AExpr)}
    (h : List.Forall₂ (fun a b => a.1.eq b.1 = true ∧ Same a.2 b.2) as as') : AExpr.fields W as = AExpr.fields W as' := by
  induction h with
  | nil => rfl
  | @cons a b _ _ h _ ih =>
    obtain ⟨a, c⟩ := a
    obtain ⟨b, d⟩ := b
    rw [AExpr.fields, AExpr.fields, h.2.value, ih, joinDot_key h.1]

open AExpr in
mutual

theorem eqb_same : ∀ a b : AExpr, eqb a b = true → Same a b
  | .num v b, x, h => by
    cases x <;> simp [eqb] at h
    obtain ⟨rfl, rfl⟩ := h
    exact ⟨fun _ => rfl, fun _ => rfl, rfl⟩
  | .var n i, x, h => by
    cases x <;> simp [eqb] at h
    obtain ⟨rfl, hi⟩ := h
    exact ⟨fun W => by simp only [AExpr.value, path_key hi], fun W => by simp only [AExpr.ent, path_key hi], by
      cases n <;> simp only [isOthers, eq_others hi]⟩
  | .attr n k p, x, h => by
    cases x <;> simp [eqb] at h
    obtain ⟨⟨rfl, rfl⟩, hp⟩ := h
    have hp := eqb_same _ _ hp
    exact ⟨fun W => by simp only [AExpr.value, hp.ent], fun W => by simp only [AExpr.ent, hp.ent], rfl⟩
  | .fn k p e, x, h => by
    cases x <;> simp [eqb] at h
    obtain ⟨⟨rfl, hp⟩, he⟩ := h
    have hp := eqb_same _ _ hp
    have he := eqb_same _ _ he
    exact ⟨fun W => by simp only [AExpr.value, hp.ent, he.value], fun W => by simp only [AExpr.ent, hp.ent, he.value], rfl⟩
  | .indexed n p es, x, h => by
    cases x <;> simp [eqb] at h
    obtain ⟨⟨rfl, hp⟩, he⟩ := h
    have hp := eqb_same _ _ hp
    have he := eqbL_same _ _ he
    exact ⟨fun W => by simp only [AExpr.value, hp.ent, same_values he], fun W => by simp only [AExpr.ent, hp.ent, same_values he], rfl⟩
  | .sel n p i, x, h => by
    cases x <;> simp [eqb] at h
    obtain ⟨⟨rfl, hp⟩, hi⟩ := h
    have hp := eqb_same _ _ hp
    exact ⟨fun W => by simp only [AExpr.value, hp.ent, selPath_key hi], fun W => by simp only [AExpr.ent, hp.ent, selPath_key hi], rfl⟩
  | .call n i es, x, h => by
    cases x <;> simp [eqb] at h
    obtain ⟨⟨rfl, hi⟩, he⟩ := h
    have he := eqbL_same _ _ he
    have hv := fun W => same_values (W := W) he
    cases he with
    | nil => exact ⟨fun W => by simp only [AExpr.value, path_key hi], fun W => by simp only [AExpr.ent, path_key hi], rfl⟩
    | cons _ _ =>
      exact ⟨fun W => by simp only [AExpr.value, path_key hi, hv], fun W => by simp only [AExpr.ent, path_key hi, hv], rfl⟩
  | .slice p l u, x, h => by
    cases x <;> simp [eqb] at h
    obtain ⟨⟨hp, hl⟩, hu⟩ := h
    have hp := eqb_same _ _ hp
    have hl := eqb_same _ _ hl
    have hu := eqb_same _ _ hu
    exact ⟨fun W => by simp only [AExpr.value, hp.ent, hl.value, hu.value], fun W => by simp only [AExpr.ent, hp.ent, hl.value, hu.value], rfl⟩
  | .not e, x, h => by
    cases x <;> simp [eqb] at h
    have he := eqb_same _ _ h
    exact ⟨fun W => by simp only [AExpr.value, he.value], fun W => by simp only [AExpr.ent], rfl⟩
  | .bool o ts, x, h => by
    cases x <;> simp [eqb] at h
    obtain ⟨rfl, ht⟩ := h
    have ht := eqbL_same _ _ ht
    refine ⟨fun W => ?_, fun W => by simp only [AExpr.ent], rfl⟩
    cases ht with
    | nil => rfl
    | cons h1 h2 => simp only [AExpr.value, h1.value, same_bools h2]
  | .add ts, x, h => by
    cases x <;> simp [eqb] at h
    have ht := eqbL_same _ _ h
    refine ⟨fun W => ?_, fun W => by simp only [AExpr.ent], rfl⟩
    cases ht with
    | nil => rfl
    | cons h1 h2 => simp only [AExpr.value, h1.value, same_maths h2]
  | .mul ts, x, h => by
    cases x <;> simp [eqb] at h
    have ht := eqbL_same _ _ h
    refine ⟨fun W => ?_, fun W => by simp only [AExpr.ent], rfl⟩
    cases ht with
    | nil => rfl
    | cons h1 h2 => simp only [AExpr.value, h1.value, same_maths h2]
  | .bin o l r, x, h => by
    cases x <;> simp [eqb] at h
    obtain ⟨⟨rfl, hl⟩, hr⟩ := h
    have hl := eqb_same _ _ hl
    have hr := eqb_same _ _ hr
    exact ⟨fun W => by simp only [AExpr.value, hl.value, hr.value], fun W => by simp only [AExpr.ent], rfl⟩
  | .rel o l r, x, h => by
    cases x <;> simp [eqb] at h
    obtain ⟨⟨rfl, hl⟩, hr⟩ := h
    have hl := eqb_same _ _ hl
    have hr := eqb_same _ _ hr
    exact ⟨fun W => by simp only [AExpr.value, hl.value, hr.value], fun W => by simp only [AExpr.ent], rfl⟩
  | .agg es, x, h => by
    cases x <;> simp [eqb] at h
    have he := eqbL_same _ _ h
    exact ⟨fun W => by simp only [AExpr.value, same_values he], fun W => by simp only [AExpr.ent], rfl⟩
  | .named es, x, h => by
    cases x <;> simp [eqb] at h
    have he := eqbN_same _ _ h
    exact ⟨fun W => by simp only [AExpr.value, same_fields he], fun W => by simp only [AExpr.ent], rfl⟩
  | .ife as none, x, h => by
    cases x <;> try simp [eqb] at h
    rename_i as' e
    cases e <;> simp [eqb] at h
    have ha := eqbP_same _ _ h
    exact ⟨fun W => by simp only [AExpr.value, same_conds ha], fun W => by simp only [AExpr.ent], rfl⟩
  | .ife as (some e), x, h => by
    cases x <;> try simp [eqb] at h
    rename_i as' e
    cases e <;> simp [eqb] at h
    have ha := eqbP_same _ _ h.1
    have he := eqb_same _ _ h.2
    exact ⟨fun W => by simp only [AExpr.value, same_conds ha, he.value], fun W => by simp only [AExpr.ent], rfl⟩
  | .case c as, x, h => by
    cases x <;> simp [eqb] at h
    have hc := eqb_same _ _ h.1
    have ha := eqbP_same _ _ h.2
    exact ⟨fun W => by simp only [AExpr.value, same_cases ha, hc.value], fun W => by simp only [AExpr.ent], rfl⟩
  | .quant k p i e, x, h => by
    cases x <;> simp [eqb] at h
    obtain ⟨⟨⟨rfl, hp⟩, hi⟩, he⟩ := h
    have hi := eqb_same _ _ hi
    have he := eqb_same _ _ he
    exact ⟨fun W => by simp only [AExpr.value, hi.value, he.value, joinDot_key hp], fun W => by simp only [AExpr.ent], rfl⟩
  | .quantR k p l u e, x, h => by
    cases x <;> simp [eqb] at h
    obtain ⟨⟨⟨⟨rfl, hp⟩, hl⟩, hu⟩, he⟩ := h
    have hl := eqb_same _ _ hl
    have hu := eqb_same _ _ hu
    have he := eqb_same _ _ he
    exact ⟨fun W => by simp only [AExpr.value, hl.value, hu.value, he.value, joinDot_key hp], fun W => by simp only [AExpr.ent], rfl⟩
  | .conv i e, x, h => by
    cases x <;> simp [eqb] at h
    have he := eqb_same _ _ h.2
    exact ⟨fun W => by simp only [AExpr.value, path_key h.1, he.value], fun W => by simp only [AExpr.ent, path_key h.1, he.value], rfl⟩

theorem eqbL_same : ∀ as bs : List AExpr, eqbL as bs = true → List.Forall₂ Same as bs
  | [], [], _ => .nil
  | [], _ :: _, h => by simp [eqbL] at h
  | _ :: _, [], h => by simp [eqbL] at h
  | a :: as, b :: bs, h => by
    simp only [eqbL, Bool.and_eq_true] at h
    exact .cons (eqb_same a b h.1) (eqbL_same as bs h.2)

theorem eqbP_same : ∀ as bs : List (AExpr × AExpr), eqbP as bs = true → List.Forall₂ (fun a b => Same a.1 b.1 ∧ Same a.2 b.2) as bs
  | [], [], _ => .nil
  | [], _ :: _, h => by simp [eqbP] at h
  | _ :: _, [], h => by simp [eqbP] at h
  | (a, c) :: as, (b, d) :: bs, h => by
    simp only [eqbP, Bool.and_eq_true] at h
    exact .cons ⟨eqb_same a b h.1.1, eqb_same c d h.1.2⟩ (eqbP_same as bs h.2)

theorem eqbN_same : ∀ as bs : List (ID × AExpr), eqbN as bs = true → List.Forall₂ (fun a b => a.1.eq b.1 = true ∧ Same a.2 b.2) as bs
  | [], [], _ => .nil
  | [], _ :: _, h => by simp [eqbN] at h
  | _ :: _, [], h => by simp [eqbN] at h
  | (a, c) :: as, (b, d) :: bs, h => by
    simp only [eqbN, Bool.and_eq_true] at h
    exact .cons ⟨h.1.1, eqb_same c d h.1.2⟩ (eqbN_same as bs h.2)

end

/-! ## Case expressions -/

/-- A text that can be read as a choice. -/
def GoodChoice (c : AExpr) : Prop :=
  ∃ ts t, Scans (c.strF false) ts ∧ Reads .choice ts t ∧
    ((c.isOthers = true ∧ t = .others) ∨ (c.isOthers = false ∧ t ≠ .others ∧ ∀ W : World, W.Std → t.value W = c.value W))

theorem lower_word {c : Char} (h : inWord c.toLower = true) : inWord c = true := by
  by_cases hu : c.isUpper = true
  · simp [inWord, wordChar, Char.isAlphanum, Char.isAlpha, hu]
  · have : c.toLower = c := by
      unfold Char.toLower
      split
      · next h' => exact absurd (by simpa [Char.isUpper] using h') hu
      · rfl
    rwa [this] at h

theorem goodChoice_others {c : AExpr} (h : c.isOthers = true) : GoodChoice c := by
  have h0 := h
  unfold AExpr.isOthers at h
  split at h
  · next i =>
    have hk := (ID.eq_iff_key _ _).mp h
    obtain ⟨x, hx⟩ : ∃ x, i.parts = [x] := by
      have := congrArg List.length hk
      simp [ID.key] at this
      exact List.length_eq_one_iff.mp this
    have hl : x.lower = ['o', 't', 'h', 'e', 'r', 's'] := by
      have : [x.lower] = [PyStr.lower ['o', 't', 'h', 'e', 'r', 's']] := by simpa [ID.key, hx] using hk
      simpa using (List.cons.inj this).1.trans (by decide +kernel)
    have hn : x ≠ [] := by rintro rfl; simp [PyStr.lower] at hl
    have hw : ∀ c ∈ x, inWord c = true := by
      intro c hc
      apply lower_word
      have : c.toLower ∈ x.lower := List.mem_map.mpr ⟨c, hc, rfl⟩
      rw [hl] at this
      simp at this
      rcases this with h | h | h | h | h | h <;> rw [h] <;> decide
    refine ⟨[kw "others"], .others, ?_, .others, .inl ⟨h0, rfl⟩⟩
    have := Scans.word hn hw
    have hword : word x = kw "others" := by
      obtain ⟨c, s, rfl⟩ := List.exists_cons_of_ne_nil hn
      have hd : c.isDigit = false := by
        cases hd : c.isDigit with
        | false => rfl
        | true =>
          exfalso
          have h1 : c.toLower = 'o' := by simpa [PyStr.lower] using (List.cons.inj hl).1
          unfold Char.toLower at h1
          split at h1
          · next hu =>
            simp [Char.isDigit] at hd
            have := hu.1
            simp [UInt32.le_iff_toNat_le] at this hd
            omega
          · subst h1; revert hd; decide
      simp only [word, hd, Bool.false_eq_true, if_false, hl]
      decide +kernel
    simp only [AExpr.strF, dotted, hx, joinDot]
    rw [hword] at this
    exact this
  · simp at h

theorem Reads.not_others {c : Cat} {ts : List Tok} {t : Tree} (h : Reads c ts t) : c ≠ .choice → t ≠ .others := by
  induction h <;> simp_all

theorem IsText.choice {c : AExpr} (h : IsText c) (ho : c.isOthers = false) : GoodChoice c := by
  obtain ⟨ts, t, h1, h2, h3⟩ := h.good.expr
  exact ⟨ts, t, h1, .chosen h2, .inr ⟨ho, h2.not_others (by simp), h3⟩⟩

/-- The text after a choice: more choices, the expression, more alternatives. -/
def Block (s : PyStr) (e : AExpr) (as : List (AExpr × AExpr)) : Prop :=
  ∃ zs ws cs t next, Tail s (zs ++ ws) ∧ (∀ ts c, Reads .choice ts c → Reads .choices (ts ++ zs) (.agg (c :: cs))) ∧
    (∀ ts cs, Reads .choices ts (.agg cs) → Reads .alts (kw "when" :: ts ++ ws) (.alt cs t next)) ∧
    (∀ W : World, W.Std → t.value W = e.value W) ∧
    ∀ W : World, W.Std → ∀ v, (Tree.alt cs t next).select W v = AExpr.caseVals W v as

/-- The text after a choice. -/
def after (key : AExpr × PyStr) : List (AExpr × AExpr) → PyStr
  | [] => [' ', '=', '>', '\n'] ++ indent key.2 3
  | (c', e') :: as' =>
    if AExpr.eqb key.1 e' then AExpr.strAlts (some key) ((c', e') :: as')
    else [' ', '=', '>', '\n'] ++ indent key.2 3 ++ ',' :: AExpr.strAlts none ((c', e') :: as')

theorem strAlts_none {c e : AExpr} {as : List (AExpr × AExpr)} :
    AExpr.strAlts none ((c, e) :: as) = ['\n', 'w', 'h', 'e', 'n', ' '] ++ c.strF false ++ after (e, e.strF false) as := by
  cases as with
  | nil => simp [AExpr.strAlts, after]
  | cons a as => obtain ⟨a, b⟩ := a; rw [AExpr.strAlts]; simp [after]

theorem strAlts_some {key : AExpr × PyStr} {c e : AExpr} {as : List (AExpr × AExpr)} :
    AExpr.strAlts (some key) ((c, e) :: as) = [' ', '|', ' '] ++ c.strF false ++ after key as := by
  cases as with
  | nil => simp [AExpr.strAlts, after]
  | cons a as => obtain ⟨a, b⟩ := a; rw [AExpr.strAlts]; simp [after]

theorem covers_cons {W : World} {v : Val} {t : Tree} {ts : List Tree} (h : t ≠ .others) :
    Tree.covers W v (t :: ts) = (t.value W).bind fun u => if u = v then some true else Tree.covers W v ts := by
  rw [Tree.covers]
  exact fun h' => absurd h' h

/-- What follows the choices. -/
def nextVal (W : World) (v : Val) : Option Tree → Option Val
  | none => none
  | some a => a.select W v

theorem select_alt {W : World} {v : Val} {cs : List Tree} {t : Tree} {next : Option Tree} :
    (Tree.alt cs t next).select W v = altVal (Tree.covers W v cs) (t.value W) (nextVal W v next) := by
  cases next <;> rw [Tree.select] <;> rfl

/-- A choice in front of an alternative. -/
theorem select_choice {c e : AExpr} {t u : Tree} {cs : List Tree} {next : Option Tree} {as : List (AExpr × AExpr)} {W : World} {v : Val}
    (hc : (c.isOthers = true ∧ t = .others) ∨ (c.isOthers = false ∧ t ≠ .others ∧ t.value W = c.value W)) (he : u.value W = e.value W)
    (h : (Tree.alt cs u next).select W v = AExpr.caseVals W v as) :
    (Tree.alt (t :: cs) u next).select W v = AExpr.caseVals W v ((c, e) :: as) := by
  rcases hc with ⟨ho, rfl⟩ | ⟨ho, hn, hv⟩
  · rw [AExpr.caseVals, if_pos ho]
    simp only [select_alt, Tree.covers, he, altVal]
  · rw [AExpr.caseVals, ho, select_alt, covers_cons hn, hv]
    cases hx : c.value W with
    | none => rfl
    | some x =>
      simp only [Option.bind_some, Bool.false_eq_true, if_false]
      by_cases hxv : x = v
      · simp only [hxv, if_true, he, altVal]
      · simp only [hxv, if_false]
        rw [← h, select_alt]

theorem closes_comma : Closes [','] [.comma] := ⟨fun _ => (by decide : inWord ',' = false), fun _ => scan_comma⟩

theorem alts_good {as : List (AExpr × AExpr)} (h : ∀ a ∈ as, GoodChoice a.1 ∧ IsText a.2) :
    (∀ key : AExpr, IsText key → Block (after (key, key.strF false) as) key as) ∧
    (as ≠ [] → ∃ us u, Tail (AExpr.strAlts none as) us ∧ Reads .alts us u ∧
      ∀ W : World, W.Std → ∀ v, u.select W v = AExpr.caseVals W v as) := by
  induction as with
  | nil =>
    refine ⟨fun key hk => ?_, fun h => absurd rfl h⟩
    obtain ⟨ts, t, h1, h2, h3⟩ := hk.good.expr
    refine ⟨[], .arrow :: ts, [], t, none, ?_, fun us c hc => by simpa using Reads.choice hc, fun us cs hc => (Reads.alt hc h2).cast (by simp), h3, fun W _ v => ?_⟩
    · have := Tail.line (k := 3) closes_arrow h1 Tail.nil
      simpa [after] using this
    · simp [select_alt, Tree.covers, AExpr.caseVals, altVal, nextVal]
  | cons a as ih =>
    obtain ⟨c, e⟩ := a
    obtain ⟨ih1, ih2⟩ := ih fun x hx => h x (List.mem_cons_of_mem _ hx)
    obtain ⟨⟨cts, ct, c1, c2, c3⟩, he⟩ := h (c, e) (by simp)
    have second : ∃ us u, Tail (AExpr.strAlts none ((c, e) :: as)) us ∧ Reads .alts us u ∧
        ∀ W : World, W.Std → ∀ v, u.select W v = AExpr.caseVals W v ((c, e) :: as) := by
      obtain ⟨zs, ws, cs, t, next, b1, b2, b3, b4, b5⟩ := ih1 e he
      refine ⟨_, .alt (ct :: cs) t next, by rw [strAlts_none]; exact Tail.cons sep_when c1 b1, (b3 _ _ (b2 _ _ c2)).cast (by simp), fun W hW v => ?_⟩
      refine select_choice ?_ (b4 W hW) (b5 W hW v)
      rcases c3 with c3 | ⟨x, y, z⟩
      · exact .inl c3
      · exact .inr ⟨x, y, z W hW⟩
    refine ⟨fun key hk => ?_, fun _ => second⟩
    by_cases hs : AExpr.eqb key e = true
    · obtain ⟨zs, ws, cs, t, next, b1, b2, b3, b4, b5⟩ := ih1 key hk
      have hval := (eqb_same _ _ hs).value
      refine ⟨.bar :: cts ++ zs, ws, ct :: cs, t, next, ?_, fun ts c' hc => (Reads.choices hc (b2 _ _ c2)).cast (by simp), b3, b4, fun W hW v => ?_⟩
      · have := Tail.cons sep_bar c1 b1
        rw [after, if_pos hs, strAlts_some, List.append_assoc]
        simpa only [List.append_assoc, List.cons_append, List.nil_append] using this
      · refine select_choice ?_ ((b4 W hW).trans (hval W)) (b5 W hW v)
        rcases c3 with c3 | ⟨x, y, z⟩
        · exact .inl c3
        · exact .inr ⟨x, y, z W hW⟩
    · obtain ⟨ts, t, h1, h2, h3⟩ := hk.good.expr
      obtain ⟨us, u, s1, s2, s3⟩ := second
      refine ⟨[], .arrow :: ts ++ .comma :: us, [], t, some u, ?_, fun us c hc => by simpa using Reads.choice hc,
        fun us cs hc => (Reads.alts hc h2 s2).cast (by simp), h3, fun W hW v => ?_⟩
      · have := Tail.line (k := 3) closes_arrow h1 (Tail.append (Tail.close closes_comma) s1)
        simp only [after, hs]
        simpa [List.append_assoc] using this
      · rw [← s3 W hW v]
        simp [select_alt, Tree.covers, altVal, nextVal]

theorem closes_is : ∀ {s : PyStr} {ts : List Tok}, Tail ('\n' :: s) ts →
    Tail ([' ', 'i', 's'] ++ indent ('\n' :: s) 4) (kw "is" :: ts) := by
  intro s ts h rest hr
  refine ⟨(by decide : inWord ' ' = false), ?_⟩
  have hi : ∃ r, indent ('\n' :: s) 4 ++ rest = '\n' :: r := by
    rw [(indent_go ('\n' :: s)).1]
    exact ⟨indentGo 4 true s ++ rest, by simp [indentGo]⟩
  obtain ⟨r, hr'⟩ := hi
  have h1 : scan [] (indent ('\n' :: s) 4 ++ rest) = ts ++ scan [] rest := by rw [scan_indent, (h rest hr).2]
  rw [hr'] at h1
  simp only [List.cons_append, List.nil_append, hr', scan_space]
  rw [show 'i' :: 's' :: '\n' :: r = ['i', 's'] ++ '\n' :: r from rfl,
    scan_kw _ (t := kw "is") (by decide) (by decide) (by decide +kernel) (by decide), h1]

theorem Good.case {c : AExpr} {as : List (AExpr × AExpr)} (hc : IsText c) (hn : as ≠ []) (h : ∀ a ∈ as, GoodChoice a.1 ∧ IsText a.2) :
    Good .primary ((AExpr.case c as).strF false) (fun W => (AExpr.case c as).value W) := by
  obtain ⟨us, u, h1, h2, h3⟩ := (alts_good h).2 hn
  obtain ⟨ts, t, c1, c2, c3⟩ := hc.good.expr
  obtain ⟨s, hs⟩ : ∃ s, AExpr.strAlts none as = '\n' :: s := by
    obtain ⟨⟨a, b⟩, as, rfl⟩ := List.exists_cons_of_ne_nil hn
    exact ⟨_, by rw [strAlts_none]; rfl⟩
  rw [hs] at h1
  refine ⟨.lpar :: kw "case" :: ts ++ kw "is" :: us ++ [.rpar], .case t u, ?_, .caseOf c2 h2, fun W hW => ?_⟩
  · have := ((Scans.open opens_case c1).tail (closes_is h1)).close closes_rpar
    simp only [AExpr.strF, hs]
    exact this.cast (by simp) (by simp)
  · simp only [Tree.value, AExpr.value, c3 W hW, h3 W hW]

/-! ## Induction -/

open AExpr in
mutual

theorem isText : ∀ e : AExpr, e.WF → IsText e
  | .num v b, _ => by
    refine ⟨?_, fun h => ?_, fun h => by simp [AExpr.isName] at h⟩
    · rw [strF]
      exact (Good.int v b).congr fun W => by rw [AExpr.value]
    · refine ⟨_, by rw [strF, if_pos rfl]; exact Good.int (-v) .b0, fun W => ?_⟩
      rw [AExpr.value, negVal, Int.neg_neg]
  | .var neg i, h => by
    rw [WF] at h
    exact .ofName h.good rfl (fun _ => by rw [strF]) (fun W => by rw [AExpr.value]) (fun W => by rw [AExpr.ent]) rfl rfl
  | .attr neg k pre, h => by
    rw [WF] at h
    have := ((isText pre h.1).name h.2).attr k
    exact .ofName this rfl (fun _ => by rw [strF]) (fun W => by rw [AExpr.value, Option.bind_map]; rfl) (fun W => by rw [AExpr.ent]) rfl rfl
  | .fn k pre e, h => by
    rw [WF] at h
    have := (((isText pre h.1).name h.2.1).attrFn k).apply (.one (isText e h.2.2).good.expr)
    exact .ofPlainName (by rw [strF]; simpa only [List.append_assoc, List.cons_append] using this) rfl (fun W => by rw [AExpr.value])
      (fun W => by rw [AExpr.ent]) rfl
  | .indexed neg pre es, h => by
    rw [WF] at h
    have := ((isText pre h.1).name h.2.1).apply (goodList h.2.2.1 (isTextL es h.2.2.2))
    exact .ofName this rfl (fun _ => by rw [strF]) (fun W => by rw [AExpr.value]) (fun W => by rw [AExpr.ent]) rfl rfl
  | .sel neg pre s, h => by
    rw [WF] at h
    have := ((isText pre h.1).name h.2.1).selects h.2.2.1 h.2.2.2
    exact .ofName this rfl (fun _ => by rw [strF]; rfl) (fun W => by rw [AExpr.value, Option.bind_map]; rfl) (fun W => by rw [AExpr.ent]) rfl rfl
  | .call neg i [], h => by
    rw [WF] at h
    exact .ofName h.1.good rfl (fun _ => by simp [strF, strL, joinComma, callArgs]) (fun W => by simp only [AExpr.value]) (fun W => by simp only [AExpr.ent]) rfl rfl
  | .call neg i (a :: as), h => by
    rw [WF] at h
    have hl := goodList (by simp) (isTextL (a :: as) h.2)
    have := h.1.good.apply hl
    obtain ⟨_, _, ⟨⟨_, _, hl, _⟩, _⟩, _⟩ := hl
    exact .ofName this rfl (fun _ => by simp [strF, callArgs, hl]) (fun W => by simp only [AExpr.value]) (fun W => by simp only [AExpr.ent]) rfl rfl
  | .slice pre lo hi, h => by
    rw [WF] at h
    have := ((isText pre h.1).name h.2.1).slice ((isText lo h.2.2.1).good.le (q := 3) h.2.2.2.2.1) ((isText hi h.2.2.2.1).good.le (q := 3) h.2.2.2.2.2)
    exact .ofPlainName (by rw [strF]; exact this) rfl (fun W => by rw [AExpr.value]) (fun W => by rw [AExpr.ent]) rfl
  | .not e, h => by
    rw [WF] at h
    refine .ofGood ?_ rfl rfl
    obtain ⟨ts, t, h1, h2, h3⟩ := (isText e h.1).good.parens (p := 6) (by omega)
    refine ⟨_, .not t, by rw [strF]; exact Scans.open opens_not h1, .not h2, fun W hW => ?_⟩
    rw [Tree.value, h3 W hW]
    simp only [AExpr.value]
  | .bool op [], h => by
    rw [WF] at h
    refine .ofGood ?_ rfl rfl
    have : Dotted ⟨["True".toList]⟩ := by decide +kernel
    obtain ⟨ts, t, h1, h2, h3⟩ := this.good
    refine ⟨ts, t, by simp only [strF]; exact h1, .relation (.simple (.term (.factor (.primary (.name h2))))), fun W hW => ?_⟩
    rw [Tree.value_name h2.isName, h3 W hW]
    simp only [AExpr.value, h.2.1 rfl]
    exact hW.tru
  | .bool op (e :: es), h => by
    rw [WF, WFL] at h
    refine .ofGood ?_ rfl rfl
    obtain ⟨ts, t, h1, h2, h3⟩ := (isText e h.1.1).good.parens (p := 1) (by omega)
    obtain ⟨us, k1, k2⟩ := boolTail (op := op) (isTextL es h.1.2)
    obtain ⟨t', m1, m2⟩ := k2 ts t (.inl h2)
    exact ⟨_, t', by simp only [strF]; exact h1.tail k1, m1.expr, fun W hW => by simp only [m2 W hW, h3 W hW, AExpr.value]⟩
  | .add [], h => by
    rw [WF, headOK] at h
    exact h.2.1.elim
  | .add (e :: es), h => by
    rw [WF, WFL, headOK] at h
    refine .ofGood ?_ rfl rfl
    obtain ⟨ts, t, h1, h2, h3⟩ := (isText e h.1.1).good.le (q := 3) h.2.1
    obtain ⟨us, k1, k2⟩ := addTail (isTextL es h.1.2)
    obtain ⟨t', m1, m2⟩ := k2 ts t h2
    exact ⟨_, t', by simp only [strF]; exact h1.tail k1, m1, fun W hW => by simp only [m2 W hW, h3 W hW, AExpr.value]⟩
  | .mul [], h => by
    rw [WF] at h
    exact absurd rfl h.2.1
  | .mul (e :: es), h => by
    rw [WF, WFL] at h
    refine .ofGood ?_ rfl rfl
    obtain ⟨ts, t, h1, h2, h3⟩ := (isText e h.1.1).good.parens (p := 5) (by omega)
    obtain ⟨us, k1, k2⟩ := mulTail (isTextL es h.1.2)
    obtain ⟨t', m1, m2⟩ := k2 ts t (.factor h2)
    exact ⟨_, t', by simp only [strF]; exact h1.tail k1, m1, fun W hW => by simp only [m2 W hW, h3 W hW, AExpr.value]⟩
  | .bin op l r, h => by
    rw [WF] at h
    exact .ofGood (good_bin (isText l h.1) (isText r h.2.1)) rfl rfl
  | .rel op l r, h => by
    rw [WF] at h
    exact .ofGood (good_rel (isText l h.1) (isText r h.2.1) h.2.2.1) rfl rfl
  | .agg es, h => by
    rw [WF] at h
    refine .ofGood ?_ rfl rfl
    have hn : es ≠ [] := by rintro rfl; simp at h
    obtain ⟨ts, us, h1, h2, h3, h4⟩ := goodList hn (isTextL es h.1)
    refine ⟨_, .agg us, by rw [strF]; exact h1.paren, .aggregate h2 (by omega), fun W hW => ?_⟩
    rw [Tree.value, h4 W hW]
    simp only [AExpr.value]
  | .named es, h => by
    rw [WF] at h
    refine .ofGood ?_ rfl rfl
    obtain ⟨ts, us, h1, h2, h3⟩ := goodNamed h.1 (isTextN es h.2)
    refine ⟨_, .named us, by rw [strF]; exact h1.paren, .named h2, fun W hW => ?_⟩
    simp only [Tree.value, AExpr.value, h3 W hW]
  | .case c as, h => by
    rw [WF] at h
    exact .ofGood (Good.case (isText c h.1) h.2.1 (isTextA as h.2.2)) rfl rfl
  | .quantR k p lo hi pr, h => by
    rw [WF] at h
    refine .ofGood ?_ rfl rfl
    obtain ⟨h1, h2, h3, h4, hk, h5, x, hx, hw, ht, hf⟩ := h
    have := Good.quantR hk hw ((isText lo h1).good.le (q := 3) h3) ((isText hi h2).good.le (q := 3) h4) (isText pr h5).good.expr ht hf
    simp only [strF, dotted, AExpr.value, hx, joinDot, AExpr.prec]
    exact this
  | .ife [] none, h => by
    rw [WF] at h
    exact absurd rfl h.1
  | .ife [] (some _), h => by
    rw [WF] at h
    exact absurd rfl h.1
  | .ife ((c, e) :: as) none, h => by
    rw [WF, WFP] at h
    refine .ofGood ?_ rfl rfl
    have := Good.cond (isText c h.2.1.1).good.expr (isText e h.2.1.2.1).good.expr
      (condTail (V := fun _ => none) (isTextP as h.2.1.2.2) CondTail.none)
    refine (show Good _ _ _ from ?_)
    simp only [strF, AExpr.value, condVals, AExpr.prec]
    simp only [List.append_assoc, List.append_nil] at this ⊢
    exact this
  | .ife ((c, e) :: as) (some d), h => by
    rw [WF, WFP] at h
    refine .ofGood ?_ rfl rfl
    have := Good.cond (isText c h.2.1.1).good.expr (isText e h.2.1.2.1).good.expr
      (condTail (V := fun W => some (d.value W)) (isTextP as h.2.1.2.2) (CondTail.els (isText d h.2.2).good.expr))
    refine (show Good _ _ _ from ?_)
    simp only [strF, AExpr.value, condVals, AExpr.prec]
    simp only [List.append_assoc] at this ⊢
    exact this
  | .quant k p it pr, h => by
    rw [WF] at h
    refine .ofGood ?_ rfl rfl
    obtain ⟨h1, h2, h3, x, hx, hw, ht, hf⟩ := h
    have hi := isText it h1
    have := Good.quant (k := k) hw (hi.name h2) (isText pr h3).good.expr ht hf
    simp only [strF, dotted, AExpr.value, hx, joinDot, AExpr.prec, AExpr.value_name h2]
    exact this
  | .conv i e, h => by
    rw [WF] at h
    have := h.1.good.apply (.one (isText e h.2).good.expr)
    exact .ofPlainName (by rw [strF]; exact this) rfl (fun W => by rw [AExpr.value]) (fun W => by rw [AExpr.ent]) rfl

theorem isTextL : ∀ es : List AExpr, WFL es → ∀ e ∈ es, IsText e
  | [], _, e, he => by simp at he
  | x :: xs, h, e, he => by
    rw [WFL] at h
    have hx := isText x h.1
    have hxs := isTextL xs h.2
    rcases List.mem_cons.1 he with rfl | he
    · exact hx
    · exact hxs e he

theorem isTextP : ∀ as : List (AExpr × AExpr), WFP as → ∀ a ∈ as, IsText a.1 ∧ IsText a.2
  | [], _, a, ha => by simp at ha
  | (c, e) :: xs, h, a, ha => by
    rw [WFP] at h
    have hc := isText c h.1
    have he := isText e h.2.1
    have hxs := isTextP xs h.2.2
    rcases List.mem_cons.1 ha with rfl | ha
    · exact ⟨hc, he⟩
    · exact hxs a ha

theorem isTextA : ∀ as : List (AExpr × AExpr), WFA as → ∀ a ∈ as, GoodChoice a.1 ∧ IsText a.2
  | [], _, a, ha => by simp at ha
  | (c, e) :: xs, h, a, ha => by
    rw [WFA] at h
    have hc : GoodChoice c := by
      by_cases ho : c.isOthers = true
      · exact goodChoice_others ho
      · have hc := h.1.resolve_right ho
        exact (isText c hc).choice (by simpa using ho)
    have he := isText e h.2.1
    have hxs := isTextA xs h.2.2
    rcases List.mem_cons.1 ha with rfl | ha
    · exact ⟨hc, he⟩
    · exact hxs a ha

theorem isTextN : ∀ as : List (ID × AExpr), WFN as → ∀ a ∈ as, Selector a.1 ∧ IsText a.2
  | [], _, a, ha => by simp at ha
  | (x, e) :: xs, h, a, ha => by
    rw [WFN] at h
    have he := isText e h.2.1
    have hxs := isTextN xs h.2.2
    rcases List.mem_cons.1 ha with rfl | ha
    · exact ⟨h.1, he⟩
    · exact hxs a ha

end

end Verif.Ada
