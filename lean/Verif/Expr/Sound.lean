import Batteries.Data.List.Basic
import Verif.Expr.Model
import Verif.Expr.Fuel
import Verif.Expr.WF

/-! # Helper lemmas: `simplified` and `-` preserve meaning -/

namespace Verif

open Expr

/-! ## Lists -/

theorem WFL_iff (ts : List Expr) : Expr.WFL ts ↔ ∀ t ∈ ts, t.WF := by
  induction ts with
  | nil => simp [Expr.WFL]
  | cons t ts ih => simp [Expr.WFL, ih]

theorem ConstL_iff (ts : List Expr) : Expr.ConstL ts ↔ ∀ t ∈ ts, t.Const := by
  induction ts with
  | nil => simp [Expr.ConstL]
  | cons t ts ih => simp [Expr.ConstL, ih]

theorem GoodL_iff (odd : Prop) (s : Bool) (ts : List Expr) :
    Expr.GoodL odd s ts ↔ ∀ t ∈ ts, t.Good odd s := by
  induction ts with
  | nil => simp [Expr.GoodL]
  | cons t ts ih => simp [Expr.GoodL, ih]

theorem WFL_append (a b : List Expr) : Expr.WFL (a ++ b) ↔ Expr.WFL a ∧ Expr.WFL b := by
  simp only [WFL_iff, List.mem_append, or_imp, forall_and]

theorem GoodL_append (odd : Prop) (s : Bool) (a b : List Expr) :
    Expr.GoodL odd s (a ++ b) ↔ Expr.GoodL odd s a ∧ Expr.GoodL odd s b := by
  simp only [GoodL_iff, List.mem_append, or_imp, forall_and]

/-- Induction over expressions with hypotheses for all elements of lists. -/
theorem Expr.ind {P : Expr → Prop}
    (tru : P .tru) (fls : P .fls) (undefined : P .undefined) (num : ∀ v b, P (.num v b))
    (var : ∀ ng imm id, P (.var ng imm id))
    (attr : ∀ ng k pre, P pre → P (.attr ng k pre))
    (sel : ∀ ng pre s, P pre → P (.sel ng pre s))
    (call : ∀ ng id args, (∀ a ∈ args, P a) → P (.call ng id args))
    (not : ∀ e, P e → P (.not e))
    (bool : ∀ op ts, (∀ t ∈ ts, P t) → P (.bool op ts))
    (add : ∀ ts, (∀ t ∈ ts, P t) → P (.add ts))
    (mul : ∀ ts, (∀ t ∈ ts, P t) → P (.mul ts))
    (bin : ∀ op l r, P l → P r → P (.bin op l r))
    (rel : ∀ op l r, P l → P r → P (.rel op l r))
    (agg : ∀ ts, (∀ t ∈ ts, P t) → P (.agg ts))
    (quant : ∀ k p it pr, P it → P pr → P (.quant k p it pr)) : ∀ e, P e := by
  intro e
  refine Expr.rec (motive_1 := P) (motive_2 := fun ts => ∀ t ∈ ts, P t)
    tru fls undefined num var attr sel ?_ not ?_ ?_ ?_ bin rel ?_ quant ?_ ?_ e
  · intro ng id args h; exact call ng id args h
  · intro op ts h; exact bool op ts h
  · intro ts h; exact add ts h
  · intro ts h; exact mul ts h
  · intro ts h; exact agg ts h
  · intro t ht; cases ht
  · intro h t hh ht x hx
    rcases List.mem_cons.1 hx with rfl | hx
    · exact hh
    · exact ht x hx

theorem Const.good (odd : Prop) (e : Expr) : e.Const → ∀ s, e.Good odd s := by
  induction e using Expr.ind with
  | num v b => intro _ s; trivial
  | add ts ih =>
    intro h s
    simp only [Expr.Const, ConstL_iff] at h
    simp only [Expr.Good, GoodL_iff]
    exact fun t ht => ih t ht (h t ht) true
  | mul ts ih =>
    intro h s
    simp only [Expr.Const, ConstL_iff] at h
    simp only [Expr.Good, GoodL_iff]
    exact fun t ht => ih t ht (h t ht) s
  | bin op l r ihl ihr =>
    intro h s
    simp only [Expr.Const] at h
    cases op <;> simp only [Expr.Good]
    · exact ⟨ihl h.2.1 _, ihr h.2.2 _⟩
    · exact absurd rfl h.1
    · exact ⟨fun _ => h.2, ihl h.2.1 _, ihr h.2.2 _⟩
    · exact ⟨fun _ => h.2, ihl h.2.1 _, ihr h.2.2 _⟩
  | _ => intro h; simp [Expr.Const] at h

theorem Good.weaken {odd : Prop} (e : Expr) : ∀ s, e.Good odd s → e.Good odd false := by
  induction e using Expr.ind with
  | add ts ih => intro s h; simpa only [Expr.Good] using h
  | mul ts ih =>
    intro s h
    simp only [Expr.Good, GoodL_iff] at h ⊢
    exact fun t ht => ih t ht s (h t ht)
  | bin op l r ihl ihr =>
    intro s h
    cases op <;> simp only [Expr.Good] at h ⊢
    · exact h
    · exact ⟨by simp, ihl s h.2.1, h.2.2⟩
    · exact ⟨by simp, h.2⟩
    · exact ⟨by simp, h.2⟩
  | _ => intro s h; simp_all [Expr.Good]

/-! ## Constants fold to numbers -/

structure ConstOK (k : Nat) : Prop where
  simp : ∀ e e', e.Const → simplify k e = .ok e' → ∃ v b, e' = .num v b
  loop : ∀ o work total terms' total', (∀ w ∈ work, w.Const) →
    assLoop k o work [] total = .ok (terms', total') → terms' = []

theorem bind_ok {α β : Type} {x : Py α} {f : α → Py β} {b : β} (h : (x >>= f) = .ok b) :
    ∃ a, x = .ok a ∧ f a = .ok b := by
  cases x with
  | ok a => exact ⟨a, rfl, h⟩
  | error e => cases h

theorem constOK (k : Nat) : ConstOK k := by
  induction k with
  | zero =>
    refine ⟨?_, ?_⟩
    · intro e e' _ h; simp [simplify] at h
    · intro o work total terms' total' _ h
      cases work with
      | nil => simp only [assLoop, Except.ok.injEq, Prod.mk.injEq] at h; exact h.1.symm
      | cons w work => simp [assLoop] at h
  | succ k ih =>
    obtain ⟨ihs, ihl⟩ := ih
    refine ⟨?_, ?_⟩
    · intro e e' hc h
      cases e with
      | num v b => simp only [simplify, Except.ok.injEq] at h; exact ⟨v, b, h.symm⟩
      | add ts =>
        simp only [Expr.Const, ConstL_iff] at hc
        simp only [simplify] at h
        obtain ⟨⟨terms, total⟩, h1, h2⟩ := bind_ok h
        have := ihl _ _ _ _ _ hc h1
        subst this
        simp only [AssOp.finish, AssOp.const, List.isEmpty_nil, if_true] at h2
        cases h2
        exact ⟨_, _, rfl⟩
      | mul ts =>
        simp only [Expr.Const, ConstL_iff] at hc
        simp only [simplify] at h
        obtain ⟨⟨terms, total⟩, h1, h2⟩ := bind_ok h
        have := ihl _ _ _ _ _ hc h1
        subst this
        simp only [AssOp.finish, AssOp.const, List.isEmpty_nil, if_true] at h2
        cases h2
        exact ⟨_, _, rfl⟩
      | bin op l r =>
        simp only [Expr.Const] at hc
        simp only [simplify] at h
        obtain ⟨l', h1, h⟩ := bind_ok h
        obtain ⟨r', h2, h⟩ := bind_ok h
        obtain ⟨a, b, rfl⟩ := ihs _ _ hc.2.1 h1
        obtain ⟨c, d, rfl⟩ := ihs _ _ hc.2.2 h2
        simp only [Expr.num?] at h
        cases op with
        | sub => cases h; exact ⟨_, _, rfl⟩
        | div => exact absurd rfl hc.1
        | pow =>
          simp only [numArith, numPow] at h
          split at h
          · split at h <;> cases h
          · cases h; exact ⟨_, _, rfl⟩
        | mod =>
          simp only [numArith, numMod] at h
          split at h
          · cases h
          · cases h; exact ⟨_, _, rfl⟩
      | _ => simp [Expr.Const] at hc
    · intro o work total terms' total' hc h
      cases work with
      | nil => simp only [assLoop, Except.ok.injEq, Prod.mk.injEq] at h; exact h.1.symm
      | cons w work =>
        simp only [assLoop] at h
        obtain ⟨t, h1, h2⟩ := bind_ok h
        obtain ⟨a, b, rfl⟩ := ihs _ _ (hc w (by simp)) h1
        exact ihl _ _ _ _ _ (fun w hw => hc w (by simp [hw])) h2

/-! ## Associative operators -/

namespace AssOp

/-- The integer a term contributes. -/
def carrier : AssOp → Val → Option Int
  | bool _, .bool b => some (if b then 1 else 0)
  | add, .int i => some i
  | mul, .int i => some i
  | _, _ => none

/-- Admissible contributions. -/
def inC : AssOp → Int → Prop
  | bool _, x => x = 0 ∨ x = 1
  | _, _ => True

/-- The value belonging to a total. -/
def back : AssOp → Int → Val
  | bool _, x => .bool (x ≠ 0)
  | _, x => .int x

def fold (o : AssOp) (cs : List Int) : Int := cs.foldr o.op o.neutral

theorem carrier_inC {o : AssOp} {w : Val} {x : Int} (h : o.carrier w = some x) : o.inC x := by
  cases o <;> cases w <;> simp_all [carrier, inC]
  subst h; split <;> simp

theorem inC_op {o : AssOp} {x y : Int} (hx : o.inC x) (hy : o.inC y) : o.inC (o.op x y) := by
  cases o <;> simp only [inC, op] at *
  split <;> split <;> assumption

theorem inC_neutral (o : AssOp) : o.inC o.neutral := by
  cases o <;> simp only [inC, neutral]
  split <;> simp

theorem op_assoc (o : AssOp) (x y z : Int) : o.op (o.op x y) z = o.op x (o.op y z) := by
  cases o with
  | bool b => simp only [op]; grind
  | add => simp only [op]; omega
  | mul => simp only [op]; exact Int.mul_assoc x y z

theorem op_comm {o : AssOp} {x y : Int} (hx : o.inC x) (hy : o.inC y) : o.op x y = o.op y x := by
  cases o with
  | bool b =>
    simp only [op]
    simp only [inC] at hx hy
    rcases hx with rfl | rfl <;> rcases hy with rfl | rfl <;> simp
  | add => simp only [op]; omega
  | mul => simp only [op]; exact Int.mul_comm x y

theorem op_neutral (o : AssOp) (x : Int) : o.op o.neutral x = x := by
  cases o with
  | bool b => simp only [op, neutral]; split <;> simp
  | add => simp [op, neutral]
  | mul => simp [op, neutral]

theorem op_neutral_right {o : AssOp} {x : Int} (hx : o.inC x) : o.op x o.neutral = x := by
  rw [op_comm hx (inC_neutral o), op_neutral]

theorem fold_append (o : AssOp) (a b : List Int) : o.fold (a ++ b) = o.op (o.fold a) (o.fold b) := by
  induction a with
  | nil => simp only [List.nil_append, fold, List.foldr_nil]; rw [op_neutral]
  | cons x xs ih =>
    simp only [List.cons_append, fold, List.foldr_cons] at ih ⊢
    rw [ih, op_assoc]

theorem inC_fold {o : AssOp} {cs : List Int} (h : ∀ c ∈ cs, o.inC c) : o.inC (o.fold cs) := by
  induction cs with
  | nil => exact inC_neutral o
  | cons c cs ih =>
    exact inC_op (h c (by simp)) (ih fun c hc => h c (by simp [hc]))

end AssOp

/-- The contributions of the terms of an associative operator. -/
def evalC (D : Division) (ρ : Env) (o : AssOp) (ts : List Expr) : Option (List Int) :=
  allSome (fun t => (eval D ρ t).bind o.carrier) ts

theorem allSome_some {α β : Type} {f : α → Option β} {as : List α} {bs : List β} :
    allSome f as = some bs ↔ List.Forall₂ (fun a b => f a = some b) as bs := by
  induction as generalizing bs with
  | nil =>
    constructor
    · intro h; simp only [allSome, Option.some.injEq] at h; subst h; exact .nil
    · intro h; cases h; rfl
  | cons a as ih =>
    simp only [allSome]
    constructor
    · intro h
      split at h
      · rename_i b bs' h1 h2
        cases h
        exact .cons h1 (ih.1 h2)
      · cases h
    · intro h
      cases h with
      | cons h1 h2 => rw [h1, ih.2 h2]

theorem evalL_eq (D : Division) (ρ : Env) (ts : List Expr) : evalL D ρ ts = allSome (eval D ρ) ts := by
  induction ts with
  | nil => rfl
  | cons t ts ih =>
    simp only [evalL, allSome, ih]
    cases eval D ρ t <;> cases allSome (eval D ρ) ts <;> rfl

theorem allSome_bind {α β γ : Type} (f : α → Option β) (g : β → Option γ) (as : List α) :
    (allSome f as).bind (allSome g) = allSome (fun a => (f a).bind g) as := by
  induction as with
  | nil => rfl
  | cons a as ih =>
    simp only [allSome, ← ih]
    cases h1 : f a with
    | none => simp
    | some b =>
      cases h2 : allSome f as with
      | none => cases h3 : g b <;> simp [h3]
      | some bs => simp [allSome]

theorem allSome_append {α β : Type} (f : α → Option β) (as bs : List α) :
    allSome f (as ++ bs) = (allSome f as).bind fun xs => (allSome f bs).map (xs ++ ·) := by
  induction as with
  | nil => cases h : allSome f bs <;> simp [allSome, h]
  | cons a as ih =>
    simp only [List.cons_append, allSome, ih]
    cases h1 : f a with
    | none => simp
    | some b =>
      cases h2 : allSome f as with
      | none => simp
      | some xs => cases h3 : allSome f bs <;> simp

theorem bool_carrier {vs : List Val} {op : BoolOp} :
    allSome (AssOp.bool op).carrier vs = (allSome Val.bool? vs).map (·.map fun b => if b then 1 else 0) := by
  induction vs with
  | nil => rfl
  | cons w vs ih =>
    cases w <;> simp only [allSome, AssOp.carrier, Val.bool?, ih]
    · simp
    · cases allSome Val.bool? vs <;> simp
    · simp

theorem int_carrier {vs : List Val} {o : AssOp} (ho : o = .add ∨ o = .mul) :
    allSome o.carrier vs = allSome Val.int? vs := by
  induction vs with
  | nil => rfl
  | cons w vs ih =>
    rcases ho with rfl | rfl <;> cases w <;> simp only [allSome, AssOp.carrier, Val.int?, ih]

theorem fold_bool (op : BoolOp) (bs : List Bool) :
    decide ((AssOp.bool op).fold (bs.map fun b => if b then 1 else 0) ≠ 0)
      = (if op.isAnd then bs.all id else bs.any id) := by
  have key : ((AssOp.bool op).fold (bs.map fun b => if b then 1 else 0) ≠ 0) ↔
      (if op.isAnd then bs.all id else bs.any id) = true := by
    induction bs with
    | nil =>
      show (AssOp.bool op).neutral ≠ 0 ↔ _
      simp only [AssOp.neutral, List.all_nil, List.any_nil]
      cases op.isAnd <;> simp
    | cons b bs ih =>
      show (AssOp.bool op).op (if b then 1 else 0) ((AssOp.bool op).fold (bs.map fun b => if b then 1 else 0)) ≠ 0 ↔ _
      generalize (AssOp.bool op).fold (bs.map fun b => if b then 1 else 0) = x at ih ⊢
      simp only [AssOp.op, List.all_cons, List.any_cons]
      cases hop : op.isAnd <;> cases b <;> simp_all
  rw [Bool.eq_iff_iff, decide_eq_true_iff]
  exact key

theorem fold_add (xs : List Int) : AssOp.add.fold xs = intSum xs := by
  induction xs with
  | nil => rfl
  | cons x xs ih => simp only [AssOp.fold, List.foldr_cons] at ih ⊢; rw [ih]; rfl

theorem fold_mul (xs : List Int) : AssOp.mul.fold xs = intProd xs := by
  induction xs with
  | nil => rfl
  | cons x xs ih => simp only [AssOp.fold, List.foldr_cons] at ih ⊢; rw [ih]; rfl

/-- The value of an associative expression from the contributions of its terms. -/
theorem eval_mk (D : Division) (ρ : Env) (o : AssOp) (ts : List Expr) :
    eval D ρ (o.mk ts) = (evalC D ρ o ts).map (fun cs => o.back (o.fold cs)) := by
  have e1 : evalC D ρ o ts = (evalL D ρ ts).bind (allSome o.carrier) := by
    rw [evalL_eq, allSome_bind]; rfl
  rw [e1]
  cases o with
  | bool op =>
    simp only [AssOp.mk, eval]
    cases h : evalL D ρ ts with
    | none => simp
    | some vs =>
      simp only [Option.bind_some, bool_carrier]
      cases h2 : allSome Val.bool? vs with
      | none => simp
      | some bs => simp only [Option.map_some, AssOp.back, fold_bool]
  | add =>
    simp only [AssOp.mk, eval]
    cases h : evalL D ρ ts with
    | none => simp
    | some vs =>
      simp only [Option.bind_some, int_carrier (o := .add) (Or.inl rfl)]
      cases h2 : allSome Val.int? vs with
      | none => simp
      | some bs => simp only [Option.map_some, AssOp.back, fold_add]
  | mul =>
    simp only [AssOp.mk, eval]
    cases h : evalL D ρ ts with
    | none => simp
    | some vs =>
      simp only [Option.bind_some, int_carrier (o := .mul) (Or.inr rfl)]
      cases h2 : allSome Val.int? vs with
      | none => simp
      | some bs => simp only [Option.map_some, AssOp.back, fold_mul]

theorem evalC_inC {D : Division} {ρ : Env} {o : AssOp} {ts : List Expr} {cs : List Int}
    (h : evalC D ρ o ts = some cs) : ∀ c ∈ cs, o.inC c := by
  rw [evalC, allSome_some] at h
  induction h with
  | nil => simp
  | @cons a b as bs h1 h2 ih =>
    intro c hc
    rcases List.mem_cons.1 hc with rfl | hc
    · cases h3 : eval D ρ a with
      | none => simp [h3] at h1
      | some w => rw [h3] at h1; exact AssOp.carrier_inC h1
    · exact ih c hc

theorem evalC_cons {D : Division} {ρ : Env} {o : AssOp} {t : Expr} {ts : List Expr} {cs : List Int} :
    evalC D ρ o (t :: ts) = some cs ↔
      ∃ w c ds, eval D ρ t = some w ∧ o.carrier w = some c ∧ evalC D ρ o ts = some ds ∧ cs = c :: ds := by
  simp only [evalC, allSome_some]
  constructor
  · intro h
    cases h with
    | cons h1 h2 =>
      rename_i b bs
      cases h3 : eval D ρ t with
      | none => simp [h3] at h1
      | some w => rw [h3] at h1; exact ⟨w, b, bs, rfl, h1, h2, rfl⟩
  · rintro ⟨w, c, ds, h1, h2, h3, rfl⟩
    exact .cons (by rw [h1]; exact h2) h3

theorem evalC_append {D : Division} {ρ : Env} {o : AssOp} {as bs : List Expr} {cs : List Int} :
    evalC D ρ o (as ++ bs) = some cs ↔
      ∃ xs ys, evalC D ρ o as = some xs ∧ evalC D ρ o bs = some ys ∧ cs = xs ++ ys := by
  simp only [evalC, allSome_append]
  constructor
  · intro h
    cases h1 : allSome (fun t => (eval D ρ t).bind o.carrier) as with
    | none => simp [h1] at h
    | some xs =>
      cases h2 : allSome (fun t => (eval D ρ t).bind o.carrier) bs with
      | none => simp [h1, h2] at h
      | some ys => simp only [h1, h2, Option.bind_some, Option.map_some, Option.some.injEq] at h
                   exact ⟨xs, ys, rfl, rfl, h.symm⟩
  · rintro ⟨xs, ys, h1, h2, rfl⟩
    simp [h1, h2]

theorem carrier_back {o : AssOp} {w : Val} {x : Int} (h : o.carrier w = some x) : o.back x = w := by
  cases o <;> cases w <;> simp_all [AssOp.carrier, AssOp.back]
  subst h
  split <;> simp_all

theorem back_inj {o : AssOp} {x y : Int} (hx : o.inC x) (hy : o.inC y) (h : o.back x = o.back y) :
    x = y := by
  cases o
  · simp only [AssOp.inC] at hx hy
    rcases hx with rfl | rfl <;> rcases hy with rfl | rfl <;> simp [AssOp.back] at h ⊢
  · simpa [AssOp.back] using h
  · simpa [AssOp.back] using h

theorem carrier_of_back {o : AssOp} {x : Int} (hx : o.inC x) : o.carrier (o.back x) = some x := by
  cases o <;> simp_all [AssOp.back, AssOp.inC, AssOp.carrier]
  rcases hx with rfl | rfl <;> simp

theorem sameTerms_value {D : Division} {ρ : Env} {o : AssOp} {t : Expr} {ts : List Expr} {w : Val}
    {c : Int} (h : o.sameTerms t = some ts) (he : eval D ρ t = some w) (hc : o.carrier w = some c) :
    ∃ cs, evalC D ρ o ts = some cs ∧ o.fold cs = c := by
  have key : ∃ o' : AssOp, t = o'.mk ts ∧ o'.op = o.op ∧ o'.neutral = o.neutral ∧
      o'.carrier = o.carrier ∧ o'.back = o.back ∧ (∀ x, o'.inC x ↔ o.inC x) := by
    unfold AssOp.sameTerms at h
    split at h <;> cases h
    · exact ⟨.bool .and, rfl, rfl, rfl, rfl, rfl, fun _ => Iff.rfl⟩
    · exact ⟨.bool .andThen, rfl, rfl, rfl, by funext x; cases x <;> rfl, by funext x; rfl, fun _ => Iff.rfl⟩
    · exact ⟨.bool .andThen, rfl, rfl, rfl, rfl, rfl, fun _ => Iff.rfl⟩
    · exact ⟨.bool .or, rfl, rfl, rfl, rfl, rfl, fun _ => Iff.rfl⟩
    · exact ⟨.bool .orElse, rfl, rfl, rfl, by funext x; cases x <;> rfl, by funext x; rfl, fun _ => Iff.rfl⟩
    · exact ⟨.bool .orElse, rfl, rfl, rfl, rfl, rfl, fun _ => Iff.rfl⟩
    · exact ⟨.add, rfl, rfl, rfl, rfl, rfl, fun _ => Iff.rfl⟩
    · exact ⟨.mul, rfl, rfl, rfl, rfl, rfl, fun _ => Iff.rfl⟩
  obtain ⟨o', rfl, h1, h2, h3, h4, h5⟩ := key
  rw [eval_mk] at he
  have h6 : evalC D ρ o' ts = evalC D ρ o ts := by simp only [evalC, h3]
  rw [h6] at he
  cases hcs : evalC D ρ o ts with
  | none => simp [hcs] at he
  | some cs =>
    simp only [hcs, Option.map_some, Option.some.injEq] at he
    refine ⟨cs, rfl, ?_⟩
    have h7 : o'.fold cs = o.fold cs := by simp only [AssOp.fold, h1, h2]
    rw [h7, h4] at he
    have := carrier_back hc
    exact back_inj (AssOp.inC_fold (evalC_inC hcs)) (AssOp.carrier_inC hc) (he.trans this.symm)

theorem carrier_num {o : AssOp} {x c : Int} (h : o.carrier (.int x) = some c) : c = x := by
  cases o <;> simp_all [AssOp.carrier]

theorem carrier_bool {o : AssOp} {b : Bool} {c : Int} (h : o.carrier (.bool b) = some c) :
    c = if b then 1 else 0 := by
  cases o <;> simp_all [AssOp.carrier]

theorem eval_const {D : Division} {ρ : Env} {o : AssOp} {x : Int} :
    eval D ρ (o.const x) = some (o.back x) := by
  cases o
  · simp only [AssOp.const, AssOp.back]; split <;> simp_all [eval]
  · simp [AssOp.const, AssOp.back, eval]
  · simp [AssOp.const, AssOp.back, eval]

/-- The value after the loop. -/
theorem eval_finish {D : Division} {ρ : Env} {o : AssOp} {terms : List Expr} {total : Int}
    {cs : List Int} (hc : evalC D ρ o terms = some cs) (ht : o.inC total) :
    eval D ρ (o.finish terms total) = some (o.back (o.op (o.fold cs) total)) := by
  simp only [AssOp.finish]
  split
  · rename_i he
    simp only [List.isEmpty_iff] at he
    subst he
    simp only [evalC, allSome, Option.some.injEq] at hc
    subst hc
    simp only [AssOp.fold, List.foldr_nil]
    rw [AssOp.op_neutral, eval_const]
  · have h : ∃ ds, evalC D ρ o (if total ≠ o.neutral then terms ++ [o.const total] else terms) = some ds ∧
        o.fold ds = o.op (o.fold cs) total ∧ (∀ d ∈ ds, o.inC d) := by
      split
      · refine ⟨cs ++ [total], ?_, ?_, ?_⟩
        · rw [evalC_append]
          refine ⟨cs, [total], hc, ?_, rfl⟩
          rw [evalC_cons]
          exact ⟨_, total, [], eval_const, carrier_of_back ht, rfl, rfl⟩
        · rw [AssOp.fold_append]
          congr 1
          simp only [AssOp.fold, List.foldr_cons, List.foldr_nil]
          exact AssOp.op_neutral_right ht
        · intro d hd
          rcases List.mem_append.1 hd with hd | hd
          · exact evalC_inC hc d hd
          · simp at hd; subst hd; exact ht
      · rename_i h
        simp only [ne_eq, Decidable.not_not] at h
        refine ⟨cs, hc, ?_, evalC_inC hc⟩
        rw [h, AssOp.op_neutral_right (AssOp.inC_fold (evalC_inC hc))]
    obtain ⟨ds, h1, h2, h3⟩ := h
    generalize (if total ≠ o.neutral then terms ++ [o.const total] else terms) = ts at h1 ⊢
    rw [← h2]
    split
    · rename_i t
      rw [evalC_cons] at h1
      obtain ⟨w, c, es, h4, h5, h6, rfl⟩ := h1
      simp only [evalC, allSome, Option.some.injEq] at h6
      subst h6
      simp only [AssOp.fold, List.foldr_cons, List.foldr_nil]
      rw [AssOp.op_neutral_right (h3 c (by simp)), carrier_back h5, h4]
    · rw [eval_mk, h1]; rfl

theorem eval_absorb {D : Division} {ρ : Env} {op : BoolOp} {e : Expr} {w : Val}
    (h : eval D ρ e = some w) : eval D ρ (absorb op e) = some w := by
  unfold absorb
  split
  · rename_i op' ts
    have h0 := h
    simp only [eval] at h0
    cases hv : evalL D ρ ts with
    | none => simp [hv] at h0
    | some vs =>
      simp only [hv, Option.bind_some] at h0
      cases hb : allSome Val.bool? vs with
      | none => simp [hb] at h0
      | some bs =>
        simp only [hb, Option.some.injEq] at h0
        have hmem : ∀ t ∈ ts, ∀ b, eval D ρ t = some (.bool b) → b ∈ bs := by
          rw [evalL_eq, allSome_some] at hv
          rw [allSome_some] at hb
          intro t ht b hb'
          clear h0 h
          induction hv generalizing bs with
          | nil => cases ht
          | cons h1 h2 ih =>
            cases hb with
            | cons h3 h4 =>
              rename_i a v as vs' b' bs'
              rcases List.mem_cons.1 ht with rfl | ht
              · rw [hb'] at h1; cases h1
                simp only [Val.bool?, Option.some.injEq] at h3
                simp [h3]
              · exact List.mem_cons_of_mem _ (ih _ h4 ht)
        split
        · rename_i hc
          simp only [Bool.and_eq_true, List.any_eq_true] at hc
          obtain ⟨⟨_, ho'⟩, t, ht, hf⟩ := hc
          have : t = .fls := by cases t <;> simp_all [Expr.isFls]
          subst this
          have hm := hmem _ ht false rfl
          rw [if_pos ho'] at h0
          rw [← h0]
          have : bs.all id = false := by
            rw [List.all_eq_false]
            exact ⟨false, hm, by simp⟩
          simp [eval, this]
        · split
          · rename_i hc
            simp only [Bool.and_eq_true, List.any_eq_true, Bool.not_eq_true'] at hc
            obtain ⟨⟨_, ho'⟩, t, ht, hf⟩ := hc
            have : t = .tru := by cases t <;> simp_all [Expr.isTru]
            subst this
            have hm := hmem _ ht true rfl
            rw [if_neg (by simp [ho'])] at h0
            rw [← h0]
            have : bs.any id = true := by
              rw [List.any_eq_true]
              exact ⟨true, hm, by simp⟩
            simp [eval, this]
          · exact h
  · exact h

end Verif
