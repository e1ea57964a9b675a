import Verif.Expr.Sound
import Verif.Ident.Props

/-! # Helper lemmas: the induction showing that `simplified` and `-` preserve meaning -/

namespace Verif

theorem HQL_iff (ts : List Expr) : Expr.HQL ts ↔ ∃ t ∈ ts, t.HQ := by
  induction ts with
  | nil => simp [Expr.HQL]
  | cons t ts ih => simp [Expr.HQL, ih]

theorem HQL_append (a b : List Expr) : Expr.HQL (a ++ b) ↔ Expr.HQL a ∨ Expr.HQL b := by
  simp only [HQL_iff, List.mem_append, or_and_right, exists_or]

theorem NegL_iff (odd : Prop) (ts : List Expr) : Expr.NegL odd ts ↔ ∀ t ∈ ts, t.Neg odd := by
  induction ts with
  | nil => simp [Expr.NegL]
  | cons t ts ih => simp [Expr.NegL, ih]

theorem NegL_append (odd : Prop) (a b : List Expr) :
    Expr.NegL odd (a ++ b) ↔ Expr.NegL odd a ∧ Expr.NegL odd b := by
  simp only [NegL_iff, List.mem_append, or_imp, forall_and]

theorem Neg.good {odd : Prop} (e : Expr) : e.Neg odd → e.Good odd true := by
  induction e using Expr.ind with
  | add ts ih =>
    intro h
    simp only [Expr.Neg, NegL_iff] at h
    simp only [Expr.Good, GoodL_iff]
    exact fun t ht => ih t ht (h t ht)
  | mul ts ih =>
    intro h
    simp only [Expr.Neg, NegL_iff] at h
    simp only [Expr.Good, GoodL_iff]
    exact fun t ht => ih t ht (h t ht)
  | bin op l r ihl ihr =>
    intro h
    simp only [Expr.Neg] at h
    obtain ⟨rfl, ho, hl, hr⟩ := h
    exact ⟨fun _ => ho, ihl hl, hr⟩
  | _ => intro h; simp_all [Expr.Neg, Expr.Good]

theorem Neg.headOK {odd : Prop} {ts : List Expr} (h : ∀ t ∈ ts, t.Neg odd) : Expr.headOK ts := by
  cases ts with
  | nil => trivial
  | cons t ts =>
    have := h t (by simp)
    cases t <;> simp_all [Expr.Neg, Expr.headOK]

/-- The class of results of `simplified`. -/
def Out (odd : Prop) (s : Bool) (e : Expr) : Prop := if s then e.Neg odd else e.Good odd false

theorem Out.good {odd : Prop} {s : Bool} {e : Expr} (h : Out odd s e) : e.Good odd s := by
  cases s with
  | true => exact Neg.good e h
  | false => exact h

theorem Neg.out {odd : Prop} {s : Bool} {e : Expr} (h : e.Neg odd) : Out odd s e := by
  cases s with
  | true => exact h
  | false => exact Good.weaken e true (Neg.good e h)

/-- `a` and `b` compare equal only if they have the same meaning. -/
def EqSound (D : Division) : Prop :=
  ∀ a b : Expr, a.WF → b.WF → a.eq b = true →
    ∀ ρ x y, eval D ρ a = some x → eval D ρ b = some y → x = y

/-- Proof device: the result of `x` satisfies `Q`; if `x` raises, then for lack of fuel or `N` holds. -/
def Res {α : Type} (x : Py α) (Q : α → Prop) (N : Prop) : Prop :=
  match x with
  | .ok a => Q a
  | .error e => e = .fuel ∨ N

theorem Res.ok {α : Type} {a : α} {Q : α → Prop} {N : Prop} (h : Q a) : Res (.ok a : Py α) Q N := h

theorem Res.pure {α : Type} {a : α} {Q : α → Prop} {N : Prop} (h : Q a) : Res (pure a : Py α) Q N := h

theorem Res.bind {α β : Type} {x : Py α} {f : α → Py β} {Q : α → Prop} {R : β → Prop} {N M : Prop}
    (hx : Res x Q N) (hn : N → M) (hf : ∀ a, x = .ok a → Q a → Res (f a) R M) : Res (x >>= f) R M := by
  cases x with
  | ok a => exact hf a rfl hx
  | error e => exact hx.imp id hn

theorem Res.mono {α : Type} {x : Py α} {Q R : α → Prop} {N M : Prop}
    (hx : Res x Q N) (hn : N → M) (hq : ∀ a, x = .ok a → Q a → R a) : Res x R M := by
  cases x with
  | ok a => exact hq a rfl hx
  | error e => exact hx.imp id hn

theorem Res.mapM {f : Expr → Py Expr} {Q : Expr → Expr → Prop} {N : Expr → Prop} {ts : List Expr}
    (h : ∀ t ∈ ts, Res (f t) (Q t) (N t)) :
    Res (ts.mapM f) (fun ts' => List.Forall₂ Q ts ts') (∃ t ∈ ts, N t) := by
  induction ts with
  | nil => rw [List.mapM_nil]; exact Res.pure .nil
  | cons t ts ih =>
    rw [List.mapM_cons]
    refine Res.bind (h t (by simp)) (fun hn => ⟨t, by simp, hn⟩) fun t' _ ht' => ?_
    refine Res.bind (ih fun t ht => h t (by simp [ht])) ?_ fun ts' _ hts' => ?_
    · rintro ⟨u, hu, hn⟩; exact ⟨u, by simp [hu], hn⟩
    · exact Res.pure (.cons ht' hts')

/-- The class the terms of an operator belong to. -/
def AssOp.flag (o : AssOp) (s : Bool) : Bool :=
  match o with
  | .bool _ => false
  | .add => true
  | .mul => s

section
variable (D : Division)

/-- No value under any assignment (or the expression is quantified). -/
def NoVal (e : Expr) : Prop := e.HQ ∨ ∀ ρ, eval D ρ e = none

/-- Same meaning. -/
def Keeps (e e' : Expr) : Prop := (e'.HQ → e.HQ) ∧ ∀ ρ v, eval D ρ e = some v → eval D ρ e' = some v

structure SoundOK (k : Nat) : Prop where
  simp : ∀ s e, e.Good D.Odd s → e.WF →
    Res (simplify k e) (fun e' => Out D.Odd s e' ∧ e'.WF ∧ Keeps D e e') (NoVal D e)
  ng : ∀ e, e.Neg D.Odd → e.WF →
    Res (neg k e) (fun e' => e'.Neg D.Odd ∧ e'.WF ∧ (e'.HQ → e.HQ) ∧
      ∀ ρ x, eval D ρ e = some (.int x) → eval D ρ e' = some (.int (-x))) (NoVal D e)
  loop : ∀ o s work terms total,
    (∀ w ∈ work, w.Good D.Odd (o.flag s) ∧ w.WF) → (∀ t ∈ terms, Out D.Odd (o.flag s) t ∧ t.WF) →
    Res (assLoop k o work terms total)
      (fun r => (∀ t ∈ r.1, Out D.Odd (o.flag s) t ∧ t.WF) ∧ (Expr.HQL r.1 → Expr.HQL terms ∨ Expr.HQL work) ∧
        ∀ ρ a b, evalC D ρ o terms = some a → evalC D ρ o work = some b → o.inC total →
          ∃ c, evalC D ρ o r.1 = some c ∧ o.inC r.2 ∧
            o.op (o.fold c) r.2 = o.op (o.op (o.fold a) (o.fold b)) total)
      (Expr.HQL work ∨ ∀ ρ, evalC D ρ o work = none)
  canc : ∀ rest terms, (∀ w ∈ rest, w.Neg D.Odd ∧ w.WF) → (∀ t ∈ terms, t.Neg D.Odd ∧ t.WF) →
    Res (cancel k rest terms)
      (fun r => (∀ t ∈ r, t.Neg D.Odd ∧ t.WF) ∧ (Expr.HQL r → Expr.HQL rest ∨ Expr.HQL terms) ∧
        ∀ ρ a b, evalC D ρ .add rest = some a → evalC D ρ .add terms = some b →
          ∃ c, evalC D ρ .add r = some c ∧ intSum c = intSum a + intSum b)
      (Expr.HQL rest ∨ ∀ ρ, evalC D ρ .add rest = none)

theorem Keeps.refl (e : Expr) : Keeps D e e := ⟨id, fun _ _ h => h⟩

theorem simplify_var {k : Nat} {ng imm : Bool} {id : ID} {e : Expr}
    (h : simplify k (.var ng imm id) = .ok e) : e = .var ng imm id := by
  cases k with
  | zero => simp [simplify] at h
  | succ k => simp only [simplify, Except.ok.injEq] at h; exact h.symm

theorem simplify_var_err {k : Nat} {ng imm : Bool} {id : ID} {er : PyErr}
    (h : simplify k (.var ng imm id) = .error er) : er = .fuel := by
  cases k with
  | zero => simp only [simplify, Except.error.injEq] at h; exact h.symm
  | succ k => simp [simplify] at h

variable {D}

theorem out_finish {o : AssOp} {s : Bool} {terms : List Expr} {total : Int}
    (ho : ∀ op, o = .bool op → s = false)
    (h : ∀ t ∈ terms, Out D.Odd (o.flag s) t ∧ t.WF) :
    Out D.Odd s (o.finish terms total) ∧ (o.finish terms total).WF ∧
      ((o.finish terms total).HQ → Expr.HQL terms) := by
  have hconst : ∀ x, Out D.Odd (o.flag s) (o.const x) ∧ (o.const x).WF ∧ Out D.Odd s (o.const x)
      ∧ ¬ (o.const x).HQ := by
    intro x
    cases o with
    | bool op =>
      have := ho op rfl
      subst this
      simp only [AssOp.const, AssOp.flag]
      split <;> simp [Out, Expr.Good, Expr.WF, Expr.HQ]
    | add => cases s <;> simp [AssOp.const, AssOp.flag, Out, Expr.Neg, Expr.WF, Expr.HQ, Expr.Good]
    | mul => cases s <;> simp [AssOp.const, AssOp.flag, Out, Expr.Neg, Expr.WF, Expr.HQ, Expr.Good]
  have hup : ∀ t, Out D.Odd (o.flag s) t → Out D.Odd s t := by
    intro t ht
    cases o with
    | bool op => have := ho op rfl; subst this; exact ht
    | add => exact Neg.out ht
    | mul => exact ht
  simp only [AssOp.finish]
  split
  · exact ⟨(hconst total).2.2.1, (hconst total).2.1, fun h => absurd h (hconst total).2.2.2⟩
  · rename_i hne
    have hall : ∀ t ∈ (if total ≠ o.neutral then terms ++ [o.const total] else terms),
        Out D.Odd (o.flag s) t ∧ t.WF := by
      split
      · intro t ht
        rcases List.mem_append.1 ht with ht | ht
        · exact h t ht
        · simp at ht; subst ht; exact ⟨(hconst total).1, (hconst total).2.1⟩
      · exact h
    have hhq : Expr.HQL (if total ≠ o.neutral then terms ++ [o.const total] else terms) →
        Expr.HQL terms := by
      split
      · rw [HQL_append]
        rintro (h | h)
        · exact h
        · simp only [Expr.HQL, or_false] at h; exact absurd h (hconst total).2.2.2
      · exact id
    have hne' : (if total ≠ o.neutral then terms ++ [o.const total] else terms) ≠ [] := by
      simp only [List.isEmpty_iff] at hne
      split
      · simp
      · exact hne
    generalize (if total ≠ o.neutral then terms ++ [o.const total] else terms) = ts at hall hhq hne' ⊢
    split
    · rename_i t
      exact ⟨hup t (hall t (by simp)).1, (hall t (by simp)).2, fun h => hhq (by simp [Expr.HQL, h])⟩
    · have hwf : Expr.WFL ts := (WFL_iff ts).2 fun t ht => (hall t ht).2
      cases o with
      | bool op =>
        have := ho op rfl
        subst this
        refine ⟨?_, ⟨hwf, fun h => absurd h hne'⟩, hhq⟩
        simp only [Out, AssOp.mk, Expr.Good]
        exact ⟨by trivial, (GoodL_iff _ _ _).2 fun t ht => (hall t ht).1.good⟩
      | add =>
        refine ⟨?_, ⟨hwf, Neg.headOK fun t ht => (hall t ht).1⟩, hhq⟩
        apply Neg.out
        exact (NegL_iff _ _).2 fun t ht => (hall t ht).1
      | mul =>
        refine ⟨?_, hwf, hhq⟩
        cases s with
        | true => exact (NegL_iff _ _).2 fun t ht => (hall t ht).1
        | false => exact (GoodL_iff _ _ _).2 fun t ht => (hall t ht).1

theorem out_absorb {op : BoolOp} {e : Expr} (h : Out D.Odd false e) (hw : e.WF) :
    Out D.Odd false (absorb op e) ∧ (absorb op e).WF ∧ ((absorb op e).HQ → e.HQ) := by
  unfold absorb
  split
  · split
    · simp [Out, Expr.Good, Expr.WF, Expr.HQ]
    · split
      · simp [Out, Expr.Good, Expr.WF, Expr.HQ]
      · exact ⟨h, hw, id⟩
  · exact ⟨h, hw, id⟩

theorem sameTerms_out {o : AssOp} {s : Bool} {t : Expr} {ts : List Expr} (h : o.sameTerms t = some ts)
    (ht : Out D.Odd (o.flag s) t) (hw : t.WF) :
    (∀ u ∈ ts, u.Good D.Odd (o.flag s) ∧ u.WF) ∧ (Expr.HQL ts → t.HQ) := by
  unfold AssOp.sameTerms at h
  split at h <;> cases h
  all_goals
    simp only [Expr.WF, WFL_iff] at hw
    refine ⟨fun u hu => ⟨?_, ?_⟩, id⟩
  all_goals first
    | exact hw.1 u hu
    | exact hw u hu
    | (have := ht.good; simp only [Expr.Good, AssOp.flag, GoodL_iff] at this; exact this.2 u hu)
    | (have := ht.good; simp only [Expr.Good, AssOp.flag, GoodL_iff] at this; exact this u hu)

theorem RelOp.eval_inv (op : RelOp) (a b : Val) :
    op.inv.eval a b = (op.eval a b).map (!·) := by
  cases op <;> cases a <;> cases b <;> simp [RelOp.inv, RelOp.eval]
  all_goals (rename_i x y; rw [Bool.eq_iff_iff]; simp)

theorem RelOp.eval_refl {op : RelOp} {a : Val} {b : Bool} (h : op.isReflexive = true)
    (he : op.eval a a = some b) : b = true := by
  cases op <;> cases a <;> simp_all [RelOp.isReflexive, RelOp.eval]

theorem RelOp.eval_int {op : RelOp} (x y : Int) (h : op.isCmp = true) :
    op.eval (.int x) (.int y) = some (op.intOp x y) := by
  cases op <;> simp [RelOp.isCmp] at h <;> simp only [RelOp.eval, RelOp.intOp]
  · by_cases h : x = y <;> simp [h]
  · by_cases h : x = y <;> simp [h]

theorem Expr.eq_refl (a : Expr) : a.eq a = true := by
  unfold Expr.eq
  have h : a.cls.sub a.cls = true := by simp [Expr.Cls.sub]
  rw [h]
  simp only [Bool.or_self, Bool.true_and]
  split
  · simp
  · simp only [beq_self_eq_true, Bool.true_and]; rw [ID.eq_iff_key]
  · simp

theorem removeFirst_value {ρ : Env} (hEq : EqSound D) {x : Expr} {ts : List Expr} (hx : x ∈ ts)
    (hw : ∀ t ∈ ts, t.WF) {b : List Int} (hb : evalC D ρ .add ts = some b) :
    ∃ v c, eval D ρ x = some (.int v) ∧ evalC D ρ .add (removeFirst x ts) = some c ∧
      intSum b = v + intSum c := by
  induction ts generalizing b with
  | nil => cases hx
  | cons y ys ih =>
    rw [evalC_cons] at hb
    obtain ⟨w, z, ds, h1, h2, h3, rfl⟩ := hb
    have hwi : w = .int z := by cases w <;> simp_all [AssOp.carrier]
    subst hwi
    simp only [removeFirst]
    split
    · rename_i he
      -- the value of `x`
      have hxv : ∃ v, eval D ρ x = some (.int v) := by
        rcases List.mem_cons.1 hx with rfl | hx
        · exact ⟨z, h1⟩
        · obtain ⟨v, _, hv, _⟩ := ih hx (fun t ht => hw t (by simp [ht])) h3
          exact ⟨v, hv⟩
      obtain ⟨v, hv⟩ := hxv
      have := hEq y x (hw y (by simp)) (hw x hx) he ρ _ _ h1 hv
      cases this
      exact ⟨z, ds, hv, h3, rfl⟩
    · rename_i he
      rcases List.mem_cons.1 hx with rfl | hx
      · exact absurd (Expr.eq_refl _) he
      · obtain ⟨v, c, hv, hc, hs⟩ := ih hx (fun t ht => hw t (by simp [ht])) h3
        refine ⟨v, z :: c, hv, ?_, ?_⟩
        · rw [evalC_cons]; exact ⟨_, z, c, h1, rfl, hc, rfl⟩
        · simp only [intSum, hs]; omega

theorem removeFirst_mem {x t : Expr} {ts : List Expr} (h : t ∈ removeFirst x ts) : t ∈ ts := by
  induction ts with
  | nil => exact h
  | cons y ys ih =>
    simp only [removeFirst] at h
    split at h
    · exact List.mem_cons_of_mem _ h
    · rcases List.mem_cons.1 h with rfl | h
      · simp
      · exact List.mem_cons_of_mem _ (ih h)

theorem add_value {ρ : Env} {ts : List Expr} {v : Val} :
    eval D ρ (.add ts) = some v ↔ ∃ cs, evalC D ρ .add ts = some cs ∧ v = .int (intSum cs) := by
  have := eval_mk D ρ .add ts
  simp only [AssOp.mk] at this
  rw [this]
  cases evalC D ρ .add ts with
  | none => simp
  | some cs => simp [AssOp.back, fold_add, eq_comm]

theorem mul_value {ρ : Env} {ts : List Expr} {v : Val} :
    eval D ρ (.mul ts) = some v ↔ ∃ cs, evalC D ρ .mul ts = some cs ∧ v = .int (intProd cs) := by
  have := eval_mk D ρ .mul ts
  simp only [AssOp.mk] at this
  rw [this]
  cases evalC D ρ .mul ts with
  | none => simp
  | some cs => simp [AssOp.back, fold_mul, eq_comm]

theorem intSum_append (a b : List Int) : intSum (a ++ b) = intSum a + intSum b := by
  induction a with
  | nil => simp [intSum]
  | cons x xs ih => simp only [List.cons_append, intSum, ih]; omega

theorem evalC_reverse {ρ : Env} {ts : List Expr} {a : List Int} (h : evalC D ρ .add ts = some a) :
    ∃ b, evalC D ρ .add ts.reverse = some b ∧ intSum b = intSum a := by
  induction ts generalizing a with
  | nil => exact ⟨a, h, rfl⟩
  | cons t ts ih =>
    rw [evalC_cons] at h
    obtain ⟨w, c, ds, h1, h2, h3, rfl⟩ := h
    obtain ⟨b, hb, hs⟩ := ih h3
    refine ⟨b ++ [c], ?_, ?_⟩
    · rw [List.reverse_cons, evalC_append]
      refine ⟨b, [c], hb, ?_, rfl⟩
      rw [evalC_cons]; exact ⟨w, c, [], h1, h2, rfl, rfl⟩
    · rw [intSum_append, hs]; simp only [intSum]; omega

theorem bin_value {ρ : Env} {op : ArithOp} {l r : Expr} {v : Val} :
    eval D ρ (.bin op l r) = some v ↔
      ∃ a b c, eval D ρ l = some (.int a) ∧ eval D ρ r = some (.int b) ∧ op.eval D a b = some c ∧ v = .int c := by
  simp only [eval]
  constructor
  · intro h
    split at h
    · rename_i a b h1 h2
      simp only [Option.map_eq_some_iff] at h
      obtain ⟨c, hc, rfl⟩ := h
      exact ⟨a, b, c, h1, h2, hc, rfl⟩
    · cases h
  · rintro ⟨a, b, c, h1, h2, h3, rfl⟩
    simp [h1, h2, h3]

theorem rel_value {ρ : Env} {op : RelOp} {l r : Expr} {v : Val} :
    eval D ρ (.rel op l r) = some v ↔
      ∃ a b c, eval D ρ l = some a ∧ eval D ρ r = some b ∧ op.eval a b = some c ∧ v = .bool c := by
  simp only [eval]
  constructor
  · intro h
    split at h
    · rename_i a b h1 h2
      simp only [Option.map_eq_some_iff] at h
      obtain ⟨c, hc, rfl⟩ := h
      exact ⟨a, b, c, h1, h2, hc, rfl⟩
    · cases h
  · rintro ⟨a, b, c, h1, h2, h3, rfl⟩
    simp [h1, h2, h3]


theorem forall₂_imp {α β : Type} {R S : α → β → Prop} {as : List α} {bs : List β}
    (h : List.Forall₂ R as bs) (hi : ∀ a b, R a b → S a b) : List.Forall₂ S as bs := by
  induction h with
  | nil => exact .nil
  | cons h1 h2 ih => exact .cons (hi _ _ h1) ih

theorem negIf_not {w : Val} {ng : Bool} {x : Int} (h : w.negIf ng = some (.int x)) :
    w.negIf (!ng) = some (.int (-x)) := by
  cases w <;> cases ng <;> simp_all [Val.negIf, Val.int?]
  omega

theorem intProd_append (a b : List Int) : intProd (a ++ b) = intProd a * intProd b := by
  induction a with
  | nil => simp [intProd]
  | cons x xs ih => simp only [List.cons_append, intProd, ih, Int.mul_assoc]

theorem soundOK (hEq : EqSound D) (k : Nat) : SoundOK D k := by
  induction k with
  | zero =>
    refine ⟨?_, ?_, ?_, ?_⟩
    · intro s e _ _; exact Or.inl rfl
    · intro e _ _; exact Or.inl rfl
    · intro o s work terms total hw ht
      cases work with
      | nil =>
        simp only [assLoop]
        refine Res.ok ⟨ht, Or.inl, fun ρ a b ha hb hi => ⟨a, ha, hi, ?_⟩⟩
        simp only [evalC, allSome, Option.some.injEq] at hb
        subst hb
        simp only [AssOp.fold, List.foldr_nil]
        rw [AssOp.op_neutral_right]
        exact AssOp.inC_fold (evalC_inC ha)
      | cons w work => exact Or.inl rfl
    · intro rest terms hr ht
      cases rest with
      | nil =>
        simp only [cancel]
        refine Res.ok ⟨ht, Or.inr, fun ρ a b ha hb => ⟨b, hb, ?_⟩⟩
        simp only [evalC, allSome, Option.some.injEq] at ha
        subst ha
        simp [intSum]
      | cons w work => exact Or.inl rfl
  | succ k ih =>
    obtain ⟨ihs, ihn, ihl, ihc⟩ := ih
    refine ⟨?_, ?_, ?_, ?_⟩
    · intro s e hg hw
      have atom : ∀ e : Expr, e.Good D.Odd s → e.WF → (s = true → e.Neg D.Odd) →
          Res (.ok e) (fun e' => Out D.Odd s e' ∧ e'.WF ∧ Keeps D e e') (NoVal D e) := by
        intro e hg hw hn
        refine Res.ok ⟨?_, hw, Keeps.refl D e⟩
        cases s with
        | true => exact hn rfl
        | false => exact hg
      cases e with
      | tru => exact atom _ hg hw (by simp_all [Expr.Good])
      | fls => exact atom _ hg hw (by simp_all [Expr.Good])
      | undefined => exact absurd hw (by simp [Expr.WF])
      | num v b => exact atom _ hg hw (fun _ => trivial)
      | var ng imm id => exact atom _ hg hw (fun _ => trivial)
      | sel ng pre s => exact atom _ hg hw (fun _ => trivial)
      | call ng id args => exact atom _ hg hw (fun _ => trivial)
      | attr ng a pre =>
        have hpre : ∃ imm id, pre = .var false imm id := by
          cases pre <;> simp [Expr.WF] at hw
          exact ⟨_, _, by rw [hw.1]⟩
        obtain ⟨imm, id, rfl⟩ := hpre
        simp only [simplify]
        cases hs : simplify k (.var false imm id) with
        | error er => exact Or.inl (simplify_var_err hs)
        | ok p =>
          rw [simplify_var hs]
          exact atom _ hg hw (fun _ => trivial)
      | not e =>
        simp only [Expr.Good] at hg
        obtain ⟨rfl, hg⟩ := hg
        simp only [Expr.WF] at hw
        have nval : ∀ (e : Expr), NoVal D e → NoVal D (.not e) := by
          rintro e (h | h)
          · exact Or.inl h
          · exact Or.inr fun ρ => by simp [eval, h ρ]
        have aux : Res (do return Expr.not (← simplify k e))
            (fun e' => Out D.Odd false e' ∧ e'.WF ∧ Keeps D (.not e) e') (NoVal D (.not e)) := by
          refine Res.bind (ihs false e hg hw) (nval e) fun e' _ h => Res.pure ⟨⟨rfl, h.1⟩, h.2.1, h.2.2.1, ?_⟩
          intro ρ v hv
          simp only [eval] at hv ⊢
          split at hv
          · rename_i b hb
            rw [h.2.2.2 ρ _ hb]; exact hv
          · cases hv
        cases e with
        | rel op l r =>
          simp only [simplify]
          split
          · simp only [Expr.Good] at hg
            simp only [Expr.WF] at hw
            refine Res.bind (ihs false l hg.2.1 hw.1) ?_ fun l' _ hl => ?_
            · rintro (h | h)
              · exact Or.inl (Or.inl h)
              · exact Or.inr fun ρ => by simp [eval, h ρ]
            refine Res.bind (ihs false r hg.2.2 hw.2) ?_ fun r' _ hr => ?_
            · rintro (h | h)
              · exact Or.inl (Or.inr h)
              · exact Or.inr fun ρ => by simp [eval, h ρ]
            refine Res.pure ⟨⟨rfl, hl.1, hr.1⟩, ⟨hl.2.1, hr.2.1⟩, Or.imp hl.2.2.1 hr.2.2.1, ?_⟩
            intro ρ v hv
            simp only [eval] at hv
            rw [rel_value]
            split at hv
            · rename_i b hb
              cases hv
              have := (rel_value (D := D) (v := .bool b) (op := op) (l := l) (r := r) (ρ := ρ)).1 (by simpa only [eval] using hb)
              obtain ⟨x, y, z, h1, h2, h3, h4⟩ := this
              cases h4
              refine ⟨x, y, !b, hl.2.2.2 ρ _ h1, hr.2.2.2 ρ _ h2, ?_, rfl⟩
              rw [RelOp.eval_inv, h3]; rfl
            · cases hv
          · exact aux
        | _ => exact aux
      | bool op ts =>
        simp only [Expr.Good] at hg
        obtain ⟨rfl, hg⟩ := hg
        simp only [Expr.WF] at hw
        simp only [simplify]
        refine Res.bind (ihl (.bool op) false ts [] _ ?_ (by simp)) ?_ ?_
        · intro w hmem
          exact ⟨(GoodL_iff _ _ _).1 hg w hmem, (WFL_iff _).1 hw.1 w hmem⟩
        · rintro (h | h)
          · exact Or.inl h
          · refine Or.inr fun ρ => ?_
            have := eval_mk D ρ (.bool op) ts
            simp only [AssOp.mk] at this
            rw [this, h ρ]; rfl
        rintro ⟨terms, total⟩ _ ⟨h1, h2, h3⟩
        have ho := out_finish (D := D) (o := .bool op) (s := false) (total := total) (by simp) h1
        have ha := out_absorb (D := D) (op := op) ho.1 ho.2.1
        refine Res.pure ⟨ha.1, ha.2.1, ?_, ?_⟩
        · intro h
          exact (h2 (ho.2.2 (ha.2.2 h))).elim (fun h => by simp [Expr.HQL] at h) id
        · intro ρ v hv
          have hmk := eval_mk D ρ (.bool op) ts
          simp only [AssOp.mk] at hmk
          rw [hmk] at hv
          simp only [Option.map_eq_some_iff] at hv
          obtain ⟨cs, hcs, rfl⟩ := hv
          obtain ⟨c, hc1, hc2, hc3⟩ := h3 ρ [] cs rfl hcs (AssOp.inC_neutral _)
          apply eval_absorb
          rw [eval_finish hc1 hc2, hc3]
          congr 2
          rw [show (AssOp.bool op).fold [] = (AssOp.bool op).neutral from rfl, AssOp.op_neutral,
            AssOp.op_neutral_right (AssOp.inC_fold (evalC_inC hcs))]
      | mul ts =>
        simp only [Expr.Good] at hg
        simp only [Expr.WF] at hw
        simp only [simplify]
        refine Res.bind (ihl .mul s ts [] _ ?_ (by simp)) ?_ ?_
        · intro w hmem
          exact ⟨(GoodL_iff _ _ _).1 hg w hmem, (WFL_iff _).1 hw w hmem⟩
        · rintro (h | h)
          · exact Or.inl h
          · refine Or.inr fun ρ => ?_
            have := eval_mk D ρ .mul ts
            simp only [AssOp.mk] at this
            rw [this, h ρ]; rfl
        rintro ⟨terms, total⟩ _ ⟨h1, h2, h3⟩
        have ho := out_finish (D := D) (o := .mul) (s := s) (total := total) (by simp) h1
        refine Res.pure ⟨ho.1, ho.2.1, ?_, ?_⟩
        · intro h
          exact (h2 (ho.2.2 h)).elim (fun h => by simp [Expr.HQL] at h) id
        · intro ρ v hv
          have hmk := eval_mk D ρ .mul ts
          simp only [AssOp.mk] at hmk
          rw [hmk] at hv
          simp only [Option.map_eq_some_iff] at hv
          obtain ⟨cs, hcs, rfl⟩ := hv
          obtain ⟨c, hc1, hc2, hc3⟩ := h3 ρ [] cs rfl hcs (AssOp.inC_neutral _)
          rw [eval_finish hc1 hc2, hc3]
          congr 2
          rw [show AssOp.mul.fold [] = AssOp.mul.neutral from rfl, AssOp.op_neutral,
            AssOp.op_neutral_right (AssOp.inC_fold (evalC_inC hcs))]
      | add ts =>
        simp only [Expr.Good] at hg
        simp only [Expr.WF] at hw
        simp only [simplify]
        have hmk : ∀ ρ, eval D ρ (.add ts) = _ := fun ρ => eval_mk D ρ .add ts
        refine Res.bind (ihl .add s ts [] _ ?_ (by simp)) ?_ ?_
        · intro w hmem
          exact ⟨(GoodL_iff _ _ _).1 hg w hmem, (WFL_iff _).1 hw.1 w hmem⟩
        · rintro (h | h)
          · exact Or.inl h
          · refine Or.inr fun ρ => ?_
            rw [hmk, h ρ]; rfl
        rintro ⟨terms, total⟩ _ ⟨h1, h2, h3⟩
        have ho := out_finish (D := D) (o := .add) (s := true) (total := total) (by simp) h1
        have hval : ∀ ρ v, eval D ρ (.add ts) = some v →
            eval D ρ (AssOp.add.finish terms total) = some v := by
          intro ρ v hv
          rw [hmk] at hv
          simp only [Option.map_eq_some_iff] at hv
          obtain ⟨cs, hcs, rfl⟩ := hv
          obtain ⟨c, hc1, hc2, hc3⟩ := h3 ρ [] cs rfl hcs (AssOp.inC_neutral _)
          rw [eval_finish hc1 hc2, hc3]
          congr 2
          rw [show AssOp.add.fold [] = AssOp.add.neutral from rfl, AssOp.op_neutral,
            AssOp.op_neutral_right (AssOp.inC_fold (evalC_inC hcs))]
        have hhq : (AssOp.add.finish terms total).HQ → Expr.HQ (.add ts) := by
          intro h
          exact (h2 (ho.2.2 h)).elim (fun h => by simp [Expr.HQL] at h) id
        have hneg : (AssOp.add.finish terms total).Neg D.Odd := ho.1
        have hwf : (AssOp.add.finish terms total).WF := ho.2.1
        generalize AssOp.add.finish terms total = e at hval hhq hneg hwf
        have other : Res (.ok e : Py Expr) (fun e' => Out D.Odd s e' ∧ e'.WF ∧ Keeps D (.add ts) e') (NoVal D (.add ts)) :=
          Res.ok ⟨Neg.out hneg, hwf, hhq, hval⟩
        cases e with
        | add us =>
          simp only
          simp only [Expr.Neg, NegL_iff] at hneg
          simp only [Expr.WF, WFL_iff] at hwf
          replace hwf := hwf.1
          refine Res.bind (ihc us.reverse [] ?_ (by simp)) ?_ ?_
          · intro w hm
            simp only [List.mem_reverse] at hm
            exact ⟨hneg w hm, hwf w hm⟩
          · rintro (h | h)
            · refine Or.inl (hhq ?_)
              simp only [Expr.HQ, HQL_iff, List.mem_reverse] at h ⊢
              exact h
            · refine Or.inr fun ρ => ?_
              cases he : eval D ρ (.add ts) with
              | none => rfl
              | some v =>
                have := hval ρ v he
                rw [add_value] at this
                obtain ⟨cs, hcs, _⟩ := this
                obtain ⟨b, hb, _⟩ := evalC_reverse hcs
                rw [h ρ] at hb
                cases hb
          · intro vs hvs0 hvs
            clear hvs0
            obtain ⟨g1, g2, g3⟩ := hvs
            have hq : Expr.HQL vs → Expr.HQ (.add ts) := by
              intro h
              refine hhq ?_
              rcases g2 h with h | h
              · simp only [Expr.HQ, HQL_iff, List.mem_reverse] at h ⊢
                exact h
              · simp [Expr.HQL] at h
            have hv : ∀ ρ v, eval D ρ (.add ts) = some v → eval D ρ (.add vs) = some v := by
              intro ρ v hv
              have := hval ρ v hv
              rw [add_value] at this
              obtain ⟨cs, hcs, rfl⟩ := this
              obtain ⟨b, hb, hb'⟩ := evalC_reverse hcs
              obtain ⟨c, hc, hc'⟩ := g3 ρ b [] hb rfl
              rw [add_value]
              refine ⟨c, hc, ?_⟩
              rw [hc', hb']; simp [intSum]
            split
            · rename_i t
              refine Res.pure ⟨Neg.out (g1 t (by simp)).1, (g1 t (by simp)).2, ?_, ?_⟩
              · intro h; exact hq (by simp [Expr.HQL, h])
              · intro ρ v h
                have := hv ρ v h
                rw [add_value] at this
                obtain ⟨cs, hcs, rfl⟩ := this
                rw [evalC_cons] at hcs
                obtain ⟨w, c, ds, i1, i2, i3, rfl⟩ := hcs
                simp only [evalC, allSome, Option.some.injEq] at i3
                subst i3
                have hwi : w = .int c := by cases w <;> simp_all [AssOp.carrier]
                subst hwi
                simpa [intSum] using i1
            · refine Res.pure ⟨Neg.out ?_, ?_, hq, hv⟩
              · exact (NegL_iff _ _).2 fun t ht => (g1 t ht).1
              · exact ⟨(WFL_iff _).2 fun t ht => (g1 t ht).2, Neg.headOK fun t ht => (g1 t ht).1⟩
        | _ => exact other
      | bin op l r =>
        simp only [simplify]
        simp only [Expr.WF] at hw
        have nl : NoVal D l → NoVal D (.bin op l r) := by
          rintro (h | h)
          · exact Or.inl (Or.inl h)
          · exact Or.inr fun ρ => by simp [eval, h ρ]
        have nr : NoVal D r → NoVal D (.bin op l r) := by
          rintro (h | h)
          · exact Or.inl (Or.inr h)
          · exact Or.inr fun ρ => by simp [eval, h ρ]
        have numcase : ∀ (a b : Int) (l' r' : Expr), l'.num? = some a → r'.num? = some b →
            Keeps D l l' → Keeps D r r' → (s = true → op = .div → D.Odd) →
            Res (numArith op a b) (fun e' => Out D.Odd s e' ∧ e'.WF ∧ Keeps D (.bin op l r) e')
              (NoVal D (.bin op l r)) := by
          intro a b l' r' ha hb hl hr hodd
          have hv0 : ∀ ρ v, eval D ρ (.bin op l r) = some v → ∃ c, op.eval D a b = some c ∧ v = .int c := by
            intro ρ v hv
            rw [bin_value] at hv
            obtain ⟨x, y, z, h1, h2, h3, rfl⟩ := hv
            have i1 := hl.2 ρ _ h1
            have i2 := hr.2 ρ _ h2
            cases l' <;> simp [Expr.num?] at ha
            cases r' <;> simp [Expr.num?] at hb
            subst ha; subst hb
            simp only [eval, Option.some.injEq, Val.int.injEq] at i1 i2
            subst i1; subst i2
            exact ⟨z, h3, rfl⟩
          have none_case : op.eval D a b = none → NoVal D (.bin op l r) := by
            intro hn
            refine Or.inr fun ρ => ?_
            cases he : eval D ρ (.bin op l r) with
            | none => rfl
            | some v =>
              obtain ⟨c, hc, _⟩ := hv0 ρ v he
              rw [hn] at hc; cases hc
          have num_case : ∀ x, op.eval D a b = some x →
              Res (.ok (.n x) : Py Expr) (fun e' => Out D.Odd s e' ∧ e'.WF ∧ Keeps D (.bin op l r) e')
                (NoVal D (.bin op l r)) := by
            intro x hx
            refine Res.ok ⟨Neg.out trivial, trivial, fun h => absurd h (by simp [Expr.HQ]), ?_⟩
            intro ρ v hv
            obtain ⟨c, hc, rfl⟩ := hv0 ρ v hv
            rw [hx] at hc; cases hc
            simp [eval]
          cases op with
          | sub => exact num_case _ rfl
          | div =>
            simp only [numArith, numDiv]
            split
            · rename_i hb; exact Or.inr (none_case (by simp [ArithOp.eval, hb]))
            · rename_i hb
              split
              · rename_i hm
                apply num_case
                have hd : a = Int.fdiv a b * b := by
                  have := Int.mul_fdiv_add_fmod a b
                  rw [hm, Int.mul_comm] at this
                  omega
                have := D.exact (Int.fdiv a b) b hb
                rw [← hd] at this
                simp [ArithOp.eval, this, hb]
              · refine Res.ok ⟨?_, ⟨trivial, trivial⟩, fun h => by simp [Expr.HQ] at h, ?_⟩
                · cases s with
                  | true => exact ⟨rfl, hodd rfl rfl, trivial, trivial⟩
                  | false => exact ⟨by simp, trivial, trivial⟩
                · intro ρ v hv
                  obtain ⟨c, hc, rfl⟩ := hv0 ρ v hv
                  simp [eval, hc]
          | pow =>
            simp only [numArith, numPow]
            split
            · rename_i hb
              have := none_case (by simp [ArithOp.eval, hb])
              split <;> exact Or.inr this
            · rename_i hb
              exact num_case _ (by simp [ArithOp.eval, hb])
          | mod =>
            simp only [numArith, numMod]
            split
            · rename_i hb; exact Or.inr (none_case (by simp [ArithOp.eval, hb]))
            · rename_i hb
              exact num_case _ (by simp [ArithOp.eval, hb])
        have keepcase : ∀ l' r', Keeps D l l' → Keeps D r r' → Keeps D (.bin op l r) (.bin op l' r') := by
          intro l' r' hl hr
          refine ⟨Or.imp hl.1 hr.1, ?_⟩
          intro ρ v hv
          rw [bin_value] at hv ⊢
          obtain ⟨x, y, z, h1, h2, h3, rfl⟩ := hv
          exact ⟨x, y, z, hl.2 ρ _ h1, hr.2 ρ _ h2, h3, rfl⟩
        cases op with
        | sub =>
          simp only [Expr.Good] at hg
          refine Res.bind (ihs true l hg.1 hw.1) nl fun l' _ hl => ?_
          refine Res.bind (ihs true r hg.2 hw.2) nr fun r' _ hr => ?_
          split
          · rename_i a b ha hb
            exact numcase a b l' r' ha hb hl.2.2 hr.2.2 (by simp)
          · simp only [if_true]
            refine Res.bind (ihn r' hr.1 hr.2.1) ?_ fun m _ hm => ?_
            · rintro (h | h)
              · exact Or.inl (Or.inr (hr.2.2.1 h))
              · refine nr (Or.inr fun ρ => ?_)
                cases he : eval D ρ r with
                | none => rfl
                | some v => have := hr.2.2.2 ρ v he; rw [h ρ] at this; cases this
            refine Res.pure ⟨Neg.out ⟨hl.1, hm.1, trivial⟩, ⟨⟨hl.2.1, hm.2.1, trivial⟩, Neg.headOK (by simpa using ⟨hl.1, hm.1⟩)⟩, ?_, ?_⟩
            · simp only [Expr.HQ, Expr.HQL, or_false]
              exact Or.imp hl.2.2.1 (fun h => hr.2.2.1 (hm.2.2.1 h))
            · intro ρ v hv
              rw [bin_value] at hv
              obtain ⟨x, y, z, h1, h2, h3, rfl⟩ := hv
              have i1 := hl.2.2.2 ρ _ h1
              have i2 := hm.2.2.2 ρ _ (hr.2.2.2 ρ _ h2)
              simp only [ArithOp.eval, Option.some.injEq] at h3
              simp only [eval, evalL, i1, i2, Option.bind_some, allSome, Val.int?, intSum,
                Option.some.injEq, Val.int.injEq]
              omega
        | div =>
          simp only [Expr.Good] at hg
          refine Res.bind (ihs s l hg.2.1 hw.1) nl fun l' _ hl => ?_
          refine Res.bind (ihs false r hg.2.2 hw.2) nr fun r' _ hr => ?_
          split
          · rename_i a b ha hb
            exact numcase a b l' r' ha hb hl.2.2 hr.2.2 (fun h _ => hg.1 h)
          · rw [if_neg (by simp)]
            refine Res.pure ⟨?_, ⟨hl.2.1, hr.2.1⟩, keepcase _ _ hl.2.2 hr.2.2⟩
            cases s with
            | true => exact ⟨rfl, hg.1 rfl, hl.1, hr.1⟩
            | false => exact ⟨by simp, hl.1, hr.1⟩
        | pow =>
          simp only [Expr.Good] at hg
          refine Res.bind (ihs false l hg.2.1 hw.1) nl fun l' hl0 hl => ?_
          refine Res.bind (ihs false r hg.2.2 hw.2) nr fun r' hr0 hr => ?_
          split
          · rename_i a b ha hb
            exact numcase a b l' r' ha hb hl.2.2 hr.2.2 (by simp)
          · rename_i hno
            rw [if_neg (by simp)]
            refine Res.pure ⟨?_, ⟨hl.2.1, hr.2.1⟩, keepcase _ _ hl.2.2 hr.2.2⟩
            cases s with
            | true =>
              obtain ⟨_, _, rfl⟩ := (constOK k).simp _ _ (hg.1 rfl).1 hl0
              obtain ⟨_, _, rfl⟩ := (constOK k).simp _ _ (hg.1 rfl).2 hr0
              exact (hno _ _ rfl rfl).elim
            | false => exact ⟨by simp, hl.1, hr.1⟩
        | mod =>
          simp only [Expr.Good] at hg
          refine Res.bind (ihs false l hg.2.1 hw.1) nl fun l' hl0 hl => ?_
          refine Res.bind (ihs false r hg.2.2 hw.2) nr fun r' hr0 hr => ?_
          split
          · rename_i a b ha hb
            exact numcase a b l' r' ha hb hl.2.2 hr.2.2 (by simp)
          · rename_i hno
            rw [if_neg (by simp)]
            refine Res.pure ⟨?_, ⟨hl.2.1, hr.2.1⟩, keepcase _ _ hl.2.2 hr.2.2⟩
            cases s with
            | true =>
              obtain ⟨_, _, rfl⟩ := (constOK k).simp _ _ (hg.1 rfl).1 hl0
              obtain ⟨_, _, rfl⟩ := (constOK k).simp _ _ (hg.1 rfl).2 hr0
              exact (hno _ _ rfl rfl).elim
            | false => exact ⟨by simp, hl.1, hr.1⟩
      | rel op l r =>
        simp only [Expr.Good] at hg
        obtain ⟨rfl, hgl, hgr⟩ := hg
        simp only [Expr.WF] at hw
        simp only [simplify]
        refine Res.bind (ihs false l hgl hw.1) ?_ fun l' _ hl => ?_
        · rintro (h | h)
          · exact Or.inl (Or.inl h)
          · exact Or.inr fun ρ => by simp [eval, h ρ]
        refine Res.bind (ihs false r hgr hw.2) ?_ fun r' _ hr => ?_
        · rintro (h | h)
          · exact Or.inl (Or.inr h)
          · exact Or.inr fun ρ => by simp [eval, h ρ]
        have keep : Res (pure (.rel op l' r') : Py Expr)
            (fun e' => Out D.Odd false e' ∧ e'.WF ∧ Keeps D (.rel op l r) e') (NoVal D (.rel op l r)) := by
          refine Res.pure ⟨⟨rfl, hl.1, hr.1⟩, ⟨hl.2.1, hr.2.1⟩, Or.imp hl.2.2.1 hr.2.2.1, ?_⟩
          intro ρ v hv
          rw [rel_value] at hv ⊢
          obtain ⟨x, y, z, h1, h2, h3, rfl⟩ := hv
          exact ⟨x, y, z, hl.2.2.2 ρ _ h1, hr.2.2.2 ρ _ h2, h3, rfl⟩
        split
        · rename_i hcmp
          split
          · rename_i hre
            simp only [Bool.and_eq_true] at hre
            refine Res.pure ⟨rfl, trivial, fun h => by simp [Expr.HQ] at h, ?_⟩
            intro ρ v hv
            rw [rel_value] at hv
            obtain ⟨x, y, z, h1, h2, h3, rfl⟩ := hv
            have := hEq l' r' hl.2.1 hr.2.1 hre.2 ρ _ _ (hl.2.2.2 ρ _ h1) (hr.2.2.2 ρ _ h2)
            subst this
            rw [RelOp.eval_refl hre.1 h3]
            simp [eval]
          · split
            · rename_i a b ha hb
              have : ∀ ρ v, eval D ρ (.rel op l r) = some v → v = .bool (op.intOp a b) := by
                intro ρ v hv
                rw [rel_value] at hv
                obtain ⟨x, y, z, h1, h2, h3, rfl⟩ := hv
                have i1 := hl.2.2.2 ρ _ h1
                have i2 := hr.2.2.2 ρ _ h2
                cases l' <;> simp [Expr.num?] at ha
                cases r' <;> simp [Expr.num?] at hb
                subst ha; subst hb
                simp only [eval, Option.some.injEq] at i1 i2
                subst i1; subst i2
                rw [RelOp.eval_int _ _ hcmp] at h3
                cases h3; rfl
              split
              · rename_i ht
                refine Res.pure ⟨rfl, trivial, fun h => by simp [Expr.HQ] at h, ?_⟩
                intro ρ v hv
                rw [this ρ v hv, ht]; simp [eval]
              · rename_i ht
                refine Res.pure ⟨rfl, trivial, fun h => by simp [Expr.HQ] at h, ?_⟩
                intro ρ v hv
                rw [this ρ v hv]; simp [eval]; simpa using ht
            · exact keep
        · exact keep
      | agg es =>
        simp only [Expr.Good] at hg
        obtain ⟨rfl, hg⟩ := hg
        simp only [Expr.WF] at hw
        simp only [simplify]
        refine Res.bind (Res.mapM (ts := es) (N := NoVal D)
          (Q := fun e e' => Out D.Odd false e' ∧ e'.WF ∧ Keeps D e e') ?_) ?_ fun es' hes0 hes => ?_
        · intro t ht
          exact ihs false t ((GoodL_iff _ _ _).1 hg t ht) ((WFL_iff _).1 hw t ht)
        · rintro ⟨t, ht, h | h⟩
          · exact Or.inl ((HQL_iff _).2 ⟨t, ht, h⟩)
          · refine Or.inr fun ρ => ?_
            have : evalL D ρ es = none := by
              rw [evalL_eq]
              cases hn : allSome (eval D ρ) es with
              | none => rfl
              | some vs =>
                rw [allSome_some] at hn
                exfalso
                clear hg hw
                induction hn with
                | nil => cases ht
                | cons h1 h2 ih =>
                  rcases List.mem_cons.1 ht with rfl | ht
                  · rw [h ρ] at h1; cases h1
                  · exact ih ht
            simp [eval, this]
        · clear hes0
          refine Res.pure ⟨⟨rfl, ?_⟩, ?_, ?_, ?_⟩
          · rw [GoodL_iff]
            clear hg hw
            induction hes with
            | nil => simp
            | cons h1 h2 ih => intro t ht; rcases List.mem_cons.1 ht with rfl | ht; exact h1.1; exact ih t ht
          · simp only [Expr.WF]
            clear hg hw
            induction hes with
            | nil => trivial
            | cons h1 h2 ih => exact ⟨h1.2.1, ih⟩
          · simp only [Expr.HQ]
            clear hg hw
            induction hes with
            | nil => exact id
            | cons h1 h2 ih => exact Or.imp h1.2.2.1 ih
          · intro ρ v hv
            have : ∀ vs, evalL D ρ es = some vs → evalL D ρ es' = some vs := by
              clear hv hg hw
              induction hes with
              | nil => intro vs h; exact h
              | @cons a b as bs h1 h2 ih =>
                intro vs h
                simp only [evalL] at h ⊢
                split at h
                · rename_i w ws hw hws
                  rw [h1.2.2.2 ρ _ hw, ih _ hws]; exact h
                · cases h
            simp only [eval] at hv ⊢
            cases hvs : evalL D ρ es with
            | none => simp [hvs] at hv
            | some vs => rw [this vs hvs]; rw [hvs] at hv; exact hv
      | quant q p it pr =>
        simp only [Expr.Good] at hg
        obtain ⟨rfl, hgi, hgp⟩ := hg
        simp only [Expr.WF] at hw
        simp only [simplify]
        refine Res.bind (ihs false it hgi hw.2.1) (fun _ => Or.inl trivial) fun it' _ hi => ?_
        refine Res.bind (ihs false pr hgp hw.2.2) (fun _ => Or.inl trivial) fun pr' _ hp => ?_
        refine Res.pure ⟨⟨rfl, hi.1, hp.1⟩, ⟨hw.1, hi.2.1, hp.2.1⟩, fun _ => trivial, ?_⟩
        intro ρ v hv
        simp only [eval] at hv ⊢
        split at hv
        · rename_i xs hxs
          rw [hi.2.2.2 ρ _ hxs]
          split at hv
          · rename_i bs hbs
            have : allSome (fun x => (eval D (ρ.set p.key (.int x)) pr').bind Val.bool?) xs = some bs := by
              rw [allSome_some] at hbs ⊢
              refine forall₂_imp hbs ?_
              intro x b hxb
              cases he : eval D (ρ.set p.key (.int x)) pr with
              | none => simp [he] at hxb
              | some w => rw [hp.2.2.2 _ _ he]; rw [he] at hxb; exact hxb
            simp only [this]
            exact hv
          · cases hv
        · cases hv
    · intro e hn hw
      cases e with
      | num v b =>
        refine Res.ok ⟨trivial, trivial, id, ?_⟩
        intro ρ x hx
        simp only [eval, Option.some.injEq, Val.int.injEq] at hx ⊢
        rw [hx]
      | var ng imm id =>
        refine Res.ok ⟨trivial, hw, fun h => by simp [Expr.HQ] at h, ?_⟩
        intro ρ x hx
        simp only [eval] at hx ⊢
        exact negIf_not hx
      | attr ng a pre =>
        refine Res.ok ⟨trivial, hw, fun h => by simp [Expr.HQ] at h, ?_⟩
        intro ρ x hx
        simp only [eval] at hx ⊢
        split at hx
        · exact negIf_not hx
        · cases hx
      | sel ng pre s =>
        refine Res.ok ⟨trivial, hw, fun h => by simp [Expr.HQ] at h, ?_⟩
        intro ρ x hx
        simp only [eval] at hx ⊢
        split at hx
        · exact negIf_not hx
        · cases hx
      | call ng id args =>
        refine Res.ok ⟨trivial, hw, fun h => h, ?_⟩
        intro ρ x hx
        cases args with
        | nil =>
          simp only [eval] at hx ⊢
          exact negIf_not hx
        | cons a as =>
          simp only [eval] at hx ⊢
          split at hx
          · exact negIf_not hx
          · cases hx
      | add ts =>
        simp only [Expr.Neg, NegL_iff] at hn
        simp only [Expr.WF, WFL_iff] at hw
        replace hw := hw.1
        simp only [neg]
        refine Res.bind (Res.mapM (ts := ts) (N := NoVal D)
          (Q := fun e e' => e'.Neg D.Odd ∧ e'.WF ∧ (e'.HQ → e.HQ) ∧
            ∀ ρ x, eval D ρ e = some (.int x) → eval D ρ e' = some (.int (-x)))
          (fun t ht => ihn t (hn t ht) (hw t ht))) ?_ fun ts' hts0 hts => ?_
        · rintro ⟨t, ht, h | h⟩
          · exact Or.inl ((HQL_iff _).2 ⟨t, ht, h⟩)
          · refine Or.inr fun ρ => ?_
            cases he : eval D ρ (.add ts) with
            | none => rfl
            | some v =>
              exfalso
              rw [add_value] at he
              obtain ⟨cs, hcs, he⟩ := he
              rw [evalC, allSome_some] at hcs
              clear hn hw he
              induction hcs with
              | nil => cases ht
              | cons h1 h2 ih =>
                rcases List.mem_cons.1 ht with rfl | ht
                · simp [h ρ] at h1
                · exact ih ht
        · clear hn hw hts0
          refine Res.pure ⟨?_, ?_, ?_, ?_⟩
          · simp only [Expr.Neg]
            induction hts with
            | nil => trivial
            | cons h1 h2 ih => exact ⟨h1.1, ih⟩
          · simp only [Expr.WF]
            refine ⟨?_, Neg.headOK (odd := D.Odd) ?_⟩
            rotate_left
            · clear ihs ihn ihl ihc
              induction hts with
              | nil => simp
              | cons h1 h2 ih =>
                intro t ht
                rcases List.mem_cons.1 ht with rfl | ht
                · exact h1.1
                · exact ih t ht
            induction hts with
            | nil => trivial
            | cons h1 h2 ih => exact ⟨h1.2.1, ih⟩
          · simp only [Expr.HQ]
            induction hts with
            | nil => exact id
            | cons h1 h2 ih => exact Or.imp h1.2.2.1 ih
          · intro ρ x hx
            rw [add_value] at hx ⊢
            obtain ⟨cs, hcs, h⟩ := hx
            have : ∃ ds, evalC D ρ .add ts' = some ds ∧ intSum ds = - intSum cs := by
              clear h
              induction hts generalizing cs with
              | nil =>
                simp only [evalC, allSome, Option.some.injEq] at hcs
                subst hcs
                exact ⟨[], rfl, rfl⟩
              | @cons a b as bs h1 h2 ih =>
                rw [evalC_cons] at hcs
                obtain ⟨w, c, ds, i1, i2, i3, rfl⟩ := hcs
                have hwi : w = .int c := by cases w <;> simp_all [AssOp.carrier]
                subst hwi
                obtain ⟨es, he, hs⟩ := ih _ i3
                refine ⟨-c :: es, ?_, ?_⟩
                · rw [evalC_cons]; exact ⟨_, _, _, h1.2.2.2 ρ _ i1, rfl, he, rfl⟩
                · simp only [intSum, hs]; omega
            obtain ⟨ds, hd, hs⟩ := this
            refine ⟨ds, hd, ?_⟩
            cases h
            rw [hs]
      | mul ts =>
        have hg : (Expr.mul (ts ++ [.n (-1)])).Good D.Odd true := by
          have := Neg.good _ hn
          simp only [Expr.Good, GoodL_append] at this ⊢
          exact ⟨this, trivial, trivial⟩
        have hw' : (Expr.mul (ts ++ [.n (-1)])).WF := by
          simp only [Expr.WF, WFL_append] at hw ⊢
          exact ⟨hw, trivial, trivial⟩
        have hval : ∀ ρ x, eval D ρ (.mul ts) = some (.int x) →
            eval D ρ (.mul (ts ++ [.n (-1)])) = some (.int (-x)) := by
          intro ρ x hx
          rw [mul_value] at hx ⊢
          obtain ⟨cs, hcs, h⟩ := hx
          cases h
          refine ⟨cs ++ [-1], ?_, ?_⟩
          · rw [evalC_append]
            exact ⟨cs, [-1], hcs, rfl, rfl⟩
          · rw [intProd_append]; simp [intProd]
        have hq : (Expr.mul (ts ++ [.n (-1)])).HQ → (Expr.mul ts).HQ := by
          simp only [Expr.HQ, HQL_append]
          rintro (h | h)
          · exact h
          · simp [Expr.HQL, Expr.HQ] at h
        simp only [neg]
        refine Res.mono (ihs true _ hg hw') ?_ ?_
        · rintro (h | h)
          · exact Or.inl (hq h)
          · refine Or.inr fun ρ => ?_
            cases he : eval D ρ (.mul ts) with
            | none => rfl
            | some v =>
              have he' := he
              rw [mul_value] at he'
              obtain ⟨cs, _, rfl⟩ := he'
              have := hval ρ _ he
              rw [h ρ] at this; cases this
        · intro e' _ h
          exact ⟨h.1, h.2.1, fun hh => hq (h.2.2.1 hh), fun ρ x hx => h.2.2.2 ρ _ (hval ρ x hx)⟩
      | bin op l r =>
        simp only [Expr.Neg] at hn
        obtain ⟨rfl, hodd, hl, hr⟩ := hn
        simp only [Expr.WF] at hw
        simp only [neg]
        refine Res.bind (ihn l hl hw.1) ?_ fun l' _ hl' => ?_
        · rintro (h | h)
          · exact Or.inl (Or.inl h)
          · exact Or.inr fun ρ => by simp [eval, h ρ]
        · refine Res.pure ⟨⟨rfl, hodd, hl'.1, hr⟩, ⟨hl'.2.1, hw.2⟩, Or.imp hl'.2.2.1 id, ?_⟩
          intro ρ x hx
          rw [bin_value] at hx ⊢
          obtain ⟨a, b, c, h1, h2, h3, h4⟩ := hx
          cases h4
          refine ⟨-a, b, -x, hl'.2.2.2 ρ _ h1, h2, ?_, rfl⟩
          simp only [ArithOp.eval] at h3 ⊢
          split at h3
          · cases h3
          · rename_i hb
            rw [if_neg hb, hodd]
            cases h3; rfl
      | _ => simp [Expr.Neg] at hn
    · intro o s work terms total hw ht
      cases work with
      | nil =>
        simp only [assLoop]
        refine Res.ok ⟨ht, Or.inl, fun ρ a b ha hb hi => ⟨a, ha, hi, ?_⟩⟩
        simp only [evalC, allSome, Option.some.injEq] at hb
        subst hb
        simp only [AssOp.fold, List.foldr_nil]
        rw [AssOp.op_neutral_right]
        exact AssOp.inC_fold (evalC_inC ha)
      | cons w work =>
        simp only [assLoop]
        refine Res.bind (ihs _ w (hw w (by simp)).1 (hw w (by simp)).2) ?_ fun t _ hwt => ?_
        · rintro (h | h)
          · exact Or.inl (Or.inl h)
          · refine Or.inr fun ρ => ?_
            cases hn : evalC D ρ o (w :: work) with
            | none => rfl
            | some cs =>
              rw [evalC_cons] at hn
              obtain ⟨_, _, _, h1, _⟩ := hn
              rw [h ρ] at h1; cases h1
        have hwork : ∀ u ∈ work, u.Good D.Odd (o.flag s) ∧ u.WF := fun u hu => hw u (by simp [hu])
        -- a number
        have num : ∀ x, (∀ ρ v c, eval D ρ t = some v → o.carrier v = some c → c = x) →
            Res (assLoop k o work terms (o.op total x))
              (fun r => (∀ t ∈ r.1, Out D.Odd (o.flag s) t ∧ t.WF) ∧
                (Expr.HQL r.1 → Expr.HQL terms ∨ Expr.HQL (w :: work)) ∧
                ∀ ρ a b, evalC D ρ o terms = some a → evalC D ρ o (w :: work) = some b → o.inC total →
                  ∃ c, evalC D ρ o r.1 = some c ∧ o.inC r.2 ∧
                    o.op (o.fold c) r.2 = o.op (o.op (o.fold a) (o.fold b)) total)
              (Expr.HQL (w :: work) ∨ ∀ ρ, evalC D ρ o (w :: work) = none) := by
          intro x hx
          refine Res.mono (ihl o s work terms (o.op total x) hwork ht) ?_ ?_
          · rintro (h | h)
            · exact Or.inl (Or.inr h)
            · refine Or.inr fun ρ => ?_
              cases hn : evalC D ρ o (w :: work) with
              | none => rfl
              | some cs =>
                rw [evalC_cons] at hn
                obtain ⟨_, _, _, _, _, h1, _⟩ := hn
                rw [h ρ] at h1; cases h1
          · rintro r _ ⟨h1, h2, h3⟩
            refine ⟨h1, fun h => (h2 h).imp id Or.inr, ?_⟩
            intro ρ a b ha hb hi
            rw [evalC_cons] at hb
            obtain ⟨v, c, ds, j1, j2, j3, rfl⟩ := hb
            have hc := hx ρ v c (hwt.2.2.2 ρ _ j1) j2
            subst hc
            have hci := AssOp.carrier_inC j2
            obtain ⟨cs, l1, l2, l3⟩ := h3 ρ a ds ha j3 (AssOp.inC_op hi hci)
            refine ⟨cs, l1, l2, ?_⟩
            rw [l3]
            have ia := AssOp.inC_fold (evalC_inC ha)
            have ids := AssOp.inC_fold (evalC_inC j3)
            rw [show o.fold (c :: ds) = o.op c (o.fold ds) from rfl]
            rw [AssOp.op_comm hi hci, AssOp.op_comm hci ids, ← AssOp.op_assoc, ← AssOp.op_assoc]
        have rest : Res (match o.sameTerms t with
            | some ts => assLoop k o (work ++ ts) terms total
            | none => assLoop k o work (terms ++ [t]) total)
              (fun r => (∀ t ∈ r.1, Out D.Odd (o.flag s) t ∧ t.WF) ∧
                (Expr.HQL r.1 → Expr.HQL terms ∨ Expr.HQL (w :: work)) ∧
                ∀ ρ a b, evalC D ρ o terms = some a → evalC D ρ o (w :: work) = some b → o.inC total →
                  ∃ c, evalC D ρ o r.1 = some c ∧ o.inC r.2 ∧
                    o.op (o.fold c) r.2 = o.op (o.op (o.fold a) (o.fold b)) total)
              (Expr.HQL (w :: work) ∨ ∀ ρ, evalC D ρ o (w :: work) = none) := by
          split
          · rename_i ts hts
            have hout := sameTerms_out (s := s) hts hwt.1 hwt.2.1
            refine Res.mono (ihl o s (work ++ ts) terms total ?_ ht) ?_ ?_
            · intro u hu
              rcases List.mem_append.1 hu with hu | hu
              · exact hwork u hu
              · exact hout.1 u hu
            · rintro (h | h)
              · rw [HQL_append] at h
                rcases h with h | h
                · exact Or.inl (Or.inr h)
                · exact Or.inl (Or.inl (hwt.2.2.1 (hout.2 h)))
              · refine Or.inr fun ρ => ?_
                cases hn : evalC D ρ o (w :: work) with
                | none => rfl
                | some cs =>
                  rw [evalC_cons] at hn
                  obtain ⟨v, c, ds, j1, j2, j3, _⟩ := hn
                  obtain ⟨es, he, _⟩ := sameTerms_value hts (hwt.2.2.2 ρ _ j1) j2
                  have : evalC D ρ o (work ++ ts) = some (ds ++ es) :=
                    evalC_append.2 ⟨ds, es, j3, he, rfl⟩
                  rw [h ρ] at this; cases this
            · rintro r _ ⟨h1, h2, h3⟩
              refine ⟨h1, ?_, ?_⟩
              · intro h
                rcases h2 h with h | h
                · exact Or.inl h
                · rw [HQL_append] at h
                  rcases h with h | h
                  · exact Or.inr (Or.inr h)
                  · exact Or.inr (Or.inl (hwt.2.2.1 (hout.2 h)))
              · intro ρ a b ha hb hi
                rw [evalC_cons] at hb
                obtain ⟨v, c, ds, j1, j2, j3, rfl⟩ := hb
                obtain ⟨es, he, hes⟩ := sameTerms_value hts (hwt.2.2.2 ρ _ j1) j2
                obtain ⟨cs, l1, l2, l3⟩ := h3 ρ a (ds ++ es) ha (evalC_append.2 ⟨ds, es, j3, he, rfl⟩) hi
                refine ⟨cs, l1, l2, ?_⟩
                rw [l3, AssOp.fold_append, hes]
                have hci := AssOp.carrier_inC j2
                have ids := AssOp.inC_fold (evalC_inC j3)
                rw [show o.fold (c :: ds) = o.op c (o.fold ds) from rfl, AssOp.op_comm hci ids]
          · refine Res.mono (ihl o s work (terms ++ [t]) total hwork ?_) ?_ ?_
            · intro u hu
              rcases List.mem_append.1 hu with hu | hu
              · exact ht u hu
              · simp at hu; subst hu; exact ⟨hwt.1, hwt.2.1⟩
            · rintro (h | h)
              · exact Or.inl (Or.inr h)
              · refine Or.inr fun ρ => ?_
                cases hn : evalC D ρ o (w :: work) with
                | none => rfl
                | some cs =>
                  rw [evalC_cons] at hn
                  obtain ⟨_, _, _, _, _, h1, _⟩ := hn
                  rw [h ρ] at h1; cases h1
            · rintro r _ ⟨h1, h2, h3⟩
              refine ⟨h1, ?_, ?_⟩
              · intro h
                rcases h2 h with h | h
                · rw [HQL_append] at h
                  rcases h with h | h
                  · exact Or.inl h
                  · simp only [Expr.HQL, or_false] at h
                    exact Or.inr (Or.inl (hwt.2.2.1 h))
                · exact Or.inr (Or.inr h)
              · intro ρ a b ha hb hi
                rw [evalC_cons] at hb
                obtain ⟨v, c, ds, j1, j2, j3, rfl⟩ := hb
                obtain ⟨cs, l1, l2, l3⟩ := h3 ρ (a ++ [c]) ds
                  (evalC_append.2 ⟨a, [c], ha, evalC_cons.2 ⟨v, c, [], hwt.2.2.2 ρ _ j1, j2, rfl, rfl⟩, rfl⟩) j3 hi
                refine ⟨cs, l1, l2, ?_⟩
                have hci := AssOp.carrier_inC j2
                rw [l3, AssOp.fold_append, show o.fold [c] = o.op c o.neutral from rfl,
                  AssOp.op_neutral_right hci, show o.fold (c :: ds) = o.op c (o.fold ds) from rfl,
                  AssOp.op_assoc o (o.fold a)]
        cases t with
        | num v b =>
          refine num v ?_
          intro ρ x c hx hc
          simp only [eval, Option.some.injEq] at hx
          subst hx
          exact carrier_num hc
        | tru =>
          refine num 1 ?_
          intro ρ x c hx hc
          simp only [eval, Option.some.injEq] at hx
          subst hx
          simpa using carrier_bool hc
        | fls =>
          refine num 0 ?_
          intro ρ x c hx hc
          simp only [eval, Option.some.injEq] at hx
          subst hx
          simpa using carrier_bool hc
        | _ => exact rest
    · intro rest terms hr ht
      cases rest with
      | nil =>
        simp only [cancel]
        refine Res.ok ⟨ht, Or.inr, fun ρ a b ha hb => ⟨b, hb, ?_⟩⟩
        simp only [evalC, allSome, Option.some.injEq] at ha
        subst ha
        simp [intSum]
      | cons t rest =>
        have hrest : ∀ w ∈ rest, w.Neg D.Odd ∧ w.WF := fun w hw => hr w (by simp [hw])
        have hnone : (Expr.HQL rest ∨ ∀ ρ, evalC D ρ .add rest = none) →
            (Expr.HQL (t :: rest) ∨ ∀ ρ, evalC D ρ .add (t :: rest) = none) := by
          rintro (h | h)
          · exact Or.inl (Or.inr h)
          · refine Or.inr fun ρ => ?_
            cases hn : evalC D ρ .add (t :: rest) with
            | none => rfl
            | some cs =>
              rw [evalC_cons] at hn
              obtain ⟨_, _, _, _, _, h1, _⟩ := hn
              rw [h ρ] at h1; cases h1
        simp only [cancel]
        split
        · rename_i he
          simp only [List.isEmpty_iff] at he
          subst he
          refine Res.mono (ihc rest [t] hrest ?_) hnone ?_
          · intro u hu; simp at hu; subst hu; exact hr u (by simp)
          · rintro r _ ⟨h1, h2, h3⟩
            refine ⟨h1, ?_, ?_⟩
            · intro h
              rcases h2 h with h | h
              · exact Or.inl (Or.inr h)
              · simp only [Expr.HQL, or_false] at h; exact Or.inl (Or.inl h)
            · intro ρ a b ha hb
              rw [evalC_cons] at ha
              obtain ⟨v, c, ds, j1, j2, j3, rfl⟩ := ha
              obtain ⟨cs, l1, l2⟩ := h3 ρ ds [c] j3 (evalC_cons.2 ⟨v, c, [], j1, j2, rfl, rfl⟩)
              refine ⟨cs, l1, ?_⟩
              simp only [evalC, allSome, Option.some.injEq] at hb
              subst hb
              rw [l2]; simp only [intSum]; omega
        · refine Res.bind (ihn t (hr t (by simp)).1 (hr t (by simp)).2) ?_ fun m _ hm => ?_
          · rintro (h | h)
            · exact Or.inl (Or.inl h)
            · refine Or.inr fun ρ => ?_
              cases hn : evalC D ρ .add (t :: rest) with
              | none => rfl
              | some cs =>
                rw [evalC_cons] at hn
                obtain ⟨_, _, _, h1, _⟩ := hn
                rw [h ρ] at h1; cases h1
          split
          · rename_i other ho
            have hmem := List.mem_of_find?_eq_some ho
            have heq := List.find?_some ho
            refine Res.mono (ihc rest (removeFirst other terms) hrest ?_) hnone ?_
            · exact fun u hu => ht u (removeFirst_mem hu)
            · rintro r _ ⟨h1, h2, h3⟩
              refine ⟨h1, ?_, ?_⟩
              · intro h
                rcases h2 h with h | h
                · exact Or.inl (Or.inr h)
                · rw [HQL_iff] at h ⊢
                  obtain ⟨u, hu, hq⟩ := h
                  exact Or.inr ((HQL_iff _).2 ⟨u, removeFirst_mem hu, hq⟩)
              · intro ρ a b ha hb
                rw [evalC_cons] at ha
                obtain ⟨v, c, ds, j1, j2, j3, rfl⟩ := ha
                have hvi : v = .int c := by cases v <;> simp_all [AssOp.carrier]
                subst hvi
                obtain ⟨y, es, k1, k2, k3⟩ := removeFirst_value hEq hmem (fun t h => (ht t h).2) hb
                have := hEq other m (ht other hmem).2 hm.2.1 heq ρ _ _ k1 (hm.2.2.2 ρ _ j1)
                cases this
                obtain ⟨cs, l1, l2⟩ := h3 ρ ds es j3 k2
                refine ⟨cs, l1, ?_⟩
                rw [l2, k3]; simp only [intSum]; omega
          · refine Res.mono (ihc rest (t :: terms) hrest ?_) hnone ?_
            · intro u hu
              rcases List.mem_cons.1 hu with rfl | hu
              · exact hr u (by simp)
              · exact ht u hu
            · rintro r _ ⟨h1, h2, h3⟩
              refine ⟨h1, ?_, ?_⟩
              · intro h
                rcases h2 h with h | h | h
                · exact Or.inl (Or.inr h)
                · exact Or.inl (Or.inl h)
                · exact Or.inr h
              · intro ρ a b ha hb
                rw [evalC_cons] at ha
                obtain ⟨v, c, ds, j1, j2, j3, rfl⟩ := ha
                obtain ⟨cs, l1, l2⟩ := h3 ρ ds (c :: b) j3 (evalC_cons.2 ⟨v, c, b, j1, j2, hb, rfl⟩)
                refine ⟨cs, l1, ?_⟩
                rw [l2]; simp only [intSum]; omega

end

end Verif
