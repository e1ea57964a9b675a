import Verif.Types.Props
import Verif.Expr.Props

/-! # Property C07: proof facts of a scalar type describe exactly its values

Specification: `eval` of `Verif/Expr/Semantics.lean`. An assignment `ρ` gives a value to the field
(`ρ.var name.key`), its size (`ρ.attr .size name.key`) and the enumeration literals. -/

namespace Verif.Types

open Verif

variable {D : Division}

/-- The assignment makes all constraints true. -/
def Holds (D : Division) (ρ : Env) (cs : List Expr) : Prop := ∀ c ∈ cs, eval D ρ c = some (.bool true)

/-- The modulus is constant arithmetic (as the syntax `type T is mod 2 ** N` has it) and has a value. Bounds of range
types need no such condition: their constraints use the simplified bounds. -/
def IntType.ConstModulus : IntType → Prop
  | .modular t => t.modulus.Const ∧ t.modulus.WF ∧ ∀ D ρ, ∃ x, eval D ρ t.modulus = some (.int x)
  | .range _ => True

/-! ## Lemmas -/

theorem rel_true {ρ : Env} (op : RelOp) (id : ID) {e : Expr} {x : Int} (he : eval D ρ e = some (.int x))
    (hop : op = .lt ∨ op = .le ∨ op = .ge ∨ op = .eq) :
    eval D ρ (.rel op (.var false false id) e) = some (.bool true) ↔
      ∃ v, ρ.var id.key = .int v ∧ op.eval (.int v) (.int x) = some true := by
  simp only [eval, he, Val.negIf, Bool.false_eq_true, if_false]
  cases hv : ρ.var id.key with
  | int v => rcases hop with rfl | rfl | rfl | rfl <;> simp [RelOp.eval]
  | bool b => rcases hop with rfl | rfl | rfl | rfl <;> simp [RelOp.eval]
  | seq b => rcases hop with rfl | rfl | rfl | rfl <;> simp [RelOp.eval]

theorem size_true {ρ : Env} (id : ID) (s : Num) :
    eval D ρ (.rel .eq (.attr false .size (.var false false id)) s.expr) = some (.bool true) ↔
      ρ.attr .size id.key = .int s.v := by
  simp only [eval, Num.expr, Val.negIf, Bool.false_eq_true, if_false]
  cases hv : ρ.attr .size id.key <;> simp [RelOp.eval]

theorem var_num {ρ : Env} (id : ID) (v : Int) :
    eval D ρ (.rel .eq (.var false false id) (.n v)) = some (.bool true) ↔ ρ.var id.key = .int v := by
  rw [rel_true .eq id (by rfl : eval D ρ (.n v) = some (.int v)) (by simp)]
  simp only [RelOp.eval, Option.some.injEq, decide_eq_true_eq]
  constructor
  · rintro ⟨w, h, rfl⟩; exact h
  · intro h; exact ⟨v, h, rfl⟩

/-- A disjunction of comparisons of integers is true iff one of them is true. -/
theorem or_true {ρ : Env} (l : List Expr) (h : ∀ e ∈ l, ∃ b, eval D ρ e = some (.bool b)) :
    eval D ρ (.bool .or l) = some (.bool true) ↔ ∃ e ∈ l, eval D ρ e = some (.bool true) := by
  have key : ∃ bs, (evalL D ρ l).bind (allSome Val.bool?) = some bs ∧
      (bs.any id = true ↔ ∃ e ∈ l, eval D ρ e = some (.bool true)) := by
    induction l with
    | nil => exact ⟨[], rfl, by simp⟩
    | cons a l ih =>
      obtain ⟨bs, h1, h2⟩ := ih (fun e he => h e (by simp [he]))
      obtain ⟨b, hb⟩ := h a (by simp)
      cases hl : evalL D ρ l with
      | none => simp [hl] at h1
      | some ws =>
        simp only [hl, Option.bind_some] at h1
        refine ⟨b :: bs, ?_, ?_⟩
        · simp [evalL, hb, hl, allSome, Val.bool?, h1]
        · simp [h2, hb]
  obtain ⟨bs, h1, h2⟩ := key
  simp only [eval, h1, BoolOp.isAnd, Bool.false_eq_true, if_false, Option.some.injEq, Val.bool.injEq]
  exact h2

/-! ## Integers -/

/-- The facts about an integer field hold exactly for the values between the bounds of the type, with the size of
the type. -/
theorem C07_integer_partial (t : IntType) (h : t.Accepted) (hm : t.ConstModulus) (name : ID) :
    ∃ cs, t.proofConstraints name = .ok cs ∧ ∀ D ρ,
      (Holds D ρ cs ↔ ∃ v f l s, t.first = .ok f ∧ t.last = .ok l ∧ t.size = .ok s ∧
        ρ.var name.key = .int v ∧ f.v ≤ v ∧ v ≤ l.v ∧ ρ.attr .size name.key = .int s.v) := by
  cases t with
  | modular t =>
    obtain ⟨id, e, h⟩ := h
    obtain ⟨_, k, hk, ⟨b, he⟩, rfl⟩ := (C05_modular_iff id e t).mp h
    obtain ⟨hc, hw, hv⟩ := hm
    have hlast : IntType.last (.modular ⟨id, e, .n k⟩) = .ok (Num.n (2 ^ k - 1)) := by
      simp [IntType.last, he, asNum, bind, Except.bind]
    refine ⟨_, rfl, fun D ρ => ?_⟩
    obtain ⟨x, hx⟩ := hv D ρ
    obtain ⟨b', hb'⟩ := C08_constant_folds (D := D) e _ hc hw he ρ x hx
    simp only [Expr.num.injEq] at hb'
    obtain ⟨rfl, _⟩ := hb'
    unfold Holds
    have hz : eval D ρ (.n 0) = some (.int 0) := rfl
    rw [hlast]
    constructor
    · intro hcs
      simp only [List.mem_cons, List.not_mem_nil, or_false, forall_eq_or_imp, forall_eq] at hcs
      obtain ⟨h1, h2, h3⟩ := hcs
      rw [rel_true .lt name hx (by simp)] at h1
      rw [rel_true .ge name hz (by simp)] at h2
      rw [size_true] at h3
      obtain ⟨v, hv, h1⟩ := h1
      obtain ⟨v', hv', h2⟩ := h2
      rw [hv] at hv'
      obtain rfl : v = v' := by simpa using hv'
      simp only [RelOp.eval, Option.some.injEq, decide_eq_true_eq] at h1 h2
      exact ⟨v, _, _, _, rfl, rfl, rfl, hv, by simpa [Num.n] using h2, by simp only [Num.n]; omega, h3⟩
    · rintro ⟨v, f, l, s, hf, hl, hs, hv, h1, h2, h3⟩
      simp only [IntType.first, Except.ok.injEq] at hf hl
      subst hf; subst hl
      simp only [Num.n] at h1 h2
      simp only [List.mem_cons, List.not_mem_nil, or_false, forall_eq_or_imp, forall_eq]
      rw [rel_true .lt name hx (by simp), rel_true .ge name hz (by simp), size_true]
      refine ⟨⟨v, hv, ?_⟩, ⟨v, hv, ?_⟩, ?_⟩
      · simp only [RelOp.eval, Option.some.injEq, decide_eq_true_eq]; omega
      · simp only [RelOp.eval, Option.some.injEq, decide_eq_true_eq]; omega
      · rw [h3]
        have : s = Num.n k := (Except.ok.inj hs).symm
        rw [this]; rfl
  | range t =>
    obtain ⟨f, l, s, hf, hl, hs, _⟩ := C05_accepted (.range t) h
    simp only [IntType.size] at hs
    simp only [IntType.first, Except.ok.injEq] at hf
    simp only [IntType.last, Except.ok.injEq] at hl
    subst hf; subst hl
    refine ⟨_, by simp only [IntType.proofConstraints, hs, bind, Except.bind]; rfl, fun D ρ => ?_⟩
    unfold Holds
    simp only [List.mem_cons, List.not_mem_nil, or_false, forall_eq_or_imp, forall_eq]
    have h1 : eval D ρ t.first.expr = some (.int t.first.v) := rfl
    have h2 : eval D ρ t.last.expr = some (.int t.last.v) := rfl
    rw [rel_true .ge name h1 (by simp), rel_true .le name h2 (by simp), size_true]
    simp only [RelOp.eval, Option.some.injEq, decide_eq_true_eq, IntType.first, IntType.last, IntType.size, hs,
      Except.ok.injEq]
    constructor
    · rintro ⟨⟨v, hv, g1⟩, ⟨v', hv', g2⟩, g3⟩
      rw [hv] at hv'
      obtain rfl : v = v' := by simpa using hv'
      exact ⟨v, _, _, _, rfl, rfl, rfl, hv, g1, g2, g3⟩
    · rintro ⟨v, f, l, s', rfl, rfl, rfl, hv, g1, g2, g3⟩
      exact ⟨⟨v, hv, g1⟩, ⟨v, hv, g2⟩, g3⟩

theorem num_eq (a b : Num) : a.expr.eq b.expr = true ↔ a.v = b.v := by
  simp [Num.expr, Expr.eq, Expr.cls, Expr.Cls.sub]

/-- The constraints checked at run time (`proof=False`, the generated function `Valid`): a number that fits the size is
accepted exactly if it belongs to the type. -/
theorem C07_runtime_range_partial (t : RangeInt) (h : (IntType.range t).Accepted) (name : ID) (hn : name.Lex) :
    ∃ cs s, IntType.constraints (.range t) name = .ok cs ∧ scalarSize t.size = .ok s ∧
      ∀ D ρ v, ρ.var name.key = .int v → 0 ≤ v → v < 2 ^ s.v.toNat →
        (Holds D ρ cs ↔ t.first.v ≤ v ∧ v ≤ t.last.v) := by
  obtain ⟨f, l, s, hf, hl, hs, hfl, hs0, hs64, hr, _⟩ := C05_accepted (.range t) h
  simp only [IntType.size] at hs
  simp only [IntType.first, Except.ok.injEq] at hf
  simp only [IntType.last, Except.ok.injEq] at hl
  subst hf; subst hl
  have hb : ∃ n : Num, (Expr.bin .sub (.bin .pow (.n 2) s.expr) (.n 1)).simplified = .ok n.expr ∧
      n.v = 2 ^ s.v.toNat - 1 := by
    let e : Expr := .bin .sub (.bin .pow (.n 2) s.expr) (.n 1)
    have hc : e.Const := by simp [e, Expr.Const, Num.expr]
    have hw : e.WF := by simp [e, Expr.WF, Num.expr]
    have hv : eval .ada exEnv e = some (.int (2 ^ s.v.toNat - 1)) := by
      simp [e, eval, Num.expr, ArithOp.eval, show ¬ s.v < 0 by omega]
    obtain ⟨e', he⟩ := C08_C09_simplified_returns_partial (D := .ada) e (Const.good _ e hc false) hw
      (by simp [e, Expr.HQ, Num.expr]) exEnv _ hv
    obtain ⟨b, rfl⟩ := C08_constant_folds (D := .ada) e e' hc hw he exEnv _ hv
    exact ⟨⟨_, b⟩, he, rfl⟩
  obtain ⟨n, hb1, hb2⟩ := hb
  simp only [IntType.constraints, hs, bind, Except.bind, num_simplified, hb1, pure, Except.pure]
  by_cases heq : t.first.expr.eq t.last.expr = true
  · rw [if_pos heq]
    refine ⟨_, s, rfl, rfl, fun D ρ v hv h0 h1 => ?_⟩
    have := (num_eq _ _).mp heq
    simp only [Holds, List.mem_singleton, forall_eq]
    rw [rel_true .eq name (by rfl : eval D ρ t.first.expr = some (.int t.first.v)) (by simp)]
    simp only [RelOp.eval, Option.some.injEq, decide_eq_true_eq, hv, Val.int.injEq]
    constructor
    · rintro ⟨w, rfl, rfl⟩; omega
    · intro hh; exact ⟨v, rfl, by omega⟩
  · rw [if_neg heq]
    have e0 : (Expr.n 0).simplified = .ok (Num.n 0).expr := rfl
    simp only [e0]
    let c1 : Expr := if !t.first.expr.eq (Num.n 0).expr then .rel .ge (.var false false name) t.first.expr else .tru
    let c2 : Expr := if !t.last.expr.eq n.expr then .bool .and [c1, .rel .le (.var false false name) t.last.expr] else c1
    have good : c2.Good Division.ada.Odd false ∧ c2.WF ∧ ¬ c2.HQ := by
      have g1 : c1.Good Division.ada.Odd false ∧ c1.WF ∧ ¬ c1.HQ := by
        simp only [c1]; split <;> simp [Expr.Good, Expr.WF, Expr.HQ, Num.expr, hn]
      simp only [c2]
      split
      · simp [Expr.Good, Expr.GoodL, Expr.WF, Expr.WFL, Expr.HQ, Expr.HQL, Num.expr, hn, g1]
      · exact g1
    have good' : ∀ D : Division, c2.Good D.Odd false := by
      intro D
      have g1 : c1.Good D.Odd false := by
        simp only [c1]; split <;> simp [Expr.Good, Num.expr]
      simp only [c2]
      split
      · simp [Expr.Good, Expr.GoodL, Num.expr, g1]
      · exact g1
    have ev : ∀ D ρ v, ρ.var name.key = .int v → 0 ≤ v → v < 2 ^ s.v.toNat →
        eval D ρ c2 = some (.bool (decide (t.first.v ≤ v ∧ v ≤ t.last.v))) := by
      intro D ρ v hv h0 h1
      have g1 : eval D ρ c1 = some (.bool (decide (t.first.v ≤ v))) := by
        simp only [c1]
        split
        · simp [eval, Num.expr, Val.negIf, hv, RelOp.eval]
        · rename_i hne
          have : t.first.v = (Num.n 0).v := (num_eq _ _).mp (by simpa using hne)
          simp only [Num.n] at this
          simp [eval, this, h0]
      simp only [c2]
      split
      · simp [eval, evalL, Num.expr, Val.negIf, hv, RelOp.eval, g1, allSome, Val.bool?, BoolOp.isAnd]
      · rename_i hne
        have : t.last.v = n.v := (num_eq _ _).mp (by simpa using hne)
        rw [g1]
        have : v ≤ t.last.v := by omega
        simp [this]
    let ρ0 : Env := ⟨fun _ => .int 0, fun _ _ => .int 0, fun _ _ => .int 0, fun _ _ => .int 0⟩
    obtain ⟨c', hc'⟩ := C08_C09_simplified_returns_partial (D := .ada) c2 good.1 good.2.1 good.2.2 ρ0 _
      (ev .ada ρ0 0 rfl (by omega) (Int.pow_pos (by omega)))
    refine ⟨[c'], s, ?_, rfl, fun D ρ v hv h0 h1 => ?_⟩
    · simp only [c2, c1] at hc'
      rw [hc']
    · simp only [Holds, List.mem_singleton, forall_eq]
      rw [C08_C09_simplified_value_partial c2 c' (good' D) good.2.1 hc' ρ _ (ev D ρ v hv h0 h1)]
      simp

example : (⟨[['F']]⟩ : ID).Lex := by decide

/-! ## Enumerations -/

/-- The literal qualified by the package. -/
def qualified (pkg : ID) (kv : ID × Int) : ID × Int := (⟨pkg.parts ++ kv.1.parts⟩, kv.2)

theorem key_append (pkg : ID) (i : ID) : (⟨pkg.parts ++ i.parts⟩ : ID).key = pkg.key ++ i.key := by
  simp [ID.key]

theorem prefixed_eq {pkg : ID} (hp : pkg.Valid) {l d : List (ID × Int)} (hv : ∀ kv ∈ l, kv.1.Valid)
    (h : Distinct (d ++ l.map (qualified pkg))) :
    prefixedLiterals pkg l d = .ok (d ++ l.map (qualified pkg)) := by
  induction l generalizing d with
  | nil => simp [prefixedLiterals]
  | cons a l ih =>
    obtain ⟨k, v⟩ := a
    obtain ⟨c, hc, hcp, _⟩ := ID.C38_mul pkg k hp (hv (k, v) (by simp))
    obtain rfl : c = ⟨pkg.parts ++ k.parts⟩ := by cases c; simp_all
    simp only [prefixedLiterals, hc, bind, Except.bind]
    rw [dictSet_new v, ih (fun kv hkv => hv kv (by simp [hkv])) (by simpa [qualified] using h)]
    · simp [qualified]
    · intro kv hkv
      unfold Distinct at h
      rw [List.pairwise_append] at h
      exact h.2.2 kv hkv (qualified pkg (k, v)) (by simp)

theorem merge_eq {a b : List (ID × Int)} (h : Distinct (a ++ b)) : dictMerge a b = a ++ b := by
  unfold dictMerge
  induction b generalizing a with
  | nil => simp
  | cons x b ih =>
    simp only [List.foldl_cons]
    rw [dictSet_new, ih (by simpa using h)]
    · simp
    · intro kv hkv
      unfold Distinct at h
      rw [List.pairwise_append] at h
      exact h.2.2 kv hkv x (by simp)

theorem distinct_qualified {pkg : ID} {l : List (ID × Int)} (h : Distinct l) : Distinct (l.map (qualified pkg)) := by
  unfold Distinct at h ⊢
  rw [List.pairwise_map]
  refine h.imp ?_
  intro a b hab he
  apply hab
  simp only [qualified, key_append] at he
  exact List.append_cancel_left he

theorem distinct_both {pkg : ID} (hp : pkg.parts ≠ []) {l : List (ID × Int)} (h : Distinct l)
    (h1 : ∀ kv ∈ l, kv.1.parts.length = 1) : Distinct (l ++ l.map (qualified pkg)) := by
  have h2 := distinct_qualified (pkg := pkg) h
  unfold Distinct at h h2 ⊢
  rw [List.pairwise_append]
  refine ⟨h, h2, ?_⟩
  intro a ha b hb he
  obtain ⟨c, hc, rfl⟩ := List.mem_map.mp hb
  have e := congrArg List.length he
  simp only [qualified, key_append, ID.key, List.length_append, List.length_map, h1 a ha, h1 c hc] at e
  have := List.length_pos_iff.mpr hp
  omega

/-- Enumerations as specifications give them: identifiers are valid, literals are single words. -/
structure Enum.Simple (t : Enum) : Prop where
  id : t.id.Valid
  single : ∀ kv ∈ t.literals, kv.1.Valid ∧ kv.1.parts.length = 1

/-- The package of the type. -/
def Enum.package (t : Enum) : ID := ⟨t.id.parts.dropLast⟩

/-- The names (in lower case) under which a literal is known: its name in the package of the type and everywhere for
the builtin types, its name qualified by the package for other types. -/
def Enum.Visible (t : Enum) (samePackage : Bool) (n : List PyStr) (v : Int) : Prop :=
  ∃ l, (l, v) ∈ t.literals ∧
    ((n = l.key ∧ (t.package.key = builtinsPackage.key ∨ samePackage = true)) ∨
     (n = t.package.key ++ l.key ∧ t.package.key ≠ builtinsPackage.key))

/-- The literals used in the constraints, as a list. -/
def Enum.visibleList (t : Enum) (samePackage : Bool) : List (ID × Int) :=
  if t.package.eq builtinsPackage then t.literals
  else if samePackage then t.literals ++ t.literals.map (qualified t.package)
  else t.literals.map (qualified t.package)

theorem visible_iff (t : Enum) (sp : Bool) (n : List PyStr) (v : Int) :
    t.Visible sp n v ↔ ∃ kv ∈ t.visibleList sp, kv.1.key = n ∧ kv.2 = v := by
  unfold Enum.Visible Enum.visibleList
  cases hb : t.package.eq builtinsPackage with
  | true =>
    have hk := (ID.eq_iff_key _ _).mp hb
    simp only [if_true, hk, true_or, and_true, ne_eq, not_true_eq_false, and_false, or_false]
    constructor
    · rintro ⟨l, h, rfl⟩; exact ⟨_, h, rfl, rfl⟩
    · rintro ⟨⟨l, w⟩, h, rfl, rfl⟩; exact ⟨l, h, rfl⟩
  | false =>
    have hk : t.package.key ≠ builtinsPackage.key := fun h => by rw [(ID.eq_iff_key _ _).mpr h] at hb; cases hb
    simp only [Bool.false_eq_true, if_false, hk, false_or, ne_eq, not_false_eq_true, and_true]
    have key : (∃ kv ∈ t.literals.map (qualified t.package), kv.1.key = n ∧ kv.2 = v) ↔
        ∃ l, (l, v) ∈ t.literals ∧ n = t.package.key ++ l.key := by
      constructor
      · rintro ⟨kv, h, h1, h2⟩
        obtain ⟨⟨l, w⟩, hl, rfl⟩ := List.mem_map.mp h
        subst h2
        exact ⟨l, hl, by rw [← h1]; exact key_append _ _⟩
      · rintro ⟨l, h, rfl⟩
        exact ⟨_, List.mem_map.mpr ⟨_, h, rfl⟩, key_append _ _, rfl⟩
    cases sp with
    | true =>
      simp only [and_true, if_true]
      constructor
      · rintro ⟨l, h, h' | h'⟩
        · exact ⟨(l, v), by simp [h], h'.symm, rfl⟩
        · obtain ⟨kv, h1, h2⟩ := key.mpr ⟨l, h, h'⟩
          exact ⟨kv, List.mem_append_right _ h1, h2⟩
      · rintro ⟨kv, h, h1, h2⟩
        rcases List.mem_append.mp h with h | h
        · obtain ⟨l, w⟩ := kv; subst h2; exact ⟨l, h, .inl h1.symm⟩
        · obtain ⟨l, h3, h4⟩ := key.mp ⟨kv, h, h1, h2⟩
          exact ⟨l, h3, .inr h4⟩
    | false =>
      simp only [Bool.false_eq_true, and_false, false_or, if_false]
      exact key.symm

theorem package_ok (t : Enum) (h2 : t.id.parts.length = 2) (hv : t.id.Valid) :
    t.id.parent = .ok t.package ∧ t.package.Valid ∧ t.package.parts ≠ [] := by
  have hne : t.id.parts.dropLast ≠ [] := by
    intro h
    have := congrArg List.length h
    simp [h2] at this
  have hval : (⟨t.id.parts.dropLast⟩ : ID).Valid := ⟨hne, fun p hp => hv.2 p (List.dropLast_subset _ hp)⟩
  exact ⟨ID.checked_ok ⟨t.id.parts.dropLast⟩ hval, hval, hne⟩

theorem constraints_eq (t : Enum) (h : t.Accepted) (hs : t.Simple) (name : ID) (sp : Bool) :
    ∃ s, scalarSize t.size = .ok s ∧ t.proofConstraints name sp = .ok
      (.bool .or ((t.visibleList sp).map fun kv => .rel .eq (.var false false name) (.var false false kv.1)) ::
        (t.visibleList sp).map (fun kv => .rel .eq (.var false false kv.1) (.n kv.2)) ++
        [.rel .eq (.attr false .size (.var false false name)) s.expr]) := by
  obtain ⟨s, h1, _, hd, _⟩ := C06_accepted t h
  have h2 : t.id.parts.length = 2 := by
    obtain ⟨id, l, size, av, h⟩ := h
    obtain ⟨h2, _, _, _, _, _, _, rfl⟩ := (new_iff id l size av t).mp h
    exact h2
  obtain ⟨p1, p2, p3⟩ := package_ok t h2 hs.id
  refine ⟨s, h1, ?_⟩
  have hpre := prefixed_eq (d := []) p2 (fun kv hkv => (hs.single kv hkv).1)
    (by simpa using distinct_qualified (pkg := t.package) hd)
  have hm := merge_eq (distinct_both p3 hd (fun kv hkv => (hs.single kv hkv).2))
  simp only [List.nil_append] at hpre
  simp only [Enum.proofConstraints, p1, bind, Except.bind, hpre, h1, hm, Enum.visibleList]
  rfl

/-- The facts about an enumeration field hold exactly if its value is the value of a literal, its size is the size of
the type, and all visible literals have the values the type gives them. -/
theorem C07_enumeration_partial (t : Enum) (h : t.Accepted) (hs : t.Simple) (name : ID) (samePackage : Bool) :
    ∃ cs s, t.proofConstraints name samePackage = .ok cs ∧ scalarSize t.size = .ok s ∧ ∀ D ρ,
      (Holds D ρ cs ↔ (∃ l v, (l, v) ∈ t.literals ∧ ρ.var name.key = .int v) ∧
        (∀ n v, t.Visible samePackage n v → ρ.var n = .int v) ∧ ρ.attr .size name.key = .int s.v) := by
  obtain ⟨s, h1, hc⟩ := constraints_eq t h hs name samePackage
  refine ⟨_, s, hc, h1, fun D ρ => ?_⟩
  have hvis : (∀ n v, t.Visible samePackage n v → ρ.var n = .int v) ↔
      ∀ kv ∈ t.visibleList samePackage, ρ.var kv.1.key = .int kv.2 := by
    constructor
    · intro hh kv hkv; exact hh _ _ ((visible_iff t samePackage _ _).mpr ⟨kv, hkv, rfl, rfl⟩)
    · intro hh n v hn
      obtain ⟨kv, hkv, rfl, rfl⟩ := (visible_iff t samePackage n v).mp hn
      exact hh kv hkv
  have hlit : (∃ l v, (l, v) ∈ t.literals ∧ ρ.var name.key = .int v) ↔
      ∃ kv ∈ t.visibleList samePackage, ρ.var name.key = .int kv.2 := by
    have e1 : ∀ v, (∃ l, (l, v) ∈ t.literals) ↔ ∃ kv ∈ t.visibleList samePackage, kv.2 = v := by
      intro v
      constructor
      · rintro ⟨l, hl⟩
        by_cases hb : t.package.key = builtinsPackage.key
        · obtain ⟨kv, g1, _, g3⟩ := (visible_iff t samePackage _ _).mp ⟨l, hl, .inl ⟨rfl, .inl hb⟩⟩
          exact ⟨kv, g1, g3⟩
        · obtain ⟨kv, g1, _, g3⟩ := (visible_iff t samePackage _ _).mp ⟨l, hl, .inr ⟨rfl, hb⟩⟩
          exact ⟨kv, g1, g3⟩
      · rintro ⟨kv, h1, rfl⟩
        obtain ⟨l, hl, _⟩ := (visible_iff t samePackage _ _).mpr ⟨kv, h1, rfl, rfl⟩
        exact ⟨l, hl⟩
    constructor
    · rintro ⟨l, v, hl, hv⟩
      obtain ⟨kv, g1, rfl⟩ := (e1 v).mp ⟨l, hl⟩
      exact ⟨kv, g1, hv⟩
    · rintro ⟨kv, g1, hv⟩
      obtain ⟨l, hl⟩ := (e1 kv.2).mpr ⟨kv, g1, rfl⟩
      exact ⟨l, kv.2, hl, hv⟩
  rw [hvis, hlit]
  unfold Holds
  simp only [List.cons_append, List.mem_cons, List.mem_append, List.not_mem_nil, or_false, forall_eq_or_imp]
  have key : (∀ kv ∈ t.visibleList samePackage, ρ.var kv.1.key = .int kv.2) →
      (eval D ρ (.bool .or ((t.visibleList samePackage).map
        fun kv => .rel .eq (.var false false name) (.var false false kv.1))) = some (.bool true) ↔
        ∃ kv ∈ t.visibleList samePackage, ρ.var name.key = .int kv.2) ∨
      (∀ i, ρ.var name.key ≠ .int i) := by
    intro hh
    cases hn : ρ.var name.key with
    | bool b => right; intro i; simp
    | seq b => right; intro i; simp
    | int x =>
      left
      rw [or_true]
      · constructor
        · rintro ⟨e, he, hv⟩
          obtain ⟨kv, hkv, rfl⟩ := List.mem_map.mp he
          refine ⟨kv, hkv, ?_⟩
          simp only [eval, Val.negIf, hn, hh kv hkv, Bool.false_eq_true, if_false, RelOp.eval, Option.map_some,
            Option.some.injEq, Val.bool.injEq, decide_eq_true_eq] at hv
          rw [hv]
        · rintro ⟨kv, hkv, hv⟩
          refine ⟨_, List.mem_map.mpr ⟨kv, hkv, rfl⟩, ?_⟩
          simp only [Val.int.injEq] at hv
          simp [eval, Val.negIf, hn, hh kv hkv, RelOp.eval, hv]
      · intro e he
        obtain ⟨kv, hkv, rfl⟩ := List.mem_map.mp he
        exact ⟨_, by simp [eval, Val.negIf, hn, hh kv hkv, RelOp.eval]; rfl⟩
  constructor
  · rintro ⟨g1, g2⟩
    have g3 : ∀ kv ∈ t.visibleList samePackage, ρ.var kv.1.key = .int kv.2 := fun kv hkv =>
      (var_num _ _).mp (g2 _ (.inl (List.mem_map.mpr ⟨kv, hkv, rfl⟩)))
    refine ⟨?_, g3, (size_true _ _).mp (g2 _ (.inr rfl))⟩
    rcases key g3 with hk | hk
    · exact hk.mp g1
    · exfalso
      have hno : ∀ e ∈ (t.visibleList samePackage).map (fun kv => Expr.rel .eq (.var false false name)
          (.var false false kv.1)), eval D ρ e = none := by
        intro e he
        obtain ⟨kv, hkv, rfl⟩ := List.mem_map.mp he
        simp only [eval, Val.negIf, Bool.false_eq_true, if_false, g3 kv hkv]
        cases hn : ρ.var name.key with
        | int i => exact absurd hn (hk i)
        | bool b => rfl
        | seq b => rfl
      cases hl : t.visibleList samePackage with
      | nil => rw [hl] at g1; simp [eval, evalL, allSome, BoolOp.isAnd] at g1
      | cons a l =>
        rw [hl] at g1 hno
        have := hno _ (by simp; exact .inl rfl)
        simp only [List.map_cons, eval, evalL] at g1 this
        rw [this] at g1
        simp at g1
  · rintro ⟨g1, g2, g3⟩
    refine ⟨?_, ?_⟩
    · rcases key g2 with hk | hk
      · exact hk.mpr g1
      · obtain ⟨kv, _, h⟩ := g1; exact absurd h (hk _)
    · rintro c (hc | rfl)
      · obtain ⟨kv, hkv, rfl⟩ := List.mem_map.mp hc
        exact (var_num _ _).mpr (g2 kv hkv)
      · exact (size_true _ _).mpr g3

/-! ### The hypotheses can be met -/

example : exMod.ConstModulus := by
  refine ⟨?_, ?_, fun D ρ => ⟨65536, rfl⟩⟩
  · simp [Expr.Const]
  · simp [Expr.WF]

example : exEnum.Simple := ⟨by simp only [ID.Valid]; decide, by simp only [ID.Valid]; decide⟩

/-- The facts about a field `F` of type `exEnum` in its package, and an assignment that makes them true. -/
example : ∃ ρ : Env, (∃ l v, (l, v) ∈ exEnum.literals ∧ ρ.var [['f']] = .int v) ∧
    (∀ n v, exEnum.Visible true n v → ρ.var n = .int v) ∧ ρ.attr .size [['f']] = .int 2 := by
  refine ⟨⟨fun k => if k = [['f']] ∨ k = [['t', 'w', 'o']] ∨ k = [['p'], ['t', 'w', 'o']] then .int 2 else .int 0,
    fun _ _ => .int 2, fun _ _ => .int 0, fun _ _ => .int 0⟩, ⟨⟨[['T', 'w', 'o']]⟩, 2, by simp [exEnum], rfl⟩, ?_, rfl⟩
  rintro n v ⟨l, hl, hh⟩
  simp only [exEnum, List.mem_cons, Prod.mk.injEq, List.not_mem_nil, or_false] at hl
  rcases hl with ⟨rfl, rfl⟩ | ⟨rfl, rfl⟩ <;> rcases hh with ⟨rfl, _⟩ | ⟨rfl, _⟩ <;> decide

/-! ### Where it fails -/

/-- In an always valid enumeration every encoding is a legal value of the field. The facts exclude those without a
name: here the value 1 of the enumeration `(Zero => 0, Two => 2) with Size => 2, Always_Valid`. -/
theorem C07_always_valid_counterexample (name : ID) (samePackage : Bool) :
    exEnum.alwaysValid = true ∧ ∃ cs, exEnum.proofConstraints name samePackage = .ok cs ∧
      ∀ D ρ, ρ.var name.key = .int 1 → ¬ Holds D ρ cs := by
  obtain ⟨cs, s, hc, _, hh⟩ := C07_enumeration_partial exEnum ⟨_, _, _, _, exEnum_new⟩
    ⟨by simp only [ID.Valid]; decide, by simp only [ID.Valid]; decide⟩ name samePackage
  refine ⟨rfl, cs, hc, fun D ρ h1 h => ?_⟩
  obtain ⟨⟨l, v, hl, hv⟩, _⟩ := (hh D ρ).mp h
  rw [h1] at hv
  simp only [Val.int.injEq] at hv
  subst hv
  simp [exEnum] at hl

end Verif.Types
