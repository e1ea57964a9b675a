import Verif.SpecParser.PackageSpec
import Verif.SpecParser.TreeProps
import Verif.Expr.Props
import Verif.Types.Props
import Verif.ModelPkg.Props

/-! # Helper lemmas: types from specifications -/

namespace Verif.SpecParser
open Verif Verif.Types

variable {M S : Type}

/-! ## Constants -/

/-- `simplified` gives the value of constants. -/
structure ConstVal (k : Nat) : Prop where
  simp : ∀ e v b, e.Const → simplify k e = .ok (.num v b) → ∀ D ρ, eval D ρ e = some (.int v)
  loop : ∀ o work total total', (∀ w ∈ work, w.Const) → assLoop k o work [] total = .ok ([], total') →
    ∃ xs : List Int, (∀ D ρ, (evalL D ρ work).bind (allSome Val.int?) = some xs) ∧ total' = xs.foldl o.op total

theorem evalL_ints {D : Division} {ρ : Env} {w : Expr} {ws : List Expr} {x : Int} {xs : List Int} (h : eval D ρ w = some (.int x))
    (hs : (evalL D ρ ws).bind (allSome Val.int?) = some xs) : (evalL D ρ (w :: ws)).bind (allSome Val.int?) = some (x :: xs) := by
  simp only [evalL, h]
  cases hw : evalL D ρ ws with
  | none => rw [hw] at hs; cases hs
  | some vs =>
    rw [hw] at hs
    simp only [Option.bind_some] at hs ⊢
    simp [allSome, Val.int?, hs]

theorem foldl_sum (xs : List Int) : ∀ t : Int, xs.foldl (AssOp.add.op) t = t + intSum xs := by
  induction xs with
  | nil => intro t; simp [intSum]
  | cons x xs ih => intro t; rw [List.foldl_cons, ih]; simp only [AssOp.op, intSum]; omega

theorem foldl_prod (xs : List Int) : ∀ t : Int, xs.foldl (AssOp.mul.op) t = t * intProd xs := by
  induction xs with
  | nil => intro t; simp [intProd]
  | cons x xs ih => intro t; rw [List.foldl_cons, ih]; simp only [AssOp.op, intProd]; rw [Int.mul_assoc]

theorem constVal (k : Nat) : ConstVal k := by
  induction k with
  | zero =>
    refine ⟨?_, ?_⟩
    · intro e v b _ h; simp [simplify] at h
    · intro o work total total' _ h
      cases work with
      | nil => simp only [assLoop, Except.ok.injEq, Prod.mk.injEq] at h; exact ⟨[], fun _ _ => rfl, h.2.symm⟩
      | cons w work => simp [assLoop] at h
  | succ k ih =>
    obtain ⟨ihs, ihl⟩ := ih
    refine ⟨?_, ?_⟩
    · intro e v b hc h D ρ
      cases e with
      | num v b =>
        simp only [simplify, Except.ok.injEq, Expr.num.injEq] at h
        simp [eval, h.1]
      | add ts =>
        simp only [Expr.Const, ConstL_iff] at hc
        simp only [simplify] at h
        obtain ⟨⟨terms, total⟩, h1, h2⟩ := bind_ok h
        have := (constOK k).loop _ _ _ _ _ hc h1
        subst this
        simp only [AssOp.finish, AssOp.const, List.isEmpty_nil, if_true] at h2
        cases h2
        obtain ⟨xs, hx, rfl⟩ := ihl _ _ _ _ hc h1
        simp only [eval, hx]
        rw [foldl_sum]
        simp [AssOp.neutral]
      | mul ts =>
        simp only [Expr.Const, ConstL_iff] at hc
        simp only [simplify] at h
        obtain ⟨⟨terms, total⟩, h1, h2⟩ := bind_ok h
        have := (constOK k).loop _ _ _ _ _ hc h1
        subst this
        simp only [AssOp.finish, AssOp.const, List.isEmpty_nil, if_true] at h2
        cases h2
        obtain ⟨xs, hx, rfl⟩ := ihl _ _ _ _ hc h1
        simp only [eval, hx]
        rw [foldl_prod]
        simp [AssOp.neutral]
      | bin op l r =>
        simp only [Expr.Const] at hc
        simp only [simplify] at h
        obtain ⟨l', h1, h⟩ := bind_ok h
        obtain ⟨r', h2, h⟩ := bind_ok h
        obtain ⟨a, _, rfl⟩ := (constOK k).simp _ _ hc.2.1 h1
        obtain ⟨c, _, rfl⟩ := (constOK k).simp _ _ hc.2.2 h2
        have e1 := ihs _ _ _ hc.2.1 h1 D ρ
        have e2 := ihs _ _ _ hc.2.2 h2 D ρ
        simp only [Expr.num?] at h
        simp only [eval, e1, e2]
        cases op with
        | sub => cases h; rfl
        | div => exact absurd rfl hc.1
        | pow =>
          simp only [numArith, numPow] at h
          split at h
          · split at h <;> cases h
          · rename_i hb; cases h; simp [ArithOp.eval, hb]
        | mod =>
          simp only [numArith, numMod] at h
          split at h
          · cases h
          · rename_i hb; cases h; simp [ArithOp.eval, hb]
      | _ => simp [Expr.Const] at hc
    · intro o work total total' hc h
      cases work with
      | nil => simp only [assLoop, Except.ok.injEq, Prod.mk.injEq] at h; exact ⟨[], fun _ _ => rfl, h.2.symm⟩
      | cons w work =>
        simp only [assLoop] at h
        obtain ⟨t, h1, h2⟩ := bind_ok h
        obtain ⟨a, b, rfl⟩ := (constOK k).simp _ _ (hc w (by simp)) h1
        obtain ⟨xs, hx, ht⟩ := ihl _ _ _ _ (fun w hw => hc w (by simp [hw])) h2
        exact ⟨a :: xs, fun D ρ => evalL_ints (ihs _ _ _ (hc w (by simp)) h1 D ρ) (hx D ρ), ht⟩

theorem const_value {e : Expr} {v : Int} {b : NBase} (hc : e.Const) (h : e.simplified = .ok (.num v b)) (D : Division) (ρ : Env) :
    eval D ρ e = some (.int v) := (constVal _).simp e v b hc h D ρ

/-- The expression of a constant tree is constant. -/
theorem constant_const : ∀ (t : Tree) {e : Expr}, Lexical t → Constant t → create .math t = .ok e → e.Const ∧ e.WF ∧ ¬ e.HQ ∧
    (Expr.headOK [e])
  | .numeral s, e, hl, _, h => by
    obtain ⟨n, hn⟩ := (by simpa [Lexical] using hl : ∃ n, Numeral s n)
    obtain ⟨b, rfl⟩ := createNumeral_value hn (by simpa [create] using h)
    simp [Expr.Const, Expr.WF, Expr.HQ, Expr.headOK]
  | .paren t, e, hl, hc, h => constant_const t (by simpa [Lexical] using hl) (by simpa [Constant] using hc) (by simpa [create] using h)
  | .negation t, e, hl, hc, h => by
    simp only [create, reduceCtorEq, if_false] at h
    obtain ⟨a, ha, h⟩ := bind_ok' h
    cases a <;> simp only [negated, reduceCtorEq, Except.ok.injEq] at h
    subst h
    simp [Expr.Const, Expr.WF, Expr.HQ, Expr.headOK]
  | .binop op l r, e, hl, hc, h => by
    obtain ⟨l1, l2⟩ := (by simpa [Lexical] using hl : Lexical l ∧ Lexical r)
    obtain ⟨hop, c1, c2⟩ := (by simpa [Constant] using hc :
      (op = .add ∨ op = .sub ∨ op = .mul ∨ op = .pow ∨ op = .mod) ∧ Constant l ∧ Constant r)
    simp only [create] at h
    obtain ⟨c, hb, h⟩ := bind_ok' h
    have hm : c.2 = .math := by
      rcases hop with rfl | rfl | rfl | rfl | rfl <;> cases hb <;> rfl
    rw [hm] at h
    obtain ⟨a, ha, h⟩ := bind_ok' h
    obtain ⟨b, hb', h⟩ := map_ok' h
    obtain ⟨a1, a2, a3, a4⟩ := constant_const l l1 c1 ha
    obtain ⟨b1, b2, b3, b4⟩ := constant_const r l2 c2 hb'
    subst h
    rcases hop with rfl | rfl | rfl | rfl | rfl <;> cases hb <;>
      simp only [Expr.Const, Expr.ConstL, Expr.WF, Expr.WFL, Expr.HQ, Expr.HQL, Expr.headOK, a1, a2, a3, b1, b2, b3] <;>
      simp [Expr.headOK]
    cases a <;> simp_all [Expr.headOK]
  | .var _, _, _, hc, _ => by simp [Constant] at hc
  | .attribute _ _, _, _, hc, _ => by simp [Constant] at hc
  | .aggregate _, _, _, hc, _ => by simp [Constant] at hc
  | .string _, _, _, hc, _ => by simp [Constant] at hc
  | .call _ _, _, _, hc, _ => by simp [Constant] at hc
  | .quantified _ _ _ _, _, _, hc, _ => by simp [Constant] at hc
  | .concatenation _ _, _, _, hc, _ => by simp [Constant] at hc
  | .select _ _, _, _, hc, _ => by simp [Constant] at hc

/-- The number that is stored is the number that is written. -/
theorem constant_value {t : Tree} {e : Expr} {v : Int} {b : NBase} (hl : Lexical t) (hc : Constant t) (h : create .math t = .ok e)
    (hs : e.simplified = .ok (.num v b)) : HasValue t v := fun D ρ =>
  (C52_value t e hl h D ρ (.int v)).1 (const_value (constant_const t hl hc h).1 hs D ρ)

/-- A number that is written is stored. -/
theorem value_constant {t : Tree} {e : Expr} {v : Int} (hl : Lexical t) (hc : Constant t) (h : create .math t = .ok e) (hv : HasValue t v) :
    ∃ b, e.simplified = .ok (.num v b) := by
  obtain ⟨h1, h2, h3, _⟩ := constant_const t hl hc h
  have he := (C52_value t e hl h Division.ada ⟨fun _ => .int 0, fun _ _ => .int 0, fun _ _ => .int 0, fun _ _ => .int 0⟩ (.int v)).2 (hv _ _)
  obtain ⟨e', h4⟩ := C08_C09_simplified_returns_partial e (Const.good _ e h1 false) h2 h3 _ _ he
  obtain ⟨b, rfl⟩ := C08_constant_folds e e' h1 h2 h4 _ v he
  exact ⟨b, h4⟩

theorem denotes {m : Mode} {t : Tree} {e : Expr} (hl : Lexical t) (h : create m t = .ok e) : Denotes t e :=
  fun D ρ v => C52_value t e hl h D ρ v

/-! ## Names -/

theorem key_eq {a b : ID} : a.eq b = true ↔ a.key = b.key := ID.eq_iff_key a b

theorem createId_valid {id : IdNode} {i : ID} (h : createId id = .ok i) : i.Valid := by
  cases id with
  | unqualified t =>
    simp only [createId] at h
    split at h
    · cases h
    · exact ID.C38_closed i i t i (.inl h)
  | qualified p n =>
    simp only [createId] at h
    obtain ⟨a, h1, h2⟩ := bind_ok' h
    cases p with
    | none =>
      cases h2
      exact ID.C38_closed i i n i (.inl h1)
    | some p =>
      obtain ⟨b, h3, h4⟩ := bind_ok' h2
      exact ID.C38_closed b a n i (.inr (.inr (.inr (.inr (.inr (.inl h4))))))

/-- The identifier of a simple name. -/
theorem createId_simple {n : PyStr} {i : ID} (hn : IsName n) (h : createId (.unqualified n) = .ok i) : i = ⟨[n]⟩ := by
  simp only [createId] at h
  split at h
  · cases h
  · rw [ofStr_name hn] at h
    exact (Except.ok.inj h).symm

theorem name_ok {i j : ID} (hi : i.Valid) (h : i.name = .ok j) : ∃ p, i.parts.getLast? = some p ∧ j = ⟨[p]⟩ := by
  unfold ID.name at h
  cases hp : i.parts.getLast? with
  | none => rw [hp] at h; cases h
  | some p =>
    rw [hp] at h
    simp only at h
    have hv := hi.2 p (List.mem_of_getLast? hp)
    rw [ofStr_name ⟨hv.1, hv.2.1, hv.2.2.1, hv.2.2.2⟩] at h
    exact ⟨p, rfl, (Except.ok.inj h).symm⟩

theorem mul_ok {a b c : ID} (ha : a.Valid) (hb : b.Valid) (h : a.mul b = .ok c) : c.Valid ∧ c.parts = a.parts ++ b.parts := by
  obtain ⟨d, h1, h2, h3⟩ := ID.C38_mul a b ha hb
  rw [h1] at h
  cases h
  exact ⟨h2, h3⟩

theorem valid_builtins : ID.Valid ⟨[builtinsName]⟩ := by simp only [ID.Valid]; decide
theorem valid_internal : ID.Valid ⟨[internalName]⟩ := by simp only [ID.Valid]; decide

/-- The prefix of a predefined type. -/
theorem predefined {a i q : ID} {x : PyStr} (ha : a.Valid) (hi : i.Valid) (hx : x = PyStr.lower x)
    (hk : i.key.getLast? = some x) (h : (i.name >>= fun n => a.mul n) = .ok q) : q.Valid ∧ q.key = a.key ++ [x] ∧ q.parts.length = a.parts.length + 1 := by
  obtain ⟨n, h1, h2⟩ := bind_ok' h
  obtain ⟨p, h3, rfl⟩ := name_ok hi h1
  have hv := hi.2 p (List.mem_of_getLast? h3)
  obtain ⟨h4, h5⟩ := mul_ok ha ⟨by simp, by simpa using hv⟩ h2
  have hp : PyStr.lower p = x := by
    simp only [ID.key, List.getLast?_map, h3, Option.map_some, Option.some.injEq] at hk
    exact hk
  refine ⟨h4, ?_, ?_⟩
  · simp [ID.key, h5, hp]
  · simp [h5]

theorem qualified_key {n : IdNode} {pkg : PyStr} {i q : ID} (hn : n.Lexical) (hp : IsName pkg) (hi : createId n = .ok i)
    (h : qualifiedType i ⟨[pkg]⟩ = .ok q) : q.Valid ∧ q.key = refersTo pkg n := by
  have hk := createId_key hn hi
  have hv := createId_valid hi
  have hpv : ID.Valid ⟨[pkg]⟩ := ⟨by simp, by simpa [IsName] using hp⟩
  unfold qualifiedType at h
  unfold refersTo
  rw [← hk]
  split at h
  · rename_i hb
    simp only [isBuiltin, Bool.or_eq_true, key_eq] at hb
    obtain ⟨q1, q2, _⟩ := predefined (x := ['b', 'o', 'o', 'l', 'e', 'a', 'n']) valid_builtins hv (by decide)
      (by rcases hb with hb | hb <;> rw [hb] <;> decide) h
    refine ⟨q1, ?_⟩
    rw [q2]
    rcases hb with hb | hb <;> rw [hb] <;> rfl
  · rename_i hb
    simp only [isBuiltin, Bool.or_eq_true, key_eq] at hb
    split at h
    · rename_i hb'
      simp only [isInternal, Bool.or_eq_true, key_eq] at hb'
      obtain ⟨q1, q2, _⟩ := predefined (x := ['o', 'p', 'a', 'q', 'u', 'e']) valid_internal hv (by decide)
        (by rcases hb' with hb' | hb' <;> rw [hb'] <;> decide) h
      refine ⟨q1, ?_⟩
      rw [q2]
      rcases hb' with hb' | hb' <;> rw [hb'] <;> rfl
    · rename_i hb'
      simp only [isInternal, Bool.or_eq_true, key_eq] at hb'
      have e1 : i.key ≠ [['b', 'o', 'o', 'l', 'e', 'a', 'n']] := fun e => hb (.inr (by rw [e]; decide))
      have e2 : i.key ≠ [['o', 'p', 'a', 'q', 'u', 'e']] := fun e => hb' (.inr (by rw [e]; decide))
      split at h
      · rename_i hl
        obtain ⟨q1, q2⟩ := mul_ok hpv hv h
        refine ⟨q1, ?_⟩
        have : ∃ x, i.parts = [x] := List.length_eq_one_iff.1 (by simpa using hl)
        obtain ⟨x, hx⟩ := this
        have hkx : i.key = [PyStr.lower x] := by simp [ID.key, hx]
        rw [hkx] at e1 e2 ⊢
        simp only [ne_eq, List.cons.injEq, and_true] at e1 e2
        simp [ID.key, q2, hx, e1, e2]
      · rename_i hl
        cases h
        refine ⟨hv, ?_⟩
        split
        · rename_i x hx
          exfalso
          apply hl
          have : i.key.length = 1 := by rw [hx]; rfl
          simpa [ID.key] using this
        · rfl

/-- The identifier of a declared type: `Boolean` and `Opaque` get the identifiers of the predefined types. -/
theorem declared_key {n pkg : PyStr} {i q : ID} (hn : IsName n) (hp : IsName pkg) (hi : createId (.unqualified n) = .ok i)
    (h : qualifiedType i ⟨[pkg]⟩ = .ok q) :
    q.Valid ∧ (q.parts = [pkg, n] ∨ q.key = BOOLEAN.id.key ∨ q.key = (MTy.opaqueType : MTy M).identifier.key) := by
  obtain ⟨h1, h2⟩ := qualified_key (n := .unqualified n) hn hp hi h
  refine ⟨h1, ?_⟩
  rw [createId_simple hn hi] at h
  unfold qualifiedType at h
  simp only [refersTo, IdNode.key] at h2
  split at h
  · rename_i hb
    simp only [isBuiltin, Bool.or_eq_true, key_eq] at hb
    have : PyStr.lower n = ['b', 'o', 'o', 'l', 'e', 'a', 'n'] := by
      rcases hb with hb | hb
      · simp [ID.key] at hb
      · simp only [ID.key, List.map_cons, List.map_nil, List.cons.injEq, and_true] at hb
        rw [hb]; decide
    right; left
    rw [h2, this, if_pos rfl]; decide
  · split at h
    · rename_i hb
      simp only [isInternal, Bool.or_eq_true, key_eq] at hb
      have : PyStr.lower n = ['o', 'p', 'a', 'q', 'u', 'e'] := by
        rcases hb with hb | hb
        · simp [ID.key] at hb
        · simp only [ID.key, List.map_cons, List.map_nil, List.cons.injEq, and_true] at hb
          rw [hb]; decide
      right; right
      rw [h2, this, if_neg (by decide), if_pos rfl]; rfl
    · rw [if_pos (by simp)] at h
      obtain ⟨_, h4⟩ := mul_ok ⟨by simp, by simpa [IsName] using hp⟩ ⟨by simp, by simpa [IsName] using hn⟩ h
      exact .inl h4

theorem parent_pair {q : ID} {pkg n : PyStr} (hp : IsName pkg) (h : q.parts = [pkg, n]) : q.parent = .ok ⟨[pkg]⟩ := by
  unfold ID.parent ID.ofList
  rw [h]
  exact (ID.checked_ok_iff _ _).2 ⟨rfl, by simp, by simpa [IsName] using hp⟩

end Verif.SpecParser
