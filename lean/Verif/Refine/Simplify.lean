import Verif.Refine.Spec
import Verif.Expr.Props

/-! # Simplification of guarded conditions

`simplified` keeps guards of `and then` in front of what they guard. -/

namespace Verif.Refine
open Verif Verif.Graph Verif.Verify Verif.Types Verif.Gen Verif.Spark Verif.Ctx

/-- Operands that `simplified` leaves alone. -/
def Fixed : Expr → Prop
  | .var .. | .call .. | .sel .. => True
  | _ => False

/-- Guards: calls, components, negated calls. -/
def Guard : Expr → Prop
  | .call .. | .sel .. | .not (.call ..) => True
  | _ => False

/-- The value of a list of operands. -/
def comb (op : BoolOp) (l : List Bool) : Bool := if op.isAnd then l.all id else l.any id

section
variable (r : Ref) (c : Context) (Safe : Prop)

/-- An operand of a comparison with its type and value: a name or call, or a constant, which is a number if `st`. -/
def Operand (st : Bool) (a : Expr) (s : ATy) (x : Int) : Prop :=
  (Fixed a ∧ r.ty a = some s ∧ (Safe → r.exec c a = .ok (.num x))) ∨
  (a.Const ∧ a.WF ∧ (∀ ρ, eval .ada ρ a = some (.int x)) ∧ s = .universal ∧ (st = true → ∃ b, a = .num x b))

/-- Generated conditions with their values. -/
inductive CC (st : Bool) : Expr → Bool → Prop
  | tru : CC st .tru true
  | fls : CC st .fls false
  | rel {op a b s t x y} : op.isCmp = true → Operand r c Safe st a s x → Operand r c Safe st b t y → r.comparable s t = true →
      (Fixed a → Fixed b → a.eq b = true → x = y) → CC st (.rel op a b) (op.intOp x y)
  | bool {op} {ts : List (Expr × Bool)} : (∀ p ∈ ts, CC st p.1 p.2) → CC st (.bool op (ts.map (·.1))) (comb op (ts.map (·.2)))

end

section
variable {r : Ref} {c : Context} {Safe : Prop}

theorem isReflexive_int {op : RelOp} (h : op.isReflexive = true) (x : Int) : op.intOp x x = true := by
  cases op <;> simp [RelOp.isReflexive, RelOp.intOp] at h ⊢

theorem fixed_eq_num {a : Expr} {v : Int} {b : NBase} (h : Fixed a) : a.eq (.num v b) = false ∧ (Expr.num v b).eq a = false := by
  cases a <;> simp only [Fixed] at h <;> exact ⟨rfl, rfl⟩

theorem fixed_num? {a : Expr} (h : Fixed a) : a.num? = none := by
  cases a <;> simp only [Fixed] at h <;> rfl

theorem Operand.weaken {st : Bool} {a : Expr} {s : ATy} {x : Int} (h : Operand r c Safe true a s x) : Operand r c Safe st a s x := by
  rcases h with h | ⟨h1, h2, h3, h4, h5⟩
  · exact .inl h
  · exact .inr ⟨h1, h2, h3, h4, fun _ => h5 rfl⟩

theorem CC.weaken {st : Bool} {e : Expr} {v : Bool} (h : CC r c Safe true e v) : CC r c Safe st e v := by
  induction h with
  | tru => exact .tru
  | fls => exact .fls
  | rel h1 h2 h3 h4 h5 => exact .rel h1 h2.weaken h3.weaken h4 h5
  | bool _ ih => exact .bool ih

theorem const_hq (e : Expr) : e.Const → ¬ e.HQ := by
  induction e using Expr.ind with
  | add ts ih =>
    intro h hq
    simp only [Expr.Const, ConstL_iff] at h
    simp only [Expr.HQ, HQL_iff] at hq
    obtain ⟨t, ht, hq⟩ := hq
    exact ih t ht (h t ht) hq
  | mul ts ih =>
    intro h hq
    simp only [Expr.Const, ConstL_iff] at h
    simp only [Expr.HQ, HQL_iff] at hq
    obtain ⟨t, ht, hq⟩ := hq
    exact ih t ht (h t ht) hq
  | bin op l r ihl ihr =>
    intro h hq
    simp only [Expr.Const] at h
    simp only [Expr.HQ] at hq
    rcases hq with hq | hq
    · exact ihl h.2.1 hq
    · exact ihr h.2.2 hq
  | num v b => intro _ h; exact h
  | _ => intro h; simp [Expr.Const] at h

/-- The result of `simplify` is an error `fuel` or satisfies a property. -/
def Yields {α : Type} (p : α → Prop) (x : Py α) : Prop := x = .error .fuel ∨ ∃ a, x = .ok a ∧ p a

theorem Yields.bind {α β : Type} {p : α → Prop} {q : β → Prop} {x : Py α} {f : α → Py β} (h : Yields p x)
    (hf : ∀ a, p a → Yields q (f a)) : Yields q (x >>= f) := by
  rcases h with rfl | ⟨a, rfl, ha⟩
  · exact .inl rfl
  · exact hf a ha

theorem Yields.ok {α : Type} {p : α → Prop} {a : α} (h : p a) : Yields p (.ok a) := .inr ⟨a, rfl, h⟩

theorem Yields.mono {α : Type} {p q : α → Prop} {x : Py α} (h : Yields p x) (hpq : ∀ a, p a → q a) : Yields q x := by
  rcases h with h | ⟨a, h, ha⟩
  · exact .inl h
  · exact .inr ⟨a, h, hpq a ha⟩

theorem Yields.simplified {p : Expr → Prop} {e : Expr} (h : ∀ k, Yields p (Verif.simplify k e)) : ∃ e', e.simplified = .ok e' ∧ p e' := by
  rcases h (4 * weight e) with h | h
  · exact absurd h (C08_terminates e)
  · exact h

theorem Operand.simplify {a : Expr} {s : ATy} {x : Int} (h : Operand r c Safe false a s x) (k : Nat) :
    Yields (fun a' => (a' = a ∧ Fixed a ∧ r.ty a = some s ∧ (Safe → r.exec c a = .ok (.num x))) ∨ ((∃ b, a' = .num x b) ∧ s = .universal))
      (Verif.simplify k a) := by
  rcases h with ⟨hf, h⟩ | ⟨hc, hw, hv, hs, _⟩
  · cases k with
    | zero => exact .inl rfl
    | succ k => cases a <;> simp only [Fixed] at hf <;> exact .ok (.inl ⟨rfl, trivial, h⟩)
  · by_cases hk : Verif.simplify k a = .error .fuel
    · exact .inl hk
    · rw [C08_fuel_irrelevant a k hk]
      obtain ⟨e', he⟩ := C08_C09_simplified_returns_partial (D := .ada) a (Const.good _ a hc false) hw (const_hq a hc) exEnv _ (hv exEnv)
      rw [he]
      exact .ok (.inr ⟨C08_constant_folds a e' hc hw he exEnv x (hv exEnv), hs⟩)

theorem Operand.num {st : Bool} {x : Int} {b : NBase} : Operand r c Safe st (.num x b) .universal x :=
  .inr ⟨trivial, by simp [Expr.WF], fun _ => rfl, rfl, fun _ => ⟨b, rfl⟩⟩

theorem rel_simplify {op : RelOp} {a b : Expr} {s t : ATy} {x y : Int} (h1 : op.isCmp = true) (h2 : Operand r c Safe false a s x)
    (h3 : Operand r c Safe false b t y) (h4 : r.comparable s t = true) (h5 : Fixed a → Fixed b → a.eq b = true → x = y) (k : Nat) :
    Yields (fun e' => CC r c Safe true e' (op.intOp x y)) (simplify k (.rel op a b)) := by
  cases k with
  | zero => exact .inl rfl
  | succ k =>
    simp only [simplify]
    refine (h2.simplify k).bind fun a' ha => (h3.simplify k).bind fun b' hb => ?_
    have hx : a'.eq b' = true → x = y := by
      intro he
      rcases ha with ⟨rfl, ha, _⟩ | ⟨⟨u, rfl⟩, _⟩ <;> rcases hb with ⟨rfl, hb, _⟩ | ⟨⟨w, rfl⟩, _⟩
      · exact h5 ha hb he
      · rw [(fixed_eq_num ha).1] at he; cases he
      · rw [(fixed_eq_num hb).2] at he; cases he
      · simp only [Expr.eq, Bool.and_eq_true, beq_iff_eq] at he
        exact he.2
    have ha' : Operand r c Safe true a' s x := by
      rcases ha with ⟨rfl, ha⟩ | ⟨⟨u, rfl⟩, rfl⟩
      · exact .inl ha
      · exact .num
    have hb' : Operand r c Safe true b' t y := by
      rcases hb with ⟨rfl, hb⟩ | ⟨⟨u, rfl⟩, rfl⟩
      · exact .inl hb
      · exact .num
    simp only [h1, if_true]
    split
    · rename_i hr
      simp only [Bool.and_eq_true] at hr
      refine .ok ?_
      rw [hx hr.2, isReflexive_int hr.1]
      exact .tru
    · split
      · rename_i u w hu hw
        have : u = x := by
          rcases ha with ⟨rfl, ha, _⟩ | ⟨⟨_, rfl⟩, _⟩
          · rw [fixed_num? ha] at hu; cases hu
          · simpa [Expr.num?] using hu.symm
        subst this
        have : w = y := by
          rcases hb with ⟨rfl, hb, _⟩ | ⟨⟨_, rfl⟩, _⟩
          · rw [fixed_num? hb] at hw; cases hw
          · simpa [Expr.num?] using hw.symm
        subst this
        refine .ok ?_
        cases op.intOp u w
        · exact .fls
        · exact .tru
      · exact .ok (.rel h1 ha' hb' h4 fun _ _ => hx)

/-- What the loop of `AssExpr.simplified` returns. -/
def Loop (r : Ref) (c : Context) (Safe : Prop) (op : BoolOp) (T : List Expr) (v : Bool) (x : List Expr × Int) : Prop :=
  ∃ rs : List (Expr × Bool), x.1 = T ++ rs.map (·.1) ∧ (∀ p ∈ rs, CC r c Safe true p.1 p.2) ∧ (x.2 = 0 ∨ x.2 = 1) ∧
    comb op ((decide (x.2 ≠ 0)) :: rs.map (·.2)) = v

theorem comb_cons (op : BoolOp) (b : Bool) (l : List Bool) :
    comb op (b :: l) = if op.isAnd then b && comb op l else b || comb op l := by
  unfold comb; split <;> simp

theorem comb_append (op : BoolOp) (l k : List Bool) :
    comb op (l ++ k) = if op.isAnd then comb op l && comb op k else comb op l || comb op k := by
  unfold comb; split <;> simp

theorem fold_total {op : BoolOp} {total : Int} (ht : total = 0 ∨ total = 1) (v : Bool) :
    ((AssOp.bool op).op total (if v then 1 else 0) = 0 ∨ (AssOp.bool op).op total (if v then 1 else 0) = 1) ∧
    decide ((AssOp.bool op).op total (if v then 1 else 0) ≠ 0) = (if op.isAnd then decide (total ≠ 0) && v else decide (total ≠ 0) || v) := by
  rcases ht with rfl | rfl <;> cases v <;> cases op <;> decide

theorem sameTerms_ok {op op' : BoolOp} {ts us : List Expr} (h : (AssOp.bool op).sameTerms (.bool op' ts) = some us) :
    us = ts ∧ op'.isAnd = op.isAnd := by
  cases op <;> cases op' <;> simp_all [AssOp.sameTerms, BoolOp.isAnd]

theorem loop_ok (k : Nat) (ih : ∀ e v, CC r c Safe false e v → ∀ j, j ≤ k → Yields (fun e' => CC r c Safe true e' v) (simplify j e)) (op : BoolOp) :
    ∀ j, j ≤ k + 1 → ∀ (ws : List (Expr × Bool)) (T : List Expr) (total : Int), (∀ p ∈ ws, CC r c Safe false p.1 p.2) → total = 0 ∨ total = 1 →
    Yields (Loop r c Safe op T (comb op (decide (total ≠ 0) :: ws.map (·.2)))) (assLoop j (.bool op) (ws.map (·.1)) T total) := by
  intro j
  induction j with
  | zero =>
    intro _ ws T total _ ht
    cases ws with
    | nil => exact .ok ⟨[], by simp, by simp, ht, rfl⟩
    | cons w ws => exact .inl rfl
  | succ j ihj =>
    intro hj ws T total hw ht
    cases ws with
    | nil => exact .ok ⟨[], by simp, by simp, ht, rfl⟩
    | cons w ws =>
      obtain ⟨w, v⟩ := w
      simp only [List.map_cons, assLoop]
      refine (ih w v (hw _ List.mem_cons_self) j (by omega)).bind fun t ht' => ?_
      have hws : ∀ p ∈ ws, CC r c Safe false p.1 p.2 := fun p hp => hw p (List.mem_cons_of_mem _ hp)
      have hfold : ∀ v : Bool, comb op (decide ((AssOp.bool op).op total (if v then 1 else 0) ≠ 0) :: ws.map (·.2)) =
          comb op (decide (total ≠ 0) :: v :: ws.map (·.2)) := by
        intro v
        rw [comb_cons, comb_cons, comb_cons, (fold_total ht v).2]
        split
        · rw [Bool.and_assoc]
        · rw [Bool.or_assoc]
      have keep : ∀ t, CC r c Safe true t v → Yields (Loop r c Safe op T (comb op (decide (total ≠ 0) :: v :: ws.map (·.2))))
          (assLoop j (.bool op) (ws.map (·.1)) (T ++ [t]) total) := by
        intro t hc
        refine (ihj (by omega) ws (T ++ [t]) total hws ht).mono fun x hx => ?_
        obtain ⟨rs, h1, h2, h3, h4⟩ := hx
        refine ⟨(t, v) :: rs, by simp [h1], ?_, h3, ?_⟩
        · intro p hp
          rcases List.mem_cons.1 hp with rfl | hp
          · exact hc
          · exact h2 p hp
        · rw [comb_cons] at h4 ⊢
          simp only [List.map_cons]
          rw [comb_cons, comb_cons op (decide (total ≠ 0)), comb_cons]
          rw [comb_cons op (decide (total ≠ 0))] at h4
          revert h4
          generalize comb op _ = p
          generalize comb op _ = q
          generalize decide (x.2 ≠ 0) = s
          generalize decide (total ≠ 0) = u
          cases op.isAnd <;> cases p <;> cases q <;> cases s <;> cases u <;> cases v <;> simp
      cases ht' with
      | tru =>
        have := ihj (by omega) ws T _ hws (fold_total (op := op) ht true).1
        rw [hfold true] at this
        exact this
      | fls =>
        have := ihj (by omega) ws T _ hws (fold_total (op := op) ht false).1
        rw [hfold false] at this
        exact this
      | rel h1 h2 h3 h4 h5 =>
        have hn : ∀ o a b, (AssOp.bool op).sameTerms (.rel o a b) = none := by intro o a b; cases op <;> rfl
        simp only [hn]
        exact keep _ (.rel h1 h2 h3 h4 h5)
      | @bool op' ts hts =>
        simp only
        cases hs : (AssOp.bool op).sameTerms (.bool op' (ts.map (·.1))) with
        | none => simp only; exact keep _ (.bool hts)
        | some us =>
          simp only
          obtain ⟨rfl, ho⟩ := sameTerms_ok hs
          have := ihj (by omega) (ws ++ ts) T total (fun p hp => by
            rcases List.mem_append.1 hp with hp | hp
            · exact hws p hp
            · exact (hts p hp).weaken) ht
          simp only [List.map_append] at this
          refine this.mono fun x hx => ?_
          obtain ⟨rs, h1, h2, h3, h4⟩ := hx
          refine ⟨rs, h1, h2, h3, h4.trans ?_⟩
          rw [comb_cons, comb_append, comb_cons, comb_cons]
          have : comb op' (ts.map (·.2)) = comb op (ts.map (·.2)) := by simp [comb, ho]
          rw [this]
          cases op.isAnd
          · simp [Bool.or_left_comm, Bool.or_comm]
          · simp [Bool.and_left_comm, Bool.and_comm]

theorem CC.fls_iff {e : Expr} {v : Bool} (h : CC r c Safe true e v) (he : e.isFls = true) : v = false := by
  cases h <;> first | rfl | cases he

theorem CC.tru_iff {e : Expr} {v : Bool} (h : CC r c Safe true e v) (he : e.isTru = true) : v = true := by
  cases h <;> first | rfl | cases he

theorem absorb_ok {op : BoolOp} {e : Expr} {v : Bool} (h : CC r c Safe true e v) : CC r c Safe true (absorb op e) v := by
  cases h with
  | tru => exact .tru
  | fls => exact .fls
  | rel h1 h2 h3 h4 h5 => exact .rel h1 h2 h3 h4 h5
  | @bool op' ts h =>
    simp only [absorb]
    split
    · rename_i hc
      simp only [Bool.and_eq_true] at hc
      obtain ⟨⟨_, ho⟩, hc⟩ := hc
      rw [List.any_map, List.any_eq_true] at hc
      obtain ⟨p, hp, hf⟩ := hc
      have : comb op' (ts.map (·.2)) = false := by
        simp only [comb, ho, if_true, List.all_eq_false]
        exact ⟨p.2, List.mem_map_of_mem hp, by simp [(h p hp).fls_iff hf]⟩
      rw [this]
      exact .fls
    · split
      · rename_i hc
        simp only [Bool.and_eq_true, Bool.not_eq_true'] at hc
        obtain ⟨⟨_, ho⟩, hc⟩ := hc
        rw [List.any_map, List.any_eq_true] at hc
        obtain ⟨p, hp, hf⟩ := hc
        have : comb op' (ts.map (·.2)) = true := by
          simp only [comb, ho, if_false, Bool.false_eq_true, List.any_eq_true]
          exact ⟨p.2, List.mem_map_of_mem hp, by simp [(h p hp).tru_iff hf]⟩
        rw [this]
        exact .tru
      · exact .bool h

theorem finish_ok {op : BoolOp} {rs : List (Expr × Bool)} {total : Int} (h : ∀ p ∈ rs, CC r c Safe true p.1 p.2) (ht : total = 0 ∨ total = 1) :
    CC r c Safe true ((AssOp.bool op).finish (rs.map (·.1)) total) (comb op (decide (total ≠ 0) :: rs.map (·.2))) := by
  have hc : CC r c Safe true ((AssOp.bool op).const total) (decide (total ≠ 0)) := by
    rcases ht with rfl | rfl
    · exact .fls
    · exact .tru
  cases rs with
  | nil =>
    have : comb op [decide (total ≠ 0)] = decide (total ≠ 0) := by simp [comb]
    simp only [AssOp.finish, List.map_nil, List.isEmpty_nil, if_true]
    rw [this]
    exact hc
  | cons p rs =>
    by_cases hn : total = (AssOp.bool op).neutral
    · have hval : comb op (decide (total ≠ 0) :: (p :: rs).map (·.2)) = comb op ((p :: rs).map (·.2)) := by
        rw [comb_cons, hn]
        cases op <;> simp [AssOp.neutral, BoolOp.isAnd]
      rw [hval]
      cases rs with
      | nil =>
        have : comb op ([p].map (·.2)) = p.2 := by simp [comb]
        rw [this]
        simpa [AssOp.finish, hn] using h p List.mem_cons_self
      | cons q rs =>
        have he : (AssOp.bool op).finish ((p :: q :: rs).map (·.1)) total = .bool op ((p :: q :: rs).map (·.1)) := by
          simp [AssOp.finish, hn, AssOp.mk]
        rw [he]
        exact .bool h
    · have he : (AssOp.bool op).finish ((p :: rs).map (·.1)) total =
          .bool op (((p :: rs) ++ [((AssOp.bool op).const total, decide (total ≠ 0))]).map (·.1)) := by
        simp only [AssOp.finish, List.map_cons, List.isEmpty_cons, Bool.false_eq_true, if_false, if_pos hn]
        cases rs <;> simp [AssOp.mk]
      have hval : comb op (decide (total ≠ 0) :: (p :: rs).map (·.2)) =
          comb op (((p :: rs) ++ [((AssOp.bool op).const total, decide (total ≠ 0))]).map (·.2)) := by
        rw [List.map_append, comb_append, comb_cons]
        have : comb op ([((AssOp.bool op).const total, decide (total ≠ 0))].map (·.2)) = decide (total ≠ 0) := by simp [comb]
        rw [this]
        split
        · rw [Bool.and_comm]
        · rw [Bool.or_comm]
      rw [he, hval]
      refine .bool fun q hq => ?_
      rcases List.mem_append.1 hq with hq | hq
      · exact h q hq
      · simp only [List.mem_singleton] at hq
        subst hq
        exact hc

/-- `simplified` keeps generated conditions and their values. -/
theorem CC.simplify {e : Expr} {v : Bool} (h : CC r c Safe false e v) (k : Nat) : Yields (fun e' => CC r c Safe true e' v) (Verif.simplify k e) := by
  suffices ∀ k e v, CC r c Safe false e v → ∀ j, j ≤ k → Yields (fun e' => CC r c Safe true e' v) (Verif.simplify j e) from this k e v h k (Nat.le_refl _)
  clear h k e v
  intro k
  induction k with
  | zero =>
    intro e v h j hj
    obtain rfl : j = 0 := by omega
    exact .inl rfl
  | succ k ih =>
    intro e v h j hj
    cases j with
    | zero => exact .inl rfl
    | succ j =>
      cases h with
      | tru => exact .ok .tru
      | fls => exact .ok .fls
      | rel h1 h2 h3 h4 h5 => exact rel_simplify h1 h2 h3 h4 h5 _
      | @bool op ts h =>
        simp only [Verif.simplify]
        have hn : (AssOp.bool op).neutral = 0 ∨ (AssOp.bool op).neutral = 1 := by cases op <;> simp [AssOp.neutral, BoolOp.isAnd]
        refine (loop_ok k ih op j (by omega) ts [] _ h hn).bind fun x hx => ?_
        obtain ⟨T, total⟩ := x
        obtain ⟨rs, h1, h2, h3, h4⟩ := hx
        simp only [List.nil_append] at h1
        subst h1
        refine .ok ?_
        have hv : comb op (decide ((AssOp.bool op).neutral ≠ 0) :: ts.map (·.2)) = comb op (ts.map (·.2)) := by
          rw [comb_cons]; cases op <;> simp [AssOp.neutral, BoolOp.isAnd]
        rw [hv] at h4
        rw [← h4]
        exact absorb_ok (finish_ok h2 h3)

/-! ## Guards -/

theorem Guard.simplify {g : Expr} (h : Guard g) (k : Nat) : Verif.simplify k g = .error .fuel ∨ Verif.simplify k g = .ok g := by
  cases k with
  | zero => exact .inl rfl
  | succ k =>
    cases g with
    | call => exact .inr rfl
    | sel => exact .inr rfl
    | not e =>
      cases e <;> simp only [Guard] at h
      cases k with
      | zero => exact .inl rfl
      | succ k => exact .inr rfl
    | _ => simp only [Guard] at h

theorem guards_loop {gs : List Expr} (hg : ∀ g ∈ gs, Guard g) (ws : List Expr) (total : Int) : ∀ (k : Nat) (T : List Expr),
    assLoop k (.bool .andThen) (gs ++ ws) T total = .error .fuel ∨
    ∃ j, j ≤ k ∧ assLoop k (.bool .andThen) (gs ++ ws) T total = assLoop j (.bool .andThen) ws (T ++ gs) total := by
  induction gs with
  | nil => intro k T; exact .inr ⟨k, Nat.le_refl _, by simp⟩
  | cons g gs ih =>
    intro k T
    cases k with
    | zero => exact .inl rfl
    | succ k =>
      have hgg := hg g List.mem_cons_self
      rcases hgg.simplify k with h | h
      · simp only [List.cons_append, assLoop, h]; exact .inl rfl
      · have hs : assLoop (k + 1) (.bool .andThen) (g :: gs ++ ws) T total = assLoop k (.bool .andThen) (gs ++ ws) (T ++ [g]) total := by
          simp only [List.cons_append, assLoop, h]
          clear h ih hg
          cases g <;> simp only [Guard] at hgg <;> rfl
        rw [hs]
        rcases ih (fun x hx => hg x (List.mem_cons_of_mem _ hx)) k (T ++ [g]) with h' | ⟨j, hj, h'⟩
        · exact .inl h'
        · exact .inr ⟨j, by omega, by rw [h']; simp⟩

/-- Guards `gs` and then conditions with value `D`. -/
inductive GG (r : Ref) (c : Context) (Safe : Prop) (st : Bool) : List Expr → Bool → Expr → Prop
  | fls {gs} : GG r c Safe st gs false .fls
  | single {g} : Guard g → GG r c Safe st [g] true g
  | flat {gs} {rs : List (Expr × Bool)} : gs ≠ [] → (∀ g ∈ gs, Guard g) → (∀ p ∈ rs, CC r c Safe st p.1 p.2) →
      GG r c Safe st gs ((rs.map (·.2)).all id) (.bool .andThen (gs ++ rs.map (·.1)))

theorem GG.weaken {st : Bool} {gs : List Expr} {D : Bool} {e : Expr} (h : GG r c Safe true gs D e) : GG r c Safe st gs D e := by
  cases h with
  | fls => exact .fls
  | single h => exact .single h
  | flat h1 h2 h3 => exact .flat h1 h2 fun p hp => (h3 p hp).weaken

theorem guard_isFls {g : Expr} (h : Guard g) : g.isFls = false := by
  cases g <;> simp only [Guard] at h <;> rfl

theorem guarded_finish {gs : List Expr} {rs : List (Expr × Bool)} {total : Int} (h1 : gs ≠ []) (h2 : ∀ g ∈ gs, Guard g)
    (h3 : ∀ p ∈ rs, CC r c Safe true p.1 p.2) (ht : total = 0 ∨ total = 1) :
    GG r c Safe true gs (comb .andThen (decide (total ≠ 0) :: rs.map (·.2)))
      (absorb .andThen ((AssOp.bool .andThen).finish (gs ++ rs.map (·.1)) total)) := by
  obtain ⟨g, gs, rfl⟩ : ∃ g gs', gs = g :: gs' := by cases gs <;> simp at h1 ⊢
  rcases ht with rfl | rfl
  · have hv : comb .andThen (decide ((0 : Int) ≠ 0) :: rs.map (·.2)) = false := by simp [comb, BoolOp.isAnd]
    have he : absorb .andThen ((AssOp.bool .andThen).finish (g :: gs ++ rs.map (·.1)) 0) = .fls := by
      have : (AssOp.bool .andThen).finish (g :: gs ++ rs.map (·.1)) 0 = .bool .andThen (g :: gs ++ rs.map (·.1) ++ [.fls]) := by
        simp only [AssOp.finish, List.cons_append, List.isEmpty_cons, AssOp.neutral, BoolOp.isAnd, AssOp.const]
        cases h : gs ++ List.map (fun x => x.fst) rs <;> simp [AssOp.mk]
      rw [this]
      simp [absorb, BoolOp.isAnd, Expr.isFls]
    rw [hv, he]
    exact .fls
  · have hv : comb .andThen (decide ((1 : Int) ≠ 0) :: rs.map (·.2)) = (rs.map (·.2)).all id := by simp [comb, BoolOp.isAnd]
    rw [hv]
    cases hl : gs ++ rs.map (·.1) with
    | nil =>
      have hgs : gs = [] := by cases gs <;> simp at hl ⊢
      subst hgs
      obtain rfl : rs = [] := by cases rs <;> simp at hl ⊢
      have : absorb .andThen ((AssOp.bool .andThen).finish ([g] ++ ([] : List (Expr × Bool)).map (·.1)) 1) = g := by
        have hg := h2 g (by simp)
        cases g <;> simp only [Guard] at hg <;> rfl
      rw [this]
      exact .single (h2 g (by simp))
    | cons t ts =>
      have he : (AssOp.bool .andThen).finish (g :: gs ++ rs.map (·.1)) 1 = .bool .andThen (g :: gs ++ rs.map (·.1)) := by
        simp [AssOp.finish, AssOp.neutral, BoolOp.isAnd, hl, AssOp.mk]
      rw [he]
      simp only [absorb, BoolOp.isAnd, Bool.and_self, Bool.true_and, Bool.not_true, Bool.false_and]
      split
      · rename_i hf
        simp only [List.any_append, Bool.or_eq_true, List.any_eq_true, List.mem_map] at hf
        rcases hf with ⟨x, hx, hf⟩ | ⟨x, ⟨p, hp, rfl⟩, hf⟩
        · rw [guard_isFls (h2 x hx)] at hf; cases hf
        · have : (rs.map (·.2)).all id = false := by
            simp only [List.all_eq_false]
            exact ⟨p.2, List.mem_map_of_mem hp, by simp [(h3 p hp).fls_iff hf]⟩
          rw [this]
          exact .fls
      · exact .flat h1 h2 h3

theorem guarded_loop {gs : List Expr} {rs : List (Expr × Bool)} (h1 : gs ≠ []) (h2 : ∀ g ∈ gs, Guard g)
    (h3 : ∀ p ∈ rs, CC r c Safe false p.1 p.2) (gs' T : List Expr) (hT : T ++ gs' = gs) (k : Nat) :
    Yields (fun e' => GG r c Safe true gs ((rs.map (·.2)).all id) e')
      ((assLoop k (.bool .andThen) (gs' ++ rs.map (·.1)) T 1) >>= fun x => pure (absorb .andThen ((AssOp.bool .andThen).finish x.1 x.2))) := by
  rcases guards_loop (fun g hg => h2 g (by rw [← hT]; exact List.mem_append_right _ hg)) (rs.map (·.1)) 1 k T with h | ⟨j, _, h⟩
  · rw [h]; exact .inl rfl
  · rw [h, hT]
    refine (loop_ok j (fun e v he i _ => he.simplify i) .andThen j (by omega) rs gs 1 h3 (.inr rfl)).bind fun x hx => ?_
    obtain ⟨T', total⟩ := x
    obtain ⟨qs, e1, e2, e3, e4⟩ := hx
    simp only at e1
    subst e1
    have : comb .andThen (decide ((1 : Int) ≠ 0) :: rs.map (·.2)) = (rs.map (·.2)).all id := by simp [comb, BoolOp.isAnd]
    rw [this] at e4
    rw [← e4]
    exact .ok (guarded_finish h1 h2 e2 e3)

/-- `simplified` keeps guards in front of conditions. -/
theorem GG.simplify {gs : List Expr} {D : Bool} {e : Expr} (h : GG r c Safe false gs D e) (k : Nat) :
    Yields (GG r c Safe true gs D) (Verif.simplify k e) := by
  cases k with
  | zero => exact .inl rfl
  | succ k =>
    cases h with
    | fls => exact .ok .fls
    | single h =>
      rcases h.simplify (k + 1) with h' | h'
      · exact .inl h'
      · rw [h']; exact .ok (.single h)
    | flat h1 h2 h3 =>
      simp only [Verif.simplify]
      exact guarded_loop h1 h2 h3 gs [] rfl k

/-- Further guards in front. -/
theorem GG.step {gs gs' : List Expr} {D : Bool} {e : Expr} (h : ∀ j, Yields (GG r c Safe true gs D) (Verif.simplify j e)) (h1 : gs' ≠ [])
    (h2 : ∀ g ∈ gs', Guard g) (k : Nat) :
    Yields (GG r c Safe true (gs' ++ gs) D) (Verif.simplify k (.bool .andThen (gs' ++ [e]))) := by
  cases k with
  | zero => exact .inl rfl
  | succ k =>
    simp only [Verif.simplify]
    rcases guards_loop h2 [e] (AssOp.bool BoolOp.andThen).neutral k [] with hl | ⟨j, _, hl⟩
    · rw [hl]; exact .inl rfl
    · rw [hl]
      cases j with
      | zero => exact .inl rfl
      | succ j =>
        simp only [assLoop, List.nil_append]
        rcases h j with hs | ⟨e', hs, he'⟩
        · rw [hs]; exact .inl rfl
        · rw [hs]
          cases he' with
          | fls =>
            have hfls : absorb .andThen ((AssOp.bool .andThen).finish gs' 0) = .fls := by
              obtain ⟨g, gs'', rfl⟩ : ∃ g gs'', gs' = g :: gs'' := by cases gs' <;> simp at h1 ⊢
              have : (AssOp.bool .andThen).finish (g :: gs'') 0 = .bool .andThen (g :: gs'' ++ [.fls]) := by
                simp only [AssOp.finish, List.isEmpty_cons, AssOp.neutral, BoolOp.isAnd, AssOp.const]
                cases gs'' <;> simp [AssOp.mk]
              rw [this]
              simp [absorb, BoolOp.isAnd, Expr.isFls]
            have hr : ∀ x : Expr, absorb .andThen ((AssOp.bool .andThen).finish gs' 0) = x → Yields (GG r c Safe true (gs' ++ gs) false) (.ok x) := by
              intro x hx
              rw [hfls] at hx
              subst hx
              exact .ok .fls
            have := hr _ rfl
            cases j <;> exact this
          | single hg =>
            have hw := guarded_loop (r := r) (c := c) (Safe := Safe) (gs := gs' ++ [e']) (rs := []) (by simp) (fun x hx => by
              rcases List.mem_append.1 hx with hx | hx
              · exact h2 x hx
              · simp only [List.mem_singleton] at hx; subst hx; exact hg) (by simp) [] (gs' ++ [e']) (by simp) j
            simp only [List.map_nil, List.append_nil, List.all_nil] at hw
            have hnil : ∀ o T t, assLoop j o [] T t = .ok (T, t) := by intro o T t; cases j <;> rfl
            rw [hnil] at hw
            clear h hs hl
            cases e' <;> simp only [Guard] at hg <;> exact hw
          | @flat _ rs g1 g2 g3 =>
            have hw := guarded_loop (r := r) (c := c) (Safe := Safe) (gs := gs' ++ gs) (rs := rs) (by simp [h1]) (fun x hx => by
              rcases List.mem_append.1 hx with hx | hx
              · exact h2 x hx
              · exact g2 x hx) (fun p hp => (g3 p hp).weaken) gs gs' rfl j
            exact hw

/-! ## Types and values -/

theorem tyL_eq (ts : List Expr) : r.tyL ts = ts.map r.ty := by
  induction ts with
  | nil => rfl
  | cons t ts ih => simp [Ref.tyL, ih]

theorem allTy_iff (p : ATy → Bool) (ts : List (Option ATy)) : allTy p ts = true ↔ ∀ t ∈ ts, ∃ s, t = some s ∧ p s = true := by
  induction ts with
  | nil => simp [allTy]
  | cons t ts ih => cases t <;> simp [allTy, ih]

theorem isBool_iff (s : ATy) : s.isBool = true ↔ s = .bool := by cases s <;> simp [ATy.isBool]

theorem ty_bool {op : BoolOp} {ts : List Expr} (h : ∀ t ∈ ts, r.ty t = some .bool) : r.ty (.bool op ts) = some .bool := by
  have : allTy ATy.isBool (r.tyL ts) = true := by
    rw [tyL_eq, allTy_iff]
    intro t ht
    obtain ⟨e, he, rfl⟩ := List.mem_map.1 ht
    exact ⟨_, h e he, rfl⟩
  simp only [Ref.ty, this, if_true]

theorem Operand.ty {a : Expr} {s : ATy} {x : Int} (h : Operand r c Safe true a s x) : r.ty a = some s := by
  rcases h with ⟨_, h, _⟩ | ⟨_, _, _, rfl, h⟩
  · exact h
  · obtain ⟨b, rfl⟩ := h rfl; rfl

theorem Operand.exec {a : Expr} {s : ATy} {x : Int} (h : Operand r c Safe true a s x) (hs : Safe) : r.exec c a = .ok (.num x) := by
  rcases h with ⟨_, _, h⟩ | ⟨_, _, _, rfl, h⟩
  · exact h hs
  · obtain ⟨b, rfl⟩ := h rfl; rfl

theorem CC.ty {e : Expr} {v : Bool} (h : CC r c Safe true e v) : r.ty e = some .bool := by
  induction h with
  | tru => rfl
  | fls => rfl
  | rel h1 h2 h3 h4 h5 => simp [Ref.ty, h2.ty, h3.ty, h1, h4]
  | bool _ ih =>
    refine ty_bool fun t ht => ?_
    obtain ⟨p, hp, rfl⟩ := List.mem_map.1 ht
    exact ih p hp

theorem execL_ok {ts : List (Expr × Bool)} (h : ∀ p ∈ ts, r.exec c p.1 = .ok (.bool p.2)) :
    r.execL c (ts.map (·.1)) = .ok (ts.map fun p => .bool p.2) := by
  induction ts with
  | nil => rfl
  | cons p ts ih =>
    simp only [List.map_cons, Ref.execL, h p List.mem_cons_self, ih fun q hq => h q (List.mem_cons_of_mem _ hq)]
    rfl

theorem truth_ok (ts : List (Expr × Bool)) : (ts.map fun p => AV.bool p.2).mapM AV.truth = .ok (ts.map (·.2)) := by
  induction ts with
  | nil => rfl
  | cons p ts ih => simp only [List.map_cons, List.mapM_cons, ih]; rfl

theorem execThen_ok {ts : List (Expr × Bool)} (h : ∀ p ∈ ts, r.exec c p.1 = .ok (.bool p.2)) :
    r.execThen c (ts.map (·.1)) = .ok ((ts.map (·.2)).all id) := by
  induction ts with
  | nil => rfl
  | cons p ts ih =>
    have ih := ih fun q hq => h q (List.mem_cons_of_mem _ hq)
    obtain ⟨e, v⟩ := p
    have h0 := h (e, v) List.mem_cons_self
    simp only at h0
    simp only [List.map_cons, Ref.execThen, h0, ih]
    cases v <;> rfl

theorem execElse_ok {ts : List (Expr × Bool)} (h : ∀ p ∈ ts, r.exec c p.1 = .ok (.bool p.2)) :
    r.execElse c (ts.map (·.1)) = .ok ((ts.map (·.2)).any id) := by
  induction ts with
  | nil => rfl
  | cons p ts ih =>
    have ih := ih fun q hq => h q (List.mem_cons_of_mem _ hq)
    obtain ⟨e, v⟩ := p
    have h0 := h (e, v) List.mem_cons_self
    simp only at h0
    simp only [List.map_cons, Ref.execElse, h0, ih]
    cases v <;> rfl

theorem CC.exec {e : Expr} {v : Bool} (h : CC r c Safe true e v) (hs : Safe) : r.exec c e = .ok (.bool v) := by
  induction h with
  | tru => rfl
  | fls => rfl
  | rel h1 h2 h3 h4 h5 => simp only [Ref.exec, h2.exec hs, h3.exec hs]; rfl
  | @bool op ts _ ih =>
    cases op with
    | and => simp only [Ref.exec, execL_ok ih]; show (do return AV.bool ((← (ts.map fun p : Expr × Bool => AV.bool p.2).mapM AV.truth).all id)) = _; rw [truth_ok]; rfl
    | or => simp only [Ref.exec, execL_ok ih]; show (do return AV.bool ((← (ts.map fun p : Expr × Bool => AV.bool p.2).mapM AV.truth).any id)) = _; rw [truth_ok]; rfl
    | andThen => simp only [Ref.exec, execThen_ok ih]; rfl
    | orElse => simp only [Ref.exec, execElse_ok ih]; rfl

theorem execThen_append {gs ts : List Expr} {x : Bool} (h : r.execThen c gs = .ok x) :
    r.execThen c (gs ++ ts) = if x then r.execThen c ts else .ok false := by
  induction gs with
  | nil => cases h; rfl
  | cons g gs ih =>
    simp only [Ref.execThen, List.cons_append] at h ⊢
    cases hg : r.exec c g with
    | error e => rw [hg] at h; cases h
    | ok a =>
      rw [hg] at h
      cases a with
      | bool b =>
        cases b with
        | true => exact ih h
        | false => cases h; rfl
      | _ => cases h

theorem GG.ty {gs : List Expr} {D : Bool} {e : Expr} (h : GG r c Safe true gs D e) (hg : ∀ g ∈ gs, r.ty g = some .bool) :
    r.ty e = some .bool := by
  cases h with
  | fls => rfl
  | single _ => exact hg _ List.mem_cons_self
  | flat _ _ h =>
    refine ty_bool fun t ht => ?_
    rcases List.mem_append.1 ht with ht | ht
    · exact hg t ht
    · obtain ⟨p, hp, rfl⟩ := List.mem_map.1 ht
      exact (h p hp).ty

theorem GG.exec {gs : List Expr} {D x : Bool} {e : Expr} (h : GG r c Safe true gs D e) (hg : r.execThen c gs = .ok x) (hs : x = true → Safe) :
    r.exec c e = .ok (.bool (x && D)) := by
  cases h with
  | fls => simp [Ref.exec]
  | @single g _ =>
    simp only [Ref.execThen] at hg
    cases he : r.exec c e with
    | error e => rw [he] at hg; cases hg
    | ok a =>
      rw [he] at hg
      cases a with
      | bool b => cases b <;> cases hg <;> rfl
      | _ => cases hg
  | @flat _ rs _ _ h =>
    simp only [Ref.exec]
    rw [execThen_append hg]
    cases x with
    | false => rfl
    | true =>
      rw [if_pos rfl, execThen_ok fun p hp => (h p hp).exec (hs rfl)]
      rfl

end

end Verif.Refine
