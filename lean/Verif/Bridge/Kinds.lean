import Verif.Bridge.Layout

/-! # Expressions that the solver understands have values -/

namespace Verif.Bridge
open Verif Verif.Graph Verif.Verify Verif.Types Verif.Gen Verif.Spark Verif.Ctx

/-- Expressions that stand for truth values. -/
def truth : Expr → Bool
  | .tru | .fls | .bool .. | .rel .. => true
  | _ => false

mutual
/-- Expressions that cannot fail: no division, remainders by positive numbers, powers with constant exponents that are not negative, and
relations between values of the same kind. -/
def Definite : Expr → Prop
  | .tru | .fls | .num .. | .var .. | .attr .. => True
  | .bool _ ts => DefiniteL ts
  | .add ts => DefiniteL ts
  | .mul ts => DefiniteL ts
  | .bin op l r => Definite l ∧ Definite r ∧ op ≠ .div ∧ (op = .mod → ∃ v b, r = .num v b ∧ 0 < v) ∧ (op = .pow → ∃ v b, r = .num v b ∧ 0 ≤ v)
  | .rel _ l r => Definite l ∧ Definite r ∧ truth l = truth r
  | _ => False
/-- `Definite` for lists of operands. -/
def DefiniteL : List Expr → Prop
  | [] => True
  | e :: es => Definite e ∧ DefiniteL es
end

theorem definiteL_iff {ts : List Expr} : DefiniteL ts ↔ ∀ t ∈ ts, Definite t := by
  induction ts with
  | nil => simp [DefiniteL]
  | cons t ts ih => simp [DefiniteL, ih]

/-- A value and the value of the translation are of the same kind. -/
inductive SameKind : Val → ZVal → Prop
  | int (i j : Int) : SameKind (.int i) (.int j)
  | bool (b c : Bool) : SameKind (.bool b) (.bool c)

section
variable {M : ZModel} {ρ : Env}

theorem kinds_bool {ts : List Expr} (ih : ∀ t ∈ ts, ∀ w, zeval M t = .ok w → ∃ v, eval .ada ρ t = some v ∧ SameKind v w) {ws : List ZVal}
    (h : zevalL M ts = .ok ws) : ∀ {bs}, ws.mapM ZVal.bool? = Except.ok (ε := PyErr) bs → ∃ vs cs, evalL .ada ρ ts = some vs ∧ allSome Val.bool? vs = some cs := by
  induction ts generalizing ws with
  | nil => intro bs _; exact ⟨[], [], rfl, rfl⟩
  | cons t ts iht =>
    intro bs hb
    simp only [zevalL] at h
    obtain ⟨w, hw, h⟩ := bind_ok (h : Except.bind _ _ = _)
    obtain ⟨ws', hws, h⟩ := bind_ok (h : Except.bind _ _ = _)
    cases h
    obtain ⟨v, hv, hk⟩ := ih t List.mem_cons_self w hw
    rw [List.mapM_cons] at hb
    obtain ⟨c, hc, hb⟩ := bind_ok (hb : Except.bind _ _ = _)
    obtain ⟨cs, hcs, hb⟩ := bind_ok (hb : Except.bind _ _ = _)
    obtain ⟨vs, cs', h1, h2⟩ := iht (fun t ht => ih t (List.mem_cons_of_mem _ ht)) hws hcs
    cases hk with
    | int i j => cases hc
    | bool b c => exact ⟨.bool b :: vs, b :: cs', by simp [evalL, hv, h1], by simp [allSome, Val.bool?, h2]⟩

theorem kinds_int {ts : List Expr} (ih : ∀ t ∈ ts, ∀ w, zeval M t = .ok w → ∃ v, eval .ada ρ t = some v ∧ SameKind v w) {ws : List ZVal}
    (h : zevalL M ts = .ok ws) : ∀ {bs}, ws.mapM ZVal.int? = Except.ok (ε := PyErr) bs → ∃ vs cs, evalL .ada ρ ts = some vs ∧ allSome Val.int? vs = some cs := by
  induction ts generalizing ws with
  | nil => intro bs _; exact ⟨[], [], rfl, rfl⟩
  | cons t ts iht =>
    intro bs hb
    simp only [zevalL] at h
    obtain ⟨w, hw, h⟩ := bind_ok (h : Except.bind _ _ = _)
    obtain ⟨ws', hws, h⟩ := bind_ok (h : Except.bind _ _ = _)
    cases h
    obtain ⟨v, hv, hk⟩ := ih t List.mem_cons_self w hw
    rw [List.mapM_cons] at hb
    obtain ⟨c, hc, hb⟩ := bind_ok (hb : Except.bind _ _ = _)
    obtain ⟨cs, hcs, hb⟩ := bind_ok (hb : Except.bind _ _ = _)
    obtain ⟨vs, cs', h1, h2⟩ := iht (fun t ht => ih t (List.mem_cons_of_mem _ ht)) hws hcs
    cases hk with
    | bool b c => cases hc
    | int i j => exact ⟨.int i :: vs, i :: cs', by simp [evalL, hv, h1], by simp [allSome, Val.int?, h2]⟩

/-- A term is of the kind that the expression looks like. -/
theorem truth_kind {m : GMsg} {o : Opts} {S : Field → Prop} {e : Expr} (hc : Cond m o S e) (hd : Definite e) {w : ZVal} (h : zeval M e = .ok w) :
    truth e = true ↔ ∃ b, w = .bool b := by
  cases e with
  | tru => cases h; simp [truth]
  | fls => cases h; simp [truth]
  | num => cases h; simp [truth]
  | var => cases h; simp [truth]
  | attr ng a pre =>
    cases pre <;> simp only [Cond] at hc
    obtain ⟨_, _, ha, _⟩ := hc
    rcases ha with rfl | rfl | rfl <;> (cases h; simp [truth])
  | bool op ts =>
    simp only [zeval] at h
    obtain ⟨ws, _, h⟩ := bind_ok (h : Except.bind _ _ = _)
    obtain ⟨bs, _, h⟩ := bind_ok (h : Except.bind _ _ = _)
    cases h; simp [truth]
  | add ts =>
    simp only [zeval] at h
    obtain ⟨ws, _, h⟩ := bind_ok (h : Except.bind _ _ = _)
    obtain ⟨bs, _, h⟩ := bind_ok (h : Except.bind _ _ = _)
    split at h
    · cases h
    · cases h; simp [truth]
  | mul ts =>
    simp only [zeval] at h
    obtain ⟨ws, _, h⟩ := bind_ok (h : Except.bind _ _ = _)
    obtain ⟨bs, _, h⟩ := bind_ok (h : Except.bind _ _ = _)
    split at h
    · cases h
    · cases h; simp [truth]
  | bin op l r =>
    simp only [zeval] at h
    obtain ⟨a, _, h⟩ := bind_ok (h : Except.bind _ _ = _)
    obtain ⟨b, _, h⟩ := bind_ok (h : Except.bind _ _ = _)
    obtain ⟨x, _, h⟩ := bind_ok (h : Except.bind _ _ = _)
    obtain ⟨y, _, h⟩ := bind_ok (h : Except.bind _ _ = _)
    cases h; simp [truth]
  | rel op l r =>
    simp only [zeval] at h
    obtain ⟨a, _, h⟩ := bind_ok (h : Except.bind _ _ = _)
    obtain ⟨b, _, h⟩ := bind_ok (h : Except.bind _ _ = _)
    obtain ⟨x, _, h⟩ := bind_ok (h : Except.bind _ _ = _)
    cases h; simp [truth]
  | _ => simp [Cond] at hc

/-- An expression that can be translated has a value of the kind of its translation. -/
theorem kinds {m : GMsg} {o : Opts} {S : Field → Prop} (T : Typed m ρ) (e : Expr) :
    Cond m o S e → Definite e → ∀ w, zeval M e = .ok w → ∃ v, eval .ada ρ e = some v ∧ SameKind v w := by
  have hvar : ∀ ng imm id, (ScalarField m S id ∨ LitName m id) → ∀ w, zeval M (.var ng imm id) = .ok w →
      ∃ v, eval .ada ρ (.var ng imm id) = some v ∧ SameKind v w := by
    intro ng imm id h w hw
    cases hw
    have : ∃ i, ρ.var id.key = .int i := by
      rcases h with ⟨_, t, ht, hs⟩ | h
      · exact T.scalar _ _ ht hs
      · exact T.literal id h
    obtain ⟨i, hi⟩ := this
    refine ⟨.int (if ng then -i else i), ?_, .int _ _⟩
    cases ng <;> simp [eval, hi, Val.negIf, Val.int?]
  induction e using Expr.ind with
  | tru => intro _ _ w h; cases h; exact ⟨_, rfl, .bool _ _⟩
  | fls => intro _ _ w h; cases h; exact ⟨_, rfl, .bool _ _⟩
  | num => intro _ _ w h; cases h; exact ⟨_, rfl, .int _ _⟩
  | var ng imm id => intro h _; simp only [Cond] at h; exact hvar _ _ _ h.2
  | attr ng a pre ih =>
    intro h hd w hw
    cases pre <;> simp only [Cond] at h
    rename_i ng' imm id
    obtain ⟨rfl, rfl, ha, _⟩ := h
    obtain ⟨i, hi⟩ := T.attr a id.key
    refine ⟨.int (if ng then -i else i), ?_, ?_⟩
    · cases ng <;> simp [eval, hi, Val.negIf, Val.int?]
    · rcases ha with rfl | rfl | rfl <;> (cases hw; exact .int _ _)
  | bool op ts ih =>
    intro h hd w hw
    simp only [Cond, condL_iff, Definite, definiteL_iff] at h hd
    simp only [zeval] at hw
    obtain ⟨ws, h1, hw⟩ := bind_ok (hw : Except.bind _ _ = _)
    obtain ⟨bs, h2, hw⟩ := bind_ok (hw : Except.bind _ _ = _)
    cases hw
    obtain ⟨vs, cs, h3, h4⟩ := kinds_bool (ρ := ρ) (fun t ht => ih t ht (h t ht) (hd t ht)) h1 h2
    exact ⟨.bool (if op.isAnd then cs.all id else cs.any id), by simp only [eval, h3, h4, Option.bind_some], .bool _ _⟩
  | add ts ih =>
    intro h hd w hw
    simp only [Cond, condL_iff, Definite, definiteL_iff] at h hd
    simp only [zeval] at hw
    obtain ⟨ws, h1, hw⟩ := bind_ok (hw : Except.bind _ _ = _)
    obtain ⟨bs, h2, hw⟩ := bind_ok (hw : Except.bind _ _ = _)
    split at hw
    · cases hw
    cases hw
    obtain ⟨vs, cs, h3, h4⟩ := kinds_int (ρ := ρ) (fun t ht => ih t ht (h t ht) (hd t ht)) h1 h2
    exact ⟨.int (intSum cs), by simp only [eval, h3, h4, Option.bind_some], .int _ _⟩
  | mul ts ih =>
    intro h hd w hw
    simp only [Cond, condL_iff, Definite, definiteL_iff] at h hd
    simp only [zeval] at hw
    obtain ⟨ws, h1, hw⟩ := bind_ok (hw : Except.bind _ _ = _)
    obtain ⟨bs, h2, hw⟩ := bind_ok (hw : Except.bind _ _ = _)
    split at hw
    · cases hw
    cases hw
    obtain ⟨vs, cs, h3, h4⟩ := kinds_int (ρ := ρ) (fun t ht => ih t ht (h t ht) (hd t ht)) h1 h2
    exact ⟨.int (intProd cs), by simp only [eval, h3, h4, Option.bind_some], .int _ _⟩
  | bin op l r ihl ihr =>
    intro h hd w hw
    simp only [Cond, Definite] at h hd
    obtain ⟨d1, d2, d3, d4, d5⟩ := hd
    simp only [zeval] at hw
    obtain ⟨a, h1, hw⟩ := bind_ok (hw : Except.bind _ _ = _)
    obtain ⟨b, h2, hw⟩ := bind_ok (hw : Except.bind _ _ = _)
    obtain ⟨x, h3, hw⟩ := bind_ok (hw : Except.bind _ _ = _)
    obtain ⟨y, h4, hw⟩ := bind_ok (hw : Except.bind _ _ = _)
    cases hw
    obtain ⟨v1, e1, k1⟩ := ihl h.1 d1 a h1
    obtain ⟨v2, e2, k2⟩ := ihr h.2 d2 b h2
    cases k1 with
    | bool => cases h3
    | int i _ =>
      cases k2 with
      | bool => cases h4
      | int j _ =>
        have : ∃ n, op.eval .ada i j = some n := by
          cases op with
          | sub => exact ⟨_, rfl⟩
          | div => exact absurd rfl d3
          | mod =>
            obtain ⟨v, _, rfl, hv⟩ := d4 rfl
            cases e2
            exact ⟨_, if_neg (by omega)⟩
          | pow =>
            obtain ⟨v, _, rfl, hv⟩ := d5 rfl
            cases e2
            exact ⟨_, if_neg (by omega)⟩
        obtain ⟨n, hn⟩ := this
        exact ⟨.int n, by simp [eval, e1, e2, hn], .int _ _⟩
  | rel op l r ihl ihr =>
    intro h hd w hw
    simp only [Definite] at hd
    obtain ⟨d1, d2, d3⟩ := hd
    simp only [zeval] at hw
    obtain ⟨a, h1, hw⟩ := bind_ok (hw : Except.bind _ _ = _)
    obtain ⟨b, h2, hw⟩ := bind_ok (hw : Except.bind _ _ = _)
    obtain ⟨x, h3, hw⟩ := bind_ok (hw : Except.bind _ _ = _)
    cases hw
    have key : ∀ {v1 v2}, eval .ada ρ l = some v1 → eval .ada ρ r = some v2 → SameKind v1 a → SameKind v2 b →
        ((∃ c, a = .bool c) ↔ ∃ c, b = .bool c) → ∃ v, eval .ada ρ (.rel op l r) = some v ∧ SameKind v (.bool x) := by
      intro v1 v2 e1 e2 k1 k2 hk
      have : ∃ c, op.eval v1 v2 = some c := by
        cases k1 <;> cases k2
        · cases op <;> first | exact ⟨_, rfl⟩ | cases h3
        · exact absurd hk (by simp)
        · exact absurd hk (by simp)
        · cases op <;> first | exact ⟨_, rfl⟩ | cases h3
      obtain ⟨c, hc⟩ := this
      exact ⟨.bool c, by simp [eval, e1, e2, hc], .bool _ _⟩
    unfold Cond at h
    split at h
    · exact (by simpa [Definite] using d2 : False).elim
    · exact (by simpa [Definite] using d1 : False).elim
    · obtain ⟨v1, e1, k1⟩ := hvar _ _ _ (h.2.imp (·.2) id) a h1
      cases h2
      cases h1
      exact key e1 rfl k1 (.int _ _) (by simp)
    · obtain ⟨v2, e2, k2⟩ := hvar _ _ _ (h.2.imp (·.2) id) b h2
      cases h2
      cases h1
      exact key rfl e2 (.int _ _) k2 (by simp)
    · obtain ⟨v1, e1, k1⟩ := ihl h.1 d1 a h1
      obtain ⟨v2, e2, k2⟩ := ihr h.2 d2 b h2
      refine key e1 e2 k1 k2 ?_
      rw [← truth_kind h.1 d1 h1, ← truth_kind h.2 d2 h2, d3]
  | _ => intro h; simp [Cond] at h

end
end Verif.Bridge
