import Verif.Verify.Z3
import Verif.Expr.WF

/-! # The translation for the solver agrees with the meaning of expressions -/

namespace Verif.Verify
open Verif

/-- The number the solver uses for a value. -/
def Val.num : Val → Int
  | .int i => i
  | .bool b => if b then 1 else 0
  | .seq _ => 0

/-- The interpretation of the solver given by an assignment. -/
def model (ρ : Env) : ZModel where
  name
    | .var x => Val.num (ρ.var x)
    | .attr k pn x => if pn then 0 else Val.num (ρ.attr k x)
  div0 _ := 0
  mod0 _ := 0
  pow0 a b := a ^ b.toNat

/-- A value that is not a sequence. -/
def Atomic : Val → Prop
  | .seq _ => False
  | _ => True

mutual

/-- Expressions for which the solver's view is right: no aggregates, quantifiers, selections and calls, no sequences;
checksums are valid; `/` and `mod` are applied to numbers for which all roundings agree. -/
def Plain (D : Division) (ρ : Env) : Expr → Prop
  | .var _ _ id => Atomic (ρ.var id.key)
  | .attr _ k pre =>
    match pre with
    | .var _ _ id => (k = .validChecksum → ρ.attr k id.key = .bool true) ∧ Atomic (ρ.attr k id.key)
    | _ => False
  | .sel .. => False
  | .call .. => False
  | .not e => Plain D ρ e
  | .bool _ ts => PlainL D ρ ts
  | .add ts => PlainL D ρ ts
  | .mul ts => PlainL D ρ ts
  | .bin op l r => Plain D ρ l ∧ Plain D ρ r ∧
    (∀ a b, eval D ρ l = some (.int a) → eval D ρ r = some (.int b) →
      (op = .div → D.div a b = a / b) ∧ (op = .mod → 0 ≤ b))
  | .rel _ l r => Plain D ρ l ∧ Plain D ρ r
  | .agg _ => False
  | .quant .. => False
  | _ => True

def PlainL (D : Division) (ρ : Env) : List Expr → Prop
  | [] => True
  | e :: es => Plain D ρ e ∧ PlainL D ρ es

end

/-- The solver's value of a term stands for a value. -/
inductive Match : Val → ZVal → Prop
  | int (i : Int) : Match (.int i) (.int i)
  | bool (b : Bool) : Match (.bool b) (.bool b)
  | num (b : Bool) : Match (.bool b) (.int (if b then 1 else 0))

inductive MatchL : List Val → List ZVal → Prop
  | nil : MatchL [] []
  | cons {v w vs ws} : Match v w → MatchL vs ws → MatchL (v :: vs) (w :: ws)

theorem atomic_match {v : Val} (h : Atomic v) : Match v (.int (Val.num v)) := by
  cases v with
  | int i => exact .int i
  | bool b => exact .num b
  | seq l => exact h.elim

theorem negIf_match {v v' : Val} (ng : Bool) (h : Atomic v) (hn : v.negIf ng = some v') :
    Match v' (.int (if ng then -Val.num v else Val.num v)) := by
  cases ng with
  | false =>
    simp only [Val.negIf, Bool.false_eq_true, if_false, Option.some.injEq] at hn ⊢
    subst hn
    exact atomic_match h
  | true =>
    simp only [Val.negIf, if_true] at hn ⊢
    cases v with
    | int i =>
      simp only [Val.int?, Option.map_some, Option.some.injEq] at hn
      subst hn; exact .int (-i)
    | bool b => simp [Val.int?] at hn
    | seq b => simp [Val.int?] at hn

theorem Match.cast {v : Val} {w : ZVal} (h : Match v w) : w.cast = Val.num v := by
  cases h <;> rfl

theorem Match.ofInt {v : Val} {i : Int} (h : Match v (.int i)) (j : Int) (hv : v = .int j) : i = j := by
  subst hv; cases h; rfl

theorem matchL_bools {vs : List Val} {ws : List ZVal} (h : MatchL vs ws) :
    ∀ {bs cs}, allSome Val.bool? vs = some bs → ws.mapM ZVal.bool? = Except.ok (ε := PyErr) cs → bs = cs := by
  induction h with
  | nil =>
    intro bs cs h1 h2
    cases h1; cases h2; rfl
  | @cons v w vs ws hm hr ih =>
    intro bs cs h1 h2
    rw [List.mapM_cons] at h2
    cases hw : ZVal.bool? w with
    | error e => rw [hw] at h2; cases h2
    | ok b =>
      rw [hw] at h2
      cases hws : ws.mapM ZVal.bool? with
      | error e => rw [hws] at h2; cases h2
      | ok cs' =>
        rw [hws] at h2
        obtain rfl : b :: cs' = cs := by simpa [bind, Except.bind, pure, Except.pure] using h2
        simp only [allSome] at h1
        cases hv : Val.bool? v with
        | none => simp [hv] at h1
        | some b' =>
          cases hvs : allSome Val.bool? vs with
          | none => simp [hv, hvs] at h1
          | some bs' =>
            simp only [hv, hvs, Option.some.injEq] at h1
            subst h1
            rw [ih hvs hws]
            cases hm with
            | int i => cases hw
            | bool c => cases hw; cases hv; rfl
            | num c => cases hw

theorem matchL_ints {vs : List Val} {ws : List ZVal} (h : MatchL vs ws) :
    ∀ {bs cs}, allSome Val.int? vs = some bs → ws.mapM ZVal.int? = Except.ok (ε := PyErr) cs → bs = cs := by
  induction h with
  | nil =>
    intro bs cs h1 h2
    cases h1; cases h2; rfl
  | @cons v w vs ws hm hr ih =>
    intro bs cs h1 h2
    rw [List.mapM_cons] at h2
    cases hw : ZVal.int? w with
    | error e => rw [hw] at h2; cases h2
    | ok b =>
      rw [hw] at h2
      cases hws : ws.mapM ZVal.int? with
      | error e => rw [hws] at h2; cases h2
      | ok cs' =>
        rw [hws] at h2
        obtain rfl : b :: cs' = cs := by simpa [bind, Except.bind, pure, Except.pure] using h2
        simp only [allSome] at h1
        cases hv : Val.int? v with
        | none => simp [hv] at h1
        | some b' =>
          cases hvs : allSome Val.int? vs with
          | none => simp [hv, hvs] at h1
          | some bs' =>
            simp only [hv, hvs, Option.some.injEq] at h1
            subst h1
            rw [ih hvs hws]
            cases hm with
            | int i => cases hw; cases hv; rfl
            | bool c => cases hw
            | num c => cases hv

theorem num_inj {a b : Bool} : ((if a then 1 else 0 : Int) = if b then 1 else 0) ↔ a = b := by
  cases a <;> cases b <;> simp

/-- Relations. -/
theorem zRel_match {op : RelOp} {a b : Val} {x y : ZVal} (hx : Match a x) (hy : Match b y) {c d : Bool}
    (h : op.eval a b = some c) (hz : zRel op x y = .ok d) : c = d := by
  cases hx <;> cases hy <;> cases op <;> simp_all [RelOp.eval, zRel, zEqual, ZVal.cast]
  all_goals first
    | (subst h; subst hz; rfl)
    | (subst h; subst hz; rename_i p q; cases p <;> cases q <;> simp)
    | (rename_i p q; revert h hz; cases p <;> cases q <;> cases c <;> cases d <;> simp)
    | (rename_i p q; revert h hz; cases c <;> cases d <;> simp)
    | grind

mutual

theorem translate (D : Division) (ρ : Env) : ∀ (e : Expr) {v : Val} {w : ZVal}, Plain D ρ e → eval D ρ e = some v →
    zeval (model ρ) e = .ok w → Match v w
  | .tru, v, w, _, h, hz => by cases h; cases hz; exact .bool true
  | .fls, v, w, _, h, hz => by cases h; cases hz; exact .bool false
  | .undefined, v, w, _, h, hz => by cases h
  | .num x b, v, w, _, h, hz => by cases h; cases hz; exact .int x
  | .var ng im id, v, w, hp, h, hz => by
    simp only [Plain] at hp
    simp only [eval] at h
    simp only [zeval, Except.ok.injEq] at hz
    subst hz
    exact negIf_match ng hp h
  | .attr ng k pre, v, w, hp, h, hz => by
    cases pre with
    | var pn im id =>
      simp only [Plain] at hp
      cases pn with
      | true => simp [eval] at h
      | false =>
        simp only [eval] at h
        by_cases hk : k = .validChecksum
        · subst hk
          simp only [zeval, Except.ok.injEq] at hz
          subst hz
          rw [hp.1 rfl] at h
          cases ng with
          | true => simp [Val.negIf, Val.int?] at h
          | false =>
            simp only [Val.negIf, Bool.false_eq_true, if_false, Option.some.injEq] at h
            subst h; exact .bool true
        · have : zeval (model ρ) (.attr ng k (.var false im id)) =
              .ok (.int (if ng then -Val.num (ρ.attr k id.key) else Val.num (ρ.attr k id.key))) := by
            cases k <;> first | exact absurd rfl hk | rfl
          rw [this] at hz
          simp only [Except.ok.injEq] at hz
          subst hz
          exact negIf_match ng hp.2 h
    | _ => simp [Plain] at hp
  | .sel .., v, w, hp, h, hz => by simp [Plain] at hp
  | .call .., v, w, hp, h, hz => by simp [Plain] at hp
  | .not e, v, w, hp, h, hz => by
    simp only [Plain] at hp
    simp only [zeval] at hz
    cases he : eval D ρ e with
    | none => simp [eval, he] at h
    | some v' =>
      cases hz' : zeval (model ρ) e with
      | error x => rw [hz'] at hz; cases hz
      | ok w' =>
        have := translate D ρ e hp he hz'
        rw [hz'] at hz
        cases this with
        | int i => simp [eval, he] at h
        | bool b =>
          simp only [eval, he, Option.some.injEq] at h
          subst h
          cases hz
          exact .bool _
        | num b => cases hz
  | .bool op ts, v, w, hp, h, hz => by
    simp only [Plain] at hp
    simp only [zeval] at hz
    simp only [eval] at h
    cases he : evalL D ρ ts with
    | none => simp [he] at h
    | some vs =>
      cases hz' : zevalL (model ρ) ts with
      | error x => rw [hz'] at hz; cases hz
      | ok ws =>
        have hm := translateL D ρ ts hp he hz'
        rw [hz'] at hz
        simp only [he, Option.bind_some] at h
        cases hb : allSome Val.bool? vs with
        | none => simp [hb] at h
        | some bs =>
          cases hc : ws.mapM ZVal.bool? with
          | error x =>
            have hz : (ws.mapM ZVal.bool?).bind _ = _ := hz
            rw [hc] at hz; cases hz
          | ok cs =>
            have hz : (ws.mapM ZVal.bool?).bind _ = _ := hz
            rw [hc] at hz
            obtain rfl := matchL_bools hm hb hc
            simp only [hb, Option.some.injEq] at h
            subst h
            cases hz
            exact .bool _
  | .add ts, v, w, hp, h, hz => by
    simp only [Plain] at hp
    simp only [zeval] at hz
    simp only [eval] at h
    cases he : evalL D ρ ts with
    | none => simp [he] at h
    | some vs =>
      cases hz' : zevalL (model ρ) ts with
      | error x => rw [hz'] at hz; cases hz
      | ok ws =>
        have hm := translateL D ρ ts hp he hz'
        rw [hz'] at hz
        simp only [he, Option.bind_some] at h
        cases hb : allSome Val.int? vs with
        | none => simp [hb] at h
        | some bs =>
          cases hc : ws.mapM ZVal.int? with
          | error x =>
            have hz : (ws.mapM ZVal.int?).bind _ = _ := hz
            rw [hc] at hz; cases hz
          | ok cs =>
            have hz : (ws.mapM ZVal.int?).bind _ = _ := hz
            rw [hc] at hz
            obtain rfl := matchL_ints hm hb hc
            simp only [hb, Option.some.injEq] at h
            subst h
            cases bs with
            | nil => cases hz
            | cons b bs => cases hz; exact .int _
  | .mul ts, v, w, hp, h, hz => by
    simp only [Plain] at hp
    simp only [zeval] at hz
    simp only [eval] at h
    cases he : evalL D ρ ts with
    | none => simp [he] at h
    | some vs =>
      cases hz' : zevalL (model ρ) ts with
      | error x => rw [hz'] at hz; cases hz
      | ok ws =>
        have hm := translateL D ρ ts hp he hz'
        rw [hz'] at hz
        simp only [he, Option.bind_some] at h
        cases hb : allSome Val.int? vs with
        | none => simp [hb] at h
        | some bs =>
          cases hc : ws.mapM ZVal.int? with
          | error x =>
            have hz : (ws.mapM ZVal.int?).bind _ = _ := hz
            rw [hc] at hz; cases hz
          | ok cs =>
            have hz : (ws.mapM ZVal.int?).bind _ = _ := hz
            rw [hc] at hz
            obtain rfl := matchL_ints hm hb hc
            simp only [hb, Option.some.injEq] at h
            subst h
            cases bs with
            | nil => cases hz
            | cons b bs => cases hz; exact .int _
  | .bin op l r, v, w, hp, h, hz => by
    simp only [Plain] at hp
    obtain ⟨p1, p2, p3⟩ := hp
    simp only [zeval] at hz
    cases h1 : eval D ρ l with
    | none => simp [eval, h1] at h
    | some a =>
      cases h2 : eval D ρ r with
      | none => simp [eval, h1, h2] at h
      | some b =>
        cases z1 : zeval (model ρ) l with
        | error x => rw [z1] at hz; cases hz
        | ok x =>
          cases z2 : zeval (model ρ) r with
          | error x' => rw [z1, z2] at hz; cases hz
          | ok y =>
            have m1 := translate D ρ l p1 h1 z1
            have m2 := translate D ρ r p2 h2 z2
            rw [z1, z2] at hz
            cases m1 with
            | bool c => cases hz
            | num c => simp [eval, h1, h2] at h
            | int i =>
              cases m2 with
              | bool c => cases hz
              | num c => simp [eval, h1, h2] at h
              | int j =>
                obtain ⟨q1, q2⟩ := p3 i j h1 h2
                have hz : Except.ok (ZVal.int (zArith (model ρ) op i j)) = Except.ok w := hz
                simp only [Except.ok.injEq] at hz
                subst hz
                simp only [eval, h1, h2] at h
                cases op with
                | sub =>
                  simp only [ArithOp.eval, Option.map_some, Option.some.injEq] at h
                  subst h; exact .int _
                | div =>
                  simp only [ArithOp.eval] at h
                  split at h
                  · cases h
                  · rename_i hj
                    simp only [Option.map_some, Option.some.injEq] at h
                    subst h
                    simp only [zArith, if_neg hj, q1 rfl]
                    exact .int _
                | mod =>
                  simp only [ArithOp.eval] at h
                  split at h
                  · cases h
                  · rename_i hj
                    simp only [Option.map_some, Option.some.injEq] at h
                    subst h
                    simp only [zArith, if_neg hj]
                    rw [Int.fmod_eq_emod_of_nonneg _ (q2 rfl)]
                    exact .int _
                | pow =>
                  simp only [ArithOp.eval] at h
                  split at h
                  · cases h
                  · rename_i hj
                    simp only [Option.map_some, Option.some.injEq] at h
                    subst h
                    simp only [zArith, model]
                    split <;> exact .int _
  | .rel op l r, v, w, hp, h, hz => by
    simp only [Plain] at hp
    obtain ⟨p1, p2⟩ := hp
    simp only [zeval] at hz
    cases h1 : eval D ρ l with
    | none => simp [eval, h1] at h
    | some a =>
      cases h2 : eval D ρ r with
      | none => simp [eval, h1, h2] at h
      | some b =>
        cases z1 : zeval (model ρ) l with
        | error x => rw [z1] at hz; cases hz
        | ok x =>
          cases z2 : zeval (model ρ) r with
          | error x' => rw [z1, z2] at hz; cases hz
          | ok y =>
            have m1 := translate D ρ l p1 h1 z1
            have m2 := translate D ρ r p2 h2 z2
            rw [z1, z2] at hz
            have hz : (zRel op x y).bind (fun b => Except.ok (ZVal.bool b)) = _ := hz
            simp only [eval, h1, h2] at h
            cases hr : op.eval a b with
            | none => simp [hr] at h
            | some c =>
              cases hzr : zRel op x y with
              | error x' => rw [hzr] at hz; cases hz
              | ok d =>
                obtain rfl := zRel_match m1 m2 hr hzr
                rw [hzr] at hz
                simp only [hr, Option.map_some, Option.some.injEq] at h
                subst h
                cases hz
                exact .bool _
  | .agg _, v, w, hp, h, hz => by simp [Plain] at hp
  | .quant .., v, w, hp, h, hz => by simp [Plain] at hp

theorem translateL (D : Division) (ρ : Env) : ∀ (es : List Expr) {vs : List Val} {ws : List ZVal}, PlainL D ρ es →
    evalL D ρ es = some vs → zevalL (model ρ) es = .ok ws → MatchL vs ws
  | [], vs, ws, _, h, hz => by cases h; cases hz; exact .nil
  | e :: es, vs, ws, hp, h, hz => by
    simp only [PlainL] at hp
    simp only [evalL] at h
    simp only [zevalL] at hz
    cases h1 : eval D ρ e with
    | none => simp [h1] at h
    | some v =>
      cases h2 : evalL D ρ es with
      | none => simp [h1, h2] at h
      | some vs' =>
        cases z1 : zeval (model ρ) e with
        | error x => rw [z1] at hz; cases hz
        | ok w =>
          cases z2 : zevalL (model ρ) es with
          | error x => rw [z1, z2] at hz; cases hz
          | ok ws' =>
            rw [z1, z2] at hz
            simp only [h1, h2, Option.some.injEq] at h
            subst h
            cases hz
            exact .cons (translate D ρ e hp.1 h1 z1) (translateL D ρ es hp.2 h2 z2)

end

/-- A true expression is true for the solver if it can be translated. -/
theorem holds_of_eval {D : Division} {ρ : Env} {e : Expr} (hp : Plain D ρ e) (h : eval D ρ e = some (.bool true))
    (ht : ∃ b, zeval (model ρ) e = .ok (.bool b)) : zeval (model ρ) e = .ok (.bool true) := by
  obtain ⟨b, hb⟩ := ht
  cases translate D ρ e hp h hb
  exact hb

end Verif.Verify
