import Verif.Ada.FromSpec
import Verif.Ada.Props
import Verif.Gen.Props

/-! # C51: the Ada text of an expression of a specification has the value of the expression -/

namespace Verif.Ada
open Verif

/-! ## Names -/

theorem Shows.bind {W : World} {ρ : Env} {N : Names} {B : List PyStr} (h : Shows W ρ N B) {x : PyStr} (h1 : x.lower ≠ "true".toList)
    (h2 : x.lower ≠ "false".toList) (v : Int) : Shows (W.bind x.lower (.int v)) (ρ.set [x.lower] (.int v)) N
      (x.lower :: B) := by
  have key : ∀ {α : Type} (i : ID) (f : W.Ent → Option α), (∀ y ∈ first? i, y ∉ x.lower :: B) →
      (path (W.bind x.lower (.int v)) i.parts).bind f = (path W i.parts).bind f := by
    intro α i f hi
    cases hp : i.parts with
    | nil => rfl
    | cons p ps =>
      have : p.lower ≠ x.lower := fun hpx => hi p.lower (by simp [first?, hp]) (by simp [hpx])
      simp only [path, selPath, World.bind, if_neg this]
  have sub : ∀ {i : ID}, (∀ y ∈ first? i, y ∉ x.lower :: B) → ∀ y ∈ first? i, y ∉ B :=
    fun hi y hy hB => hi y hy (List.mem_cons_of_mem _ hB)
  refine ⟨⟨?_, ?_⟩, h.lit, ?_, ?_, ?_, ?_, ?_⟩
  · simp only [World.bind, if_neg (Ne.symm h1)]; exact h.std.tru
  · simp only [World.bind, if_neg (Ne.symm h2)]; exact h.std.fls
  · intro y hyB
    by_cases hy : y.lower = x.lower
    · simp only [World.bind, hy, if_pos, Env.set]; exact h.lit _
    · simp only [World.bind, if_neg hy, Env.set, List.cons.injEq, and_true]; exact h.bound y ((List.mem_cons.1 hyB).resolve_left hy)
  · intro i hN hp hi
    refine (key i W.val hi).trans ?_
    rw [h.var i hN hp (sub hi)]
    cases hq : i.parts with
    | nil => exact (hp hq).elim
    | cons p ps =>
      have : p.lower ≠ x.lower := fun hpx => hi p.lower (by simp [first?, hq]) (by simp [hpx])
      simp [Env.set, ID.key, hq, this]
  · intro i k a hN ha hp hi
    exact (key i _ hi).trans (h.attr i k a hN ha hp (sub hi))
  · intro i s hN hp hi
    exact (key i _ hi).trans (h.sel i s hN hp (sub hi))
  · intro i vs hN hp hv hi
    exact (key i _ hi).trans (h.call i vs hN hp hv (sub hi))

theorem signed_some (neg : Bool) (w : Val) : signed neg (some w) = w.negIf neg := by
  cases neg <;> cases w <;> rfl

/-! ## Operators with several operands -/

open AExpr

theorem values_cons {W : World} {a : AExpr} {as : List AExpr} {vs : List Val} (h : values W (a :: as) = some vs) :
    ∃ w ws, vs = w :: ws ∧ a.value W = some w ∧ values W as = some ws := by
  rw [values] at h
  split at h
  · next w ws h1 h2 => exact ⟨w, ws, (Option.some.inj h).symm, h1, h2⟩
  · simp at h

theorem allSome_cons {α β : Type} {f : α → Option β} {a : α} {as : List α} {bs : List β} (h : allSome f (a :: as) = some bs) :
    ∃ c cs, bs = c :: cs ∧ f a = some c ∧ allSome f as = some cs := by
  rw [allSome] at h
  split at h
  · next w ws h1 h2 => exact ⟨w, ws, (Option.some.inj h).symm, h1, h2⟩
  · simp at h

theorem bool?_some {w : Val} {b : Bool} (h : w.bool? = some b) : w = .bool b := by
  cases w <;> simp [Val.bool?] at h; rw [h]

theorem int?_some {w : Val} {b : Int} (h : w.int? = some b) : w = .int b := by
  cases w <;> simp [Val.int?] at h; rw [h]

theorem boolVal_bools (op : BoolOp) (b c : Bool) :
    boolVal op (some (.bool b)) (some (.bool c)) = some (.bool (if op.isAnd then b && c else b || c)) := by
  cases op <;> cases b <;> cases c <;> rfl

theorem boolVals_of {W : World} (op : BoolOp) : ∀ {ts : List AExpr} {vs : List Val} {bs : List Bool} {b : Bool},
    values W ts = some vs → allSome Val.bool? vs = some bs →
    boolVals W op (some (.bool b)) ts = some (.bool (if op.isAnd then (b :: bs).all id else (b :: bs).any id)) := by
  intro ts
  induction ts with
  | nil =>
    intro vs bs b h1 h2
    rw [values] at h1
    cases h1
    cases h2
    rw [boolVals]
    split <;> simp
  | cons t ts ih =>
    intro vs bs b h1 h2
    obtain ⟨w, ws, rfl, hw, hws⟩ := values_cons h1
    obtain ⟨c, cs, rfl, hc, hcs⟩ := allSome_cons h2
    rw [boolVals, hw, bool?_some hc, boolVal_bools, ih hws hcs]
    split <;> simp [Bool.and_assoc, Bool.or_assoc]

theorem sumVals_of {W : World} : ∀ {ts : List AExpr} {vs : List Val} {bs : List Int} {b : Int},
    values W ts = some vs → allSome Val.int? vs = some bs → mathVals W .add (some (.int b)) ts = some (.int (b + intSum bs)) := by
  intro ts
  induction ts with
  | nil =>
    intro vs bs b h1 h2
    rw [values] at h1
    cases h1
    cases h2
    rw [mathVals]
    simp [intSum]
  | cons t ts ih =>
    intro vs bs b h1 h2
    obtain ⟨w, ws, rfl, hw, hws⟩ := values_cons h1
    obtain ⟨c, cs, rfl, hc, hcs⟩ := allSome_cons h2
    rw [mathVals, hw, int?_some hc]
    simp only [mathVal, MathOp.eval, Option.map_some, intSum]
    rw [ih hws hcs, Int.add_assoc]

theorem prodVals_of {W : World} : ∀ {ts : List AExpr} {vs : List Val} {bs : List Int} {b : Int},
    values W ts = some vs → allSome Val.int? vs = some bs → mathVals W .mul (some (.int b)) ts = some (.int (b * intProd bs)) := by
  intro ts
  induction ts with
  | nil =>
    intro vs bs b h1 h2
    rw [values] at h1
    cases h1
    cases h2
    rw [mathVals]
    simp [intProd]
  | cons t ts ih =>
    intro vs bs b h1 h2
    obtain ⟨w, ws, rfl, hw, hws⟩ := values_cons h1
    obtain ⟨c, cs, rfl, hc, hcs⟩ := allSome_cons h2
    rw [mathVals, hw, int?_some hc]
    simp only [mathVal, MathOp.eval, Option.map_some, intProd]
    rw [ih hws hcs, Int.mul_assoc]

theorem mathVal_arith (op : ArithOp) (a b : Int) : mathVal (mathOp op) (some (.int a)) (some (.int b)) = (op.eval .ada a b).map .int := by
  cases op <;> rfl

/-! ## Translation -/

theorem Dotted.parts {i : ID} (h : Dotted i) : ∀ p ∈ i.parts, Part p := by
  obtain ⟨h1, h2, h3⟩ := h
  intro p hp
  cases hi : i.parts with
  | nil => exact absurd hi h1
  | cons x xs =>
    rw [hi] at hp h2 h3
    rcases List.mem_cons.1 hp with rfl | hp
    · exact .inl (h2 _ rfl)
    · exact h3 p hp

/-- No relation and no logical operation. -/
def noCmp : Expr → Prop
  | .bool _ _ => False
  | .rel _ _ _ => False
  | _ => True

/-- What is shown of the translation of an expression. -/
structure Trans (N : Names) (B : List PyStr) (e : Expr) (a : AExpr) : Prop where
  wf : a.WF
  name : plainName e = true → a.isName = true
  prec : noCmp e → 3 ≤ a.prec
  value : ∀ {W ρ}, Shows W ρ N B → ∀ {v}, eval .ada ρ e = some v → a.value W = some v

/-- What is shown of the translation of a list. -/
structure TransL (N : Names) (B : List PyStr) (es : List Expr) (as : List AExpr) : Prop where
  wf : WFL as
  len : as.length = es.length
  head : sumHead es → headOK as
  value : ∀ {W ρ}, Shows W ρ N B → ∀ {vs}, evalL .ada ρ es = some vs → values W as = some vs

theorem sumHead_noCmp {e : Expr} {es : List Expr} (h : sumHead (e :: es)) : noCmp e := by
  cases e <;> first | trivial | exact h

theorem bind_prec {α : Type} {x : Py α} {f : α → Py AExpr} {a : AExpr} (h : x.bind f = .ok a)
    (hf : ∀ y, f y = .ok a → a.hasPrec = true) : a.hasPrec = true := by
  cases x with
  | error => simp [Except.bind] at h
  | ok y => exact hf y h

theorem adaExpr_prec {e : Expr} {a : AExpr} (h : adaExpr e = .ok a) : a.hasPrec = true := by
  cases e <;> rw [adaExpr] at h
  case undefined => simp at h
  case tru | fls | num | var => cases h; rfl
  case bin | rel | quant =>
    refine bind_prec h fun _ h => bind_prec h fun _ h => ?_
    cases h; rfl
  case attr neg k pre =>
    refine bind_prec h fun _ h => ?_
    unfold mkAttr at h
    split at h
    · cases h; rfl
    · simp at h
  case agg es =>
    refine bind_prec h fun _ h => ?_
    unfold mkAggregate at h
    split at h
    · simp at h
    · cases h; rfl
  all_goals
    refine bind_prec h fun _ h => ?_
    cases h; rfl

theorem adaExprL_prec {es : List Expr} : ∀ {as : List AExpr}, adaExprL es = .ok as → ∀ a ∈ as, a.hasPrec = true := by
  induction es with
  | nil => intro as h; rw [adaExprL] at h; cases h; simp
  | cons e es ih =>
    intro as h
    rw [adaExprL] at h
    cases he : adaExpr e with
    | error => rw [he] at h; simp [Except.bind] at h
    | ok a =>
      cases hs : adaExprL es with
      | error => rw [he, hs] at h; simp [Except.bind] at h
      | ok bs =>
        rw [he, hs] at h
        cases h
        intro x hx
        rcases List.mem_cons.1 hx with rfl | hx
        · exact adaExpr_prec he
        · exact ih hs x hx

mutual

theorem trans {N : Names} : ∀ (e : Expr) (B : List PyStr), Adaptable N B e → ∃ a, adaExpr e = .ok a ∧ Trans N B e a
  | .tru, B, _ => ⟨_, rfl, by rw [WF]; decide +kernel, fun h => by simp [plainName] at h, fun _ => by decide, fun S v hv => by
      rw [eval] at hv
      rw [AExpr.value, ← hv]
      exact S.std.tru⟩
  | .fls, B, _ => ⟨_, rfl, by rw [WF]; decide +kernel, fun h => by simp [plainName] at h, fun _ => by decide, fun S v hv => by
      rw [eval] at hv
      rw [AExpr.value, ← hv]
      exact S.std.fls⟩
  | .undefined, B, h => by rw [Adaptable] at h; exact h.elim
  | .num v b, B, _ => ⟨_, rfl, by rw [WF]; trivial, fun h => by simp [plainName] at h, fun _ => by simp [AExpr.prec], fun S v hv => by
      rw [eval] at hv
      rw [AExpr.value, ← hv]⟩
  | .var neg t i, B, h => by
    rw [Adaptable] at h
    refine ⟨_, rfl, by rw [WF]; exact h.1, fun hn => hn, fun _ => by simp [AExpr.prec], fun {W ρ} S v hv => ?_⟩
    have hp : (path W i.parts).bind W.val = some (ρ.var i.key) := by
      rcases h.2 with h1 | h1
      · obtain ⟨x, hx, hB⟩ := h1
        have := S.bound x hB
        simpa [path, selPath, ID.key, hx] using this
      · exact S.var i h1.1 h1.2.1.1 h1.2.2
    rw [eval] at hv
    rw [AExpr.value, hp, signed_some, hv]
  | .attr neg k pre, B, h => by
    cases pre with
    | var n t i =>
      rw [Adaptable] at h
      obtain ⟨rfl, hN, hi, hk⟩ := h
      obtain ⟨a, ha, hname⟩ : ∃ a, adaAttr k = some a ∧ attrName k = some a.name := by
        cases k <;> first | exact ⟨_, rfl, rfl⟩ | simp [attrName] at hk
      refine ⟨.attr neg a (.var false i), by simp [adaExpr, Except.bind, mkAttr, ha], ?_, fun hn => hn, fun _ => by simp [AExpr.prec],
        fun {W ρ} S v hv => ?_⟩
      · simp only [WF, isName]; exact ⟨hi.1, rfl⟩
      · rw [eval] at hv
        rw [AExpr.value, ent, S.attr i k a.name hN hname hi.1.1 hi.2, signed_some, hv]
    | _ => rw [Adaptable] at h <;> first | exact h.elim | simp
  | .sel neg pre s, B, h => by
    cases pre with
    | var n t i =>
      rw [Adaptable] at h
      obtain ⟨rfl, hN, hi, hs⟩ := h
      refine ⟨.sel neg (.var false i) s, by simp [adaExpr, Except.bind], ?_, fun hn => hn, fun _ => by simp [AExpr.prec],
        fun {W ρ} S v hv => ?_⟩
      · simp only [WF, isName]; exact ⟨hi.1, rfl, hs.1, hs.parts⟩
      · rw [eval] at hv
        rw [AExpr.value, ent, S.sel i s hN hi.1.1 hi.2, signed_some, hv]
    | _ => rw [Adaptable] at h <;> first | exact h.elim | simp
  | .call neg i args, B, h => by
    rw [Adaptable] at h
    obtain ⟨as, ha, T⟩ := transL args B h.2.1
    refine ⟨.call neg i as, by rw [adaExpr, ha]; rfl, by rw [WF]; exact ⟨h.1.1, T.wf⟩, fun hn => hn, fun _ => by simp [AExpr.prec],
      fun {W ρ} S v hv => ?_⟩
    have hl := T.len
    cases args with
    | nil =>
      cases as with
      | cons a as => simp at hl
      | nil =>
        rw [eval] at hv
        rw [AExpr.value, S.var i (h.2.2.1 rfl) h.1.1.1 h.1.2, signed_some, hv]
    | cons e es =>
      cases as with
      | nil => simp at hl
      | cons a as =>
        rw [eval] at hv
        split at hv
        · next vs hvs =>
          have hval := T.value S hvs
          have hne : vs ≠ [] := by
            obtain ⟨w, ws, rfl, _⟩ := values_cons hval
            simp
          have hcall := S.call i vs (h.2.2.2 (by simp)) h.1.1.1 hne h.1.2
          rw [AExpr.value, hval]
          have : appEnt W (path W i.parts) (some vs) = (path W i.parts).map fun n => W.app n vs := by
            cases path W i.parts <;> rfl
          rw [this, Option.bind_map]
          rw [show ((path W i.parts).bind (W.val ∘ fun n => W.app n vs)) = some (ρ.call i.key vs) from hcall, signed_some, hv]
        · simp at hv
  | .not e, B, h => by
    rw [Adaptable] at h
    obtain ⟨a, ha, T⟩ := trans e B h
    refine ⟨.not a, by rw [adaExpr, ha]; rfl, by rw [WF]; exact ⟨T.wf, adaExpr_prec ha⟩, fun hn => by simp [plainName] at hn, fun _ => by simp [AExpr.prec],
      fun {W ρ} S v hv => ?_⟩
    rw [eval] at hv
    split at hv
    · next b hb => rw [AExpr.value, T.value S hb, ← hv]; rfl
    · simp at hv
  | .bool op ts, B, h => by
    rw [Adaptable] at h
    obtain ⟨as, ha, T⟩ := transL ts B h.1
    have hl := T.len
    refine ⟨.bool op as, by rw [adaExpr, ha]; rfl, ?_, fun hn => by simp [plainName] at hn, fun hn => hn.elim, fun {W ρ} S v hv => ?_⟩
    · rw [WF]
      refine ⟨T.wf, fun hn => h.2 ?_, adaExprL_prec ha⟩
      rw [hn] at hl
      exact List.eq_nil_of_length_eq_zero hl.symm
    · rw [eval] at hv
      split at hv
      · next bs hbs =>
        obtain ⟨vs, hvs, hbs⟩ := Option.bind_eq_some_iff.1 hbs
        have hval := T.value S hvs
        rw [← hv]
        cases as with
        | nil =>
          rw [values] at hval
          cases hval
          cases hbs
          rw [AExpr.value]
          cases op.isAnd <;> rfl
        | cons a as =>
          obtain ⟨w, ws, rfl, hw, hws⟩ := values_cons hval
          obtain ⟨c, cs, rfl, hc, hcs⟩ := allSome_cons hbs
          rw [AExpr.value, hw, bool?_some hc, boolVals_of op hws hcs]
      · simp at hv
  | .add ts, B, h => by
    rw [Adaptable] at h
    obtain ⟨as, ha, T⟩ := transL ts B h.1
    refine ⟨.add as, by rw [adaExpr, ha]; rfl, by rw [WF]; exact ⟨T.wf, T.head h.2, adaExprL_prec ha⟩, fun hn => by simp [plainName] at hn,
      fun _ => by simp [AExpr.prec], fun {W ρ} S v hv => ?_⟩
    rw [eval] at hv
    split at hv
    · next bs hbs =>
      obtain ⟨vs, hvs, hbs⟩ := Option.bind_eq_some_iff.1 hbs
      have hval := T.value S hvs
      rw [← hv]
      cases as with
      | nil =>
        rw [values] at hval
        cases hval
        cases hbs
        rw [AExpr.value]; rfl
      | cons a as =>
        obtain ⟨w, ws, rfl, hw, hws⟩ := values_cons hval
        obtain ⟨c, cs, rfl, hc, hcs⟩ := allSome_cons hbs
        rw [AExpr.value, hw, int?_some hc, sumVals_of hws hcs, intSum]
    · simp at hv
  | .mul ts, B, h => by
    rw [Adaptable] at h
    obtain ⟨as, ha, T⟩ := transL ts B h.1
    have hl := T.len
    refine ⟨.mul as, by rw [adaExpr, ha]; rfl, ?_, fun hn => by simp [plainName] at hn,
      fun _ => by simp [AExpr.prec], fun {W ρ} S v hv => ?_⟩
    · rw [WF]
      refine ⟨T.wf, fun hn => h.2 ?_, adaExprL_prec ha⟩
      rw [hn] at hl
      exact List.eq_nil_of_length_eq_zero hl.symm
    rw [eval] at hv
    split at hv
    · next bs hbs =>
      obtain ⟨vs, hvs, hbs⟩ := Option.bind_eq_some_iff.1 hbs
      have hval := T.value S hvs
      rw [← hv]
      cases as with
      | nil =>
        rw [values] at hval
        cases hval
        cases hbs
        rw [AExpr.value]; rfl
      | cons a as =>
        obtain ⟨w, ws, rfl, hw, hws⟩ := values_cons hval
        obtain ⟨c, cs, rfl, hc, hcs⟩ := allSome_cons hbs
        rw [AExpr.value, hw, int?_some hc, prodVals_of hws hcs, intProd]
    · simp at hv
  | .bin op l r, B, h => by
    rw [Adaptable] at h
    obtain ⟨a, ha, T⟩ := trans l B h.1
    obtain ⟨b, hb, T'⟩ := trans r B h.2
    refine ⟨.bin op a b, by rw [adaExpr, ha, hb]; rfl, by rw [WF]; exact ⟨T.wf, T'.wf, adaExpr_prec ha, adaExpr_prec hb⟩, fun hn => by simp [plainName] at hn,
      fun _ => by cases op <;> simp [AExpr.prec, arithPrec], fun {W ρ} S v hv => ?_⟩
    rw [eval] at hv
    split at hv
    · next x y hx hy => rw [AExpr.value, T.value S hx, T'.value S hy, mathVal_arith, hv]
    · simp at hv
  | .rel op l r, B, h => by
    rw [Adaptable] at h
    obtain ⟨a, ha, T⟩ := trans l B h.1
    obtain ⟨b, hb, T'⟩ := trans r B h.2.1
    refine ⟨.rel op a b, by rw [adaExpr, ha, hb]; rfl, by rw [WF]; exact ⟨T.wf, T'.wf, fun ho => T'.name (h.2.2 ho), adaExpr_prec ha, adaExpr_prec hb⟩,
      fun hn => by simp [plainName] at hn, fun hn => hn.elim, fun {W ρ} S v hv => ?_⟩
    rw [eval] at hv
    split at hv
    · next x y hx hy => rw [AExpr.value, T.value S hx, T'.value S hy, relVal, Bool.true_or, if_pos rfl, hv]
    · simp at hv
  | .agg es, B, h => by
    rw [Adaptable] at h
    obtain ⟨as, ha, T⟩ := transL es B h.1
    have hl := T.len
    have h2 := h.2
    have hne : as.isEmpty = false := by
      cases as with
      | nil => simp at hl; omega
      | cons _ _ => rfl
    refine ⟨.agg as, by rw [adaExpr, ha]; simp [Except.bind, mkAggregate, hne], by rw [WF]; exact ⟨T.wf, by omega⟩,
      fun hn => by simp [plainName] at hn, fun _ => by simp [AExpr.prec], fun {W ρ} S v hv => ?_⟩
    rw [eval] at hv
    split at hv
    · next bs hbs =>
      obtain ⟨vs, hvs, hbs⟩ := Option.bind_eq_some_iff.1 hbs
      rw [AExpr.value, T.value S hvs, ← hv]
      simp [aggVal, hbs]
    · simp at hv
  | .quant k p it pr, B, h => by
    rw [Adaptable] at h
    obtain ⟨x, hp, hx, h1, h2, hn, hi, hq⟩ := h
    obtain ⟨a, ha, T⟩ := trans it B hi
    obtain ⟨b, hb, T'⟩ := trans pr (x.lower :: B) hq
    refine ⟨.quant k p a b, by rw [adaExpr, ha, hb]; rfl, by rw [WF]; exact ⟨T.wf, T.name hn, T'.wf, x, hp, hx, h1, h2⟩,
      fun hn => by simp [plainName] at hn, fun _ => by simp [AExpr.prec], fun {W ρ} S v hv => ?_⟩
    rw [eval] at hv
    split at hv
    · next xs hxs =>
      split at hv
      · next bs hbs =>
        have hkey : p.key = [x.lower] := by simp [ID.key, hp]
        have : ∀ (xs : List Int) (bs : List Bool),
            allSome (fun y => (eval .ada (ρ.set p.key (.int y)) pr).bind Val.bool?) xs = some bs →
            allSome (fun y => (b.value (W.bind (joinDot p.parts).lower (.int y))).bind Val.bool?) xs = some bs := by
          intro xs
          induction xs with
          | nil => intro bs h; exact h
          | cons y ys ih =>
            intro bs h
            obtain ⟨c, cs, rfl, hc, hcs⟩ := allSome_cons h
            obtain ⟨w, hw, hc⟩ := Option.bind_eq_some_iff.1 hc
            rw [hkey] at hw
            have hv := T'.value (S.bind h1 h2 y) hw
            have hjd : joinDot p.parts = x := by rw [hp]; rfl
            rw [allSome, ih cs hcs, hjd, hv, Option.bind_some, hc]
        rw [AExpr.value, T.value S hxs, quantVal]
        simp only [this xs bs hbs, Option.map_some]
        exact hv
      · simp at hv
    · simp at hv

theorem transL {N : Names} : ∀ (es : List Expr) (B : List PyStr), AdaptableL N B es → ∃ as, adaExprL es = .ok as ∧ TransL N B es as
  | [], B, _ => ⟨[], rfl, by rw [WFL]; trivial, rfl, fun h => h.elim, fun S vs hvs => by rw [evalL] at hvs; rw [values, ← hvs]⟩
  | e :: es, B, h => by
    rw [AdaptableL] at h
    obtain ⟨a, ha, T⟩ := trans e B h.1
    obtain ⟨as, has, T'⟩ := transL es B h.2
    refine ⟨a :: as, by rw [adaExprL, ha, has]; rfl, by rw [WFL]; exact ⟨T.wf, T'.wf⟩, by simp [T'.len],
      fun hs => T.prec (sumHead_noCmp hs), fun {W ρ} S vs hvs => ?_⟩
    rw [evalL] at hvs
    split at hvs
    · next w ws h1 h2 => rw [values, T.value S h1, T'.value S h2]; exact hvs
    · simp at hvs

end

/-! ## The property -/

/-- **C51.** An expression of a specification can be translated to an Ada expression and printed; the text is an expression of Ada, it can be read
in one way only, and it has the value of the expression of the specification if the names have the values they have there. -/
theorem C51_text_partial {N : Names} {e : Expr} (h : Adaptable N [] e) :
    ∃ a s t, adaExpr e = .ok a ∧ a.str = .ok s ∧ Reads .expression (elements s) t ∧ (∀ u, Reads .expression (elements s) u → u = t) ∧
      ∀ W ρ, Shows W ρ N [] → ∀ v, eval .ada ρ e = some v → t.value W = some v := by
  obtain ⟨a, ha, T⟩ := trans e [] h
  obtain ⟨s, t, h1, h2, h3, h4⟩ := C50_text_partial T.wf
  exact ⟨a, s, t, ha, h1, h2, h3, fun W ρ S v hv => by rw [h4 W S.std, T.value S hv]⟩

/-- **C51.** The text that the generator writes for an expression of a message (a condition, a position or a size): it is read as an expression of
Ada with the value that the expression has for the message. The expression is turned into an expression over the generated code
(`C43_condition_partial`), translated to Ada and printed. Missing: that the expression over the generated code is `Adaptable` (it is not always,
see `C51_difference_counterexample`), and the expressions for which `Direct` is false. -/
theorem C51_generated_partial {N : Names} {V : Gen.View} {m : Gen.GMsg} {o : Gen.Opts} {S : Graph.Field → Prop} {σ : Env} {e : Expr}
    (hN : Gen.Names m o) (ht : Gen.Target o) (R : Gen.Represents m o V S σ) (hc : Gen.Cond m o S e) (hw : e.WF)
    (hg : e.Good Division.ada.Odd false) (hA : ∀ r, o.generate m e = .ok r → Adaptable N [] r ∧ Direct r) {v : Val} (hv : eval .ada σ e = some v) :
    ∃ r a s t, o.generate m e = .ok r ∧ adaExpr r = .ok a ∧ a.str = .ok s ∧ Reads .expression (elements s) t ∧
      (∀ u, Reads .expression (elements s) u → u = t) ∧ ∀ W, Shows W (V.env o.embedded) N [] → t.value W = some v := by
  obtain ⟨r, hr, hrv⟩ := Gen.C43_condition_partial hN ht R hc hw hg v hv
  obtain ⟨a, s, t, ha, hs, h1, h2, h3⟩ := C51_text_partial (hA r hr).1
  exact ⟨r, a, s, t, hr, ha, hs, h1, h2, fun W hW => h3 W _ hW v hrv⟩

end Verif.Ada
