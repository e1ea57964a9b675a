import Verif.Ctx.Condition

/-! # The value of the condition of `Field_Condition` -/

namespace Verif.Ctx
open Verif Verif.Graph Verif.Verify Verif.Types Verif.Gen Verif.Spark Verif.Merge

theorem mapped_same {D : Division} {ρ σ : Env} {e : Expr} (hq : ¬ e.HQ) (hv : ∀ v, eval D σ e = some v → eval D ρ e = some v) :
    Mapped D ρ σ e e := ⟨fun _ h => h, fun h => h, fun h => h, fun _ h => h, hq, hv⟩

theorem mapped_mapL {D : Division} {ρ σ : Env} {h : Expr → Expr} {ts : List Expr} (hm : ∀ t ∈ ts, Mapped D ρ σ t (mapLeaf h t)) :
    (∀ s, Expr.GoodL D.Odd s ts → Expr.GoodL D.Odd s (mapLeafL h ts)) ∧ (Expr.WFL ts → Expr.WFL (mapLeafL h ts)) ∧
    (Expr.ConstL ts → Expr.ConstL (mapLeafL h ts)) ∧ (Expr.headOK ts → Expr.headOK (mapLeafL h ts)) ∧ ¬ Expr.HQL (mapLeafL h ts) ∧
    (mapLeafL h ts = [] → ts = []) ∧ ∀ vs, evalL D σ ts = some vs → evalL D ρ (mapLeafL h ts) = some vs := by
  obtain ⟨rs, hrs, H⟩ := mapped_list (g := fun t => .ok (mapLeaf h t)) (D := D) (ρ := ρ) (σ := σ) (ts := ts) fun t ht => ⟨_, rfl, hm t ht⟩
  have : rs = mapLeafL h ts := by
    rw [mapM_ok (h := mapLeaf h) (fun _ _ => rfl)] at hrs
    cases hrs
    rw [mapLeafL_eq]
  rw [this] at H
  exact H

/-- Replacement of leaves by expressions with the same value. -/
theorem mapped_mapLeaf {D : Division} {ρ σ : Env} {h : Expr → Expr} {L : Expr → Prop} {N : RelOp → Expr → Expr → Prop}
    (hr : ∀ op l r, ¬ L (.rel op l r)) (hl : ∀ e, L e → Mapped D ρ σ e (h e)) (e : Expr) : Cov L N e → Mapped D ρ σ e (mapLeaf h e) := by
  induction e using Expr.ind with
  | tru => intro _; exact mapped_same (by simp [Expr.HQ]) fun _ h => h
  | fls => intro _; exact mapped_same (by simp [Expr.HQ]) fun _ h => h
  | num v b => intro _; exact mapped_same (by simp [Expr.HQ]) fun _ h => h
  | bool op ts ih =>
    intro hc
    simp only [Cov, covL_iff] at hc
    obtain ⟨h1, h2, h3, h4, h5, h6, h7⟩ := mapped_mapL (ts := ts) fun t ht => ih t ht (hc t ht)
    simp only [mapLeaf]
    refine ⟨fun s hs => ⟨hs.1, h1 _ hs.2⟩, ?_, fun hc => by simp [Expr.Const] at hc, fun _ hh => by simp [Expr.headOK] at hh,
      by simpa [Expr.HQ] using h5, ?_⟩
    · intro hw; simp only [Expr.WF] at hw ⊢; exact ⟨h2 hw.1, fun he => hw.2 (h6 he)⟩
    · intro v hv
      simp only [eval] at hv ⊢
      cases hvs : evalL D σ ts with
      | none => rw [hvs] at hv; cases hv
      | some vs => rw [hvs] at hv; rw [h7 vs hvs]; exact hv
  | add ts ih =>
    intro hc
    simp only [Cov, covL_iff] at hc
    obtain ⟨h1, h2, h3, h4, h5, h6, h7⟩ := mapped_mapL (ts := ts) fun t ht => ih t ht (hc t ht)
    simp only [mapLeaf]
    refine ⟨fun s hs => h1 _ hs, ?_, fun hc => h3 hc, fun _ _ => by simp [Expr.headOK], by simpa [Expr.HQ] using h5, ?_⟩
    · intro hw; simp only [Expr.WF] at hw ⊢; exact ⟨h2 hw.1, h4 hw.2⟩
    · intro v hv
      simp only [eval] at hv ⊢
      cases hvs : evalL D σ ts with
      | none => rw [hvs] at hv; cases hv
      | some vs => rw [hvs] at hv; rw [h7 vs hvs]; exact hv
  | mul ts ih =>
    intro hc
    simp only [Cov, covL_iff] at hc
    obtain ⟨h1, h2, h3, h4, h5, h6, h7⟩ := mapped_mapL (ts := ts) fun t ht => ih t ht (hc t ht)
    simp only [mapLeaf]
    refine ⟨fun s hs => h1 _ hs, ?_, fun hc => h3 hc, fun _ _ => by simp [Expr.headOK], by simpa [Expr.HQ] using h5, ?_⟩
    · intro hw; simp only [Expr.WF] at hw ⊢; exact h2 hw
    · intro v hv
      simp only [eval] at hv ⊢
      cases hvs : evalL D σ ts with
      | none => rw [hvs] at hv; cases hv
      | some vs => rw [hvs] at hv; rw [h7 vs hvs]; exact hv
  | bin op l r ihl ihr =>
    intro hc
    simp only [Cov] at hc
    have L := ihl hc.1
    have R := ihr hc.2
    simp only [mapLeaf]
    refine ⟨?_, fun hw => ⟨L.wf hw.1, R.wf hw.2⟩, fun hc => ⟨hc.1, L.const hc.2.1, R.const hc.2.2⟩, fun _ _ => by simp [Expr.headOK], ?_, ?_⟩
    · intro s hs
      cases op <;> simp only [Expr.Good] at hs ⊢
      · exact ⟨L.good _ hs.1, R.good _ hs.2⟩
      · exact ⟨hs.1, L.good _ hs.2.1, R.good _ hs.2.2⟩
      · exact ⟨fun h => ⟨L.const (hs.1 h).1, R.const (hs.1 h).2⟩, L.good _ hs.2.1, R.good _ hs.2.2⟩
      · exact ⟨fun h => ⟨L.const (hs.1 h).1, R.const (hs.1 h).2⟩, L.good _ hs.2.1, R.good _ hs.2.2⟩
    · rintro (h | h)
      · exact L.quant h
      · exact R.quant h
    · intro v hv
      simp only [eval] at hv ⊢
      split at hv
      · rename_i a b e1 e2
        rw [L.value _ e1, R.value _ e2]
        exact hv
      · cases hv
  | rel op l r ihl ihr =>
    intro hc
    simp only [Cov] at hc
    rcases hc with hc | ⟨_, hcl, hcr⟩
    · exact (hr _ _ _ hc).elim
    have L := ihl hcl
    have R := ihr hcr
    simp only [mapLeaf]
    refine ⟨fun s hs => ⟨hs.1, L.good _ hs.2.1, R.good _ hs.2.2⟩, fun hw => ⟨L.wf hw.1, R.wf hw.2⟩, fun hc => by simp [Expr.Const] at hc,
      fun _ hh => by simp [Expr.headOK] at hh, ?_, ?_⟩
    · rintro (h | h)
      · exact L.quant h
      · exact R.quant h
    · intro v hv
      simp only [eval] at hv ⊢
      split at hv
      · rename_i a b e1 e2
        rw [L.value _ e1, R.value _ e2]
        exact hv
      · cases hv
  | undefined => intro h; exact hl _ h
  | var => intro h; exact hl _ h
  | attr => intro h; exact hl _ h
  | sel => intro h; exact hl _ h
  | call => intro h; exact hl _ h
  | not => intro h; exact hl _ h
  | agg => intro h; exact hl _ h
  | quant => intro h; exact hl _ h

section
variable {P : Pkg} {c : Context} {own : Own} {f : Field} {S : Field → Prop} {σ : Env}

/-- The names in the condition of `Field_Condition` mean what the context says; the value, the size and the last bit of the
own field are given. -/
structure OwnEnv (P : Pkg) (c : Context) (own : Own) (S : Field → Prop) (f : Field) (σ : Env) : Prop where
  var : ∀ g t, S g → (g, t) ∈ P.m.msg.types → (Scalar t → g ≠ f) → σ.var g.parts = (P.env c (some own)).var g.parts
  lit : ∀ id, LitName P.m id → σ.var id.key = (P.env c (some own)).var id.key
  value : ∀ t, (f, t) ∈ P.m.msg.types → Scalar t → σ.var f.parts = .int own.value
  message : ∀ a, σ.attr a MESSAGE.key = (P.env c (some own)).attr a MESSAGE.key
  attr : ∀ a g, S g → g ≠ f → σ.attr a g.parts = (P.env c (some own)).attr a g.parts
  size : σ.attr .size f.parts = .int own.size
  last : σ.attr .last f.parts = .int own.last

theorem u64_call (V : View) (v : Val) : V.call U64.key [v] = v := by
  simp [View.call, U64, BYTE_INDEX, ID.key, PyStr.lower]

theorem mapped_call {D : Division} {x a : Expr} {ng : Bool} {i : Int} (hw : a.WF) (hq : ¬ a.HQ) (ha : eval D (P.env c (some own)) a = some (.int i))
    (hc : ¬ x.Const) (hx : ∀ v, eval D σ x = some v → Val.negIf ng (.int i) = some v) :
    Mapped D (P.env c (some own)) σ x (.call ng U64 [a]) := by
  refine ⟨fun s _ => by simp [Expr.Good], fun _ => ⟨by decide, hw, trivial⟩, fun h => (hc h).elim, fun _ _ => by simp [Expr.headOK], ?_, ?_⟩
  · rintro (h | h)
    · exact hq h
    · exact h
  · intro v hv
    rw [eval, evalL, evalL, ha]
    simp only [Pkg.env, u64_call]
    exact hx v hv

theorem env_size (W : WellFormed P) : (P.env c (some own)).var SIZE.key = .int own.size := by
  show (P.env c (some own)).var [['s', 'i', 'z', 'e']] = _
  rw [env_other W.names W.size]
  rfl

theorem env_val (W : WellFormed P) {g : Field} : (P.env c (some own)).var (valName (P.m.spell g)).key = .int own.value := by
  rw [env_other W.names]
  · simp [View.var, Pkg.view, valName, ID.key, PyStr.lower]
  · intro hmem
    have := field_key W.names hmem
    simp [valName, ID.key] at this

theorem eval_last {D : Division} (W : WellFormed P) {g : Field} (hg : g ∈ P.m.msg.fields) :
    eval D (P.env c (some own)) (.call false FIELD_LAST [ctxVar, fieldImm (P.m.spell g)]) = some (.int own.last) := by
  have h1 : eval D (P.env c (some own)) ctxVar = some (.bool true) := by
    have : (P.env c (some own)).var (ID.key ⟨[CTX]⟩) = .bool true := by
      rw [env_other W.names]
      · rfl
      · exact W.names.ctx
    simp only [ctxVar, eval, this]
    rfl
  have h2 : eval D (P.env c (some own)) (fieldImm (P.m.spell g)) = some (nameVal (PyStr.lower (P.m.spell g))) := by
    have : (P.env c (some own)).var (ID.key ⟨[affixed (P.m.spell g)]⟩) = nameVal (PyStr.lower (P.m.spell g)) := by
      rw [env_other W.names]
      · simp [View.var, ID.key, lower_affixed, unaffixed]
      · intro hmem
        have := W.affix _ hmem _ rfl
        simp [lower_affixed, unaffixed] at this
    simp only [fieldImm, eval, this]
    rfl
  rw [eval, evalL, evalL, evalL, h1, h2]
  rfl

theorem mapped_own (W : WellFormed P) (hf : f ∈ P.m.msg.fields) (E : OwnEnv P c own S f σ) {D : Division} {e : Expr}
    (h : NameLeaf P.m opts S e) (hn : NotFirst (P.m.spell f) e) :
    Mapped D (P.env c (some own)) σ e (ownBoth (P.isScalar f) (P.m.spell f) e) := by
  have hk := field_key W.names hf
  cases e with
  | var ng imm id =>
    have h1 : own1 (P.m.spell f) (.var ng imm id) = .var ng imm id := rfl
    by_cases hown : P.isScalar f = true ∧ imm = false ∧ id.key = [PyStr.lower (P.m.spell f)]
    · obtain ⟨hs, rfl, hkey⟩ := hown
      simp only [ownBoth, hs, if_true, h1, own2, hkey]
      obtain ⟨t, ht⟩ : ∃ t, P.m.msg.type? f = some t := by
        cases ht : P.m.msg.type? f with
        | none => simp [Pkg.isScalar, ht] at hs
        | some t => exact ⟨t, rfl⟩
      have hsc : Scalar t := by
        simp only [Pkg.isScalar, ht] at hs
        exact (scalar_iff t).mp hs
      refine mapped_call (i := own.value) (valName_lex (W.names.field f hf).1) (by simp [Expr.HQ]) ?_ (by simp [Expr.Const]) ?_
      · simp only [eval, env_val W, Val.negIf]; rfl
      · intro v hv
        rw [← hk] at hkey
        simp only [eval, hkey, E.value t (type?_mem ht) hsc] at hv
        exact hv
    · have h2 : ownBoth (P.isScalar f) (P.m.spell f) (.var ng imm id) = .var ng imm id := by
        simp only [ownBoth, h1]
        cases hs : P.isScalar f with
        | false => rfl
        | true =>
          cases imm with
          | true => rfl
          | false => simp only [if_true, own2]; rw [if_neg fun hkey => hown ⟨hs, rfl, hkey⟩]
      rw [h2]
      refine mapped_same (by simp [Expr.HQ]) fun v hv => ?_
      have : σ.var id.key = (P.env c (some own)).var id.key := by
        rcases h with ⟨rfl, ⟨hS, t, hm, hs⟩ | hl⟩ | ⟨_, hS, t, hm, hs⟩
        · refine E.var ⟨id.key⟩ t hS hm fun _ hg => hown ⟨?_, rfl, ?_⟩
          · rw [← hg]; simp [Pkg.isScalar, type?_some W.names hm, (scalar_iff t).mpr hs]
          · rw [← hk, ← hg]
        · exact E.lit id hl
        · exact E.var ⟨id.key⟩ t hS hm fun h => (hs h).elim
      simp only [eval, this] at hv ⊢
      exact hv
  | attr ng a pre =>
    cases pre with
    | var ng' imm id =>
      obtain ⟨rfl, rfl, ha⟩ := h
      have o2 : ∀ x : Expr, (∀ ng imm id, x ≠ .var ng imm id) → own2 (P.m.spell f) x = x := by
        intro x hx
        unfold own2
        split
        · exact (hx _ _ _ rfl).elim
        · rfl
      by_cases hid : id = ⟨[P.m.spell f]⟩
      · subst hid
        have hkey : (⟨[P.m.spell f]⟩ : ID).key = f.parts := by rw [hk]; rfl
        rcases ha.1 with rfl | rfl | rfl
        · exact absurd ⟨rfl, rfl⟩ hn
        · have : ownBoth (P.isScalar f) (P.m.spell f) (.attr ng .last (.var false false ⟨[P.m.spell f]⟩)) =
              .call ng U64 [.call false FIELD_LAST [ctxVar, fieldImm (P.m.spell f)]] := by
            simp only [ownBoth, own1, if_true, own2, ite_self]
          rw [this]
          refine mapped_call (i := own.last) ⟨by decide, ctxVar_wf, affixed_lex (W.names.field _ hf).1, trivial⟩
            (by simp [Expr.HQ, Expr.HQL, ctxVar, fieldImm]) (eval_last W hf) (by simp [Expr.Const]) ?_
          intro v hv
          simp only [eval, hkey, E.last] at hv
          exact hv
        · have : ownBoth (P.isScalar f) (P.m.spell f) (.attr ng .size (.var false false ⟨[P.m.spell f]⟩)) = .call ng U64 [.v SIZE] := by
            simp only [ownBoth, own1, if_true, own2, ite_self]
          rw [this]
          refine mapped_call (i := own.size) (by simp only [Expr.WF]; decide) (by simp [Expr.HQ]) ?_ (by simp [Expr.Const]) ?_
          · simp only [eval, env_size W, Val.negIf]; rfl
          · intro v hv
            simp only [eval, hkey, E.size] at hv
            exact hv
      · have h1 : own1 (P.m.spell f) (.attr ng a (.var false false id)) = .attr ng a (.var false false id) := by
          unfold own1
          cases a <;> simp [hid]
        have h2 : ownBoth (P.isScalar f) (P.m.spell f) (.attr ng a (.var false false id)) = .attr ng a (.var false false id) := by
          simp only [ownBoth, h1, own2, ite_self]
        rw [h2]
        refine mapped_same (by simp [Expr.HQ]) fun v hv => ?_
        have : σ.attr a id.key = (P.env c (some own)).attr a id.key := by
          obtain ⟨_, rfl | ⟨g, hg, hS, rfl, _⟩⟩ := ha
          · exact E.message a
          · have := E.attr a g hS fun hgf => hid (by rw [hgf])
            rw [field_key W.names hg] at this
            exact this
        simp only [eval, this] at hv ⊢
        exact hv
    | _ => simp [NameLeaf] at h
  | agg es =>
    have : ownBoth (P.isScalar f) (P.m.spell f) (.agg es) = .agg es := by simp only [ownBoth, own1, own2, ite_self]
    rw [this]
    obtain ⟨xs, hx, _, hq, _⟩ := eval_nums es h
    refine mapped_same (by simpa [Expr.HQ] using hq) fun v hv => ?_
    rw [hx] at hv ⊢
    exact hv
  | _ => simp [NameLeaf] at h

theorem own1_shape (n : PyStr) (x : Expr) : own1 n x = x ∨ ∃ ng a, own1 n x = .call ng U64 [a] := by
  unfold own1
  split
  · split
    · exact .inr ⟨_, _, rfl⟩
    · exact .inl rfl
  · split
    · exact .inr ⟨_, _, rfl⟩
    · exact .inl rfl
  · exact .inl rfl

theorem own2_shape (n : PyStr) (x : Expr) : own2 n x = x ∨ ∃ ng a, own2 n x = .call ng U64 [a] := by
  unfold own2
  split
  · split
    · exact .inr ⟨_, _, rfl⟩
    · exact .inl rfl
  · exact .inl rfl

theorem ownBoth_shape (sc : Bool) (n : PyStr) (x : Expr) : ownBoth sc n x = x ∨ ∃ ng a, ownBoth sc n x = .call ng U64 [a] := by
  cases sc with
  | false => exact own1_shape n x
  | true =>
    simp only [ownBoth, if_true]
    rcases own1_shape n x with h | ⟨ng, a, h⟩ <;> rw [h]
    · exact own2_shape n x
    · exact .inr ⟨ng, a, rfl⟩

/-- Variables, aggregates and numbers come from themselves. -/
theorem mapLeaf_back {sc : Bool} {n : PyStr} {x y : Expr} (h : mapLeaf (ownBoth sc n) x = y)
    (hy : (∃ ng imm id, y = .var ng imm id) ∨ (∃ es, y = .agg es) ∨ ∃ v b, y = .num v b) : x = y := by
  have leaf : ownBoth sc n x = y → x = y := by
    intro h'
    rcases ownBoth_shape sc n x with e | ⟨ng, a, e⟩
    · rw [← e]; exact h'
    · rw [e] at h'
      subst h'
      rcases hy with ⟨_, _, _, h⟩ | ⟨_, h⟩ | ⟨_, _, h⟩ <;> cases h
  cases x with
  | tru => exact h
  | fls => exact h
  | num => exact h
  | undefined => exact leaf h
  | var => exact leaf h
  | attr => exact leaf h
  | sel => exact leaf h
  | call => exact leaf h
  | not => exact leaf h
  | agg => exact leaf h
  | quant => exact leaf h
  | bool => simp only [mapLeaf] at h; subst h; rcases hy with ⟨_, _, _, h⟩ | ⟨_, h⟩ | ⟨_, _, h⟩ <;> cases h
  | add => simp only [mapLeaf] at h; subst h; rcases hy with ⟨_, _, _, h⟩ | ⟨_, h⟩ | ⟨_, _, h⟩ <;> cases h
  | mul => simp only [mapLeaf] at h; subst h; rcases hy with ⟨_, _, _, h⟩ | ⟨_, h⟩ | ⟨_, _, h⟩ <;> cases h
  | bin => simp only [mapLeaf] at h; subst h; rcases hy with ⟨_, _, _, h⟩ | ⟨_, h⟩ | ⟨_, _, h⟩ <;> cases h
  | rel => simp only [mapLeaf] at h; subst h; rcases hy with ⟨_, _, _, h⟩ | ⟨_, h⟩ | ⟨_, _, h⟩ <;> cases h

theorem leaf3_wf {m : GMsg} {o : Opts} (hN : Names m o) {e : Expr} (h : Leaf3 m e) : e.WF := by
  cases h with
  | valid st hf => exact ⟨by cases st <;> decide, ctxVar_wf, affixed_lex (hN.field _ hf).1, trivial⟩
  | size ng => exact ⟨by decide, by simp only [Expr.WF]; decide, trivial⟩
  | last ng hf => exact ⟨by decide, ⟨by decide, ctxVar_wf, affixed_lex (hN.field _ hf).1, trivial⟩, trivial⟩
  | value ng hf => exact ⟨by decide, valName_lex (hN.field _ hf).1, trivial⟩

theorem leaf3_cov {m : GMsg} {L : Expr → Prop} {N : RelOp → Expr → Expr → Prop} {e : Expr} (h : Leaf3 m e) (hl : L e) : Cov L N e := by
  cases h <;> exact hl

/-- A variable. -/
theorem own_var (W : WellFormed P) (hf : f ∈ P.m.msg.fields) (ng imm : Bool) (id : ID) :
    (ownBoth (P.isScalar f) (P.m.spell f) (.var ng imm id) = .call ng U64 [.v (valName (P.m.spell f))] ∧ P.isScalar f = true ∧ ⟨id.key⟩ = f) ∨
    ownBoth (P.isScalar f) (P.m.spell f) (.var ng imm id) = .var ng imm id := by
  have h1 : own1 (P.m.spell f) (.var ng imm id) = .var ng imm id := rfl
  simp only [ownBoth, h1]
  cases hs : P.isScalar f with
  | false => exact .inr rfl
  | true =>
    cases imm with
    | true => exact .inr rfl
    | false =>
      simp only [if_true, own2]
      by_cases hkey : id.key = [PyStr.lower (P.m.spell f)]
      · rw [if_pos hkey]
        refine .inl ⟨rfl, trivial, ?_⟩
        rw [hkey]
        exact (W.names.field f hf).2.symm
      · rw [if_neg hkey]; exact .inr rfl

/-- The last substitution accepts the condition. -/
theorem accepts_own (W : WellFormed P) (hf : f ∈ P.m.msg.fields) (e : Expr) : Cond P.m opts (· ∈ P.m.msg.fields) e → e.WF →
    Cov (NotFirst (P.m.spell f)) (fun _ _ _ => True) e → Accepts P.m (mapLeaf (ownBoth (P.isScalar f) (P.m.spell f)) e) := by
  have hN := W.names
  have var : ∀ ng imm id, id.Lex → imm = false ∧ (ScalarField P.m (· ∈ P.m.msg.fields) id ∨ LitName P.m id) →
      Accepts P.m (ownBoth (P.isScalar f) (P.m.spell f) (.var ng imm id)) := by
    intro ng imm id hl h
    rcases own_var W hf ng imm id with ⟨h1, _⟩ | h1 <;> rw [h1]
    · exact ⟨leaf3_wf hN (.value ng hf), .inr (.value ng hf)⟩
    · exact ⟨hl, .inl h⟩
  have comp : ∀ op ng imm id es, Comparison P.m opts (· ∈ P.m.msg.fields) op ng id es →
      ownBoth (P.isScalar f) (P.m.spell f) (.var ng imm id) = .var ng imm id := by
    rintro op ng imm id es ⟨_, ⟨_, t, ht, hs⟩, _⟩
    rcases own_var W hf ng imm id with ⟨_, h2, h3⟩ | h1
    · rw [h3] at ht
      simp [Pkg.isScalar, type?_some hN ht, mt (scalar_iff t).mp hs] at h2
    · exact h1
  have agg : ∀ es, ownBoth (P.isScalar f) (P.m.spell f) (.agg es) = .agg es := by
    intro es; simp only [ownBoth, own1, own2, ite_self]
  induction e using Expr.ind with
  | tru => intro _ _ _; simp [mapLeaf, Accepts, Cov]
  | fls => intro _ _ _; simp [mapLeaf, Accepts, Cov]
  | num => intro _ _ _; simp [mapLeaf, Accepts, Cov]
  | var ng imm id => intro h hw _; exact var ng imm id hw h
  | attr ng a pre ih =>
    intro h hw hn
    cases pre <;> simp only [Cond] at h
    simp only [Cov] at hn
    rename_i ng' imm id
    simp only [mapLeaf]
    have hl := own1_leaf (o := opts) (S := (· ∈ P.m.msg.fields)) hf (e := .attr ng a (.var ng' imm id)) h hn
    have same : ∀ x : Expr, (∀ ng imm id, x ≠ .var ng imm id) → own2 (P.m.spell f) x = x := by
      intro x hx
      unfold own2
      split
      · exact (hx _ _ _ rfl).elim
      · rfl
    have hb : ownBoth (P.isScalar f) (P.m.spell f) (.attr ng a (.var ng' imm id)) = own1 (P.m.spell f) (.attr ng a (.var ng' imm id)) := by
      unfold ownBoth
      rcases own1_shape (P.m.spell f) (.attr ng a (.var ng' imm id)) with h | ⟨ng, a, h⟩ <;> rw [h] <;> simp only [own2, ite_self]
    rw [hb]
    rcases own1_shape (P.m.spell f) (.attr ng a (.var ng' imm id)) with h1 | ⟨ng'', a', h1⟩
    · rw [h1]
      exact ⟨hw, .inl h⟩
    · rw [h1] at hl ⊢
      rcases hl with ⟨h, _⟩ | h
      · simp [NameLeaf] at h
      · exact ⟨leaf3_wf hN h, .inr h⟩
  | bool op ts ih =>
    intro h hw hn
    simp only [Cond, condL_iff, Expr.WF, WFL_iff, Cov, covL_iff, mapLeaf, mapLeafL_eq, Accepts, List.mem_map] at h hw hn ⊢
    rintro _ ⟨t, ht, rfl⟩
    exact ih t ht (h t ht) (hw.1 t ht) (hn t ht)
  | add ts ih =>
    intro h hw hn
    simp only [Cond, condL_iff, Expr.WF, WFL_iff, Cov, covL_iff, mapLeaf, mapLeafL_eq, Accepts, List.mem_map] at h hw hn ⊢
    rintro _ ⟨t, ht, rfl⟩
    exact ih t ht (h t ht) (hw.1 t ht) (hn t ht)
  | mul ts ih =>
    intro h hw hn
    simp only [Cond, condL_iff, Expr.WF, WFL_iff, Cov, covL_iff, mapLeaf, mapLeafL_eq, Accepts, List.mem_map] at h hw hn ⊢
    rintro _ ⟨t, ht, rfl⟩
    exact ih t ht (h t ht) (hw t ht) (hn t ht)
  | bin op l r ihl ihr => intro h hw hn; exact ⟨ihl h.1 hw.1 hn.1, ihr h.2 hw.2 hn.2⟩
  | rel op l r ihl ihr =>
    intro h hw hn
    simp only [Cov] at hn
    rcases hn with hn | ⟨_, hnl, hnr⟩
    · exact (notFirst_rel _ _ _ hn).elim
    unfold Cond at h
    split at h
    · rename_i ng imm id es
      simp only [mapLeaf, comp _ _ _ _ _ h, agg]
      exact .inl ⟨hw, .inl ⟨hw.1, h⟩⟩
    · rename_i es ng imm id
      simp only [mapLeaf, comp _ _ _ _ _ h, agg]
      exact .inl ⟨hw, .inl ⟨hw.2, h⟩⟩
    · rename_i ng imm id v b
      simp only [mapLeaf]
      obtain ⟨rfl, h⟩ := h
      rcases own_var W hf ng false id with ⟨h1, _⟩ | h1 <;> rw [h1]
      · exact .inr ⟨rfl, ⟨leaf3_wf hN (.value ng hf), .inr (.value ng hf)⟩, by simp [Cov]⟩
      · rcases h with ⟨rfl, hs⟩ | hl
        · exact .inl ⟨hw, .inl ⟨hw.1, rfl, rfl, hs⟩⟩
        · refine .inr ⟨?_, ⟨hw.1, .inl ⟨rfl, .inr hl⟩⟩, by simp [Cov]⟩
          simp [Opts.relation, field?_none (hN.literal id hl).1]
    · rename_i v b ng imm id
      simp only [mapLeaf]
      obtain ⟨rfl, h⟩ := h
      rcases own_var W hf ng false id with ⟨h1, _⟩ | h1 <;> rw [h1]
      · exact .inr ⟨rfl, by simp [Cov], ⟨leaf3_wf hN (.value ng hf), .inr (.value ng hf)⟩⟩
      · rcases h with ⟨rfl, hs⟩ | hl
        · exact .inl ⟨hw, .inl ⟨hw.2, rfl, rfl, hs⟩⟩
        · refine .inr ⟨?_, by simp [Cov], ⟨hw.2, .inl ⟨rfl, .inr hl⟩⟩⟩
          simp [Opts.relation, field?_none (hN.literal id hl).1]
    · rename_i n1 n2 n3 n4
      simp only [mapLeaf]
      refine .inr ⟨?_, ihl h.1 hw.1 hnl, ihr h.2 hw.2 hnr⟩
      generalize hl' : mapLeaf (ownBoth (P.isScalar f) (P.m.spell f)) l = l'
      generalize hr' : mapLeaf (ownBoth (P.isScalar f) (P.m.spell f)) r = r'
      unfold Opts.relation
      split
      · exact (n1 _ _ _ _ (mapLeaf_back hl' (.inl ⟨_, _, _, rfl⟩)) (mapLeaf_back hr' (.inr (.inl ⟨_, rfl⟩)))).elim
      · exact (n2 _ _ _ _ (mapLeaf_back hl' (.inr (.inl ⟨_, rfl⟩))) (mapLeaf_back hr' (.inl ⟨_, _, _, rfl⟩))).elim
      · exact (n3 _ _ _ _ _ (mapLeaf_back hl' (.inl ⟨_, _, _, rfl⟩)) (mapLeaf_back hr' (.inr (.inr ⟨_, _, rfl⟩)))).elim
      · exact (n4 _ _ _ _ _ (mapLeaf_back hl' (.inr (.inr ⟨_, _, rfl⟩))) (mapLeaf_back hr' (.inl ⟨_, _, _, rfl⟩))).elim
      · rfl
  | _ => intro h; simp [Cond] at h

/-- `Field_Condition` has the value of the condition. -/
theorem ownCondition_ok (W : WellFormed P) (hf : f ∈ P.m.msg.fields) (E : OwnEnv P c own S f σ) (hS : ∀ g, S g → g ∈ P.m.msg.fields)
    (hne : outgoing P.m.msg.links f ≠ [])
    (hc : ∀ l ∈ outgoing P.m.msg.links f, Cond P.m opts S l.condition) {v : Val}
    (hv : eval .ada σ (.bool .or ((outgoing P.m.msg.links f).map (·.condition))) = some v) :
    ∃ e, P.ownCondition f = .ok e ∧ P.value (some U64) c (some own) e = .ok v := by
  have mem : ∀ l ∈ outgoing P.m.msg.links f, l ∈ P.m.msg.links ∧ l.source = f := by
    intro l hl
    simpa [outgoing] using hl
  generalize he : Expr.bool .or ((outgoing P.m.msg.links f).map (·.condition)) = e at hv
  have h1 : Cond P.m opts S e := by
    subst he
    simp only [Cond, condL_iff, List.mem_map]
    rintro _ ⟨l, hl, rfl⟩
    exact hc l hl
  have h2 : Cov (NotFirst (P.m.spell f)) (fun _ _ _ => True) e := by
    subst he
    simp only [Cov, covL_iff, List.mem_map]
    rintro _ ⟨l, hl, rfl⟩
    have := W.own l (mem l hl).1 ((mem l hl).2 ▸ hf)
    rw [(mem l hl).2] at this
    exact this
  have hw : e.WF ∧ e.Good Division.ada.Odd false := by
    subst he
    simp only [Expr.WF, WFL_iff, Expr.Good, GoodL_iff, List.mem_map]
    refine ⟨⟨?_, fun h => absurd (by simpa using h) hne⟩, trivial, ?_⟩
    · rintro _ ⟨l, hl, rfl⟩
      exact (W.wf l (mem l hl).1).1
    · rintro _ ⟨l, hl, rfl⟩
      exact (W.wf l (mem l hl).1).2
  refine ⟨_, ownCondition_eq W.names W.size hf he.symm (cond_leaf e h1) h2, ?_⟩
  have M : Mapped .ada (P.env c (some own)) σ e _ := mapped_mapLeaf (L := fun e => NameLeaf P.m opts S e ∧ NotFirst (P.m.spell f) e)
    (fun _ _ _ h => nameLeaf_rel _ _ _ h.1) (fun e h => mapped_own W hf E h.1 h.2) e
    (cov_and nameLeaf_rel notFirst_rel e (cond_leaf e h1) h2)
  exact value_ok W (.inl rfl) (accepts_own W hf e (cond_mono hS e h1) hw.1 h2) (M.wf hw.1) (M.good _ hw.2) (M.value v hv)

end

end Verif.Ctx
