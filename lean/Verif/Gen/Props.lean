import Verif.Gen.SubstLemmas

/-! # C43: conditions of the generated code have the value of the conditions of the specification -/

namespace Verif.Gen
open Verif Verif.Graph Verif.Verify Verif.Types Verif.Merge

section
variable {D : Division} {V : View} {m : GMsg} {o : Opts} {S : Field → Prop} {σ : Env} {fs : List (Expr × Expr)}

/-- Cursors and their components stay as they are. -/
theorem subst_sel (F : Facts o m fs) (n : PyStr) (s : ID) (k : Nat) :
    subst (k + 2) (o.func m fs) (.sel false (o.cursor n) s) = .ok (.sel false (o.cursor n) s) := by
  have : o.func m fs (.sel false (o.cursor n) s) = .sel false (o.cursor n) s :=
    func_none rfl fun kv hkv => (F.sound kv hkv).sel_ne ..
  rw [subst, this]
  rfl

/-- No attribute is replaced by an attribute. -/
theorem func_attr (F : Facts o m fs) {ng : Bool} {a : AttrKind} {id : ID} (h : Attribute m o S ng a id) (ng' : Bool) (b : AttrKind) (p : Expr) :
    o.func m fs (at' a id) ≠ .attr ng' b p := by
  refine func_name (Q := fun x => x ≠ .attr ng' b p) rfl ?_ ?_
  · obtain ⟨ha, rfl | ⟨f, hf, hS, rfl, hng⟩⟩ := h
    · rcases ha with rfl | rfl | rfl
      · exact F.attr .mfirst
      · exact F.attr .mlast
      · exact F.attr .msize
    · rcases ha with rfl | rfl | rfl
      · exact F.attr (.first f hf)
      · exact F.attr (.last f hf)
      · exact F.attr (.size f hf)
  · intro kv hkv _
    have hc : ∀ x : Expr, x ≠ .attr ng' b p → o.conv x ≠ .attr ng' b p := by
      intro x hx
      unfold Opts.conv
      split
      · simp
      · exact hx
    cases F.sound kv hkv with
    | mfirst => exact hc _ (by simp [Opts.pref])
    | mlast => exact hc _ (by simp [Opts.pref])
    | msize => exact hc _ (by simp)
    | first f => exact hc _ (by simp only [Opts.fieldFirst]; split <;> simp)
    | last f => exact hc _ (by simp only [Opts.fieldLast]; split <;> simp)
    | size f => exact hc _ (by simp only [Opts.fieldSize]; split <;> simp)
    | value e =>
      refine hc _ ?_
      cases e.2 <;> simp only [Opts.fieldValue, Opts.rawValue, getCall] <;> (try split) <;> simp
    | lit l => exact hc _ (by simp)
    | chk c => simp

theorem func_call (F : Facts o m fs) (i : ID) (as : List Expr) : o.func m fs (.call false i as) = .call false i as :=
  func_none rfl fun kv hkv => (F.sound kv hkv).call_ne ..

theorem subst_ctx (F : Facts o m fs) (hN : Names m o) (k : Nat) : subst (k + 1) (o.func m fs) ctxVar = .ok ctxVar := by
  have : o.func m fs ctxVar = ctxVar := by
    refine func_none rfl fun kv hkv => ?_
    cases h : kv.1.eq ctxVar with
    | false => rfl
    | true =>
      rcases var_key (F.sound kv hkv) h with ⟨e, he, _, hk⟩ | ⟨l, hl, _, _, hk⟩
      · have h1 := (hN.field _ (hN.typed e he)).2
        rw [hk] at h1
        exact absurd (h1 ▸ hN.typed e he) hN.ctx
      · exact absurd hk (hN.literal l hl).2.2.2.1
  simp only [ctxVar] at this ⊢
  simp [subst, this]

theorem subst_raw (F : Facts o m fs) (hN : Names m o) (n : PyStr) (k : Nat) :
    subst (k + 2) (o.func m fs) (o.rawValue n) = .ok (o.rawValue n) := by
  cases hp : o.pub <;> simp only [Opts.rawValue, hp, Bool.false_eq_true, if_false, if_true]
  · exact subst_sel F n _ k
  · rw [getCall, subst, func_call F]
    simp only [List.mapM_cons, List.mapM_nil, subst_ctx F hN]
    rfl

theorem func_other {e : Expr} (h : e.isName = false) (hr : ∀ op l r, e ≠ .rel op l r) : o.func m fs e = e := by
  simp only [Opts.func, h, Bool.false_eq_true, if_false]

theorem func_rel (op : RelOp) (l r : Expr) : o.func m fs (.rel op l r) = o.relation m op l r := rfl

theorem subst_num (v : Int) (b : NBase) (k : Nat) : subst (k + 1) (o.func m fs) (.num v b) = .ok (.num v b) := by
  simp [subst, func_other (o := o) (m := m) (fs := fs) (e := .num v b) rfl (by simp)]

theorem mapM_nums (es : List Expr) (h : ∀ e ∈ es, ∃ v b, e = .num v b) (k : Nat) :
    es.mapM (subst (k + 1) (o.func m fs)) = .ok es := by
  induction es with
  | nil => rfl
  | cons e es ih =>
    obtain ⟨v, b, rfl⟩ := h e List.mem_cons_self
    rw [List.mapM_cons, subst_num, ih fun e he => h e (List.mem_cons_of_mem _ he)]
    rfl

/-- The numbers of an aggregate. -/
theorem eval_nums (es : List Expr) (h : ∀ e ∈ es, ∃ v b, e = .num v b) :
    ∃ xs : List Int, (∀ D ρ, eval D ρ (.agg es) = some (.seq xs)) ∧ Expr.WFL es ∧ ¬ Expr.HQL es ∧ ∀ odd s, Expr.GoodL odd s es := by
  suffices ∃ xs : List Int, (∀ D ρ, evalL D ρ es = some (xs.map .int)) ∧ Expr.WFL es ∧ ¬ Expr.HQL es ∧ ∀ odd s, Expr.GoodL odd s es by
    obtain ⟨xs, h1, h2⟩ := this
    refine ⟨xs, fun D ρ => ?_, h2⟩
    have : ∀ xs : List Int, allSome Val.int? (xs.map .int) = some xs := by
      intro xs
      induction xs with
      | nil => rfl
      | cons x xs ih => simp [allSome, Val.int?, ih]
    simp [eval, h1, this]
  induction es with
  | nil => exact ⟨[], by simp [evalL, Expr.WFL, Expr.HQL, Expr.GoodL]⟩
  | cons e es ih =>
    obtain ⟨v, b, rfl⟩ := h e List.mem_cons_self
    obtain ⟨xs, h1, h2, h3, h4⟩ := ih fun e he => h e (List.mem_cons_of_mem _ he)
    exact ⟨v :: xs, by simp [evalL, eval, h1], ⟨trivial, h2⟩, by simp [Expr.HQL, Expr.HQ, h3],
      fun odd s => ⟨by simp [Expr.Good], h4 odd s⟩⟩

/-- The comparison with an aggregate. -/
theorem aggregate_ok (F : Facts o m fs) (hN : Names m o) (R : Represents m o V S σ) {op : RelOp} {id : ID} {es : List Expr} {e : Expr}
    (hlex : id.Lex) (h : Comparison m o S op false id es) {n : PyStr} (hn : id.parts = [n])
    (he : ∃ l r, e = .rel op l r) (hf : o.func m fs e = o.aggregate n (op = .eq) es)
    (hsub : ∀ k f, f e = o.aggregate n (op = .eq) es → subst (k + 1) f e =
      match o.aggregate n (op = .eq) es with
      | .bin op l r => do return .bin op (← subst k f l) (← subst k f r)
      | .rel op l r => do return .rel op (← subst k f l) (← subst k f r)
      | x => .ok x)
    (hv : ∀ ds xs, σ.var id.key = .seq ds → (∀ D ρ, eval D ρ (.agg es) = some (.seq xs)) → ∀ v, eval D σ e = some v →
      v = .bool (if op = .eq then decide (ds = xs) else decide (ds ≠ xs)))
    (k : Nat) (hk : 6 ≤ k) : ∃ r, subst k (o.func m fs) e = .ok r ∧ Mapped D (V.env o.embedded) σ e r := by
  obtain ⟨_, ⟨hS, t, hmem, hsc⟩, hnum, hop⟩ := h
  have hkey : id.key = [PyStr.lower n] := by simp [ID.key, hn]
  obtain ⟨ds, hds, hcmp⟩ := R.composite ⟨id.key⟩ _ t hS hkey hmem hsc
  rw [← hkey] at hds
  obtain ⟨xs, hxs, hwf, hq, hg⟩ := eval_nums es hnum
  have hnl : (⟨[n]⟩ : ID).Lex := by rw [← hn]; exact hlex
  obtain ⟨l, r, rfl⟩ := he
  obtain ⟨k, rfl⟩ : ∃ k', k = k' + 6 := ⟨k - 6, by omega⟩
  cases hemb : o.embedded with
  | true =>
    rw [hemb] at hcmp hop
    simp only [if_true] at hcmp
    have hop : op = .eq := by simpa using hop
    subst hop
    have hfst : Num D (V.env o.embedded) (.sel false (o.cursor n) ⟨[FIRST]⟩) (V.cFirst (PyStr.lower n)) :=
      num_sel hnl (by decide) (sel_first (cursor_last n))
    have hlst : Num D (V.env o.embedded) (.sel false (o.cursor n) ⟨[LAST]⟩) (V.cLast (PyStr.lower n)) :=
      num_sel hnl (by decide) (sel_last (cursor_last n))
    rw [hemb] at hfst hlst
    have bi : ∀ x i, eval D (V.env true) x = some (.int i) → eval D (V.env true) (.call false BYTE_INDEX [x]) = some (.int (byteIndex i)) := by
      intro x i hx
      rw [eval, evalL, evalL, hx]
      simp [View.env, View.call, valInt, Val.negIf]
    have hcall : eval D (V.env true) (.call false BUFFER_ALL [.call false BYTE_INDEX [.sel false (o.cursor n) ⟨[FIRST]⟩],
        .call false BYTE_INDEX [.sel false (o.cursor n) ⟨[LAST]⟩]]) = some (.seq ds) := by
      rw [eval, evalL, evalL, evalL, bi _ _ hfst.value, bi _ _ hlst.value]
      simp [View.env, View.call, valInt, hcmp, Val.negIf]
    refine ⟨o.aggregate n true es, ?_, ?_, ?_, ?_, ?_, ?_, ?_⟩
    · rw [hsub _ _ hf]
      have h1 : ∀ a, subst (k + 4) (o.func m fs) (.call false BYTE_INDEX [.sel false (o.cursor n) a]) =
          .ok (.call false BYTE_INDEX [.sel false (o.cursor n) a]) := by
        intro a
        rw [subst, func_call F]
        simp only [List.mapM_cons, List.mapM_nil, subst_sel F n a (k + 1)]
        rfl
      have h2 : subst (k + 5) (o.func m fs) (.call false BUFFER_ALL [.call false BYTE_INDEX [.sel false (o.cursor n) ⟨[FIRST]⟩],
          .call false BYTE_INDEX [.sel false (o.cursor n) ⟨[LAST]⟩]]) = .ok (.call false BUFFER_ALL
          [.call false BYTE_INDEX [.sel false (o.cursor n) ⟨[FIRST]⟩], .call false BYTE_INDEX [.sel false (o.cursor n) ⟨[LAST]⟩]]) := by
        rw [subst, func_call F]
        simp only [List.mapM_cons, List.mapM_nil, h1]
        rfl
      have h3 : subst (k + 5) (o.func m fs) (.agg es) = .ok (.agg es) := by
        rw [subst, func_other (o := o) (m := m) (fs := fs) (e := .agg es) rfl (by simp)]
        simp only [mapM_nums es hnum]
        rfl
      simp only [Opts.aggregate, hemb, if_true]
      rw [h2, h3]
      rfl
    · intro s hs
      simp only [Opts.aggregate, hemb, if_true, Expr.Good]
      exact ⟨hs.1, trivial, trivial, hg _ _⟩
    · intro _
      simp only [Opts.aggregate, hemb, if_true]
      exact ⟨⟨by decide, ⟨by decide, hfst.wf, trivial⟩, ⟨by decide, hlst.wf, trivial⟩, trivial⟩, hwf⟩
    · intro hc; simp [Expr.Const] at hc
    · intro _ hh; simp [Expr.headOK] at hh
    · simp [Opts.aggregate, hemb, Expr.HQ, Expr.HQL, hq]
    · intro v hev
      rw [hv ds xs hds hxs v hev]
      simp only [Opts.aggregate, hemb, if_true]
      rw [eval, hcall, hxs]
      simp [RelOp.eval]
  | false =>
    rw [hemb] at hcmp
    simp only [Bool.false_eq_true, if_false] at hcmp
    have hcall : eval D (V.env false) (.call false EQUAL [ctxVar, fieldVar n, .agg es]) = some (.bool (decide (ds = xs))) := by
      rw [eval, evalL, evalL, evalL, evalL, eval_ctxVar, eval_fieldVar, hxs]
      simp [View.env, View.call, valName_nameVal, valSeq, hcmp, Val.negIf]
    have hcw : (Expr.call false EQUAL [ctxVar, fieldVar n, .agg es]).WF :=
      ⟨by decide, ctxVar_wf, affixed_lex hnl, hwf, trivial⟩
    have hcq : ¬ (Expr.call false EQUAL [ctxVar, fieldVar n, .agg es]).HQ := by
      simp [Expr.HQ, Expr.HQL, ctxVar, fieldVar, hq]
    rcases hop with rfl | ⟨rfl, _⟩
    · refine ⟨.call false EQUAL [ctxVar, fieldVar n, .agg es], ?_, ?_, fun _ => hcw, ?_, ?_, hcq, ?_⟩
      · rw [hsub _ _ hf]; simp [Opts.aggregate, hemb]
      · intro _ _; simp [Expr.Good]
      · intro hc; simp [Expr.Const] at hc
      · intro _ hh; simp [Expr.headOK] at hh
      · intro v hev
        rw [hv ds xs hds hxs v hev, hcall]
        simp
    · refine ⟨.not (.call false EQUAL [ctxVar, fieldVar n, .agg es]), ?_, ?_, fun _ => hcw, ?_, ?_, hcq, ?_⟩
      · rw [hsub _ _ hf]; simp [Opts.aggregate, hemb]
      · intro s hs; exact ⟨hs.1, by simp [Expr.Good]⟩
      · intro hc; simp [Expr.Const] at hc
      · intro _ hh; simp [Expr.headOK] at hh
      · intro v hev
        rw [hv ds xs hds hxs v hev, eval, hcall]
        simp

theorem maps (F : Facts o m fs) (hN : Names m o) (ht : Target o) (R : Represents m o V S σ) :
    Maps D (V.env o.embedded) σ (o.func m fs) (fun e => e.WF ∧ NameOK m o S e) (fun op l r => o.relation m op l r = .rel op l r) where
  rel op l r h := h
  other e h hr := func_other h hr
  leaf e he k hk := by
    obtain ⟨hw, he⟩ := he
    obtain ⟨k, rfl⟩ : ∃ k', k = k' + 1 := ⟨k - 1, by omega⟩
    cases e with
    | var ng imm id =>
      obtain ⟨rfl, h⟩ := he
      have : ∃ i, σ.var id.key = .int i ∧ Num D (V.env o.embedded) (o.func m fs (.v id)) i := by
        rcases h with h | h
        · exact lookup_scalar F hN ht R h
        · exact lookup_literal F hN ht R hw h
      obtain ⟨i, hi, hnum⟩ := this
      cases ng with
      | false =>
        refine ⟨_, by simp [subst], hnum.toLeaf.mapped (by simp [Expr.Const]) ?_⟩
        intro v hv
        simpa [eval, hi, Val.negIf] using hv.symm
      | true =>
        obtain ⟨y, hy, hl⟩ := hnum.toLeaf.negated hnum.neg
        refine ⟨y, by simp [subst, hy], hl.mapped (by simp [Expr.Const]) ?_⟩
        intro v hv
        simpa [eval, hi, Val.negIf, Val.int?] using hv.symm
    | attr ng a pre =>
      cases pre with
      | var ng' imm id =>
        obtain ⟨rfl, rfl, h⟩ := he
        obtain ⟨i, hi, hl, hneg⟩ := lookup_attr (D := D) F hN ht R h
        have hs : ∀ ng, subst (k + 1) (o.func m fs) (.attr ng a (.var false false id)) =
            if ng then (o.func m fs (at' a id)).negated else .ok (o.func m fs (at' a id)) := by
          intro ng
          have hna := func_attr F h
          simp only [at'] at hna ⊢
          rw [subst]
          split
          · rename_i b p hx
            exact (hna _ _ _ hx).elim
          · rfl
        cases ng with
        | false =>
          refine ⟨_, by rw [hs]; rfl, hl.mapped (by simp [Expr.Const]) ?_⟩
          intro v hv
          simpa [eval, hi, Val.negIf] using hv.symm
        | true =>
          obtain ⟨y, hy, hl⟩ := hl.negated (hneg rfl)
          refine ⟨y, by rw [hs]; exact hy, hl.mapped (by simp [Expr.Const]) ?_⟩
          intro v hv
          simpa [eval, hi, Val.negIf, Val.int?] using hv.symm
      | _ => simp [NameOK] at he
    | rel op l r =>
      have cmp : ∀ op (ds xs : List Int), op = .eq ∨ op = .ne → RelOp.eval op (.seq ds) (.seq xs) =
          some (if op = .eq then decide (ds = xs) else decide (ds ≠ xs)) := by
        rintro op ds xs (rfl | rfl) <;> simp [RelOp.eval]
      have cmp' : ∀ op (ds xs : List Int), op = .eq ∨ op = .ne → RelOp.eval op (.seq xs) (.seq ds) =
          some (if op = .eq then decide (ds = xs) else decide (ds ≠ xs)) := by
        rintro op ds xs (rfl | rfl) <;> simp [RelOp.eval, eq_comm]
      simp only [NameOK] at he
      split at he
      · rename_i ng imm id es
        obtain ⟨hlex, hc⟩ := he
        obtain ⟨n, hn, hfn⟩ := field?_some hN (hN.typed _ hc.2.1.2.choose_spec.1)
        have hop : op = .eq ∨ op = .ne := by rcases hc.2.2.2 with h | ⟨h, _⟩ <;> simp [h]
        have hng := hc.1
        subst hng
        refine aggregate_ok F hN R hlex hc hn ⟨_, _, rfl⟩ (by simp [func_rel, Opts.relation, hfn, hop]) ?_ ?_ _ (by simp only [depth] at hk; omega)
        · intro k f hf; rw [subst, hf]; rfl
        · intro ds xs hds hxs v hv
          rw [eval, hxs] at hv
          simp only [eval, hds, Val.negIf, Bool.false_eq_true, if_false] at hv
          rw [cmp op ds xs hop] at hv
          simpa using hv.symm
      · rename_i es ng imm id
        obtain ⟨hlex, hc⟩ := he
        obtain ⟨n, hn, hfn⟩ := field?_some hN (hN.typed _ hc.2.1.2.choose_spec.1)
        have hop : op = .eq ∨ op = .ne := by rcases hc.2.2.2 with h | ⟨h, _⟩ <;> simp [h]
        have hng := hc.1
        subst hng
        refine aggregate_ok F hN R hlex hc hn ⟨_, _, rfl⟩ (by simp [func_rel, Opts.relation, hfn, hop]) ?_ ?_ _ (by simp only [depth] at hk; omega)
        · intro k f hf; rw [subst, hf]; rfl
        · intro ds xs hds hxs v hv
          rw [eval, hxs] at hv
          simp only [eval, hds, Val.negIf, Bool.false_eq_true, if_false] at hv
          rw [cmp' op ds xs hop] at hv
          simpa using hv.symm
      · rename_i ng imm id v b
        obtain ⟨hlex, rfl, rfl, hs⟩ := he
        obtain ⟨n, hn, hfn⟩ := field?_some hN (hN.typed _ hs.2.choose_spec.1)
        have hkey : id.key = [PyStr.lower n] := by simp [ID.key, hn]
        have hraw := num_raw (D := D) (V := V) (o := o) (n := n) (by rw [← hn]; exact hlex)
        have hvar : σ.var id.key = .int (if o.pub then V.get (PyStr.lower n) else V.cValue (PyStr.lower n)) := by
          have := R.scalar ⟨id.key⟩ _ _ hs.1 hkey hs.2.choose_spec.1 hs.2.choose_spec.2
          rw [← hkey] at this
          exact this
        refine ⟨.rel op (o.rawValue n) (.num v b), ?_, ?_, ?_, ?_, ?_, ?_, ?_⟩
        · rw [subst, func_rel]
          simp only [Opts.relation, hfn]
          obtain ⟨k, rfl⟩ : ∃ k', k = k' + 2 := ⟨k - 2, by simp only [depth] at hk; omega⟩
          rw [subst_raw F hN n k, subst_num v b (k + 1)]
          rfl
        · intro s h; exact ⟨h.1, Good.weaken _ true hraw.good, trivial⟩
        · intro _; exact ⟨hraw.wf, trivial⟩
        · intro hc; simp [Expr.Const] at hc
        · intro _ hh; simp [Expr.headOK] at hh
        · simp [Expr.HQ, hraw.quant]
        · intro w hv
          rw [eval, hraw.value]
          simpa [eval, hvar, Val.negIf] using hv
      · rename_i v b ng imm id
        obtain ⟨hlex, rfl, rfl, hs⟩ := he
        obtain ⟨n, hn, hfn⟩ := field?_some hN (hN.typed _ hs.2.choose_spec.1)
        have hkey : id.key = [PyStr.lower n] := by simp [ID.key, hn]
        have hraw := num_raw (D := D) (V := V) (o := o) (n := n) (by rw [← hn]; exact hlex)
        have hvar : σ.var id.key = .int (if o.pub then V.get (PyStr.lower n) else V.cValue (PyStr.lower n)) := by
          have := R.scalar ⟨id.key⟩ _ _ hs.1 hkey hs.2.choose_spec.1 hs.2.choose_spec.2
          rw [← hkey] at this
          exact this
        refine ⟨.rel op (.num v b) (o.rawValue n), ?_, ?_, ?_, ?_, ?_, ?_, ?_⟩
        · rw [subst, func_rel]
          simp only [Opts.relation, hfn]
          obtain ⟨k, rfl⟩ : ∃ k', k = k' + 2 := ⟨k - 2, by simp only [depth] at hk; omega⟩
          rw [subst_raw F hN n k, subst_num v b (k + 1)]
          rfl
        · intro s h; exact ⟨h.1, trivial, Good.weaken _ true hraw.good⟩
        · intro _; exact ⟨trivial, hraw.wf⟩
        · intro hc; simp [Expr.Const] at hc
        · intro _ hh; simp [Expr.headOK] at hh
        · simp [Expr.HQ, hraw.quant]
        · intro w hv
          rw [eval, hraw.value]
          simpa [eval, hvar, Val.negIf] using hv
      · exact he.elim
    | _ => simp [NameOK] at he

end

theorem cov_wf {P : Expr → Prop} {N : RelOp → Expr → Expr → Prop} (e : Expr) : Cov P N e → e.WF → Cov (fun e => e.WF ∧ P e) N e := by
  induction e using Expr.ind with
  | tru => intro _ _; simp [Cov]
  | fls => intro _ _; simp [Cov]
  | num => intro _ _; simp [Cov]
  | bool op ts ih =>
    intro h hw
    simp only [Expr.WF, WFL_iff, Cov, covL_iff] at h hw ⊢
    exact fun t ht => ih t ht (h t ht) (hw.1 t ht)
  | add ts ih =>
    intro h hw
    simp only [Expr.WF, WFL_iff, Cov, covL_iff] at h hw ⊢
    exact fun t ht => ih t ht (h t ht) (hw.1 t ht)
  | mul ts ih =>
    intro h hw
    simp only [Expr.WF, WFL_iff, Cov, covL_iff] at h hw ⊢
    exact fun t ht => ih t ht (h t ht) (hw t ht)
  | bin op l r ihl ihr => intro h hw; exact ⟨ihl h.1 hw.1, ihr h.2 hw.2⟩
  | rel op l r ihl ihr =>
    intro h hw
    simp only [Cov] at h ⊢
    rcases h with h | ⟨h, h1, h2⟩
    · exact .inl ⟨hw, h⟩
    · exact .inr ⟨h, ihl h1 hw.1, ihr h2 hw.2⟩
  | _ => intro h hw; exact ⟨hw, h⟩

/-- The expression that the generator writes for `e` exists and has the value of `e`, if the values of the message are those
that the generated code reads. Missing: expressions outside `Cond` (negated field values compared with numbers, inequality of
composite fields in the predicate of the context, quantifiers, calls) and `Good`, names that clash (`Names`); for the most
important of these it is false, see the counterexamples. The arithmetic of the generated code is that of integers. -/
theorem C43_condition_partial {D : Division} {V : View} {m : GMsg} {o : Opts} {S : Field → Prop} {σ : Env} {e : Expr}
    (hN : Names m o) (ht : Target o) (R : Represents m o V S σ) (hc : Cond m o S e) (hw : e.WF) (hg : e.Good D.Odd false) :
    ∀ v, eval D σ e = some v → ∃ r, o.generate m e = .ok r ∧ eval D (V.env o.embedded) r = some v := by
  intro v hv
  obtain ⟨fs, hfs, F1, F2⟩ := facts_ok hN
  obtain ⟨r, hr, M⟩ := maps_ok (maps (D := D) ⟨F1, F2⟩ hN ht R) e (cov_wf e (cond_cov hN e hc hw) hw) (depth e + 4) (by omega)
  have hrv := M.value v hv
  obtain ⟨r', hr'⟩ := C08_C09_simplified_returns_partial r (M.good _ hg) (M.wf hw) M.quant (V.env o.embedded) v hrv
  refine ⟨r', ?_, C08_C09_simplified_value_partial r r' (M.good _ hg) (M.wf hw) hr' _ v hrv⟩
  simp only [Opts.generate, substitutedBy, hfs, bind, Except.bind, hr, hr']

end Verif.Gen
