import Verif.Agree.Spec

/-! # Conditions and sizes have the same values in PyRFLX and in generated code -/

namespace Verif.Agree
open Verif Verif.Graph Verif.Types Verif.Bits Verif.Gen Verif.Ctx

/-- Proof device: what is needed about a field that has been parsed. -/
structure Rep (m : PyRFLX.Msg) (P : Pkg) (b : Spark.Bytes) (lo : Int) (fv : Field → PyRFLX.FV) (g : Field) (it : Item) : Prop where
  same : SameField m b lo fv g it
  scalar : ∀ s imp, m.typeOf g = .scalar s imp → ∃ x, (fv g).value = some (.scalar x) ∧ it.value = x.number ∧
    ∀ txt n i, x = .enum txt n → ID.ofStr txt = .ok i → i.Lex ∧ low i ∉ m.fields.map low ∧ literalNumber P.m.msg i.key = n

/-- Proof device: the fields that have been parsed. -/
structure Inv (m : PyRFLX.Msg) (P : Pkg) (b : Spark.Bytes) (lo : Int) (fv : Field → PyRFLX.FV) (p : List Field) (es : List Item) : Prop where
  fields : es.map (·.f) = (p.map low).reverse
  rep : ∀ it ∈ es, ∃ g ∈ p, Rep m P b lo fv g it
  mem : ∀ g ∈ p, g ∈ m.fields

variable {m : PyRFLX.Msg} {P : Pkg} {rest : Field → Bool} {b : Spark.Bytes} {lo hi : Int} {fv : Field → PyRFLX.FV} {p : List Field}
  {es : List Item} {M : List (Expr × Expr)}

theorem SameMessage.inj (S : SameMessage m P rest) {f g : Field} (hf : f ∈ m.fields) (hg : g ∈ m.fields) (h : low f = low g) : f = g := by
  rw [S.spelled f hf, S.spelled g hg, h]

theorem Inv.find (S : SameMessage m P rest) (I : Inv m P b lo fv p es) {g : Field} (hg : g ∈ p) :
    ∃ it, es.find? (fun e => e.f == low g) = some it ∧ Rep m P b lo fv g it := by
  have : low g ∈ es.map (·.f) := by
    rw [I.fields, List.mem_reverse]
    exact List.mem_map_of_mem hg
  obtain ⟨e, he, hef⟩ := List.mem_map.mp this
  cases hf : es.find? (fun e => e.f == low g) with
  | none =>
    have := List.find?_eq_none.mp hf e he
    simp [hef] at this
  | some it =>
    refine ⟨it, rfl, ?_⟩
    have h1 := List.find?_some hf
    simp only [beq_iff_eq] at h1
    obtain ⟨g', hg', R⟩ := I.rep it (List.mem_of_find?_eq_some hf)
    have := S.inj (I.mem g hg) (I.mem g' hg') (by rw [← h1, R.same.1])
    rw [this]
    exact R

/-! ## Names -/

theorem sub_var {N : List (Expr × Expr)} {id : ID} {k : Nat} (hk : 0 < k) :
    subst k (substitution N) (.var false false id) = .ok (substitution N (.var false false id)) := by
  obtain ⟨k, rfl⟩ : ∃ k', k = k' + 1 := ⟨k - 1, by omega⟩
  simp [subst]

theorem var_leaf {σ : Env} {id : ID} {i : Int} (hl : id.Lex) (h : σ.var id.key = .int i) : Leaf .ada σ (.var false false id) i where
  wf := by simpa [Expr.WF] using hl
  good := by simp [Expr.Good]
  head := by simp [Expr.headOK]
  quant := by simp [Expr.HQ]
  value := by simp [eval, h, Val.negIf]

theorem num_leaf {σ : Env} (v : Int) (b : NBase) : Leaf .ada σ (.num v b) v where
  wf := by simp [Expr.WF]
  good := by simp [Expr.Good]
  head := by simp [Expr.headOK]
  quant := by simp [Expr.HQ]
  value := by simp [eval]

theorem Mapped.refl {σ : Env} {e : Expr} (h : ¬ e.HQ) : Mapped .ada σ σ e e :=
  ⟨fun _ h => h, fun h => h, fun h => h, fun _ h => h, h, fun _ h => h⟩

theorem attr_eq {a : AttrKind} {f g : ID} (h : (Expr.attr false a (.var false false g)).eq (.attr false .size (.var false false f)) = true) :
    a = .size ∧ g.str = f.str := by
  by_cases ha : a = .size
  · subst ha
    simp only [Expr.eq, Expr.str, Expr.strF, Bool.xor_self, wrapNeg, Bool.and_eq_true, Bool.false_eq_true, if_false, beq_iff_eq] at h
    exact ⟨rfl, PyRFLX.append_quote_inj h.2⟩
  · simp [Expr.eq, Expr.cls, Expr.Cls.sub, Ne.symm ha, ha] at h

/-- Proof device: entries of the mapping for names. -/
theorem var_entry (hM : PyRFLX.MappingOf m fv M) {kv : Expr × Expr} (hkv : kv ∈ M) {id : ID} (he : kv.1.eq (.var false false id) = true) :
    ∃ g ∈ m.fields, low g = low id ∧ ∃ s imp x, m.typeOf g = .scalar s imp ∧ (fv g).value = some (.scalar x) ∧ x.expr = .ok kv.2 := by
  rcases hM kv hkv with ⟨g, hg, hE⟩ | ⟨a, n, _, rfl⟩
  · rcases hE with ⟨s, imp, x, ht, hx, hk, hv⟩ | ⟨a, n, _, rfl⟩
    · rw [hk] at he
      have hkey := (PyRFLX.var_eq g id).mp he
      refine ⟨g, ?_, by simp [low, hkey], s, imp, x, ht, hx, hv⟩
      rcases List.mem_cons.mp hg with rfl | hg
      · simp [PyRFLX.Msg.typeOf] at ht
      · exact hg
    · simp [Expr.eq, Expr.cls, Expr.Cls.sub] at he
  · simp [Expr.eq, Expr.cls, Expr.Cls.sub, PyRFLX.messageVar] at he

/-- Proof device: the entry of the mapping for the size of a field. -/
theorem entries_size {t : PyRFLX.FType} {v : PyRFLX.FV} {f : Field} {as : List (Expr × Expr)} (h : PyRFLX.entries t v f = .ok as) :
    (∀ a r, (Expr.attr false a (.var false false f), r) ∈ as → a = .size → ∃ n, v.size t = .ok (some n) ∧ r = n.expr) ∧
    (∀ n, v.isSet t = .ok true → v.size t = .ok (some n) → (Expr.attr false .size (.var false false f), n.expr) ∈ as) := by
  obtain ⟨x, hx, h⟩ := PyRFLX.bind_ok (h : (PyRFLX.valueEntry t v f).bind _ = _)
  obtain ⟨y, hy, h⟩ := PyRFLX.bind_ok (h : (PyRFLX.sizeEntry t v f).bind _ = _)
  obtain ⟨z, hz, rfl⟩ := PyRFLX.map_ok h
  constructor
  · intro a r hr ha
    subst ha
    simp only [List.mem_append] at hr
    rcases hr with ((hr | hr) | hr) | hr
    · exfalso
      unfold PyRFLX.valueEntry at hx
      split at hx
      · obtain ⟨c, _, hx⟩ := PyRFLX.bind_ok hx
        cases c with
        | false => simp at hx; subst hx; simp at hr
        | true =>
          simp only [if_true] at hx
          obtain ⟨e, _, rfl⟩ := PyRFLX.map_ok hx
          simp at hr
      · simp at hx; subst hx; simp at hr
    · unfold PyRFLX.sizeEntry at hy
      obtain ⟨c, _, hy⟩ := PyRFLX.bind_ok hy
      cases c with
      | false => simp at hy; subst hy; simp at hr
      | true =>
        simp only [if_true] at hy
        obtain ⟨n, hn, rfl⟩ := PyRFLX.map_ok hy
        cases n with
        | none => simp at hr
        | some n =>
          simp only [List.mem_singleton, Prod.mk.injEq, true_and] at hr
          exact ⟨n, hn, hr⟩
    · unfold PyRFLX.firstEntry at hr
      split at hr <;> simp at hr
    · obtain ⟨n, _, rfl⟩ := PyRFLX.map_ok (hz : (PyRFLX.FV.last _ _).map _ = _)
      cases n <;> simp at hr
  · intro n hs hn
    have : y = [(Expr.attr false .size (.var false false f), n.expr)] := by
      unfold PyRFLX.sizeEntry at hy
      have hc : (if t.isComposite then v.isSet t else .ok true : Py Bool) = .ok true := by
        split
        · exact hs
        · rfl
      rw [hc, hn] at hy
      simpa [Except.bind, Except.map] using hy.symm
    subst this
    simp

theorem str_single (s : PyStr) : (⟨[s]⟩ : ID).str = s := by simp [ID.str, joinSep]

/-- Proof device: how the size of a field that is set is replaced. -/
theorem size_subst (W : WellFormed P) (S : SameMessage m P rest) (hM : m.newMapping fv = .ok M) {f : Field} (hf : f ∈ m.fields)
    (hs : (fv f).isSet (m.typeOf f) = .ok true) {n : Num} (hn : (fv f).size (m.typeOf f) = .ok (some n)) :
    substitution (M ++ m.lits) (.attr false .size (.var false false f)) = n.expr := by
  obtain ⟨M0, last, nxt, hM0, _, _, rfl⟩ := PyRFLX.newMapping_form hM
  obtain ⟨as, has, hsub⟩ := PyRFLX.fieldMapping_entry hM0 (List.mem_cons_of_mem _ hf)
  have hmem : (Expr.attr false .size (.var false false f), n.expr) ∈ PyRFLX.withMessage M0 last := by
    have := hsub _ ((entries_size has).2 n hs hn)
    cases last <;> simp [PyRFLX.withMessage, this]
  have hself : (Expr.attr false .size (.var false false f)).eq (.attr false .size (.var false false f)) = true := by
    simp [Expr.eq, Expr.cls, Expr.Cls.sub]
  have hfs : ∀ g ∈ INITIAL :: m.fields, g.str = f.str → g = f := by
    intro g hg h
    rw [S.spelled f hf, str_single] at h
    rcases List.mem_cons.mp hg with rfl | hg
    · rw [S.spelled f hf, ← h]
      rfl
    · rw [S.spelled g hg, str_single] at h
      rw [S.spelled g hg, S.spelled f hf, h]
  simp only [substitution, Expr.isName, if_true]
  cases hfi : (PyRFLX.withMessage M0 last ++ m.lits).find? (fun kv => kv.1.eq (.attr false .size (.var false false f))) with
  | none =>
    have := List.find?_eq_none.mp hfi _ (List.mem_append_left _ hmem)
    simp [hself] at this
  | some kv =>
    have he := List.find?_some hfi
    have hkv := List.mem_of_find?_eq_some hfi
    simp only
    rcases List.mem_append.mp hkv with hkv | hkv
    · have hmsg : ∀ a r, kv = (Expr.attr false a PyRFLX.messageVar, r) → False := by
        intro a r h
        rw [h] at he
        have := (attr_eq he).2
        rw [S.spelled f hf, str_single, str_single] at this
        refine W.names.message ?_
        rw [S.fields, List.mem_map]
        refine ⟨f, hf, ?_⟩
        rw [S.spelled f hf, ← this]
        rfl
      have hkv0 : kv ∈ M0 := by
        cases last with
        | none => exact hkv
        | some k =>
          simp only [PyRFLX.withMessage, List.mem_cons] at hkv
          rcases hkv with hkv | hkv | hkv
          · exact (hmsg _ _ hkv).elim
          · exact (hmsg _ _ hkv).elim
          · exact hkv
      have key : ∀ (fs : List Field) (M0 : List (Expr × Expr)), (∀ g ∈ fs, g ∈ INITIAL :: m.fields) → m.fieldMapping fv fs = .ok M0 → kv ∈ M0 →
          kv.2 = n.expr := by
        intro fs
        induction fs with
        | nil =>
          intro M0 _ h hk
          simp only [PyRFLX.Msg.fieldMapping, Except.ok.injEq] at h
          subst h
          simp only [List.mem_singleton] at hk
          exact (hmsg _ _ hk).elim
        | cons g fs ih =>
          intro M0 hfs' h hk
          obtain ⟨ax, hax, h⟩ := PyRFLX.bind_ok (h : (PyRFLX.entries _ _ _).bind _ = _)
          obtain ⟨r, hr, rfl⟩ := PyRFLX.map_ok h
          rcases List.mem_append.mp hk with hk | hk
          · rcases PyRFLX.entries_spec hax kv hk with ⟨_, _, _, _, _, h1, _⟩ | ⟨a, k, _, h1⟩
            · rw [h1] at he
              simp [Expr.eq, Expr.cls, Expr.Cls.sub] at he
            · obtain ⟨k1, k2⟩ := kv
              simp only [Prod.mk.injEq] at h1
              obtain ⟨rfl, rfl⟩ := h1
              obtain ⟨ha, hgf⟩ := attr_eq he
              have := hfs g (hfs' g (by simp)) hgf
              subst this
              obtain ⟨n', hn', h2⟩ := (entries_size hax).1 _ _ hk ha
              rw [hn] at hn'
              cases hn'
              exact h2
          · exact ih r (fun g hg => hfs' g (List.mem_cons_of_mem _ hg)) hr hk
      exact key _ _ (fun _ h => h) hM0 hkv0
    · have := (S.literals kv hkv).2 f hf
      rw [this] at he
      cases he

/-! ## Leaves -/

/-- Names and attributes are replaced by expressions with the same values. -/
theorem known_leaf (W : WellFormed P) (S : SameMessage m P rest) (hM : p ≠ [] → m.newMapping fv = .ok M) (hM' : PyRFLX.MappingOf m fv M)
    (I : Inv m P b lo fv p es) {e : Expr} (he : Known m.fields p e) :
    ∃ r, Cov (Known m.fields p) AnyRel r ∧ Mapped .ada (itemEnv P.m.msg b lo hi es) (itemEnv P.m.msg b lo hi es) e r ∧
      ∀ k, depth e + 4 ≤ k → subst k (substitution (M ++ m.lits)) e = .ok r := by
  have hmsg : ∀ id : ID, low id ∉ m.fields.map low → (itemEnv P.m.msg b lo hi es).var id.key = .int (literalNumber P.m.msg id.key) := by
    intro id h
    have ht := type?_none W.names (f := low id) (by rw [S.fields]; exact h)
    simp only [low] at ht
    simp [itemEnv, ht]
  cases e with
  | var ng imm id =>
    obtain ⟨rfl, rfl, hid⟩ := he
    refine ⟨substitution (M ++ m.lits) (.var false false id), ?_, ?_, fun k hk => sub_var (by omega)⟩
    all_goals
      simp only [substitution, Expr.isName, if_true]
      cases hfi : (M ++ m.lits).find? (fun kv => kv.1.eq (.var false false id)) with
      | none => first | exact ⟨rfl, rfl, hid⟩ | exact Mapped.refl (by simp [Expr.HQ])
      | some kv =>
        have hk := List.find?_some hfi
        simp only
        rcases List.mem_append.mp (List.mem_of_find?_eq_some hfi) with hkv | hkv
        · obtain ⟨g, hg, hgl, s, imp, x, ht, hx, hxe⟩ := var_entry hM' hkv hk
          have hgp : g ∈ p := by
            obtain ⟨g', hg', h⟩ := List.mem_map.mp (hid (by rw [← hgl]; exact List.mem_map_of_mem hg))
            rw [S.inj hg (I.mem g' hg') (by rw [h, hgl])]
            exact hg'
          obtain ⟨it, hit, R⟩ := I.find S hgp
          obtain ⟨x', hx', hval, hlit⟩ := R.scalar s imp ht
          rw [hx] at hx'
          cases hx'
          have hvar : (itemEnv P.m.msg b lo hi es).var id.key = .int it.value := by
            obtain ⟨t, htt⟩ := W.typed (low g) (by rw [S.fields]; exact List.mem_map_of_mem hg)
            have hst := S.types g hg t htt
            have h1 := type?_some W.names htt
            rw [hgl] at h1 hit
            simp only [low] at h1 hit
            have h2 : t.isScalar = true := by
              have : m.types g = .scalar s imp := by
                unfold PyRFLX.Msg.typeOf at ht
                split at ht
                · cases ht
                · exact ht
              rw [this] at hst
              cases s <;> cases t <;> simp [SameType, Verify.FTy.isScalar] at hst ⊢
            simp [itemEnv, h1, hit, h2]
          cases x with
          | int v =>
            simp only [PyRFLX.SVal.expr, Except.ok.injEq] at hxe
            rw [← hxe]
            first
              | trivial
              | refine Leaf.mapped (i := v) (num_leaf v .b0) (by simp [Expr.Const]) ?_
                intro w hw
                simp only [eval, hvar, Val.negIf, hval, PyRFLX.SVal.number] at hw
                simpa using hw.symm
          | enum txt n =>
            obtain ⟨i, hi, hie⟩ := PyRFLX.map_ok (hxe : (ID.ofStr txt).map _ = _)
            obtain ⟨h1, h2, h3⟩ := hlit txt n i rfl hi
            rw [← hie]
            first
              | exact ⟨rfl, rfl, fun h => absurd h h2⟩
              | refine Leaf.mapped (i := n) (var_leaf h1 (by rw [hmsg i h2, h3])) (by simp [Expr.Const]) ?_
                intro w hw
                simp only [eval, hvar, Val.negIf, hval, PyRFLX.SVal.number] at hw
                simpa using hw.symm
        · obtain ⟨h1, b', h2⟩ := (S.literals kv hkv).1 id hk
          rw [h2]
          first
            | trivial
            | refine Leaf.mapped (num_leaf _ b') (by simp [Expr.Const]) ?_
              intro w hw
              simp only [eval, hmsg id h1, Val.negIf] at hw
              simpa using hw.symm
  | attr ng a pre =>
    obtain ⟨rfl, rfl, f, hf, rfl⟩ := he
    obtain ⟨it, hit, R⟩ := I.find S hf
    obtain ⟨hfl, a, n, v, bits, h1, h2, h3, h4, h5, h6, _⟩ := R.same
    have hset := (PyRFLX.isSet_true h3 h2 h1).1
    have hsub := size_subst W S (hM (by rintro rfl; simp at hf)) (I.mem f hf) hset h2
    refine ⟨n.expr, trivial, ?_, ?_⟩
    · refine Leaf.mapped (i := n.v) (num_leaf n.v n.base) (by simp [Expr.Const]) ?_
      intro w hw
      have hne : f.key ≠ Verify.MESSAGE.key := by
        intro h
        refine W.names.message ?_
        rw [S.fields, List.mem_map]
        exact ⟨f, I.mem f hf, by simp [low, h]⟩
      simp only [low] at hit
      simp only [eval, itemEnv, hne, if_false, hit, Val.negIf, h4, h5] at hw
      simp only [Bool.false_eq_true, if_false, Option.some.injEq] at hw
      rw [← hw]
      congr 1
      omega
    · intro k hk
      obtain ⟨k, rfl⟩ : ∃ k', k = k' + 1 := ⟨k - 1, by omega⟩
      simp [subst, hsub, Num.expr, Except.bind]
  | agg as =>
    refine ⟨.agg as, he, ?_, fun k hk => subst_agg (fun e h => by simp [substitution, h]) he (by omega)⟩
    refine Mapped.refl ?_
    simp only [Expr.HQ]
    have he' : ∀ e ∈ as, ∃ v b, e = .num v b := he
    clear he
    induction as with
    | nil => simp [Expr.HQL]
    | cons a as ih =>
      rintro (h | h)
      · obtain ⟨v, b, rfl⟩ := he' a (by simp)
        simp [Expr.HQ] at h
      · exact ih (fun e he => he' e (List.mem_cons_of_mem _ he)) h
  | _ => exact he.elim

end Verif.Agree
