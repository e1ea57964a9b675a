import Verif.Ctx.Leaves

/-! # `Field_Condition` -/

namespace Verif.Ctx
open Verif Verif.Graph Verif.Verify Verif.Types Verif.Gen Verif.Spark Verif.Merge

/-- The first replacement in `Field_Condition`. -/
def own1 (n : PyStr) : Expr → Expr
  | .attr ng .size (.var false false id) => if id = ⟨[n]⟩ then .call ng U64 [.v SIZE] else .attr ng .size (.var false false id)
  | .attr ng .last (.var false false id) =>
    if id = ⟨[n]⟩ then .call ng U64 [.call false FIELD_LAST [ctxVar, fieldImm n]] else .attr ng .last (.var false false id)
  | e => e

/-- The second replacement in `Field_Condition`. -/
def own2 (n : PyStr) : Expr → Expr
  | .var ng false id => if id.key = [PyStr.lower n] then .call ng U64 [.v (valName n)] else .var ng false id
  | e => e

theorem negated_var (imm : Bool) (id : ID) : (Expr.var false imm id).negated = .ok (.var true imm id) := rfl

theorem negated_attr (a : AttrKind) (p : Expr) : (Expr.attr false a p).negated = .ok (.attr true a p) := by
  simp [Expr.negated, neg]

theorem negated_call (i : ID) (as : List Expr) : (Expr.call false i as).negated = .ok (.call true i as) := by
  simp [Expr.negated, neg]

/-- No attribute of the field `n`. -/
def NotAttr (n : PyStr) : Expr → Prop
  | .attr _ _ pre => pre ≠ .v ⟨[n]⟩
  | _ => True

theorem mapM_nums' {f : Expr → Expr} (hf : ∀ e, e.isName = false → f e = e) {es : List Expr} (h : ∀ e ∈ es, ∃ v b, e = .num v b) {k : Nat}
    (hk : depthL es ≤ k) : es.mapM (subst k f) = .ok es := by
  induction es with
  | nil => rfl
  | cons e es ih =>
    obtain ⟨v, b, rfl⟩ := h e List.mem_cons_self
    simp only [depthL, depth] at hk
    obtain ⟨k, rfl⟩ : ∃ k', k = k' + 1 := ⟨k - 1, by omega⟩
    rw [List.mapM_cons, ih (fun e he => h e (List.mem_cons_of_mem _ he)) (by omega)]
    simp only [subst, hf (.num v b) rfl]
    rfl

theorem subst_agg {f : Expr → Expr} (hf : ∀ e, e.isName = false → f e = e) {es : List Expr} (h : ∀ e ∈ es, ∃ v b, e = .num v b) {k : Nat}
    (hk : depth (.agg es) + 1 ≤ k) : subst k f (.agg es) = .ok (.agg es) := by
  simp only [depth] at hk
  obtain ⟨k, rfl⟩ : ∃ k', k = k' + 1 := ⟨k - 1, by omega⟩
  simp only [subst, hf (.agg es) rfl]
  rw [mapM_nums' hf h (by omega)]
  rfl

section
variable {P : Pkg}

/-- The dictionary of the first substitution. -/
def dict1 (m : GMsg) (n : PyStr) : List (Expr × Expr) :=
  [(at' .size ⟨[n]⟩, .call false U64 [.v SIZE]), (at' .last ⟨[n]⟩, .call false U64 [.call false FIELD_LAST [ctxVar, fieldImm n]])] ++
    m.msg.checksums.map fun k => (at' .validChecksum k.1, .tru)

theorem dict1_key {m : GMsg} {n : PyStr} {kv : Expr × Expr} (h : kv ∈ dict1 m n) :
    (kv = (at' .size ⟨[n]⟩, .call false U64 [.v SIZE]) ∨ kv = (at' .last ⟨[n]⟩, .call false U64 [.call false FIELD_LAST [ctxVar, fieldImm n]])) ∨
    ∃ c ∈ m.msg.checksums, kv = (at' .validChecksum c.1, .tru) := by
  simp only [dict1, List.mem_append, List.mem_cons, List.not_mem_nil, or_false, List.mem_map] at h
  rcases h with h | ⟨c, hc, rfl⟩
  · exact .inl h
  · exact .inr ⟨c, hc, rfl⟩

theorem find_none {m : List (Expr × Expr)} {e : Expr} (h : ∀ kv ∈ m, kv.1.eq e = false) : substitution m e = e := by
  unfold substitution
  split
  · have : m.find? (fun kv => kv.1.eq e) = none := List.find?_eq_none.mpr fun kv hkv => by simp [h kv hkv]
    rw [this]
  · rfl

theorem sub1_var {m : GMsg} {n : PyStr} (ng imm : Bool) (id : ID) : substitution (dict1 m n) (.var ng imm id) = .var ng imm id := by
  refine find_none fun kv hkv => ?_
  rcases dict1_key hkv with (rfl | rfl) | ⟨c, _, rfl⟩ <;> simp [at', Expr.eq, Expr.cls, Expr.Cls.sub]

theorem sub1_other {m : GMsg} {n : PyStr} (e : Expr) (h : e.isName = false) : substitution (dict1 m n) e = e := by
  simp [substitution, h]

/-- The name of an attribute: the field itself or another name. -/
theorem attr_name {m : GMsg} {o : Opts} {S : Field → Prop} (hN : Names m o) {f : Field} (hf : f ∈ m.msg.fields) {ng : Bool} {a : AttrKind} {id : ID}
    (h : Attribute m o S ng a id) : id.Lex ∧ (id.key = [PyStr.lower (m.spell f)] → id = ⟨[m.spell f]⟩) := by
  obtain ⟨_, rfl | ⟨g, hg, _, rfl, _⟩⟩ := h
  · refine ⟨message_lex, fun he => ?_⟩
    refine absurd ?_ hN.message
    rw [he, ← field_key hN hf]
    exact hf
  · refine ⟨(hN.field g hg).1, fun he => ?_⟩
    have : g = f := by
      rw [(hN.field g hg).2, (hN.field f hf).2]
      exact congrArg ID.mk he
    rw [this]

theorem sub1_attr {m : GMsg} {o : Opts} {S : Field → Prop} (hN : Names m o) {f : Field} (hf : f ∈ m.msg.fields) {ng : Bool} {a : AttrKind} {id : ID}
    (h : Attribute m o S ng a id) : substitution (dict1 m (m.spell f)) (at' a id) = own1 (m.spell f) (at' a id) := by
  obtain ⟨hlex, hkey⟩ := attr_name hN hf h
  have hfl := (hN.field f hf).1
  have hchk : a ≠ .validChecksum := by rcases h.1 with rfl | rfl | rfl <;> simp
  by_cases hid : id = ⟨[m.spell f]⟩
  · subst hid
    have e1 : (at' .size ⟨[m.spell f]⟩).eq (at' .last ⟨[m.spell f]⟩) = false := by
      cases he : (at' .size ⟨[m.spell f]⟩).eq (at' .last ⟨[m.spell f]⟩) with
      | false => rfl
      | true => cases (attr_eq hfl hfl he).1
    rcases h.1 with rfl | rfl | rfl
    · rw [show own1 (m.spell f) (at' .first ⟨[m.spell f]⟩) = at' .first ⟨[m.spell f]⟩ from rfl]
      refine find_none fun kv hkv => ?_
      cases he : kv.1.eq (at' .first ⟨[m.spell f]⟩) with
      | false => rfl
      | true =>
        rcases dict1_key hkv with (rfl | rfl) | ⟨c, hc, rfl⟩
        · cases (attr_eq hfl hlex he).1
        · cases (attr_eq hfl hlex he).1
        · cases (attr_eq (hN.checksum c hc) hlex he).1
    · have : own1 (m.spell f) (at' .last ⟨[m.spell f]⟩) = .call false U64 [.call false FIELD_LAST [ctxVar, fieldImm (m.spell f)]] := by
        simp [own1, at']
      rw [this]
      simp only [substitution, dict1]
      rw [show (at' .last ⟨[m.spell f]⟩).isName = true from rfl]
      simp only [List.cons_append, List.nil_append, List.find?_cons, e1, C11_eq_refl, if_true]
    · have : own1 (m.spell f) (at' .size ⟨[m.spell f]⟩) = .call false U64 [.v SIZE] := by
        simp [own1, at']
      rw [this]
      simp only [substitution, dict1]
      rw [show (at' .size ⟨[m.spell f]⟩).isName = true from rfl]
      simp only [List.cons_append, List.nil_append, List.find?_cons, C11_eq_refl, if_true]
  · have : own1 (m.spell f) (at' a id) = at' a id := by
      unfold own1 at'
      cases a <;> simp [hid]
    rw [this]
    refine find_none fun kv hkv => ?_
    cases he : kv.1.eq (at' a id) with
    | false => rfl
    | true =>
      rcases dict1_key hkv with (rfl | rfl) | ⟨c, hc, rfl⟩
      · exact absurd (hkey (attr_eq hfl hlex he).2.symm) hid
      · exact absurd (hkey (attr_eq hfl hlex he).2.symm) hid
      · exact absurd (attr_eq (hN.checksum c hc) hlex he).1.symm hchk

theorem subst_same {g : Expr → Expr} {a : AttrKind} {id : ID} {k : Nat} (ng : Bool) (hg : g (at' a id) = at' a id) (hv : g (.v id) = .v id) :
    subst (k + 2) g (.attr ng a (.v id)) = .ok (.attr ng a (.v id)) := by
  have hs : ∀ x, g (at' a id) = x → subst (k + 2) g (.attr ng a (.v id)) = (match x with
        | .attr _ a' pre' => (subst (k + 1) g pre').map (Expr.attr false a')
        | x => (.ok x : Py Expr)).bind fun x => if ng then x.negated else .ok x := by
    rintro x rfl
    rfl
  rw [hs _ hg]
  simp only [at', subst, hv, Bool.false_eq_true, if_false, Except.map, Except.bind]
  cases ng <;> simp [negated_attr]

/-- Attributes: the result for a positive one determines that for a negative one. -/
theorem subst_attr {g : Expr → Expr} {n : PyStr} {a : AttrKind} {id : ID} {k : Nat} (ng : Bool) (hg : g (at' a id) = own1 n (at' a id))
    (hv : ¬ (id = ⟨[n]⟩ ∧ (a = .size ∨ a = .last)) → g (.v id) = .v id) : subst (k + 2) g (.attr ng a (.v id)) = .ok (own1 n (.attr ng a (.v id))) := by
  have hs : ∀ x, g (at' a id) = x → subst (k + 2) g (.attr ng a (.v id)) = (match x with
        | .attr _ a' pre' => (subst (k + 1) g pre').map (Expr.attr false a')
        | x => (.ok x : Py Expr)).bind fun x => if ng then x.negated else .ok x := by
    rintro x rfl
    rfl
  by_cases h : id = ⟨[n]⟩ ∧ (a = .size ∨ a = .last)
  · rw [hs _ hg]
    obtain ⟨rfl, rfl | rfl⟩ := h
    · cases ng <;> simp [own1, at', Except.bind, negated_call]
    · cases ng <;> simp [own1, at', Except.bind, negated_call]
  · have h1 : ∀ ng, own1 n (.attr ng a (.v id)) = .attr ng a (.v id) := by
      intro ng
      unfold own1
      split
      · rename_i heq
        cases heq
        rw [if_neg fun hid => h ⟨hid, .inl rfl⟩]
      · rename_i heq
        cases heq
        rw [if_neg fun hid => h ⟨hid, .inr rfl⟩]
      · rfl
    rw [h1]
    rw [at', h1] at hg
    exact subst_same ng hg (hv h)

/-- The first substitution. -/
theorem sub1_leaf {m : GMsg} {o : Opts} {S : Field → Prop} (hN : Names m o) {f : Field} (hf : f ∈ m.msg.fields) {e : Expr} (h : NameLeaf m o S e)
    (k : Nat) (hk : depth e + 1 ≤ k) : subst k (substitution (dict1 m (m.spell f))) e = .ok (own1 (m.spell f) e) := by
  cases e with
  | var ng imm id =>
    obtain ⟨k, rfl⟩ : ∃ k', k = k' + 1 := ⟨k - 1, by omega⟩
    simp only [subst, sub1_var, own1, negated_var]
    cases imm <;> cases ng <;> rfl
  | attr ng a pre =>
    cases pre with
    | var ng' imm id =>
      obtain ⟨rfl, rfl, ha⟩ := h
      simp only [depth] at hk
      obtain ⟨k, rfl⟩ : ∃ k', k = k' + 2 := ⟨k - 2, by omega⟩
      exact subst_attr ng (sub1_attr hN hf ha) fun _ => sub1_var ..
    | _ => simp [NameLeaf] at h
  | agg es => exact subst_agg sub1_other h hk
  | _ => simp [NameLeaf] at h

/-! ## The second substitution -/

/-- The function of the second substitution. -/
def func2 (n : PyStr) (x : Expr) : Expr := if x.eq (.v ⟨[n]⟩) then .call false U64 [.v (valName n)] else x

theorem func2_other {n : PyStr} (e : Expr) (h : e.isName = false) : func2 n e = e := by
  cases e <;> simp [Expr.isName] at h <;> simp [func2, Expr.eq, Expr.cls, Expr.Cls.sub]

theorem func2_name {n : PyStr} (e : Expr) (h : ∀ ng imm id, e ≠ .var ng imm id) : func2 n e = e := by
  cases e <;> simp [func2, Expr.eq, Expr.cls, Expr.Cls.sub] at h ⊢

theorem func2_var {n : PyStr} (id : ID) : func2 n (.v id) = own2 n (.v id) := by
  have : (Expr.v id).eq (.v ⟨[n]⟩) = true ↔ id.key = [PyStr.lower n] := by
    simp only [Expr.eq, Expr.cls, Expr.Cls.sub]
    simp only [beq_self_eq_true, Bool.true_or, Bool.true_and, ID.eq_iff_key]
    rfl
  simp only [func2, own2, this]

theorem func2_call {n : PyStr} (ng : Bool) (i : ID) {as : List Expr} {k : Nat} (h : ∀ a ∈ as, subst k (func2 n) a = .ok a) :
    subst (k + 1) (func2 n) (.call ng i as) = .ok (.call ng i as) := by
  have : as.mapM (subst k (func2 n)) = .ok as := by
    induction as with
    | nil => rfl
    | cons a as ih =>
      rw [List.mapM_cons, h a List.mem_cons_self, ih fun a ha => h a (List.mem_cons_of_mem _ ha)]
      rfl
  rw [subst, func2_name _ (by simp)]
  simp only [this]
  rfl

theorem func2_stays {n : PyStr} {id : ID} (h : id.key ≠ [PyStr.lower n]) : func2 n (.v id) = .v id := by
  rw [func2_var]
  simp only [own2, if_neg h]

theorem own2_attr {n : PyStr} (ng : Bool) (a : AttrKind) (p : Expr) : own2 n (.attr ng a p) = .attr ng a p := rfl

/-- The leaves of the second substitution. -/
def Leaf2 (m : GMsg) (o : Opts) (S : Field → Prop) (n : PyStr) (e : Expr) : Prop := (NameLeaf m o S e ∧ NotAttr n e) ∨ Leaf3 m e

theorem sub2_leaf {m : GMsg} {o : Opts} {S : Field → Prop} (hN : Names m o) (hs : ⟨[['s', 'i', 'z', 'e']]⟩ ∉ m.msg.fields) {f : Field}
    (hf : f ∈ m.msg.fields) {e : Expr} (h : Leaf2 m o S (m.spell f) e) (k : Nat) (hk : depth e + 1 ≤ k) :
    subst k (func2 (m.spell f)) e = .ok (own2 (m.spell f) e) := by
  have hne : ∀ id : ID, ⟨id.key⟩ ∉ m.msg.fields → id.key ≠ [PyStr.lower (m.spell f)] := by
    intro id h1 h2
    rw [← field_key hN hf] at h2
    rw [h2] at h1
    exact h1 hf
  rcases h with ⟨h, hn⟩ | h
  · cases e with
    | var ng imm id =>
      obtain ⟨k, rfl⟩ : ∃ k', k = k' + 1 := ⟨k - 1, by omega⟩
      cases imm with
      | true => simp [subst, own2]
      | false =>
        simp only [subst, func2_var, own2, Bool.false_eq_true, if_false]
        by_cases hkey : id.key = [PyStr.lower (m.spell f)]
        · simp only [if_pos hkey, negated_call]
          cases ng
          · simp [func2_var, own2, if_pos hkey]
          · rfl
        · simp only [if_neg hkey, negated_var]
          cases ng
          · simp [func2_var, own2, if_neg hkey]
          · rfl
    | attr ng a pre =>
      cases pre with
      | var ng' imm id =>
        obtain ⟨rfl, rfl, ha⟩ := h
        simp only [depth] at hk
        obtain ⟨k, rfl⟩ : ∃ k', k = k' + 2 := ⟨k - 2, by omega⟩
        refine subst_same ng (func2_name _ (by simp [at'])) (func2_stays fun hkey => hn ?_)
        rw [(attr_name hN hf ha).2 hkey]
      | _ => simp [NameLeaf] at h
    | agg es => exact subst_agg func2_other h hk
    | _ => simp [NameLeaf] at h
  · have hctx : ∀ k, subst (k + 1) (func2 (m.spell f)) ctxVar = .ok ctxVar := by
      intro k
      have : func2 (m.spell f) ctxVar = ctxVar := func2_stays (hne ⟨[CTX]⟩ hN.ctx)
      simp only [ctxVar] at this ⊢
      simp [subst, this]
    have himm : ∀ n k, subst (k + 1) (func2 (m.spell f)) (fieldImm n) = .ok (fieldImm n) := by
      intro n k
      simp [fieldImm, subst]
    cases h with
    | valid st hg =>
      simp only [depth, depthL] at hk
      obtain ⟨k, rfl⟩ : ∃ k', k = k' + 2 := ⟨k - 2, by omega⟩
      refine func2_call _ _ fun a ha => ?_
      simp only [List.mem_cons, List.not_mem_nil, or_false] at ha
      rcases ha with rfl | rfl
      · exact hctx _
      · exact himm _ _
    | size ng =>
      simp only [depth, depthL] at hk
      obtain ⟨k, rfl⟩ : ∃ k', k = k' + 2 := ⟨k - 2, by omega⟩
      refine func2_call _ _ fun a ha => ?_
      simp only [List.mem_cons, List.not_mem_nil, or_false] at ha
      subst ha
      have := func2_stays (hne SIZE hs)
      simp [subst, this]
    | last ng hg =>
      simp only [depth, depthL] at hk
      obtain ⟨k, rfl⟩ : ∃ k', k = k' + 3 := ⟨k - 3, by omega⟩
      refine func2_call _ _ fun a ha => ?_
      simp only [List.mem_cons, List.not_mem_nil, or_false] at ha
      subst ha
      refine func2_call _ _ fun a ha => ?_
      simp only [List.mem_cons, List.not_mem_nil, or_false] at ha
      rcases ha with rfl | rfl
      · exact hctx _
      · exact himm _ _
    | @value ng g hg =>
      simp only [depth, depthL] at hk
      obtain ⟨k, rfl⟩ : ∃ k', k = k' + 2 := ⟨k - 2, by omega⟩
      refine func2_call _ _ fun a ha => ?_
      simp only [List.mem_cons, List.not_mem_nil, or_false] at ha
      subst ha
      have := func2_stays (n := m.spell f) (id := valName (m.spell g)) (by simp [valName, ID.key])
      simp [subst, this]

/-- Both replacements. -/
def ownBoth (scalar : Bool) (n : PyStr) (e : Expr) : Expr := if scalar then own2 n (own1 n e) else own1 n e

theorem mapLeaf_comp (n : PyStr) (h : Expr → Expr) (e : Expr) : mapLeaf h (mapLeaf (own1 n) e) = mapLeaf (fun x => h (own1 n x)) e := by
  induction e using Expr.ind with
  | tru => rfl
  | fls => rfl
  | num => rfl
  | bool op ts ih => simp only [mapLeaf, mapLeafL_eq, List.map_map]; congr 1; exact List.map_congr_left ih
  | add ts ih => simp only [mapLeaf, mapLeafL_eq, List.map_map]; congr 1; exact List.map_congr_left ih
  | mul ts ih => simp only [mapLeaf, mapLeafL_eq, List.map_map]; congr 1; exact List.map_congr_left ih
  | bin op l r ihl ihr => simp only [mapLeaf, ihl, ihr]
  | rel op l r ihl ihr => simp only [mapLeaf, ihl, ihr]
  | attr ng a p =>
    simp only [mapLeaf, own1]
    split
    · split <;> rfl
    · split <;> rfl
    · rfl
  | _ => rfl

theorem mapLeaf_id (e : Expr) : mapLeaf (fun x => x) e = e := by
  induction e using Expr.ind with
  | bool op ts ih => simp only [mapLeaf, mapLeafL_eq]; rw [List.map_congr_left ih, List.map_id'']; exact fun _ => rfl
  | add ts ih => simp only [mapLeaf, mapLeafL_eq]; rw [List.map_congr_left ih, List.map_id'']; exact fun _ => rfl
  | mul ts ih => simp only [mapLeaf, mapLeafL_eq]; rw [List.map_congr_left ih, List.map_id'']; exact fun _ => rfl
  | bin op l r ihl ihr => simp only [mapLeaf, ihl, ihr]
  | rel op l r ihl ihr => simp only [mapLeaf, ihl, ihr]
  | _ => rfl

theorem notFirst_rel {n : PyStr} (op : RelOp) (l r : Expr) : ¬ NotFirst n (.rel op l r) := by simp [NotFirst]

theorem own1_leaf {m : GMsg} {o : Opts} {S : Field → Prop} {f : Field} (hf : f ∈ m.msg.fields) {e : Expr} (h : NameLeaf m o S e)
    (hn : NotFirst (m.spell f) e) : Leaf2 m o S (m.spell f) (own1 (m.spell f) e) := by
  cases e with
  | var ng imm id => exact .inl ⟨h, trivial⟩
  | attr ng a pre =>
    cases pre with
    | var ng' imm id =>
      obtain ⟨rfl, rfl, ha⟩ := h
      by_cases hid : id = ⟨[m.spell f]⟩
      · subst hid
        rcases ha.1 with rfl | rfl | rfl
        · exact absurd ⟨rfl, rfl⟩ hn
        · refine .inr ?_
          simp only [own1, if_true]
          exact .last ng hf
        · refine .inr ?_
          simp only [own1, if_true]
          exact .size ng
      · refine .inl ?_
        have : own1 (m.spell f) (.attr ng a (.var false false id)) = .attr ng a (.var false false id) := by
          unfold own1
          cases a <;> simp [hid]
        rw [this]
        refine ⟨⟨rfl, rfl, ha⟩, ?_⟩
        simp only [NotAttr]
        intro he
        cases he
        exact hid rfl
    | _ => simp [NameLeaf] at h
  | agg es => exact .inl ⟨h, trivial⟩
  | _ => simp [NameLeaf] at h

theorem leaf2_rel {m : GMsg} {o : Opts} {S : Field → Prop} {n : PyStr} (op : RelOp) (l r : Expr) : ¬ Leaf2 m o S n (.rel op l r) := by
  rintro (⟨h, _⟩ | h)
  · exact nameLeaf_rel _ _ _ h
  · cases h

/-- The condition in `Field_Condition` before the last substitution. -/
theorem ownCondition_eq {o : Opts} {S : Field → Prop} (hN : Names P.m o) (hs : ⟨[['s', 'i', 'z', 'e']]⟩ ∉ P.m.msg.fields) {f : Field}
    (hf : f ∈ P.m.msg.fields) {N : RelOp → Expr → Expr → Prop} {e : Expr} (he : e = .bool .or ((outgoing P.m.msg.links f).map (·.condition)))
    (h1 : Cov (NameLeaf P.m o S) N e) (h2 : Cov (NotFirst (P.m.spell f)) (fun _ _ _ => True) e) :
    P.ownCondition f = .ok (mapLeaf (ownBoth (P.isScalar f) (P.m.spell f)) e) := by
  have s1 : subst (depth e + 1) (substitution (dict1 P.m (P.m.spell f))) e = .ok (mapLeaf (own1 (P.m.spell f)) e) :=
    subst_mapLeaf (N := N) sub1_other nameLeaf_rel (fun e he k hk => sub1_leaf hN hf he k hk) e h1 _ (Nat.le_refl _)
  have c2 : Cov (Leaf2 P.m o S (P.m.spell f)) (fun _ _ _ => True) (mapLeaf (own1 (P.m.spell f)) e) := by
    refine cov_mapLeaf (L := fun e => NameLeaf P.m o S e ∧ NotFirst (P.m.spell f) e) (N := N) (fun _ _ _ h => nameLeaf_rel _ _ _ h.1) ?_ ?_ e
      (cov_and nameLeaf_rel notFirst_rel e h1 h2)
    · intro e ⟨h3, h4⟩
      have := own1_leaf hf h3 h4
      cases he : own1 (P.m.spell f) e <;> rw [he] at this <;> first
        | exact this
        | (simp only [Cov]; done)
        | (exfalso; rcases this with ⟨h, _⟩ | h
           · simp [NameLeaf] at h
           · cases h)
    · intro op l r _ _ _ h5 h6
      exact .inr ⟨trivial, h5, h6⟩
  have s2 : subst (depth (mapLeaf (own1 (P.m.spell f)) e) + 4) (func2 (P.m.spell f)) (mapLeaf (own1 (P.m.spell f)) e) =
      .ok (mapLeaf (own2 (P.m.spell f)) (mapLeaf (own1 (P.m.spell f)) e)) :=
    subst_mapLeaf func2_other leaf2_rel (fun e he k hk => sub2_leaf hN hs hf he k hk) _ c2 _ (by omega)
  rw [mapLeaf_comp] at s2
  have s1' : Expr.substituted (dict1 P.m (P.m.spell f)) e = .ok (mapLeaf (own1 (P.m.spell f)) e) := s1
  show (Expr.substituted (dict1 P.m (P.m.spell f)) (.bool .or ((outgoing P.m.msg.links f).map (·.condition)))).bind _ = _
  rw [← he, s1']
  simp only [Except.bind]
  cases hsc : P.isScalar f with
  | true => simp only [if_true]; exact s2
  | false => rfl

end

end Verif.Ctx
