import Verif.Gen.Values

/-! # Substitution in conditions -/

namespace Verif.Gen
open Verif Verif.Graph Verif.Verify Verif.Types Verif.Merge

/-- What the names of a message stand for, with identifiers that are words. -/
def NameOK (m : GMsg) (o : Opts) (S : Field → Prop) : Expr → Prop
  | .var _ imm id => imm = false ∧ (ScalarField m S id ∨ LitName m id)
  | .attr ng a pre =>
    match pre with
    | .var ng' imm id => ng' = false ∧ imm = false ∧ Attribute m o S ng a id
    | _ => False
  | .rel op l r =>
    match l, r with
    | .var ng _ id, .agg es => id.Lex ∧ Comparison m o S op ng id es
    | .agg es, .var ng _ id => id.Lex ∧ Comparison m o S op ng id es
    | .var ng imm id, .num .. => id.Lex ∧ imm = false ∧ ng = false ∧ ScalarField m S id
    | .num .., .var ng imm id => id.Lex ∧ imm = false ∧ ng = false ∧ ScalarField m S id
    | _, _ => False
  | _ => False

theorem condL_iff {m : GMsg} {o : Opts} {S : Field → Prop} {ts : List Expr} : CondL m o S ts ↔ ∀ t ∈ ts, Cond m o S t := by
  induction ts with
  | nil => simp [CondL]
  | cons t ts ih => simp [CondL, ih]

section
variable {m : GMsg} {o : Opts} {S : Field → Prop}

theorem field?_none {id : ID} (h : ⟨id.key⟩ ∉ m.msg.fields) : m.field? id = none := by simp [GMsg.field?, h]

theorem field?_some {id : ID} (hN : Names m o) (h : ⟨id.key⟩ ∈ m.msg.fields) : ∃ n, id.parts = [n] ∧ m.field? id = some n := by
  have h1 := (hN.field _ h).2
  have h2 : id.key = [PyStr.lower (m.spell ⟨id.key⟩)] := by
    have := congrArg ID.parts h1
    exact this
  have h3 : id.parts.length = 1 := by
    have := congrArg List.length h2
    simpa [ID.key] using this
  obtain ⟨n, hn⟩ := List.length_eq_one_iff.mp h3
  exact ⟨n, hn, by simp [GMsg.field?, h, hn]⟩

theorem cond_cov (hN : Names m o) (e : Expr) : Cond m o S e → e.WF →
    Cov (NameOK m o S) (fun op l r => o.relation m op l r = .rel op l r) e := by
  induction e using Expr.ind with
  | tru => intro _ _; simp [Cov]
  | fls => intro _ _; simp [Cov]
  | num => intro _ _; simp [Cov]
  | var => intro h _; simpa [Cov, NameOK, Cond] using h
  | attr ng a pre ih =>
    intro h _
    cases pre <;> simp only [Cond] at h
    simpa [Cov, NameOK] using h
  | bool op ts ih =>
    intro h hw
    simp only [Cond, condL_iff, Expr.WF, WFL_iff, Cov, covL_iff] at h hw ⊢
    exact fun t ht => ih t ht (h t ht) (hw.1 t ht)
  | add ts ih =>
    intro h hw
    simp only [Cond, condL_iff, Expr.WF, WFL_iff, Cov, covL_iff] at h hw ⊢
    exact fun t ht => ih t ht (h t ht) (hw.1 t ht)
  | mul ts ih =>
    intro h hw
    simp only [Cond, condL_iff, Expr.WF, WFL_iff, Cov, covL_iff] at h hw ⊢
    exact fun t ht => ih t ht (h t ht) (hw t ht)
  | bin op l r ihl ihr => intro h hw; exact ⟨ihl h.1 hw.1, ihr h.2 hw.2⟩
  | rel op l r ihl ihr =>
    intro h hw
    simp only [Cov]
    unfold Cond at h
    split at h
    · left; exact ⟨hw.1, h⟩
    · left; exact ⟨hw.2, h⟩
    · rename_i ng imm id v b
      obtain ⟨rfl, ⟨rfl, hs⟩ | hl⟩ := h
      · left; exact ⟨hw.1, rfl, rfl, hs⟩
      · right
        refine ⟨?_, by simp [Cov, NameOK, hl], by simp [Cov]⟩
        simp [Opts.relation, field?_none (hN.literal id hl).1]
    · rename_i v b ng imm id
      obtain ⟨rfl, ⟨rfl, hs⟩ | hl⟩ := h
      · left; exact ⟨hw.2, rfl, rfl, hs⟩
      · right
        refine ⟨?_, by simp [Cov], by simp [Cov, NameOK, hl]⟩
        simp [Opts.relation, field?_none (hN.literal id hl).1]
    · rename_i n1 n2 n3 n4
      right
      refine ⟨?_, ihl h.1 hw.1, ihr h.2 hw.2⟩
      unfold Opts.relation
      split
      · exact (n1 _ _ _ _ rfl rfl).elim
      · exact (n2 _ _ _ _ rfl rfl).elim
      · exact (n3 _ _ _ _ _ rfl rfl).elim
      · exact (n4 _ _ _ _ _ rfl rfl).elim
      · rfl
  | _ => intro h; simp [Cond] at h

/-- A variable in the dictionary. -/
theorem var_key {o : Opts} {m : GMsg} {kv : Expr × Expr} {i : ID} (h : Entry o m kv) (he : kv.1.eq (.v i) = true) :
    (∃ e ∈ m.msg.types, kv = (.v ⟨[m.spell e.1]⟩, o.conv (o.fieldValue (m.spell e.1) e.2)) ∧ [PyStr.lower (m.spell e.1)] = i.key) ∨
    ∃ l, LitName m l ∧ l.Lex ∧ kv = o.literal l ∧ l.key = i.key := by
  cases h
  case value e hm =>
    left
    refine ⟨e, hm, rfl, ?_⟩
    simp only [Expr.eq, Expr.cls, Expr.Cls.sub] at he
    simpa [ID.eq_iff_key, ID.key] using he
  case lit l h1 h2 =>
    right
    refine ⟨l, h1, h2, rfl, ?_⟩
    simp only [Opts.literal, Expr.eq, Expr.cls, Expr.Cls.sub] at he
    simpa [ID.eq_iff_key] using he
  all_goals simp [at', Expr.eq, Expr.cls, Expr.Cls.sub] at he

variable {D : Division} {V : View} {σ : Env} {fs : List (Expr × Expr)}

/-- The dictionary is that of `substitution_facts`. -/
structure Facts (o : Opts) (m : GMsg) (fs : List (Expr × Expr)) : Prop where
  sound : ∀ kv ∈ fs, Entry o m kv
  complete : ∀ kv, Entry o m kv → ∃ kv' ∈ fs, kv'.1.eq kv.1 = true

theorem Facts.var (F : Facts o m fs) {kv : Expr × Expr} {i j : ID} (h : Entry o m kv) (hk : kv.1 = .v i) (hij : i.key = j.key) :
    ∃ kv' ∈ fs, kv'.1.eq (.v j) = true := by
  obtain ⟨kv', h1, h2⟩ := F.complete kv h
  refine ⟨kv', h1, ?_⟩
  rw [hk] at h2
  rcases (F.sound kv' h1).key with ⟨a, x, hx⟩ | ⟨x, hx⟩
  · rw [hx] at h2; simp [at', Expr.eq, Expr.cls, Expr.Cls.sub] at h2
  · rw [hx] at h2 ⊢
    simp only [Expr.eq, Expr.cls, Expr.Cls.sub] at h2 ⊢
    simp only [beq_self_eq_true, Bool.true_or, Bool.true_and, ID.eq_iff_key] at h2 ⊢
    rw [h2, hij]

theorem nodup_pair {α β : Type} : ∀ {l : List (α × β)}, (l.map (·.1)).Nodup → ∀ {a b c}, (a, b) ∈ l → (a, c) ∈ l → b = c := by
  intro l
  induction l with
  | nil => intro _ a b c h; cases h
  | cons x l ih =>
    intro hn a b c h1 h2
    rw [List.map_cons, List.nodup_cons] at hn
    rcases List.mem_cons.mp h1 with rfl | h3 <;> rcases List.mem_cons.mp h2 with h4 | h4
    · exact (Prod.mk.inj h4).2.symm
    · exact absurd (List.mem_map.mpr ⟨_, h4, rfl⟩) hn.1
    · subst h4; exact absurd (List.mem_map.mpr ⟨(a, b), h3, rfl⟩) hn.1
    · exact ih hn.2 h3 h4

theorem field_key {f : Field} (hN : Names m o) (hf : f ∈ m.msg.fields) : f.parts = [PyStr.lower (m.spell f)] := by
  have := congrArg ID.parts (hN.field f hf).2
  exact this

/-- The value of a field. -/
theorem lookup_scalar (F : Facts o m fs) (hN : Names m o) (ht : Target o) (R : Represents m o V S σ) {id : ID}
    (h : ScalarField m S id) : ∃ i, σ.var id.key = .int i ∧ Num D (V.env o.embedded) (o.func m fs (.v id)) i := by
  obtain ⟨hS, t, hmem, hsc⟩ := h
  have hf := hN.typed _ hmem
  have hk : id.key = [PyStr.lower (m.spell ⟨id.key⟩)] := field_key hN hf
  refine ⟨if o.pub then V.get (PyStr.lower (m.spell ⟨id.key⟩)) else V.cValue (PyStr.lower (m.spell ⟨id.key⟩)), ?_, ?_⟩
  · have := R.scalar ⟨id.key⟩ _ t hS hk hmem hsc
    rw [← hk] at this
    exact this
  · refine func_name (Q := fun x => Num D (V.env o.embedded) x _) rfl (F.var (.value _ hmem) rfl ?_) ?_
    · exact hk.symm
    · intro kv hkv he
      rcases var_key (F.sound kv hkv) he with ⟨e, hem, rfl, hek⟩ | ⟨l, hl, _, rfl, hlk⟩
      · have h1 : e.1 = ⟨id.key⟩ := by
          have := (hN.field _ (hN.typed e hem)).2
          rw [this, hek]
        obtain ⟨e1, e2⟩ := e
        simp only at h1
        subst h1
        cases nodup_pair hN.once hem hmem
        exact (num_value (hN.field _ hf).1 hsc).conv ht
      · have := (hN.literal l hl).1
        rw [hlk] at this
        exact absurd hf this

/-- The value of an enumeration literal. -/
theorem lookup_literal (F : Facts o m fs) (hN : Names m o) (ht : Target o) (R : Represents m o V S σ) {id : ID} (hlex : id.Lex)
    (h : LitName m id) : ∃ i, σ.var id.key = .int i ∧ Num D (V.env o.embedded) (o.func m fs (.v id)) i := by
  refine ⟨V.lit id.key, R.literal id h, ?_⟩
  refine func_name (Q := fun x => Num D (V.env o.embedded) x _) rfl (F.var (.lit id h hlex) rfl rfl) ?_
  intro kv hkv he
  rcases var_key (F.sound kv hkv) he with ⟨e, hem, rfl, hek⟩ | ⟨l, hl, hll, rfl, hlk⟩
  · have h1 : e.1 = ⟨id.key⟩ := by
      have := (hN.field _ (hN.typed e hem)).2
      rw [this, hek]
    exact absurd (h1 ▸ hN.typed e hem) (hN.literal id h).1
  · have := num_literal (D := D) (V := V) (emb := o.embedded) hll (hN.literal l hl).2
    rw [hlk] at this
    exact this.conv ht

theorem message_lex : MESSAGE.Lex := by decide

/-- An attribute in the dictionary. -/
theorem attr_key (hN : Names m o) {kv : Expr × Expr} {a : AttrKind} {i : ID} (hi : i.Lex) (h : Entry o m kv)
    (he : kv.1.eq (at' a i) = true) (ha : a ≠ .validChecksum) :
    (i.key = MESSAGE.key ∧ ((a = .first ∧ kv.2 = o.conv (o.pref FIRST)) ∨ (a = .last ∧ kv.2 = o.conv (o.pref LAST)) ∨
      (a = .size ∧ kv.2 = o.conv (.add [o.pref LAST, .var true false ⟨if o.embedded then [FIRST] else [CTX, FIRST]⟩, .n 1])))) ∨
    (∃ f ∈ m.msg.fields, f = ⟨i.key⟩ ∧ ((a = .first ∧ kv.2 = o.conv (o.fieldFirst (m.spell f))) ∨
      (a = .last ∧ kv.2 = o.conv (o.fieldLast (m.spell f))) ∨ (a = .size ∧ kv.2 = o.conv (o.fieldSize (m.spell f))))) := by
  have fk : ∀ f, f ∈ m.msg.fields → ID.key ⟨[m.spell f]⟩ = i.key → f = ⟨i.key⟩ := by
    intro f hf h
    have := (hN.field f hf).2
    rw [this, ← h]
    rfl
  cases h
  case mfirst => obtain ⟨rfl, h⟩ := attr_eq message_lex hi he; left; exact ⟨h.symm, .inl ⟨rfl, rfl⟩⟩
  case mlast => obtain ⟨rfl, h⟩ := attr_eq message_lex hi he; left; exact ⟨h.symm, .inr (.inl ⟨rfl, rfl⟩)⟩
  case msize => obtain ⟨rfl, h⟩ := attr_eq message_lex hi he; left; exact ⟨h.symm, .inr (.inr ⟨rfl, rfl⟩)⟩
  case first f hf =>
    obtain ⟨rfl, h⟩ := attr_eq (hN.field f hf).1 hi he; right; exact ⟨f, hf, fk f hf h, .inl ⟨rfl, rfl⟩⟩
  case last f hf =>
    obtain ⟨rfl, h⟩ := attr_eq (hN.field f hf).1 hi he; right; exact ⟨f, hf, fk f hf h, .inr (.inl ⟨rfl, rfl⟩)⟩
  case size f hf =>
    obtain ⟨rfl, h⟩ := attr_eq (hN.field f hf).1 hi he; right; exact ⟨f, hf, fk f hf h, .inr (.inr ⟨rfl, rfl⟩)⟩
  case chk c hc => obtain ⟨rfl, h⟩ := attr_eq (hN.checksum c hc) hi he; exact absurd rfl ha
  all_goals simp [at', Opts.literal, Expr.eq, Expr.cls, Expr.Cls.sub] at he

theorem Facts.attr (F : Facts o m fs) {kv : Expr × Expr} (h : Entry o m kv) : ∃ kv' ∈ fs, kv'.1.eq kv.1 = true := F.complete kv h

/-- The value of an attribute. -/
theorem lookup_attr (F : Facts o m fs) (hN : Names m o) (ht : Target o) (R : Represents m o V S σ) {ng : Bool} {a : AttrKind} {id : ID}
    (h : Attribute m o S ng a id) : ∃ i, σ.attr a id.key = .int i ∧ Leaf D (V.env o.embedded) (o.func m fs (at' a id)) i ∧
      (ng = true → (o.func m fs (at' a id)).Neg D.Odd) := by
  obtain ⟨ha, rfl | ⟨f, hf, hS, rfl, hng⟩⟩ := h
  · have nf : ∀ f ∈ m.msg.fields, f ≠ ⟨MESSAGE.key⟩ := fun f hf h => hN.message (h ▸ hf)
    rcases ha with rfl | rfl | rfl
    · suffices h : Num D (V.env o.embedded) (o.func m fs (at' .first MESSAGE)) V.first from ⟨_, R.first, h.toLeaf, fun _ => h.neg⟩
      refine func_name (Q := fun x => Num D (V.env o.embedded) x _) rfl (F.attr .mfirst) ?_
      intro kv hkv he
      rcases attr_key hN message_lex (F.sound kv hkv) he (by decide) with ⟨_, ⟨_, h⟩ | ⟨h, _⟩ | ⟨h, _⟩⟩ | ⟨f, hf, h, _⟩
      · rw [h]; exact num_pref_first.conv ht
      · cases h
      · cases h
      · exact absurd h (nf f hf)
    · suffices h : Num D (V.env o.embedded) (o.func m fs (at' .last MESSAGE)) V.last from ⟨_, R.last, h.toLeaf, fun _ => h.neg⟩
      refine func_name (Q := fun x => Num D (V.env o.embedded) x _) rfl (F.attr .mlast) ?_
      intro kv hkv he
      rcases attr_key hN message_lex (F.sound kv hkv) he (by decide) with ⟨_, ⟨h, _⟩ | ⟨_, h⟩ | ⟨h, _⟩⟩ | ⟨f, hf, h, _⟩
      · cases h
      · rw [h]; exact num_pref_last.conv ht
      · cases h
      · exact absurd h (nf f hf)
    · suffices h : Num D (V.env o.embedded) (o.func m fs (at' .size MESSAGE)) (V.last - V.first + 1) from
        ⟨_, R.size, h.toLeaf, fun _ => h.neg⟩
      refine func_name (Q := fun x => Num D (V.env o.embedded) x _) rfl (F.attr .msize) ?_
      intro kv hkv he
      rcases attr_key hN message_lex (F.sound kv hkv) he (by decide) with ⟨_, ⟨h, _⟩ | ⟨h, _⟩ | ⟨_, h⟩⟩ | ⟨f, hf, h, _⟩
      · cases h
      · cases h
      · rw [h]; exact num_message_size.conv ht
      · exact absurd h (nf f hf)
  · have hlex := (hN.field f hf).1
    have hk : ID.key ⟨[m.spell f]⟩ = [PyStr.lower (m.spell f)] := rfl
    have hnm : ID.key ⟨[m.spell f]⟩ ≠ MESSAGE.key := by
      intro h
      have := (hN.field f hf).2
      rw [hk] at h
      rw [h] at this
      exact hN.message (this ▸ hf)
    have same : ∀ g, g ∈ m.msg.fields → g = ⟨ID.key ⟨[m.spell f]⟩⟩ → g = f := by
      intro g _ h
      rw [h, hk]
      exact (hN.field f hf).2.symm
    rcases ha with rfl | rfl | rfl
    · suffices h : Num D (V.env o.embedded) (o.func m fs (at' .first ⟨[m.spell f]⟩)) _ from
        ⟨_, R.fieldFirst f _ hS (field_key hN hf), h.toLeaf, fun _ => h.neg⟩
      refine func_name (Q := fun x => Num D (V.env o.embedded) x _) rfl (F.attr (.first f hf)) ?_
      intro kv hkv he
      rcases attr_key hN hlex (F.sound kv hkv) he (by decide) with ⟨h, _⟩ | ⟨g, hg, h, ⟨_, hv⟩ | ⟨h', _⟩ | ⟨h', _⟩⟩
      · exact absurd h hnm
      · cases same g hg h
        rw [hv]; exact (num_first hlex).conv ht
      · cases h'
      · cases h'
    · suffices h : Num D (V.env o.embedded) (o.func m fs (at' .last ⟨[m.spell f]⟩)) _ from
        ⟨_, R.fieldLast f _ hS (field_key hN hf), h.toLeaf, fun _ => h.neg⟩
      refine func_name (Q := fun x => Num D (V.env o.embedded) x _) rfl (F.attr (.last f hf)) ?_
      intro kv hkv he
      rcases attr_key hN hlex (F.sound kv hkv) he (by decide) with ⟨h, _⟩ | ⟨g, hg, h, ⟨h', _⟩ | ⟨_, hv⟩ | ⟨h', _⟩⟩
      · exact absurd h hnm
      · cases h'
      · cases same g hg h
        rw [hv]; exact (num_last hlex).conv ht
      · cases h'
    · suffices h : Leaf D (V.env o.embedded) (o.func m fs (at' .size ⟨[m.spell f]⟩)) _ ∧
          (ng = true → (o.func m fs (at' .size ⟨[m.spell f]⟩)).Neg D.Odd) from
        ⟨_, R.fieldSize f _ hS (field_key hN hf), h.1, h.2⟩
      refine func_name (Q := fun x => Leaf D (V.env o.embedded) x _ ∧ (ng = true → x.Neg D.Odd)) rfl (F.attr (.size f hf)) ?_
      intro kv hkv he
      rcases attr_key hN hlex (F.sound kv hkv) he (by decide) with ⟨h, _⟩ | ⟨g, hg, h, ⟨h', _⟩ | ⟨h', _⟩ | ⟨_, hv⟩⟩
      · exact absurd h hnm
      · cases h'
      · cases h'
      · cases same g hg h
        rw [hv]
        refine ⟨(leaf_size hlex).conv ht, fun hn => ?_⟩
        by_cases hno : o.target = none
        · have := hng rfl hn hno
          simp [Opts.conv, hno, Opts.fieldSize, this, Expr.Neg]
        · exact ((leaf_size (D := D) (V := V) hlex).convNum ht hno).neg

end

end Verif.Gen
