import Verif.Ctx.Spec
import Verif.Gen.Props

/-! # Expressions of the generated code -/

namespace Verif.Ctx
open Verif Verif.Graph Verif.Verify Verif.Types Verif.Gen Verif.Spark

/-- What the names of a message stand for in a context. -/
def Pkg.env (P : Pkg) (c : Context) (own : Option Own) : Env where
  var k :=
    match P.m.msg.type? ⟨k⟩ with
    | some t => if t.isScalar then .int (c.cursors ⟨k⟩).value else .seq (c.bytes own ⟨k⟩)
    | none => (P.view c own).var false k
  attr a k :=
    if k = MESSAGE.key then
      match a with
      | .first => .int c.first
      | .last => .int c.last
      | _ => .int (c.last - c.first + 1)
    else
      match a with
      | .first => .int (c.cursors ⟨k⟩).first
      | .last => .int (c.cursors ⟨k⟩).last
      | _ => .int ((c.cursors ⟨k⟩).last - (c.cursors ⟨k⟩).first + 1)
  sel := (P.view c own).sel
  call := (P.view c own).call

theorem scalar_iff (t : FTy) : t.isScalar = true ↔ Scalar t := by cases t <;> simp [FTy.isScalar, Scalar]

theorem type?_some {m : GMsg} {o : Opts} (hN : Names m o) {f : Field} {t : FTy} (h : (f, t) ∈ m.msg.types) : m.msg.type? f = some t := by
  simp only [Msg.type?]
  cases hf : m.msg.types.find? (fun e => e.1 == f) with
  | none => exact absurd (List.find?_eq_none.mp hf _ h) (by simp)
  | some x =>
    have h1 := List.mem_of_find?_eq_some hf
    have h2 := List.find?_some hf
    obtain ⟨g, u⟩ := x
    simp only [beq_iff_eq] at h2
    subst h2
    simp [nodup_pair hN.once h1 h]

theorem type?_mem {m : Msg} {f : Field} {t : FTy} (h : m.type? f = some t) : (f, t) ∈ m.types := by
  simp only [Msg.type?, Option.map_eq_some_iff] at h
  obtain ⟨⟨g, u⟩, h1, h2⟩ := h
  have h3 := List.mem_of_find?_eq_some h1
  have h4 := List.find?_some h1
  simp only [beq_iff_eq] at h4 h2
  subst h4 h2
  exact h3

theorem type?_none {m : GMsg} {o : Opts} (hN : Names m o) {f : Field} (h : f ∉ m.msg.fields) : m.msg.type? f = none := by
  cases ht : m.msg.type? f with
  | none => rfl
  | some t => exact absurd (hN.typed _ (type?_mem ht)) h

section
variable {P : Pkg} {c : Context} {own : Option Own} {o : Opts}

theorem env_scalar (hN : Names P.m o) {f : Field} {t : FTy} (h : (f, t) ∈ P.m.msg.types) (hs : Scalar t) :
    (P.env c own).var f.parts = .int (c.cursors f).value := by
  show (match P.m.msg.type? f with | some t => _ | none => _) = _
  rw [type?_some hN h]
  simp [(scalar_iff t).mpr hs]

theorem env_composite (hN : Names P.m o) {f : Field} {t : FTy} (h : (f, t) ∈ P.m.msg.types) (hs : ¬ Scalar t) :
    (P.env c own).var f.parts = .seq (c.bytes own f) := by
  show (match P.m.msg.type? f with | some t => _ | none => _) = _
  rw [type?_some hN h]
  simp [mt (scalar_iff t).mp hs]

theorem env_other (hN : Names P.m o) {k : List PyStr} (h : ⟨k⟩ ∉ P.m.msg.fields) :
    (P.env c own).var k = (P.view c own).var false k := by
  show (match P.m.msg.type? ⟨k⟩ with | some t => _ | none => _) = _
  rw [type?_none hN h]

theorem message_ne (hN : Names P.m o) {f : Field} (h : f ∈ P.m.msg.fields) : f.parts ≠ MESSAGE.key := by
  intro he
  apply hN.message
  rw [← he]
  exact h

theorem env_attr (a : AttrKind) {k : List PyStr} (h : k ≠ MESSAGE.key) : (P.env c own).attr a k =
    match a with
    | .first => .int (c.cursors ⟨k⟩).first
    | .last => .int (c.cursors ⟨k⟩).last
    | _ => .int ((c.cursors ⟨k⟩).last - (c.cursors ⟨k⟩).first + 1) := by
  show (if k = MESSAGE.key then _ else _) = _
  rw [if_neg h]

/-- The generated code reads what the names stand for. -/
theorem represents (hN : Names P.m o) (he : o.embedded = false) (hp : o.pub = false) :
    Represents P.m o (P.view c own) (· ∈ P.m.msg.fields) (P.env c own) where
  first := rfl
  last := rfl
  size := rfl
  literal id h := by
    have h1 := (hN.literal id h).1
    have h2 := (hN.literal id h).2
    rw [he] at h2
    rw [env_other hN h1, var_plain h2]
  fieldFirst f n hf hn := by rw [env_attr _ (by rw [← hn]; exact message_ne hN hf), hp]; rfl
  fieldLast f n hf hn := by rw [env_attr _ (by rw [← hn]; exact message_ne hN hf), hp]; rfl
  fieldSize f n hf hn := by rw [env_attr _ (by rw [← hn]; exact message_ne hN hf), hp]; rfl
  scalar f n t hf hn hm hs := by
    have := env_scalar (c := c) (own := own) hN hm hs
    obtain ⟨k⟩ := f
    simp only at hn
    subst hn
    rw [this, hp]
    rfl
  composite f n t hf hn hm hs := by
    have := env_composite (c := c) (own := own) hN hm hs
    obtain ⟨k⟩ := f
    simp only at hn
    subst hn
    refine ⟨_, this, ?_⟩
    rw [he]
    simp only [Bool.false_eq_true, if_false]
    intro es
    rfl

theorem env_typed (hN : Names P.m o) (he : o.embedded = false) (hp : o.pub = false) : Typed P.m (P.env c own) where
  scalar f t h hs := ⟨_, env_scalar hN h hs⟩
  composite f t h hs := ⟨_, env_composite hN h hs⟩
  literal id h := ⟨_, (represents hN he hp).literal id h⟩
  attr a k := by
    show ∃ i, (if k = MESSAGE.key then _ else _) = Val.int i
    split <;> cases a <;> exact ⟨_, rfl⟩

/-! ## Calls -/

/-- `F_X` as an argument. -/
def fieldImm (n : PyStr) : Expr := .var false true ⟨[affixed n]⟩

/-- `Size`. -/
def SIZE : ID := ⟨[['S', 'i', 'z', 'e']]⟩

/-- Calls that are part of expressions before the last substitution. -/
inductive Leaf3 (m : GMsg) : Expr → Prop
  | valid (structural : Bool) {f : Field} : f ∈ m.msg.fields →
      Leaf3 m (.call false (if structural then STRUCTURAL_VALID else VALID) [ctxVar, fieldImm (m.spell f)])
  | size (ng : Bool) : Leaf3 m (.call ng U64 [.v SIZE])
  | last (ng : Bool) {f : Field} : f ∈ m.msg.fields →
      Leaf3 m (.call ng U64 [.call false FIELD_LAST [ctxVar, fieldImm (m.spell f)]])
  | value (ng : Bool) {f : Field} : f ∈ m.msg.fields → Leaf3 m (.call ng U64 [.v (valName (m.spell f))])

theorem valName_lex {n : PyStr} (h : (⟨[n]⟩ : ID).Lex) : (valName n).Lex := by
  have := value_lex h
  obtain ⟨h1, h2, h3⟩ := this
  refine ⟨by simp [valName], ?_, by simp [valName]⟩
  intro p hp
  simp only [valName, List.mem_cons, List.not_mem_nil, or_false] at hp
  rcases hp with rfl | rfl
  · exact ⟨⟨'V', ['a', 'l'], rfl, by decide⟩, by decide⟩
  · exact h2 _ (by simp)

/-- A variable that is neither a field nor a literal stays. -/
theorem subst_var {m : GMsg} {fs : List (Expr × Expr)} (F : Facts o m fs) (hN : Names m o) {i : ID} (h1 : ⟨i.key⟩ ∉ m.msg.fields)
    (h2 : ¬ LitName m i) (k : Nat) : subst (k + 1) (o.func m fs) (.v i) = .ok (.v i) := by
  have : o.func m fs (.v i) = .v i := by
    refine func_none rfl fun kv hkv => ?_
    cases h : kv.1.eq (.v i) with
    | false => rfl
    | true =>
      rcases var_key (F.sound kv hkv) h with ⟨e, he, _, hk⟩ | ⟨l, hl, _, _, hk⟩
      · have h3 := (hN.field _ (hN.typed e he)).2
        rw [hk] at h3
        exact absurd (h3 ▸ hN.typed e he) h1
      · refine absurd ?_ h2
        obtain ⟨t, ht, l', hl', h⟩ := hl
        exact ⟨t, ht, l', hl', by rw [← hk]; exact h⟩
  simp [subst, this]

theorem func_call' {m : GMsg} {fs : List (Expr × Expr)} (F : Facts o m fs) (ng : Bool) (i : ID) (as : List Expr) :
    o.func m fs (.call ng i as) = .call ng i as :=
  func_none rfl fun kv hkv => (F.sound kv hkv).call_ne ..

theorem subst_call {m : GMsg} {fs : List (Expr × Expr)} (F : Facts o m fs) (ng : Bool) (i : ID) {as : List Expr} {k : Nat}
    (h : ∀ a ∈ as, subst k (o.func m fs) a = .ok a) : subst (k + 1) (o.func m fs) (.call ng i as) = .ok (.call ng i as) := by
  have : as.mapM (subst k (o.func m fs)) = .ok as := by
    clear F
    induction as with
    | nil => rfl
    | cons a as ih =>
      rw [List.mapM_cons, h a List.mem_cons_self, ih fun a ha => h a (List.mem_cons_of_mem _ ha)]
      rfl
  rw [subst, func_call' F]
  simp only [this]
  rfl

theorem subst_imm {m : GMsg} {fs : List (Expr × Expr)} (n : PyStr) (k : Nat) : subst (k + 1) (o.func m fs) (fieldImm n) = .ok (fieldImm n) := by
  simp [fieldImm, subst]

/-- The calls stay and have the same value. -/
theorem leaf3 {m : GMsg} {fs : List (Expr × Expr)} {D : Division} {ρ σ : Env} (F : Facts o m fs) (hN : Names m o)
    (hs : ⟨[['s', 'i', 'z', 'e']]⟩ ∉ m.msg.fields) (hcall : σ.call = ρ.call)
    (hvar : ∀ k, (k = [['c', 't', 'x']] ∨ k = [['s', 'i', 'z', 'e']] ∨ k.head? = some ['v', 'a', 'l'] ∧ k.length = 2 ∨
      ∃ f ∈ m.msg.fields, k = [PyStr.lower (affixed (m.spell f))]) → σ.var k = ρ.var k) {e : Expr} (h : Leaf3 m e) (k : Nat)
    (hk : 4 ≤ k) : ∃ r, subst k (o.func m fs) e = .ok r ∧ Mapped D ρ σ e r := by
  obtain ⟨k, rfl⟩ : ∃ k', k = k' + 4 := ⟨k - 4, by omega⟩
  have hw : e.WF ∧ ¬ e.HQ := by
    cases h with
    | valid st hf =>
      exact ⟨⟨by cases st <;> decide, ctxVar_wf, affixed_lex (hN.field _ hf).1, trivial⟩, by simp [Expr.HQ, Expr.HQL, ctxVar, fieldImm]⟩
    | size ng => exact ⟨⟨by decide, by simp only [Expr.WF]; decide, trivial⟩, by simp [Expr.HQ, Expr.HQL]⟩
    | last ng hf =>
      exact ⟨⟨by decide, ⟨by decide, ctxVar_wf, affixed_lex (hN.field _ hf).1, trivial⟩, trivial⟩, by simp [Expr.HQ, Expr.HQL, ctxVar, fieldImm]⟩
    | value ng hf => exact ⟨⟨by decide, valName_lex (hN.field _ hf).1, trivial⟩, by simp [Expr.HQ, Expr.HQL]⟩
  have hc : ∃ ng i a as, e = .call ng i (a :: as) ∧ evalL D σ (a :: as) = evalL D ρ (a :: as) := by
    have vctx : eval D σ ctxVar = eval D ρ ctxVar := by
      simp only [ctxVar, eval]
      rw [hvar (ID.key ⟨[CTX]⟩) (.inl rfl)]
    have vimm : ∀ f ∈ m.msg.fields, eval D σ (fieldImm (m.spell f)) = eval D ρ (fieldImm (m.spell f)) := by
      intro f hf
      simp only [fieldImm, eval]
      rw [hvar (ID.key ⟨[affixed (m.spell f)]⟩) (.inr (.inr (.inr ⟨f, hf, rfl⟩)))]
    cases h with
    | valid st hf => exact ⟨_, _, _, _, rfl, by rw [evalL, evalL, evalL, evalL, evalL, evalL, vctx, vimm _ hf]⟩
    | size ng =>
      refine ⟨_, _, _, _, rfl, ?_⟩
      simp only [evalL, eval]
      rw [hvar SIZE.key (.inr (.inl rfl))]
    | last ng hf =>
      refine ⟨_, _, _, _, rfl, ?_⟩
      rw [evalL, evalL, evalL, evalL, eval, eval, evalL, evalL, evalL, evalL, evalL, evalL, vctx, vimm _ hf, hcall]
    | value ng hf =>
      refine ⟨_, _, _, _, rfl, ?_⟩
      simp only [evalL, eval]
      rw [hvar (ID.key (valName (m.spell _))) (.inr (.inr (.inl ⟨rfl, rfl⟩)))]
  refine ⟨e, ?_, ?_, ?_, ?_, fun _ h => h, hw.2, ?_⟩
  · have plain : ∀ i : ID, i.key = [['s', 'i', 'z', 'e']] ∨ i.key.head? = some ['v', 'a', 'l'] → ¬ LitName m i := by
      intro i hi hl
      have := (hN.literal i hl).2
      rcases hi with hi | hi
      · exact this.2.2.2.1 hi
      · exact this.2.2.2.2.1 hi
    cases h with
    | valid st hf =>
      refine subst_call F _ _ fun a ha => ?_
      simp only [List.mem_cons, List.not_mem_nil, or_false] at ha
      rcases ha with rfl | rfl
      · exact subst_ctx F hN _
      · exact subst_imm _ _
    | size ng =>
      refine subst_call F _ _ fun a ha => ?_
      simp only [List.mem_cons, List.not_mem_nil, or_false] at ha
      subst ha
      exact subst_var (i := SIZE) F hN hs (plain _ (.inl rfl)) _
    | last ng hf =>
      refine subst_call F _ _ fun a ha => ?_
      simp only [List.mem_cons, List.not_mem_nil, or_false] at ha
      subst ha
      refine subst_call F _ _ fun a ha => ?_
      simp only [List.mem_cons, List.not_mem_nil, or_false] at ha
      rcases ha with rfl | rfl
      · exact subst_ctx F hN _
      · exact subst_imm _ _
    | value ng hf =>
      refine subst_call F _ _ fun a ha => ?_
      simp only [List.mem_cons, List.not_mem_nil, or_false] at ha
      subst ha
      refine subst_var F hN ?_ (plain _ (.inr rfl)) _
      intro hmem
      have := field_key hN hmem
      simp [valName, ID.key] at this
  · obtain ⟨_, _, _, _, rfl, _⟩ := hc
    intro s hg; simpa [Expr.Good] using hg
  · exact fun _ => hw.1
  · intro h; exact h
  · obtain ⟨_, _, _, _, rfl, hev⟩ := hc
    intro v hv
    simp only [eval] at hv ⊢
    rw [← hev, ← hcall]
    exact hv

/-! ## Values of generated expressions -/

/-- What the last substitution accepts. -/
def Accepts (m : GMsg) : Expr → Prop :=
  Cov (fun e => e.WF ∧ (NameOK m opts (· ∈ m.msg.fields) e ∨ Leaf3 m e)) (fun op l r => opts.relation m op l r = .rel op l r)

theorem nameOK_target {m : GMsg} {S : Field → Prop} {t : ID} {e : Expr} (h : NameOK m opts S e) : NameOK m ⟨false, false, some t⟩ S e := by
  cases e with
  | var => exact h
  | attr ng a pre =>
    cases pre with
    | var ng' imm id =>
      obtain ⟨h1, h2, h3, h4⟩ := h
      refine ⟨h1, h2, h3, ?_⟩
      rcases h4 with h4 | ⟨f, hf, hS, h5, _⟩
      · exact .inl h4
      · exact .inr ⟨f, hf, hS, h5, fun _ _ h => by cases h⟩
    | _ => simp [NameOK] at h
  | rel op l r => exact h
  | _ => simp [NameOK] at h

theorem names_target {m : GMsg} (hN : Names m opts) (t : Option ID) : Names m ⟨false, false, t⟩ :=
  ⟨hN.field, hN.typed, hN.once, hN.enum, hN.literal, hN.checksum, hN.message, hN.ctx⟩

/-- The value of a generated expression is that of the given one. -/
theorem value_ok (W : WellFormed P) {t : ID} (ht : t = U64 ∨ t = BIT_LENGTH) {e : Expr} (hc : Accepts P.m e) (hw : e.WF)
    (hg : e.Good Division.ada.Odd false) {v : Val} (hv : eval .ada (P.env c own) e = some v) : P.value (some t) c own e = .ok v := by
  have hN := names_target W.names (some t)
  have hT : Target ⟨false, false, some t⟩ := by
    rcases ht with rfl | rfl
    · exact .inr (.inl rfl)
    · exact .inr (.inr (.inl rfl))
  obtain ⟨fs, hfs, F1, F2⟩ := facts_ok hN
  have F : Facts ⟨false, false, some t⟩ P.m fs := ⟨F1, F2⟩
  have R := represents (c := c) (own := own) hN rfl rfl
  have M := maps (D := .ada) F hN hT R
  have hvar : ∀ k, (k = [['c', 't', 'x']] ∨ k = [['s', 'i', 'z', 'e']] ∨ k.head? = some ['v', 'a', 'l'] ∧ k.length = 2 ∨
      ∃ f ∈ P.m.msg.fields, k = [PyStr.lower (affixed (P.m.spell f))]) → (P.env c own).var k = ((P.view c own).env false).var k := by
    intro k hk
    refine env_other hN fun hmem => ?_
    rcases hk with rfl | rfl | ⟨_, h2⟩ | ⟨f, hf, rfl⟩
    · exact W.names.ctx hmem
    · exact W.size hmem
    · have := field_key hN hmem
      simp only at this
      rw [this] at h2
      simp at h2
    · have := W.affix _ hmem _ rfl
      simp [lower_affixed, unaffixed] at this
  have M' : Maps .ada ((P.view c own).env false) (P.env c own) (Opts.func ⟨false, false, some t⟩ P.m fs)
      (fun e => e.WF ∧ (NameOK P.m opts (· ∈ P.m.msg.fields) e ∨ Leaf3 P.m e)) (fun op l r => opts.relation P.m op l r = .rel op l r) :=
    { leaf := fun e he k hk => by
        obtain ⟨h1, h2 | h2⟩ := he
        · exact M.leaf e ⟨h1, nameOK_target h2⟩ k hk
        · exact leaf3 (ρ := (P.view c own).env false) (σ := P.env c own) F hN W.size rfl hvar h2 k (by omega)
      rel := fun op l r h => M.rel op l r h
      other := M.other }
  obtain ⟨r, hr, M⟩ := maps_ok M' e hc (depth e + 4) (by omega)
  have hrv := M.value v hv
  obtain ⟨r', hr'⟩ := C08_C09_simplified_returns_partial r (M.good _ hg) (M.wf hw) M.quant ((P.view c own).env false) v hrv
  have hrv' := C08_C09_simplified_value_partial r r' (M.good _ hg) (M.wf hw) hr' _ v hrv
  simp only [Pkg.value, Opts.generate, substitutedBy, hfs, bind, Except.bind, hr, hr', ofPy, hrv']

end

end Verif.Ctx
