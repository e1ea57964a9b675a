import Verif.Verify.Spec
import Verif.Ident.Props

/-! # Lemmas: the facts used by the verification hold for assignments and layouts -/

namespace Verif.Verify
open Verif Verif.Graph Verif.Types

/-! ## Monads -/

theorem bind_ok {α β : Type} {x : Py α} {f : α → Py β} {b : β} (h : x.bind f = .ok b) :
    ∃ a, x = .ok a ∧ f a = .ok b := by
  cases x with
  | error e => cases h
  | ok a => exact ⟨a, rfl, h⟩

theorem concatM_mem {α : Type} {f : α → Py (List Expr)} : ∀ {as : List α} {cs : List Expr}, concatM f as = .ok cs →
    ∀ c, c ∈ cs ↔ ∃ a ∈ as, ∃ fs, f a = .ok fs ∧ c ∈ fs
  | [], cs, h, c => by cases h; simp
  | a :: as, cs, h, c => by
    obtain ⟨x, hx, h⟩ := bind_ok (h : (f a).bind _ = _)
    obtain ⟨y, hy, h⟩ := bind_ok (h : (concatM f as).bind _ = _)
    cases h
    rw [List.mem_append, concatM_mem hy]
    constructor
    · rintro (h | ⟨b, hb, fs, h1, h2⟩)
      · exact ⟨a, by simp, x, hx, h⟩
      · exact ⟨b, by simp [hb], fs, h1, h2⟩
    · rintro ⟨b, hb, fs, h1, h2⟩
      rcases List.mem_cons.mp hb with rfl | hb
      · rw [hx] at h1; cases h1; exact .inl h2
      · exact .inr ⟨b, hb, fs, h1, h2⟩

theorem concatM_ok {α : Type} {f : α → Py (List Expr)} : ∀ {as : List α} {cs : List Expr}, concatM f as = .ok cs →
    ∀ a ∈ as, ∃ fs, f a = .ok fs
  | [], cs, h, a, ha => by cases ha
  | b :: as, cs, h, a, ha => by
    obtain ⟨x, hx, h⟩ := bind_ok (h : (f b).bind _ = _)
    obtain ⟨y, hy, h⟩ := bind_ok (h : (concatM f as).bind _ = _)
    rcases List.mem_cons.mp ha with rfl | ha
    · exact ⟨x, hx⟩
    · exact concatM_ok hy a ha

theorem anyM_false {α : Type} {f : α → Py Bool} : ∀ {as : List α}, anyM' f as = .ok false →
    ∀ a ∈ as, f a = .ok false
  | [], h, a, ha => by cases ha
  | b :: as, h, a, ha => by
    obtain ⟨x, hx, h⟩ := bind_ok (h : (f b).bind _ = _)
    obtain ⟨y, hy, h⟩ := bind_ok (h : (anyM' f as).bind _ = _)
    cases x with
    | true => cases h
    | false =>
      cases y with
      | true => cases h
      | false =>
        rcases List.mem_cons.mp ha with rfl | ha
        · exact hx
        · exact anyM_false hy a ha

theorem existsM_false {α : Type} {f : α → Py Bool} : ∀ {as : List α}, existsM f as = .ok false →
    ∀ a ∈ as, f a = .ok false
  | [], h, a, ha => by cases ha
  | b :: as, h, a, ha => by
    obtain ⟨x, hx, h⟩ := bind_ok (h : (f b).bind _ = _)
    cases x with
    | true => cases h
    | false =>
      rcases List.mem_cons.mp ha with rfl | ha
      · exact hx
      · exact existsM_false h a ha

theorem pairs_mem {α : Type} {l : List α} {a b : α} (ha : a ∈ l) (hb : b ∈ l) (hne : a ≠ b) :
    (a, b) ∈ pairs l ∨ (b, a) ∈ pairs l := by
  induction l with
  | nil => cases ha
  | cons c l ih =>
    simp only [pairs, List.mem_append, List.mem_map, Prod.mk.injEq]
    rcases List.mem_cons.mp ha with rfl | ha'
    · rcases List.mem_cons.mp hb with rfl | hb'
      · exact absurd rfl hne
      · exact .inl (.inl ⟨b, hb', rfl, rfl⟩)
    · rcases List.mem_cons.mp hb with rfl | hb'
      · exact .inr (.inl ⟨a, ha', rfl, rfl⟩)
      · rcases ih ha' hb' with h | h
        · exact .inl (.inr h)
        · exact .inr (.inr h)

/-! ## Expressions -/

theorem undef_eq (e : Expr) : e.eq .undefined = true ↔ e = .undefined := by
  cases e with
  | bool op ts => cases op <;> simp [Expr.eq, Expr.cls, Expr.Cls.sub]
  | bin op a b => cases op <;> simp [Expr.eq, Expr.cls, Expr.Cls.sub]
  | rel op a b => cases op <;> simp [Expr.eq, Expr.cls, Expr.Cls.sub]
  | attr n k p => cases k <;> simp [Expr.eq, Expr.cls, Expr.Cls.sub]
  | quant k => cases k <;> simp [Expr.eq, Expr.cls, Expr.Cls.sub]
  | undefined => simp [Expr.eq, Expr.cls, Expr.Cls.sub]
  | _ => simp [Expr.eq, Expr.cls, Expr.Cls.sub]

theorem zvar (ρ : Env) (id : ID) (im : Bool) :
    zeval (model ρ) (.var false im id) = .ok (.int (Val.num (ρ.var id.key))) := rfl

theorem zat (ρ : Env) (k : AttrKind) (hk : k ≠ .validChecksum) (id : ID) :
    zeval (model ρ) (at' k id) = .ok (.int (Val.num (ρ.attr k id.key))) := by
  cases k <;> first | exact absurd rfl hk | rfl

theorem zeval_rel {M : ZModel} {op : RelOp} {l r : Expr} {x y : ZVal} {b : Bool} (h1 : zeval M l = .ok x)
    (h2 : zeval M r = .ok y) (h3 : zRel op x y = .ok b) : zeval M (.rel op l r) = .ok (.bool b) := by
  simp only [zeval, h1, h2, bind, Except.bind, h3, pure, Except.pure]

theorem zeval_rel_inv {M : ZModel} {op : RelOp} {l r : Expr} {b : Bool} (h : zeval M (.rel op l r) = .ok (.bool b)) :
    ∃ x y, zeval M l = .ok x ∧ zeval M r = .ok y ∧ zRel op x y = .ok b := by
  simp only [zeval] at h
  obtain ⟨x, hx, h⟩ := bind_ok (h : Except.bind _ _ = _)
  obtain ⟨y, hy, h⟩ := bind_ok (h : Except.bind _ _ = _)
  obtain ⟨c, hc, h⟩ := bind_ok (h : Except.bind _ _ = _)
  cases h
  exact ⟨x, y, hx, hy, hc⟩

theorem eval_at {D : Division} {ρ : Env} {k : AttrKind} {id : ID} :
    eval D ρ (at' k id) = some (ρ.attr k id.key) := by
  simp [at', eval, Val.negIf]

theorem Denotes.num {x : Val} {v : Int} (h : Denotes x v) : Val.num x = v := by
  rcases h with rfl | ⟨rfl, rfl⟩ | ⟨rfl, rfl⟩ <;> rfl

/-! ## Facts about types -/

/-- A modulus has the value that the bounds say. -/
theorem modulus_value (t : ModInt) (h : (IntType.modular t).Accepted) (hm : (IntType.modular t).ConstModulus)
    (D : Division) (ρ : Env) :
    ∃ l, (IntType.modular t).last = .ok l ∧ eval D ρ t.modulus = some (.int (l.v + 1)) := by
  obtain ⟨id, e, h⟩ := h
  obtain ⟨_, k, hk, ⟨b, he⟩, rfl⟩ := (C05_modular_iff id e t).mp h
  obtain ⟨hc, hw, hv⟩ := hm
  have hlast : IntType.last (.modular ⟨id, e, .n k⟩) = .ok (Num.n (2 ^ k - 1)) := by
    simp [IntType.last, he, asNum, bind, Except.bind]
  obtain ⟨x, hx⟩ := hv D ρ
  obtain ⟨b', hb'⟩ := C08_constant_folds (D := D) e _ hc hw he ρ x hx
  simp only [Expr.num.injEq] at hb'
  obtain ⟨rfl, _⟩ := hb'
  exact ⟨_, hlast, by simpa [Num.n] using hx⟩

/-- Facts about an integer field. -/
theorem int_facts (t : IntType) (hok : (FTy.int t).Ok) (name : ID) (ρ : Env) (v : Int) {cs : List Expr}
    (hv : Val.num (ρ.var name.key) = v) (hc : (FTy.int t).Contains v)
    (hs : ∀ s, t.size = .ok s → ρ.attr .size name.key = .int s.v) (h : t.proofConstraints name = .ok cs)
    (ht : ∀ c ∈ cs, ∃ b, zeval (model ρ) c = .ok (.bool b)) : Holds (model ρ) cs := by
  obtain ⟨h1, h2, h3⟩ := hok
  obtain ⟨f, l, hf, hl, hfv, hvl⟩ := hc
  cases t with
  | modular t =>
    obtain ⟨s, hsz, h⟩ := bind_ok (h : (scalarSize t.size).bind _ = _)
    cases h
    obtain ⟨l', hl', hev⟩ := modulus_value t h1 h2 .euclid ρ
    rw [hl] at hl'; cases hl'
    have hmod : zeval (model ρ) t.modulus = .ok (.int (l.v + 1)) := by
      obtain ⟨b, hb⟩ := ht _ (List.mem_cons_self ..)
      obtain ⟨_, w, _, hw, hb⟩ := zeval_rel_inv hb
      cases translate .euclid ρ t.modulus (h3.2 .euclid ρ) hev hw
      exact hw
    cases hf
    intro c hc
    simp only [List.mem_cons, List.not_mem_nil, or_false] at hc
    rcases hc with rfl | rfl | rfl
    · exact zeval_rel (zvar ρ name false) hmod (by simp only [hv, zRel]; simp; omega)
    · exact zeval_rel (zvar ρ name false) rfl (by simp only [hv, zRel]; simpa [Num.n] using hfv)
    · exact zeval_rel (zat ρ .size (by simp) name) rfl (by simp [hs s hsz, zRel, zEqual, ZVal.cast, Val.num])
  | range t =>
    obtain ⟨s, hsz, h⟩ := bind_ok (h : (scalarSize t.size).bind _ = _)
    cases h
    cases hf; cases hl
    intro c hc
    simp only [List.mem_cons, List.not_mem_nil, or_false] at hc
    rcases hc with rfl | rfl | rfl
    · exact zeval_rel (zvar ρ name false) rfl (by simp only [hv, zRel]; simp; omega)
    · exact zeval_rel (zvar ρ name false) rfl (by simp only [hv, zRel]; simp; omega)
    · exact zeval_rel (zat ρ .size (by simp) name) rfl (by simp [hs s hsz, zRel, zEqual, ZVal.cast, Val.num])

theorem zevalL_bools {M : ZModel} {ts : List Expr} (h : ∀ t ∈ ts, ∃ b, zeval M t = .ok (.bool b)) :
    ∃ bs : List Bool, (zevalL M ts).bind (fun vs => vs.mapM ZVal.bool?) = .ok bs ∧
      (bs.all id = true ↔ ∀ t ∈ ts, zeval M t = .ok (.bool true)) ∧
      (bs.any id = true ↔ ∃ t ∈ ts, zeval M t = .ok (.bool true)) := by
  induction ts with
  | nil => exact ⟨[], rfl, by simp, by simp⟩
  | cons a ts ih =>
    obtain ⟨b, hb⟩ := h a (by simp)
    obtain ⟨bs, h1, h2, h3⟩ := ih (fun t ht => h t (by simp [ht]))
    obtain ⟨vs, hvs, h1⟩ := bind_ok h1
    refine ⟨b :: bs, ?_, ?_, ?_⟩
    · simp only [zevalL]
      show Except.bind (Except.bind (zeval M a) _) _ = _
      rw [hb]
      show Except.bind (Except.bind (zevalL M ts) _) _ = _
      rw [hvs]
      show List.mapM ZVal.bool? (ZVal.bool b :: vs) = _
      rw [List.mapM_cons, h1]
      rfl
    · simp [h2, hb]
    · simp [h3, hb]

theorem zeval_or {M : ZModel} {ts : List Expr} (h : ∀ t ∈ ts, ∃ b, zeval M t = .ok (.bool b)) :
    zeval M (.bool .or ts) = .ok (.bool true) ↔ ∃ t ∈ ts, zeval M t = .ok (.bool true) := by
  obtain ⟨bs, h1, _, h3⟩ := zevalL_bools h
  obtain ⟨vs, hvs, h1⟩ := bind_ok h1
  rw [← h3]
  simp only [zeval]
  show Except.bind (zevalL M ts) _ = _ ↔ _
  rw [hvs]
  show Except.bind (List.mapM ZVal.bool? vs) _ = _ ↔ _
  rw [h1]
  simp [Except.bind, pure, Except.pure, BoolOp.isAnd]

theorem zeval_and {M : ZModel} {ts : List Expr} (h : ∀ t ∈ ts, ∃ b, zeval M t = .ok (.bool b)) :
    zeval M (.bool .and ts) = .ok (.bool true) ↔ ∀ t ∈ ts, zeval M t = .ok (.bool true) := by
  obtain ⟨bs, h1, h2, _⟩ := zevalL_bools h
  obtain ⟨vs, hvs, h1⟩ := bind_ok h1
  rw [← h2]
  simp only [zeval]
  show Except.bind (zevalL M ts) _ = _ ↔ _
  rw [hvs]
  show Except.bind (List.mapM ZVal.bool? vs) _ = _ ↔ _
  rw [h1]
  simp [Except.bind, pure, Except.pure, BoolOp.isAnd]

theorem bools_of_ok {M : ZModel} : ∀ {ts : List Expr} {vs : List ZVal} {bs : List Bool}, zevalL M ts = .ok vs →
    vs.mapM ZVal.bool? = Except.ok (ε := PyErr) bs → ∀ t ∈ ts, ∃ b, zeval M t = .ok (.bool b)
  | [], vs, bs, h, h', t, ht => by cases ht
  | a :: ts, vs, bs, h, h', t, ht => by
    obtain ⟨v, hv, h⟩ := bind_ok (h : (zeval M a).bind _ = _)
    obtain ⟨vs', hvs, h⟩ := bind_ok (h : (zevalL M ts).bind _ = _)
    cases h
    rw [List.mapM_cons] at h'
    obtain ⟨b, hb, h'⟩ := bind_ok (h' : Except.bind _ _ = _)
    obtain ⟨bs', hbs, h'⟩ := bind_ok (h' : Except.bind _ _ = _)
    rcases List.mem_cons.mp ht with rfl | ht
    · cases v with
      | int i => cases hb
      | bool c => exact ⟨c, hv⟩
    · exact bools_of_ok hvs hbs t ht

/-- If an operation can be translated then so can its terms. -/
theorem terms_translated {M : ZModel} {op : BoolOp} {ts : List Expr} {b : Bool}
    (h : zeval M (.bool op ts) = .ok (.bool b)) : ∀ t ∈ ts, ∃ b, zeval M t = .ok (.bool b) := by
  simp only [zeval] at h
  obtain ⟨vs, hvs, h⟩ := bind_ok (h : Except.bind _ _ = _)
  obtain ⟨bs, hbs, h⟩ := bind_ok (h : Except.bind _ _ = _)
  exact bools_of_ok hvs hbs

/-- Facts about an enumeration field. -/
theorem enum_facts (t : Enum) (hok : (FTy.enum t).Ok) (name : ID) (same : Bool) (ρ : Env) (v : Int) {cs : List Expr}
    (hv : Val.num (ρ.var name.key) = v) (hc : (FTy.enum t).Contains v)
    (hs : ∀ s, scalarSize t.size = .ok s → ρ.attr .size name.key = .int s.v)
    (hl : ∀ n w, t.Visible same n w → Val.num (ρ.var n) = w) (h : t.proofConstraints name same = .ok cs) :
    Holds (model ρ) cs := by
  obtain ⟨h1, h2⟩ := hok
  obtain ⟨s, hsz, hcs⟩ := constraints_eq t h1 h2 name same
  rw [hcs] at h
  cases h
  have lit : ∀ kv ∈ t.visibleList same, Val.num (ρ.var kv.1.key) = kv.2 := fun kv hkv =>
    hl _ _ ((visible_iff t same _ _).mpr ⟨kv, hkv, rfl, rfl⟩)
  have eqs : ∀ kv : ID × Int, zeval (model ρ) (.rel .eq (.var false false name) (.var false false kv.1)) =
      .ok (.bool (v == Val.num (ρ.var kv.1.key))) := by
    intro kv
    rw [← hv]; rfl
  intro c hc'
  rcases List.mem_cons.mp hc' with rfl | hc'
  · refine (zeval_or ?_).mpr ?_
    · intro x hx
      obtain ⟨kv, _, rfl⟩ := List.mem_map.mp hx
      exact ⟨_, eqs kv⟩
    · obtain ⟨l, hlit⟩ := hc
      have : ∃ kv ∈ t.visibleList same, kv.2 = v := by
        by_cases hb : t.package.key = builtinsPackage.key
        · obtain ⟨kv, g1, _, g3⟩ := (visible_iff t same _ _).mp ⟨l, hlit, .inl ⟨rfl, .inl hb⟩⟩
          exact ⟨kv, g1, g3⟩
        · obtain ⟨kv, g1, _, g3⟩ := (visible_iff t same _ _).mp ⟨l, hlit, .inr ⟨rfl, hb⟩⟩
          exact ⟨kv, g1, g3⟩
      obtain ⟨kv, hkv, rfl⟩ := this
      exact ⟨_, List.mem_map.mpr ⟨kv, hkv, rfl⟩, by rw [eqs, lit kv hkv]; simp⟩
  · rcases List.mem_append.mp hc' with hc' | hc'
    · obtain ⟨kv, hkv, rfl⟩ := List.mem_map.mp hc'
      exact zeval_rel (zvar ρ kv.1 false) rfl (by simp [lit kv hkv, zRel, zEqual, ZVal.cast])
    · obtain rfl := List.mem_singleton.mp hc'
      exact zeval_rel (zat ρ .size (by simp) name) rfl (by simp [hs s hsz, zRel, zEqual, ZVal.cast, Val.num])

theorem FTy.Ok.valid {t : FTy} (h : t.Ok) (hs : t.isScalar = true) : t.id.Valid := by
  cases t with
  | int t =>
    cases t with
    | modular t => exact h.2.2.1
    | range t => exact h.2.2
  | enum t => exact h.2.id
  | _ => cases hs

theorem parent_eq {i p : ID} (h : i.parent = .ok p) : p.key = packageKey i := by
  unfold ID.parent ID.ofList ID.checked at h
  split at h
  · cases h
  · split at h
    · cases h
    · split at h
      · cases h
      · cases h
        simp [ID.key, packageKey]

theorem name_eq {i n : ID} (hv : i.Valid) (h : i.name = .ok n) : n.key = i.key.drop (i.key.length - 1) := by
  unfold ID.name at h
  cases hl : i.parts.getLast? with
  | none => rw [hl] at h; cases h
  | some p =>
    rw [hl] at h
    obtain ⟨ys, hys⟩ := List.getLast?_eq_some_iff.mp hl
    have hv' : (⟨[p]⟩ : ID).Valid := ⟨by simp, fun q hq => hv.2 q (by
      obtain rfl := List.mem_singleton.mp hq
      rw [hys]; simp)⟩
    have := ID.C38_str_roundtrip ⟨[p]⟩ hv'
    have e : (⟨[p]⟩ : ID).str = p := by simp [ID.str, joinSep]
    rw [e] at this
    have h : ID.ofStr p = .ok n := h
    rw [this] at h
    cases h
    simp [ID.key, hys]

/-- The facts about a scalar field. -/
theorem scalar_facts {m : Msg} {ρ : Env} (ha : Allowed m ρ) (hok : ∀ e ∈ m.types, e.2.Ok) {e : Field × FTy}
    (he : e ∈ m.types) (hs : e.2.isScalar = true) {package tp : ID} (hp : m.package = .ok package)
    (htp : e.2.id.parent = .ok tp) {cs : List Expr} (h : e.2.constraints e.1 (package.eq tp) = .ok cs)
    (ht : ∀ c ∈ cs, ∃ b, zeval (model ρ) c = .ok (.bool b)) : Holds (model ρ) cs := by
  obtain ⟨f, t⟩ := e
  obtain ⟨v, hv, hc⟩ := ha.value _ he hs
  have hk := hok _ he
  cases t with
  | int t => exact int_facts t hk f ρ v hv.num hc (fun s hs' => ha.size _ he s hs') h ht
  | enum t =>
    refine enum_facts t hk f _ ρ v hv.num hc (fun s hs' => ha.size _ he s hs') ?_ h
    intro n w hn
    have : package.eq tp = decide (packageKey m.id = packageKey t.id) := by
      have e1 := ID.eq_iff_key package tp
      rw [parent_eq hp, parent_eq htp] at e1
      by_cases hh : packageKey m.id = packageKey t.id
      · rw [decide_eq_true hh]; exact e1.mpr hh
      · rw [decide_eq_false hh]
        cases hb : package.eq tp with
        | false => rfl
        | true => exact absurd (e1.mp hb) hh
    rw [this] at hn
    exact (ha.literals _ he t rfl n w hn).num
  | _ => cases hs

theorem setType_mem {d : List (ID × FTy)} {k : ID} {t : FTy} {e : ID × FTy} (h : e ∈ setType d k t) :
    e ∈ d ∨ (e.1.key = k.key ∧ e.2 = t) := by
  induction d with
  | nil =>
    obtain rfl := List.mem_singleton.mp h
    exact .inr ⟨rfl, rfl⟩
  | cons a d ih =>
    simp only [setType] at h
    split at h
    · rename_i heq
      rcases List.mem_cons.mp h with rfl | h
      · exact .inr ⟨(ID.eq_iff_key _ _).mp heq, rfl⟩
      · exact .inl (by simp [h])
    · rcases List.mem_cons.mp h with rfl | h
      · exact .inl (by simp)
      · rcases ih h with h | h
        · exact .inl (by simp [h])
        · exact .inr h

theorem typeLiterals_mem : ∀ {ts : List FTy} {d r : List (ID × FTy)}, (∀ t ∈ ts, t.Ok) → typeLiterals ts d = .ok r →
    ∀ e ∈ r, e ∈ d ∨ (e.2 ∈ ts ∧ (e.2.isScalar = true → e.1.key = e.2.typeName))
  | [], d, r, _, h, e, he => by cases h; exact .inl he
  | t :: ts, d, r, hok, h, e, he => by
    obtain ⟨p, hp, h⟩ := bind_ok (h : (t.id.parent).bind _ = _)
    obtain ⟨k, hk, h⟩ := bind_ok (h : Except.bind _ _ = _)
    rcases typeLiterals_mem (fun t ht => hok t (by simp [ht])) h e he with h | ⟨h1, h2⟩
    · rcases setType_mem h with h | ⟨h1, h2⟩
      · exact .inl h
      · subst h2
        refine .inr ⟨by simp, fun hs => ?_⟩
        rw [h1]
        have hb : isBuiltins p = decide (packageKey e.2.id = builtinsPackage.key) := by
          have := ID.eq_iff_key p builtinsPackage
          rw [parent_eq hp] at this
          unfold isBuiltins
          by_cases hh : packageKey e.2.id = builtinsPackage.key
          · rw [decide_eq_true hh]; exact this.mpr hh
          · rw [decide_eq_false hh]
            cases hb : p.eq builtinsPackage with
            | false => rfl
            | true => exact absurd (this.mp hb) hh
        rw [hb] at hk
        unfold FTy.typeName
        by_cases hh : packageKey e.2.id = builtinsPackage.key
        · rw [if_pos hh]
          rw [decide_eq_true hh] at hk
          exact name_eq ((hok e.2 (by simp)).valid hs) hk
        · rw [if_neg hh]
          rw [decide_eq_false hh] at hk
          cases hk; rfl
    · exact .inr ⟨by simp [h1], h2⟩

/-- The facts about the sizes of types. -/
theorem typeSize_facts {m : Msg} {ρ : Env} (ha : Allowed m ρ) (hok : ∀ e ∈ m.types, e.2.Ok) {cs : List Expr}
    (h : m.typeSizeConstraints = .ok cs) : Holds (model ρ) cs := by
  obtain ⟨d, hd, h⟩ := bind_ok (h : (typeLiterals _ _).bind _ = _)
  intro c hc
  obtain ⟨e, he, fs, hfs, hc⟩ := (concatM_mem h c).mp hc
  have hok' : ∀ t ∈ m.types.map (·.2), t.Ok := by
    intro t ht
    obtain ⟨x, hx, rfl⟩ := List.mem_map.mp ht
    exact hok x hx
  rcases typeLiterals_mem hok' hd e he with h | ⟨h1, h2⟩
  · cases h
  · by_cases hs : e.2.isScalar = true
    · rw [if_pos hs] at hfs
      obtain ⟨s, hsz, hfs⟩ := bind_ok (hfs : (e.2.size).bind _ = _)
      cases hfs
      obtain rfl := List.mem_singleton.mp hc
      obtain ⟨x, hx, hx'⟩ := List.mem_map.mp h1
      have := ha.typeSize x hx s (by rw [hx']; exact hsz)
      rw [hx', ← h2 hs] at this
      exact zeval_rel (zat ρ .size (by simp) e.1) rfl (by simp [this, zRel, zEqual, ZVal.cast, Val.num])
    · rw [if_neg hs] at hfs
      cases hfs
      cases hc

/-! ## Aggregates do not occur -/

/-- Neither side of a relation is an aggregate. -/
def NoAgg : Expr → Prop
  | .rel _ l r => (∀ es, l ≠ .agg es) ∧ ∀ es, r ≠ .agg es
  | _ => True

theorem noAgg_constraints (m : Msg) {r : Expr} (h : NoAgg r) : m.aggregateConstraints r = .ok [] := by
  unfold Msg.aggregateConstraints
  split
  · exact absurd rfl (h.1 _)
  · exact absurd rfl (h.2 _)
  · rfl

theorem plain_not_agg {D : Division} {ρ : Env} {e : Expr} (h : Plain D ρ e) (es : List Expr) : e ≠ .agg es := by
  rintro rfl; simp [Plain] at h

theorem noAgg_of_not {e : Expr} (h : isEqNe e = false) (x : Expr) : x ∈ (if isEqNe e then [e] else []) → NoAgg x := by
  rw [h]; intro hx; cases hx

mutual

theorem plain_findall {D : Division} {ρ : Env} : ∀ (e : Expr), Plain D ρ e → ∀ x ∈ findall isEqNe e, NoAgg x
  | .bin op l r, h, x, hx => by
    simp only [Plain] at h
    simp only [findall, List.mem_append] at hx
    rcases hx with (hx | hx) | hx
    · exact noAgg_of_not rfl x hx
    · exact plain_findall l h.1 x hx
    · exact plain_findall r h.2.1 x hx
  | .rel op l r, h, x, hx => by
    simp only [Plain] at h
    simp only [findall, List.mem_append] at hx
    rcases hx with (hx | hx) | hx
    · split at hx
      · obtain rfl := List.mem_singleton.mp hx
        exact ⟨plain_not_agg h.1, plain_not_agg h.2⟩
      · cases hx
    · exact plain_findall l h.1 x hx
    · exact plain_findall r h.2 x hx
  | .bool op ts, h, x, hx => by
    simp only [Plain] at h
    simp only [findall, List.mem_append] at hx
    rcases hx with hx | hx
    · exact noAgg_of_not rfl x hx
    · exact plain_findallL ts h x hx
  | .add ts, h, x, hx => by
    simp only [Plain] at h
    simp only [findall, List.mem_append] at hx
    rcases hx with hx | hx
    · exact noAgg_of_not rfl x hx
    · exact plain_findallL ts h x hx
  | .mul ts, h, x, hx => by
    simp only [Plain] at h
    simp only [findall, List.mem_append] at hx
    rcases hx with hx | hx
    · exact noAgg_of_not rfl x hx
    · exact plain_findallL ts h x hx
  | .attr ng k pre, h, x, hx => by
    cases pre with
    | var => simp [findall, isEqNe] at hx
    | _ => simp [Plain] at h
  | .tru, h, x, hx => by simp [findall, isEqNe] at hx
  | .fls, h, x, hx => by simp [findall, isEqNe] at hx
  | .undefined, h, x, hx => by simp [findall, isEqNe] at hx
  | .num .., h, x, hx => by simp [findall, isEqNe] at hx
  | .var .., h, x, hx => by simp [findall, isEqNe] at hx
  | .sel .., h, x, hx => by simp [findall, isEqNe] at hx
  | .call .., h, x, hx => by simp [findall, isEqNe] at hx
  | .not _, h, x, hx => by simp [findall, isEqNe] at hx
  | .agg _, h, x, hx => by simp [findall, isEqNe] at hx
  | .quant .., h, x, hx => by simp [findall, isEqNe] at hx

theorem plain_findallL {D : Division} {ρ : Env} : ∀ (es : List Expr), PlainL D ρ es → ∀ x ∈ findallL isEqNe es, NoAgg x
  | [], h, x, hx => by simp [findallL] at hx
  | e :: es, h, x, hx => by
    simp only [PlainL] at h
    simp only [findallL, List.mem_append] at hx
    rcases hx with hx | hx
    · exact plain_findall e h.1 x hx
    · exact plain_findallL es h.2 x hx

end

/-- The facts about the types hold for allowed assignments. -/
theorem type_facts {m : Msg} {ρ : Env} (ha : Allowed m ρ) (hok : ∀ e ∈ m.types, e.2.Ok) {e : Expr}
    (hagg : ∀ x ∈ findall isEqNe e, NoAgg x) {cs : List Expr} (h : m.typeConstraints e = .ok cs)
    (ht : ∀ c ∈ cs, ∃ b, zeval (model ρ) c = .ok (.bool b)) : Holds (model ρ) cs := by
  obtain ⟨package, hp, h⟩ := bind_ok (h : (m.package).bind _ = _)
  obtain ⟨scalars, hsc, h⟩ := bind_ok (h : (m.scalarTypes).bind _ = _)
  obtain ⟨agg, hag, h⟩ := bind_ok (h : (concatM _ _).bind _ = _)
  obtain ⟨scal, hscal, h⟩ := bind_ok (h : (concatM _ _).bind _ = _)
  obtain ⟨sizes, hsizes, h⟩ := bind_ok (h : (m.typeSizeConstraints).bind _ = _)
  cases h
  intro c hc
  simp only [List.mem_append] at hc
  rcases hc with ((hc | hc) | hc) | hc
  · obtain ⟨F, hF, hF8⟩ := ha.start
    obtain ⟨S, hS, hS8⟩ := ha.total
    have h1 := zat ρ .first (by simp) MESSAGE
    have h2 := zat ρ .size (by simp) MESSAGE
    rw [hF] at h1
    rw [hS] at h2
    simp only [messageConstraints, List.mem_cons, List.not_mem_nil, or_false] at hc
    rcases hc with rfl | rfl
    · refine zeval_rel (x := .int (F % 8)) ?_ rfl (by simp [zRel, zEqual, ZVal.cast, hF8])
      simp only [zeval, h1]
      rfl
    · refine zeval_rel (x := .int (S % 8)) ?_ rfl (by simp [zRel, zEqual, ZVal.cast, hS8])
      simp only [zeval, h2]
      rfl
  · obtain ⟨r, hr, fs, hfs, hc⟩ := (concatM_mem hag c).mp hc
    rw [noAgg_constraints m (hagg r hr)] at hfs
    cases hfs; cases hc
  · obtain ⟨x, hx, fs, hfs, hcf⟩ := (concatM_mem hscal c).mp hc
    obtain ⟨_, _, hsc⟩ := bind_ok (hsc : (m.package).bind _ = _)
    obtain ⟨ls, hls, hsc⟩ := bind_ok (hsc : (enumLiterals _ _).bind _ = _)
    cases hsc
    obtain ⟨hx1, hx2⟩ := List.mem_filter.mp hx
    simp only [Bool.and_eq_true] at hx2
    obtain ⟨tp, htp, hfs⟩ := bind_ok (hfs : (x.2.id.parent).bind _ = _)
    refine scalar_facts ha hok hx1 hx2.1.1 hp htp hfs ?_ c hcf
    intro c' hc'
    refine ht c' ?_
    simp only [List.mem_append]
    exact .inl (.inr ((concatM_mem hscal c').mpr ⟨x, hx, fs, by
      show (x.2.id.parent).bind _ = _
      rw [htp]; exact hfs, hc'⟩))
  · exact typeSize_facts ha hok hsizes c hc

end Verif.Verify
