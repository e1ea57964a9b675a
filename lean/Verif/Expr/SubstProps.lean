import Verif.Expr.Subst
import Verif.Expr.Props

/-! # Property C10: substitution means replacing values -/

namespace Verif

variable {D : Division}

/-! ## Specification -/

/-- What an expression can refer to: a variable, an attribute of a variable, a component of a variable,
a function. Names are lower-case parts. -/
inductive NameRef
  | var (x : List PyStr)
  | attr (a : AttrKind) (x : List PyStr)
  | sel (x s : List PyStr)
  | call (f : List PyStr)
deriving DecidableEq, Repr

/-- Two assignments give a reference the same value. -/
def NameRef.Same (ρ ρ' : Env) : NameRef → Prop
  | .var x => ρ.var x = ρ'.var x
  | .attr a x => ρ.attr a x = ρ'.attr a x
  | .sel x s => ρ.sel x s = ρ'.sel x s
  | .call f => ρ.call f = ρ'.call f

/-- The variable whose attribute or component is referred to. -/
def NameRef.prefix? : NameRef → Option (List PyStr)
  | .attr _ x => some x
  | .sel x _ => some x
  | _ => none

mutual
/-- Everything an expression refers to (bound variables included). -/
def Expr.refs : Expr → List NameRef
  | .tru | .fls | .num .. | .undefined => []
  | .var _ _ id => [.var id.key]
  | .attr _ a pre =>
    match pre with
    | .var _ _ id => [.attr a id.key]
    | _ => []
  | .sel _ pre s =>
    match pre with
    | .var _ _ id => [.sel id.key s.key]
    | _ => []
  | .call _ id args =>
    match args with
    | [] => [.var id.key]
    | a :: as => .call id.key :: Expr.refsL (a :: as)
  | .not e => e.refs
  | .bool _ ts => Expr.refsL ts
  | .add ts => Expr.refsL ts
  | .mul ts => Expr.refsL ts
  | .bin _ l r => l.refs ++ r.refs
  | .rel _ l r => l.refs ++ r.refs
  | .agg es => Expr.refsL es
  | .quant _ p it pr => .var p.key :: (it.refs ++ pr.refs)
def Expr.refsL : List Expr → List NameRef
  | [] => []
  | e :: es => e.refs ++ Expr.refsL es
end

/-- The name a key of a mapping stands for: a variable, attribute or component without minus sign. -/
def Expr.ref? : Expr → Option NameRef
  | .var false _ id => some (.var id.key)
  | .attr false a (.var false _ id) => some (.attr a id.key)
  | .sel false (.var false _ id) s => some (.sel id.key s.key)
  | _ => none

/-- `r` is a key of the mapping. -/
def IsKey (m : List (Expr × Expr)) (r : NameRef) : Prop := ∃ kv ∈ m, kv.1.ref? = some r

/-- Mappings: the keys are variables, attributes or components; keys and values are well-formed. -/
def MapOK (m : List (Expr × Expr)) : Prop := ∀ kv ∈ m, kv.1.WF ∧ kv.2.WF ∧ kv.1.ref?.isSome

/-- `ρ'` is the assignment `ρ` with every key of the mapping given the value of its replacement. If a variable
is replaced by a variable, its attributes and components become those of the replacement. -/
structure Agrees (D : Division) (m : List (Expr × Expr)) (ρ ρ' : Env) : Prop where
  keys : ∀ kv ∈ m, ∃ w, eval D ρ kv.2 = some w ∧ eval D ρ' kv.1 = some w
  var : ∀ x, ¬ IsKey m (.var x) → ρ'.var x = ρ.var x
  attr : ∀ a x, ¬ IsKey m (.attr a x) → ¬ IsKey m (.var x) → ρ'.attr a x = ρ.attr a x
  sel : ∀ x s, ¬ IsKey m (.sel x s) → ¬ IsKey m (.var x) → ρ'.sel x s = ρ.sel x s
  call : ρ'.call = ρ.call
  attrRenamed : ∀ kv ∈ m, ∀ x, kv.1.ref? = some (.var x) → ∀ a, ¬ IsKey m (.attr a x) →
    ∀ w, eval D ρ (.attr false a kv.2) = some w → ρ'.attr a x = w
  selRenamed : ∀ kv ∈ m, ∀ x, kv.1.ref? = some (.var x) → ∀ s : ID, ¬ IsKey m (.sel x s.key) →
    ∀ w, eval D ρ (.sel false kv.2 s) = some w → ρ'.sel x s.key = w

/-- An entry of the mapping is used with a minus sign: `-` works on its value. -/
def NegOK (odd : Prop) (e : Expr) : Prop := e.Neg odd ∧ ∃ e', e.negated = .ok e'

/-- The variable used as prefix of an attribute or a component is not a key. -/
def FixedPrefix (m : List (Expr × Expr)) : Expr → Prop
  | .var _ _ id => ¬ IsKey m (.var id.key)
  | _ => False

mutual
/-- The expressions on which `substituted` does what it should. Excluded are
* names under `not` that are to be replaced (`Not` does not pass the substitution on),
* components with a minus sign (the sign is dropped),
* attributes replaced by attributes with a minus sign or of a variable that is itself replaced (the sign is
  dropped, the replacement is substituted again),
* replacing the parameter of a quantified expression or inserting its name into its scope (it is captured),
* immutable variables that are to be replaced,
* names that equal a key up to letter case but are spelled differently (attributes and components are
  compared by text). -/
def SubstOK (odd : Prop) (m : List (Expr × Expr)) : Expr → Prop
  | .tru | .fls | .num .. | .undefined => True
  | .var ng imm id =>
    (imm = true → ¬ IsKey m (.var id.key)) ∧
    (ng = true → ∀ kv ∈ m, kv.1.ref? = some (.var id.key) → NegOK odd kv.2)
  | .attr ng a pre =>
    match pre with
    | .var png imm id =>
      (∀ kv ∈ m, kv.1.ref? = some (.attr a id.key) → kv.1.eq (.attr false a (.var png imm id)) = true) ∧
      (∀ kv ∈ m, kv.1.eq (.attr false a (.var png imm id)) = true →
        (ng = true → NegOK odd kv.2) ∧
        ∀ ng' a' pre', kv.2 = .attr ng' a' pre' → ng' = false ∧ FixedPrefix m pre') ∧
      (¬ IsKey m (.attr a id.key) →
        (imm = true → ¬ IsKey m (.var id.key)) ∧
        ∀ kv ∈ m, kv.1.ref? = some (.var id.key) → ∃ imm' id', kv.2 = .var false imm' id')
    | _ => False
  | .sel ng pre s =>
    match pre with
    | .var png imm id =>
      ng = false ∧
      (∀ kv ∈ m, kv.1.ref? = some (.sel id.key s.key) → kv.1.eq (.sel false (.var png imm id) s) = true) ∧
      (∀ kv ∈ m, kv.1.eq (.sel false (.var png imm id) s) = true →
        ∀ ng' pre' s', kv.2 = .sel ng' pre' s' → ng' = false ∧ FixedPrefix m pre') ∧
      (¬ IsKey m (.sel id.key s.key) →
        (imm = true → ¬ IsKey m (.var id.key)) ∧
        ∀ kv ∈ m, kv.1.ref? = some (.var id.key) → ∃ imm' id', kv.2 = .var false imm' id')
    | _ => False
  | .call _ id args => (args = [] → ¬ IsKey m (.var id.key)) ∧ SubstOKL odd m args
  | .not e => ∀ r ∈ e.refs, ¬ IsKey m r ∧ ∀ x, r.prefix? = some x → ¬ IsKey m (.var x)
  | .bool _ ts => SubstOKL odd m ts
  | .add ts => SubstOKL odd m ts
  | .mul ts => SubstOKL odd m ts
  | .bin _ l r => SubstOK odd m l ∧ SubstOK odd m r
  | .rel _ l r => SubstOK odd m l ∧ SubstOK odd m r
  | .agg es => SubstOKL odd m es
  | .quant _ p it pr =>
    ¬ IsKey m (.var p.key) ∧ (∀ kv ∈ m, NameRef.var p.key ∉ kv.2.refs) ∧ SubstOK odd m it ∧ SubstOK odd m pr
def SubstOKL (odd : Prop) (m : List (Expr × Expr)) : List Expr → Prop
  | [] => True
  | e :: es => SubstOK odd m e ∧ SubstOKL odd m es
end

/-! ## Values depend on references only -/

theorem refsL_iff (ts : List Expr) (r : NameRef) : r ∈ Expr.refsL ts ↔ ∃ t ∈ ts, r ∈ t.refs := by
  induction ts with
  | nil => simp [Expr.refsL]
  | cons t ts ih => simp [Expr.refsL, ih]

theorem allSome_congr {α β : Type} {f g : α → Option β} {as : List α} (h : ∀ a ∈ as, f a = g a) :
    allSome f as = allSome g as := by
  induction as with
  | nil => rfl
  | cons a as ih =>
    simp only [allSome]
    rw [h a (by simp), ih (fun x hx => h x (by simp [hx]))]

theorem NameRef.Same.set {ρ ρ' : Env} {r : NameRef} (h : r.Same ρ ρ') (x : List PyStr) (w : Val) :
    r.Same (ρ.set x w) (ρ'.set x w) := by
  cases r <;> simp only [NameRef.Same, Env.set] at h ⊢
  · split
    · rfl
    · exact h
  · exact h
  · exact h
  · exact h

/-- The value of an expression depends only on the values of what it refers to. -/
theorem eval_congr (D : Division) (e : Expr) : ∀ ρ ρ', (∀ r ∈ e.refs, r.Same ρ ρ') → eval D ρ e = eval D ρ' e := by
  have list : ∀ ts : List Expr, (∀ t ∈ ts, ∀ ρ ρ', (∀ r ∈ t.refs, r.Same ρ ρ') → eval D ρ t = eval D ρ' t) →
      ∀ ρ ρ', (∀ r ∈ Expr.refsL ts, r.Same ρ ρ') → evalL D ρ ts = evalL D ρ' ts := by
    intro ts ih ρ ρ' h
    rw [evalL_eq, evalL_eq]
    exact allSome_congr fun t ht => ih t ht ρ ρ' fun r hr => h r ((refsL_iff ts r).mpr ⟨t, ht, hr⟩)
  induction e using Expr.ind with
  | tru => intro ρ ρ' _; rfl
  | fls => intro ρ ρ' _; rfl
  | undefined => intro ρ ρ' _; rfl
  | num v b => intro ρ ρ' _; rfl
  | var ng imm id =>
    intro ρ ρ' h
    have : ρ.var id.key = ρ'.var id.key := h (.var id.key) (by simp [Expr.refs])
    simp only [eval, this]
  | attr ng a pre _ =>
    intro ρ ρ' h
    cases pre with
    | var png imm id =>
      have : ρ.attr a id.key = ρ'.attr a id.key := h (.attr a id.key) (by simp [Expr.refs])
      cases png <;> simp only [eval, this]
    | _ => rfl
  | sel ng pre s _ =>
    intro ρ ρ' h
    cases pre with
    | var png imm id =>
      have : ρ.sel id.key s.key = ρ'.sel id.key s.key := h (.sel id.key s.key) (by simp [Expr.refs])
      cases png <;> simp only [eval, this]
    | _ => rfl
  | call ng id args ih =>
    intro ρ ρ' h
    cases args with
    | nil =>
      have : ρ.var id.key = ρ'.var id.key := h (.var id.key) (by simp [Expr.refs])
      simp only [eval, this]
    | cons a as =>
      have h1 : ρ.call id.key = ρ'.call id.key := h (.call id.key) (by simp [Expr.refs])
      have h2 := list (a :: as) ih ρ ρ' (fun r hr => h r (by simp only [Expr.refs]; exact List.mem_cons_of_mem _ hr))
      simp only [eval, h1, h2]
  | not e ih =>
    intro ρ ρ' h
    simp only [eval, ih ρ ρ' (fun r hr => h r (by simpa [Expr.refs] using hr))]
  | bool op ts ih =>
    intro ρ ρ' h
    simp only [eval, list ts ih ρ ρ' (fun r hr => h r (by simpa [Expr.refs] using hr))]
  | add ts ih =>
    intro ρ ρ' h
    simp only [eval, list ts ih ρ ρ' (fun r hr => h r (by simpa [Expr.refs] using hr))]
  | mul ts ih =>
    intro ρ ρ' h
    simp only [eval, list ts ih ρ ρ' (fun r hr => h r (by simpa [Expr.refs] using hr))]
  | bin op l r ihl ihr =>
    intro ρ ρ' h
    simp only [Expr.refs, List.mem_append] at h
    simp only [eval, ihl ρ ρ' (fun r hr => h r (.inl hr)), ihr ρ ρ' (fun r hr => h r (.inr hr))]
  | rel op l r ihl ihr =>
    intro ρ ρ' h
    simp only [Expr.refs, List.mem_append] at h
    simp only [eval, ihl ρ ρ' (fun r hr => h r (.inl hr)), ihr ρ ρ' (fun r hr => h r (.inr hr))]
  | agg ts ih =>
    intro ρ ρ' h
    simp only [eval, list ts ih ρ ρ' (fun r hr => h r (by simpa [Expr.refs] using hr))]
  | quant k p it pr ih1 ih2 =>
    intro ρ ρ' h
    simp only [Expr.refs, List.mem_cons, List.mem_append] at h
    have h2 : ∀ x : Int, eval D (ρ.set p.key (.int x)) pr = eval D (ρ'.set p.key (.int x)) pr :=
      fun x => ih2 _ _ fun r hr => (h r (.inr (.inr hr))).set _ _
    simp only [eval, ih1 ρ ρ' (fun r hr => h r (.inr (.inl hr))), h2]

/-- Changing a variable the expression does not mention does not change its value. -/
theorem eval_set (D : Division) (e : Expr) (ρ : Env) (x : List PyStr) (w : Val) (h : NameRef.var x ∉ e.refs) :
    eval D (ρ.set x w) e = eval D ρ e := by
  apply eval_congr
  intro r hr
  cases r with
  | var y =>
    simp only [NameRef.Same, Env.set]
    rw [if_neg]
    rintro rfl; exact h hr
  | _ => rfl

/-! ## Lemmas -/

theorem SubstOKL_iff (odd : Prop) (m : List (Expr × Expr)) (ts : List Expr) :
    SubstOKL odd m ts ↔ ∀ t ∈ ts, SubstOK odd m t := by
  induction ts with
  | nil => simp [SubstOKL]
  | cons t ts ih => simp [SubstOKL, ih]

theorem Agrees.set {m : List (Expr × Expr)} {ρ ρ' : Env} (h : Agrees D m ρ ρ') (hm : MapOK m)
    (x : List PyStr) (w : Val) (hk : ¬ IsKey m (.var x)) (hv : ∀ kv ∈ m, NameRef.var x ∉ kv.2.refs) :
    Agrees D m (ρ.set x w) (ρ'.set x w) := by
  have keyRefs : ∀ kv ∈ m, NameRef.var x ∉ kv.1.refs := by
    intro kv hkv hx
    obtain ⟨_, _, hs⟩ := hm kv hkv
    obtain ⟨r, hr⟩ := Option.isSome_iff_exists.mp hs
    apply hk
    refine ⟨kv, hkv, ?_⟩
    revert hx hr
    unfold Expr.ref?
    split <;> intro hx hr <;> simp_all [Expr.refs]
  constructor
  · intro kv hkv
    rw [eval_set D kv.2 ρ x w (hv kv hkv), eval_set D kv.1 ρ' x w (keyRefs kv hkv)]
    exact h.keys kv hkv
  · intro y hy
    simp only [Env.set]
    rw [h.var y hy]
  · exact h.attr
  · exact h.sel
  · exact h.call
  · intro kv hkv y hy a ha v hev
    apply h.attrRenamed kv hkv y hy a ha v
    rw [← hev]
    apply eval_congr
    intro r hr
    cases hc : kv.2 <;> rw [hc] at hr <;> simp [Expr.refs] at hr
    subst hr; rfl
  · intro kv hkv y hy a ha v hev
    apply h.selRenamed kv hkv y hy a ha v
    rw [← hev]
    apply eval_congr
    intro r hr
    cases hc : kv.2 <;> rw [hc] at hr <;> simp [Expr.refs] at hr
    subst hr; rfl

theorem substitution_nonname (m : List (Expr × Expr)) (e : Expr) (h : e.isName = false) :
    substitution m e = e := by simp [substitution, h]

/-- What the lookup finds. -/
theorem substitution_cases (m : List (Expr × Expr)) (e : Expr) (h : e.isName = true) :
    (∃ kv ∈ m, kv.1.eq e = true ∧ substitution m e = kv.2) ∨
    ((∀ kv ∈ m, kv.1.eq e = false) ∧ substitution m e = e) := by
  simp only [substitution, h, if_true]
  cases hf : m.find? (fun kv => kv.1.eq e) with
  | none =>
    refine .inr ⟨?_, rfl⟩
    intro kv hkv
    simpa using List.find?_eq_none.mp hf kv hkv
  | some kv =>
    refine .inl ⟨kv, List.mem_of_find?_eq_some hf, ?_, rfl⟩
    simpa using List.find?_some hf

/-- A key that equals a variable is that variable. -/
theorem key_eq_var {k : Expr} {imm : Bool} {id : ID} (hs : k.ref?.isSome = true)
    (h : k.eq (.var false imm id) = true) : k.ref? = some (.var id.key) := by
  cases k <;> simp [Expr.eq, Expr.cls, Expr.Cls.sub] at h
  rename_i ng imm' id'
  obtain ⟨rfl, h⟩ := h
  simp [Expr.ref?, (ID.eq_iff_key _ _).mp h]

theorem eq_var_of_ref {k : Expr} {imm : Bool} {id : ID} (h : k.ref? = some (.var id.key)) :
    k.eq (.var false imm id) = true := by
  unfold Expr.ref? at h
  split at h <;> simp at h
  simp [Expr.eq, Expr.cls, Expr.Cls.sub, (ID.eq_iff_key _ _).mpr h]

theorem neg_value (e e' : Expr) (hn : e.Neg D.Odd) (hw : e.WF) (h : e.negated = .ok e') (ρ : Env) (x : Int)
    (hv : eval D ρ e = some (.int x)) : eval D ρ e' = some (.int (-x)) := by
  have := (soundOK (eqSound D) (4 * weight e + 5)).ng e hn hw
  rw [Expr.negated] at h
  rw [h] at this
  exact this.2.2.2 ρ x hv

theorem negIf_some {w : Val} {v : Val} (h : w.negIf true = some v) : ∃ x, w = .int x ∧ v = .int (-x) := by
  cases w <;> simp [Val.negIf, Val.int?] at h
  exact ⟨_, rfl, h.symm⟩

/-- The result of substituting in `e`, with its meaning. -/
def Replaced (D : Division) (m : List (Expr × Expr)) (e r : Expr) : Prop :=
  ∀ ρ ρ', Agrees D m ρ ρ' → ∀ v, eval D ρ' e = some v → eval D ρ r = some v

theorem subst_list {D : Division} {m : List (Expr × Expr)} {ts : List Expr}
    (h : ∀ t ∈ ts, ∃ r, SubstitutedTo m t r ∧ Replaced D m t r) :
    ∃ rs, (∃ K, ∀ k, K ≤ k → ts.mapM (subst k (substitution m)) = .ok rs) ∧
      List.Forall₂ (fun t r => Replaced D m t r) ts rs := by
  induction ts with
  | nil => exact ⟨[], ⟨0, fun k _ => rfl⟩, .nil⟩
  | cons t ts ih =>
    obtain ⟨r, ⟨K1, h1⟩, h2⟩ := h t (by simp)
    obtain ⟨rs, ⟨K2, h3⟩, h4⟩ := ih (fun x hx => h x (by simp [hx]))
    refine ⟨r :: rs, ⟨max K1 K2, fun k hk => ?_⟩, .cons h2 h4⟩
    rw [List.mapM_cons, h1 k (by omega), h3 k (by omega)]
    rfl

theorem replaced_list {D : Division} {m : List (Expr × Expr)} {ts rs : List Expr}
    (h : List.Forall₂ (fun t r => Replaced D m t r) ts rs) {ρ ρ' : Env} (ha : Agrees D m ρ ρ') {vs : List Val}
    (hv : evalL D ρ' ts = some vs) : evalL D ρ rs = some vs := by
  induction h generalizing vs with
  | nil => exact hv
  | cons h1 _ ih =>
    simp only [evalL] at hv ⊢
    split at hv
    · rename_i w ws e1 e2
      rw [h1 ρ ρ' ha w e1, ih e2]
      exact hv
    · cases hv

/-- A variable that is not a key stays. -/
theorem subst_fixed {m : List (Expr × Expr)} (hm : MapOK m) {pre : Expr} (h : FixedPrefix m pre) (hw : ∃ imm id, pre = .var false imm id)
    (k : Nat) : subst (k + 1) (substitution m) pre = .ok pre := by
  obtain ⟨imm, id, rfl⟩ := hw
  simp only [FixedPrefix] at h
  simp only [subst]
  cases imm
  · rcases substitution_cases m (.var false false id) rfl with ⟨kv, hkv, he, _⟩ | ⟨_, hs⟩
    · exact (h ⟨kv, hkv, key_eq_var (hm kv hkv).2.2 he⟩).elim
    · simp [hs]
  · simp

/-- The prefix of an attribute or a component. -/
theorem subst_prefix {m : List (Expr × Expr)} (hm : MapOK m) {imm : Bool} {id : ID}
    (h1 : imm = true → ¬ IsKey m (.var id.key))
    (h2 : ∀ kv ∈ m, kv.1.ref? = some (.var id.key) → ∃ imm' id', kv.2 = .var false imm' id') :
    ∃ imm' id', (∀ k, subst (k + 1) (substitution m) (.var false imm id) = .ok (.var false imm' id')) ∧
      ((∃ kv ∈ m, kv.1.ref? = some (.var id.key) ∧ kv.2 = .var false imm' id') ∨
        (¬ IsKey m (.var id.key) ∧ id' = id)) := by
  simp only [subst]
  cases imm
  · rcases substitution_cases m (.var false false id) rfl with ⟨kv, hkv, he, hs⟩ | ⟨hn, hs⟩
    · have hr := key_eq_var (hm kv hkv).2.2 he
      obtain ⟨imm', id', he'⟩ := h2 kv hkv hr
      exact ⟨imm', id', fun k => by simp [hs, he'], .inl ⟨kv, hkv, hr, he'⟩⟩
    · refine ⟨false, id, fun k => by simp [hs], .inr ⟨?_, rfl⟩⟩
      rintro ⟨kv, hkv, hr⟩
      have := hn kv hkv
      rw [eq_var_of_ref hr] at this
      cases this
  · exact ⟨true, id, fun k => by simp, .inr ⟨h1 rfl, rfl⟩⟩

theorem WF_prefix {ng : Bool} {a : AttrKind} {pre : Expr} (h : (Expr.attr ng a pre).WF) :
    ∃ imm id, pre = .var false imm id := by
  cases pre with
  | var png imm id => simp only [Expr.WF] at h; obtain ⟨rfl, _⟩ := h; exact ⟨_, _, rfl⟩
  | _ => simp [Expr.WF] at h

theorem WF_prefix_sel {ng : Bool} {s : ID} {pre : Expr} (h : (Expr.sel ng pre s).WF) :
    ∃ imm id, pre = .var false imm id := by
  cases pre with
  | var png imm id => simp only [Expr.WF] at h; obtain ⟨rfl, _⟩ := h; exact ⟨_, _, rfl⟩
  | _ => simp [Expr.WF] at h

/-- `-x` at the end of `Attribute.substituted`. -/
theorem neg_end {ρ : Env} {ng : Bool} {x : Expr} {w v : Val} (hx : eval D ρ x = some w) (hw : x.WF)
    (hn : ng = true → NegOK D.Odd x) (hv : w.negIf ng = some v) :
    ∃ r, (if ng then x.negated else (pure x : Py Expr)) = .ok r ∧ eval D ρ r = some v := by
  cases ng with
  | false => simp only [Val.negIf, Bool.false_eq_true, if_false, Option.some.injEq] at hv; subst hv; exact ⟨x, rfl, hx⟩
  | true =>
    obtain ⟨hN, r, hr⟩ := hn rfl
    obtain ⟨i, rfl, rfl⟩ := negIf_some hv
    exact ⟨r, by simp [hr], neg_value x r hN hw hr ρ i hx⟩

/-! ## The theorem -/

theorem subst_ok {m : List (Expr × Expr)} (hm : MapOK m) (e : Expr) :
    e.WF → SubstOK D.Odd m e → ∃ r, SubstitutedTo m e r ∧ Replaced D m e r := by
  have nonName : ∀ e : Expr, (∀ k, subst (k + 1) (substitution m) e = .ok e) →
      Replaced D m e e → ∃ r, SubstitutedTo m e r ∧ Replaced D m e r := by
    intro e h1 h2
    refine ⟨e, ⟨1, fun k hk => ?_⟩, h2⟩
    obtain ⟨k', rfl⟩ : ∃ k', k = k' + 1 := ⟨k - 1, by omega⟩
    exact h1 k'
  induction e using Expr.ind with
  | tru => intro _ _; exact nonName _ (fun k => rfl) (fun ρ ρ' _ v h => h)
  | fls => intro _ _; exact nonName _ (fun k => rfl) (fun ρ ρ' _ v h => h)
  | undefined => intro h _; simp [Expr.WF] at h
  | num v b => intro _ _; exact nonName _ (fun k => rfl) (fun ρ ρ' _ v h => h)
  | var ng imm id =>
    intro hw hs
    simp only [SubstOK] at hs
    cases imm with
    | true =>
      refine nonName _ (fun k => by simp [subst]) ?_
      intro ρ ρ' ha v hv
      simp only [eval] at hv ⊢
      rw [← ha.var id.key (hs.1 rfl)]; exact hv
    | false =>
      rcases substitution_cases m (.var false false id) rfl with ⟨kv, hkv, he, hsub⟩ | ⟨hn, hsub⟩
      · obtain ⟨hkw, hvw, hks⟩ := hm kv hkv
        have hr := key_eq_var hks he
        have value : ∀ ρ ρ', Agrees D m ρ ρ' → eval D ρ kv.2 = some (ρ'.var id.key) := by
          intro ρ ρ' ha
          obtain ⟨w, h1, h2⟩ := ha.keys kv hkv
          have h3 := C11_eq_same_value kv.1 (.var false false id) hkw (by simpa [Expr.WF] using hw) he ρ' w
            (ρ'.var id.key) h2 (by simp [eval, Val.negIf])
          rw [h1, h3]
        have hneg : ng = true → NegOK D.Odd kv.2 := fun h => hs.2 h kv hkv hr
        cases ng with
        | false =>
          refine ⟨kv.2, ⟨1, fun k hk => ?_⟩, ?_⟩
          · obtain ⟨k', rfl⟩ : ∃ k', k = k' + 1 := ⟨k - 1, by omega⟩
            simp [subst, hsub]
          · intro ρ ρ' ha v hv
            simp only [eval, Val.negIf, Bool.false_eq_true, if_false, Option.some.injEq] at hv
            rw [value ρ ρ' ha, hv]
        | true =>
          obtain ⟨hN, r, hr'⟩ := hneg rfl
          refine ⟨r, ⟨1, fun k hk => ?_⟩, ?_⟩
          · obtain ⟨k', rfl⟩ : ∃ k', k = k' + 1 := ⟨k - 1, by omega⟩
            simp [subst, hsub, hr']
          · intro ρ ρ' ha v hv
            simp only [eval] at hv
            obtain ⟨x, h1, rfl⟩ := negIf_some hv
            exact neg_value kv.2 r hN hvw hr' ρ x (by rw [value ρ ρ' ha, h1])
      · have hk : ¬ IsKey m (.var id.key) := by
          rintro ⟨kv, hkv, hr⟩
          have := hn kv hkv
          rw [eq_var_of_ref hr] at this
          cases this
        refine nonName _ (fun k => ?_) ?_
        · cases ng
          · simp [subst, hsub]
          · simp [subst, hsub, Expr.negated, neg]
        · intro ρ ρ' ha v hv
          simp only [eval] at hv ⊢
          rw [← ha.var id.key hk]; exact hv
  | attr ng a pre _ =>
    intro hw hs
    obtain ⟨imm, id, rfl⟩ := WF_prefix hw
    simp only [SubstOK] at hs
    obtain ⟨hsp, hmap, hun⟩ := hs
    have hw1 : (Expr.attr false a (.var false imm id)).WF := by simpa [Expr.WF] using hw
    rcases substitution_cases m (.attr false a (.var false imm id)) rfl with ⟨kv, hkv, he, hsub⟩ | ⟨hn, hsub⟩
    · obtain ⟨hkw, hvw, hks⟩ := hm kv hkv
      obtain ⟨hneg, hattr⟩ := hmap kv hkv he
      have value : ∀ ρ ρ', Agrees D m ρ ρ' → eval D ρ kv.2 = some (ρ'.attr a id.key) := by
        intro ρ ρ' ha
        obtain ⟨w, h1, h2⟩ := ha.keys kv hkv
        have h3 := C11_eq_same_value kv.1 _ hkw hw1 he ρ' w (ρ'.attr a id.key) h2 (by simp [eval, Val.negIf])
        rw [h1, h3]
      have step : ∀ k, subst (k + 2) (substitution m) (.attr ng a (.var false imm id)) =
          (if ng then kv.2.negated else pure kv.2) := by
        intro k
        rw [subst]
        simp only [hsub]
        cases hc : kv.2 with
        | attr ng' a' pre' =>
          obtain ⟨rfl, hf⟩ := hattr ng' a' pre' hc
          rw [hc] at hvw
          simp only [subst_fixed hm hf (WF_prefix hvw)]
          rfl
        | _ => rfl
      cases ng with
      | false =>
        refine ⟨kv.2, ⟨2, fun k hk => ?_⟩, ?_⟩
        · obtain ⟨k', rfl⟩ : ∃ k', k = k' + 2 := ⟨k - 2, by omega⟩
          rw [step]; rfl
        · intro ρ ρ' ha v hv
          simp only [eval, Val.negIf, Bool.false_eq_true, if_false, Option.some.injEq] at hv
          rw [value ρ ρ' ha, hv]
      | true =>
        obtain ⟨hN, r, hr'⟩ := hneg rfl
        refine ⟨r, ⟨2, fun k hk => ?_⟩, ?_⟩
        · obtain ⟨k', rfl⟩ : ∃ k', k = k' + 2 := ⟨k - 2, by omega⟩
          rw [step]; simp [hr']
        · intro ρ ρ' ha v hv
          simp only [eval] at hv
          obtain ⟨x, h1, rfl⟩ := negIf_some hv
          exact neg_value kv.2 r hN hvw hr' ρ x (by rw [value ρ ρ' ha, h1])
    · have hk : ¬ IsKey m (.attr a id.key) := by
        rintro ⟨kv, hkv, hr⟩
        have := hn kv hkv
        rw [hsp kv hkv hr] at this
        cases this
      obtain ⟨hi, hren⟩ := hun hk
      obtain ⟨imm', id', hpre, hcase⟩ := subst_prefix hm hi hren
      refine ⟨.attr ng a (.var false imm' id'), ⟨2, fun k hk => ?_⟩, ?_⟩
      · obtain ⟨k', rfl⟩ : ∃ k', k = k' + 2 := ⟨k - 2, by omega⟩
        rw [subst]
        simp only [hsub, hpre]
        cases ng
        · rfl
        · rfl
      · intro ρ ρ' ha v hv
        simp only [eval] at hv ⊢
        rw [← hv]
        congr 1
        rcases hcase with ⟨kv, hkv, hr, he⟩ | ⟨hnk, rfl⟩
        · exact (ha.attrRenamed kv hkv id.key hr a hk _ (by rw [he]; simp [eval, Val.negIf])).symm
        · exact (ha.attr a id'.key hk hnk).symm
  | sel ng pre s _ =>
    intro hw hs
    obtain ⟨imm, id, rfl⟩ := WF_prefix_sel hw
    simp only [SubstOK] at hs
    obtain ⟨rfl, hsp, hmap, hun⟩ := hs
    rcases substitution_cases m (.sel false (.var false imm id) s) rfl with ⟨kv, hkv, he, hsub⟩ | ⟨hn, hsub⟩
    · obtain ⟨hkw, hvw, hks⟩ := hm kv hkv
      have hsel := hmap kv hkv he
      refine ⟨kv.2, ⟨2, fun k hk => ?_⟩, ?_⟩
      · obtain ⟨k', rfl⟩ : ∃ k', k = k' + 2 := ⟨k - 2, by omega⟩
        rw [subst]
        simp only [hsub]
        cases hc : kv.2 with
        | sel ng' pre' s' =>
          obtain ⟨rfl, hf⟩ := hsel ng' pre' s' hc
          rw [hc] at hvw
          simp only [subst_fixed hm hf (WF_prefix_sel hvw)]
          rfl
        | _ => rfl
      · intro ρ ρ' ha v hv
        obtain ⟨w, h1, h2⟩ := ha.keys kv hkv
        rw [h1, C11_eq_same_value kv.1 _ hkw hw he ρ' w v h2 hv]
    · have hk : ¬ IsKey m (.sel id.key s.key) := by
        rintro ⟨kv, hkv, hr⟩
        have := hn kv hkv
        rw [hsp kv hkv hr] at this
        cases this
      obtain ⟨hi, hren⟩ := hun hk
      obtain ⟨imm', id', hpre, hcase⟩ := subst_prefix hm hi hren
      refine ⟨.sel false (.var false imm' id') s, ⟨2, fun k hk => ?_⟩, ?_⟩
      · obtain ⟨k', rfl⟩ : ∃ k', k = k' + 2 := ⟨k - 2, by omega⟩
        rw [subst]
        simp only [hsub, hpre]
        rfl
      · intro ρ ρ' ha v hv
        simp only [eval] at hv ⊢
        rw [← hv]
        congr 1
        rcases hcase with ⟨kv, hkv, hr, he⟩ | ⟨hnk, rfl⟩
        · exact (ha.selRenamed kv hkv id.key hr s hk _ (by rw [he]; simp [eval, Val.negIf])).symm
        · exact (ha.sel id'.key s.key hk hnk).symm
  | call ng id args ih =>
    intro hw hs
    simp only [Expr.WF, WFL_iff] at hw
    simp only [SubstOK, SubstOKL_iff] at hs
    obtain ⟨rs, ⟨K, hK⟩, hF⟩ := subst_list (fun t ht => ih t ht (hw.2 t ht) (hs.2 t ht))
    have hsub : substitution m (.call ng id args) = .call ng id args := by
      rcases substitution_cases m (.call ng id args) rfl with ⟨kv, hkv, he, _⟩ | ⟨_, h⟩
      · obtain ⟨r, hr⟩ := Option.isSome_iff_exists.mp (hm kv hkv).2.2
        exfalso
        revert hr he
        cases kv.1 <;> simp [Expr.eq, Expr.cls, Expr.Cls.sub, Expr.ref?]
      · exact h
    refine ⟨.call ng id rs, ⟨K + 1, fun k hk => ?_⟩, ?_⟩
    · obtain ⟨k', rfl⟩ : ∃ k', k = k' + 1 := ⟨k - 1, by omega⟩
      rw [subst]
      simp only [hsub, hK k' (by omega)]
      rfl
    · intro ρ ρ' ha v hv
      cases hF with
      | nil =>
        simp only [eval] at hv ⊢
        rw [← ha.var id.key (hs.1 rfl)]; exact hv
      | cons h1 h2 =>
        simp only [eval] at hv ⊢
        split at hv
        · rename_i vs hvs
          rw [replaced_list (.cons h1 h2) ha hvs, ← ha.call]
          exact hv
        · cases hv
  | not e _ =>
    intro hw hs
    simp only [SubstOK] at hs
    refine nonName _ (fun k => rfl) ?_
    intro ρ ρ' ha v hv
    rw [← hv]
    apply eval_congr
    intro r hr
    obtain ⟨h1, h2⟩ := hs r (by simpa [Expr.refs] using hr)
    cases r with
    | var x => exact (ha.var x h1).symm
    | attr a x => exact (ha.attr a x h1 (h2 x rfl)).symm
    | sel x s => exact (ha.sel x s h1 (h2 x rfl)).symm
    | call f => simp only [NameRef.Same, ha.call]
  | bool op ts ih =>
    intro hw hs
    simp only [Expr.WF, WFL_iff] at hw
    simp only [SubstOK, SubstOKL_iff] at hs
    obtain ⟨rs, ⟨K, hK⟩, hF⟩ := subst_list (fun t ht => ih t ht (hw.1 t ht) (hs t ht))
    refine ⟨.bool op rs, ⟨K + 1, fun k hk => ?_⟩, ?_⟩
    · obtain ⟨k', rfl⟩ : ∃ k', k = k' + 1 := ⟨k - 1, by omega⟩
      rw [subst]
      simp only [substitution_nonname m (.bool op ts) rfl, hK k' (by omega)]
      rfl
    · intro ρ ρ' ha v hv
      simp only [eval] at hv ⊢
      cases hvs : evalL D ρ' ts with
      | none => simp [hvs] at hv
      | some vs => rw [replaced_list hF ha hvs]; rw [hvs] at hv; exact hv
  | add ts ih =>
    intro hw hs
    simp only [Expr.WF, WFL_iff] at hw
    simp only [SubstOK, SubstOKL_iff] at hs
    obtain ⟨rs, ⟨K, hK⟩, hF⟩ := subst_list (fun t ht => ih t ht (hw.1 t ht) (hs t ht))
    refine ⟨.add rs, ⟨K + 1, fun k hk => ?_⟩, ?_⟩
    · obtain ⟨k', rfl⟩ : ∃ k', k = k' + 1 := ⟨k - 1, by omega⟩
      rw [subst]
      simp only [substitution_nonname m (.add ts) rfl, hK k' (by omega)]
      rfl
    · intro ρ ρ' ha v hv
      simp only [eval] at hv ⊢
      cases hvs : evalL D ρ' ts with
      | none => simp [hvs] at hv
      | some vs => rw [replaced_list hF ha hvs]; rw [hvs] at hv; exact hv
  | mul ts ih =>
    intro hw hs
    simp only [Expr.WF, WFL_iff] at hw
    simp only [SubstOK, SubstOKL_iff] at hs
    obtain ⟨rs, ⟨K, hK⟩, hF⟩ := subst_list (fun t ht => ih t ht (hw t ht) (hs t ht))
    refine ⟨.mul rs, ⟨K + 1, fun k hk => ?_⟩, ?_⟩
    · obtain ⟨k', rfl⟩ : ∃ k', k = k' + 1 := ⟨k - 1, by omega⟩
      rw [subst]
      simp only [substitution_nonname m (.mul ts) rfl, hK k' (by omega)]
      rfl
    · intro ρ ρ' ha v hv
      simp only [eval] at hv ⊢
      cases hvs : evalL D ρ' ts with
      | none => simp [hvs] at hv
      | some vs => rw [replaced_list hF ha hvs]; rw [hvs] at hv; exact hv
  | bin op l r ihl ihr =>
    intro hw hs
    simp only [Expr.WF] at hw
    simp only [SubstOK] at hs
    obtain ⟨l', ⟨K1, h1⟩, hl⟩ := ihl hw.1 hs.1
    obtain ⟨r', ⟨K2, h2⟩, hr⟩ := ihr hw.2 hs.2
    refine ⟨.bin op l' r', ⟨max K1 K2 + 1, fun k hk => ?_⟩, ?_⟩
    · obtain ⟨k', rfl⟩ : ∃ k', k = k' + 1 := ⟨k - 1, by omega⟩
      rw [subst]
      simp only [substitution_nonname m (.bin op l r) rfl, h1 k' (by omega), h2 k' (by omega)]
      rfl
    · intro ρ ρ' ha v hv
      simp only [eval] at hv ⊢
      split at hv
      · rename_i e1 e2
        rw [hl ρ ρ' ha _ e1, hr ρ ρ' ha _ e2]
        exact hv
      · cases hv
  | rel op l r ihl ihr =>
    intro hw hs
    simp only [Expr.WF] at hw
    simp only [SubstOK] at hs
    obtain ⟨l', ⟨K1, h1⟩, hl⟩ := ihl hw.1 hs.1
    obtain ⟨r', ⟨K2, h2⟩, hr⟩ := ihr hw.2 hs.2
    refine ⟨.rel op l' r', ⟨max K1 K2 + 1, fun k hk => ?_⟩, ?_⟩
    · obtain ⟨k', rfl⟩ : ∃ k', k = k' + 1 := ⟨k - 1, by omega⟩
      rw [subst]
      simp only [substitution_nonname m (.rel op l r) rfl, h1 k' (by omega), h2 k' (by omega)]
      rfl
    · intro ρ ρ' ha v hv
      simp only [eval] at hv ⊢
      split at hv
      · rename_i e1 e2
        rw [hl ρ ρ' ha _ e1, hr ρ ρ' ha _ e2]
        exact hv
      · cases hv
  | agg ts ih =>
    intro hw hs
    simp only [Expr.WF, WFL_iff] at hw
    simp only [SubstOK, SubstOKL_iff] at hs
    obtain ⟨rs, ⟨K, hK⟩, hF⟩ := subst_list (fun t ht => ih t ht (hw t ht) (hs t ht))
    refine ⟨.agg rs, ⟨K + 1, fun k hk => ?_⟩, ?_⟩
    · obtain ⟨k', rfl⟩ : ∃ k', k = k' + 1 := ⟨k - 1, by omega⟩
      rw [subst]
      simp only [substitution_nonname m (.agg ts) rfl, hK k' (by omega)]
      rfl
    · intro ρ ρ' ha v hv
      simp only [eval] at hv ⊢
      cases hvs : evalL D ρ' ts with
      | none => simp [hvs] at hv
      | some vs => rw [replaced_list hF ha hvs]; rw [hvs] at hv; exact hv
  | quant q p it pr ih1 ih2 =>
    intro hw hs
    simp only [Expr.WF] at hw
    simp only [SubstOK] at hs
    obtain ⟨it', ⟨K1, h1⟩, hit⟩ := ih1 hw.2.1 hs.2.2.1
    obtain ⟨pr', ⟨K2, h2⟩, hpr⟩ := ih2 hw.2.2 hs.2.2.2
    refine ⟨.quant q p it' pr', ⟨max K1 K2 + 1, fun k hk => ?_⟩, ?_⟩
    · obtain ⟨k', rfl⟩ : ∃ k', k = k' + 1 := ⟨k - 1, by omega⟩
      rw [subst]
      simp only [substitution_nonname m (.quant q p it pr) rfl, h1 k' (by omega), h2 k' (by omega)]
      rfl
    · intro ρ ρ' ha v hv
      simp only [eval] at hv ⊢
      split at hv
      · rename_i xs e1
        rw [hit ρ ρ' ha _ e1]
        simp only
        split at hv
        · rename_i bs hbs
          have : allSome (fun x => (eval D (ρ.set p.key (.int x)) pr').bind Val.bool?) xs = some bs := by
            rw [allSome_some] at hbs ⊢
            refine forall₂_imp hbs fun x b hb => ?_
            cases hx : eval D (ρ'.set p.key (.int x)) pr with
            | none => simp [hx] at hb
            | some w =>
              rw [hpr _ _ (ha.set hm p.key (.int x) hs.1 hs.2.1) w hx]
              rw [hx] at hb; exact hb
          rw [this]
          exact hv
        · cases hv
      · cases hv

/-- `substituted(mapping=m)` returns, and its result has the value the expression has when every key of the
mapping is given the value of its replacement. Missing: expressions outside `SubstOK`, for which it is false,
see the counterexamples. -/
theorem C10_value_partial (m : List (Expr × Expr)) (hm : MapOK m) (e : Expr) (hw : e.WF)
    (hs : SubstOK D.Odd m e) :
    ∃ r, SubstitutedTo m e r ∧
      ∀ ρ ρ', Agrees D m ρ ρ' → ∀ v, eval D ρ' e = some v → eval D ρ r = some v :=
  subst_ok hm e hw hs

/-- The result is unique. -/
theorem C10_result_unique (m : List (Expr × Expr)) (e r r' : Expr) (h : SubstitutedTo m e r)
    (h' : SubstitutedTo m e r') : r = r' := by
  obtain ⟨K, hK⟩ := h
  obtain ⟨K', hK'⟩ := h'
  have h1 := hK (max K K') (by omega)
  rw [hK' (max K K') (by omega)] at h1
  exact (Except.ok.inj h1).symm


/-! ### The hypotheses can be met -/

/-- `X => 7, Y => Z, X'Size => 2 * Z`. -/
def exMap : List (Expr × Expr) :=
  [(exVar 'X', .n 7), (exVar 'Y', exVar 'Z'), (.attr false .size (exVar 'X'), .mul [.n 2, exVar 'Z'])]

/-- `Y'Last - X'Size + X * (-Y) < Z and for all Q in [1, X] => Q <= Y`. -/
def exSubst : Expr :=
  .bool .and [.rel .lt (.add [.bin .sub (.attr false .last (exVar 'Y')) (.attr false .size (exVar 'X')),
      .mul [exVar 'X', .var true false ⟨[['Y']]⟩]]) (exVar 'Z'),
    .quant .allIn ⟨[['Q']]⟩ (.agg [.n 1, exVar 'X']) (.rel .le (exVar 'Q') (exVar 'Y'))]

/-- `exEnv` with `X = 7` and `X'Size = 6`, as `Z = 3`; `Y` already has the value of `Z`. -/
def exEnv' : Env :=
  ⟨fun k => if k = [['x']] then .int 7 else .int 3,
   fun a x => if a = .size ∧ x = [['x']] then .int 6 else .int 8, fun _ _ => .int 1, fun _ _ => .int 2⟩

theorem exKeys : (ID.mk [['X']]).key = [['x']] ∧ (ID.mk [['Y']]).key = [['y']] ∧ (ID.mk [['Z']]).key = [['z']] ∧
    (ID.mk [['Q']]).key = [['q']] := by decide

theorem isKey_exMap (r : NameRef) : IsKey exMap r ↔ r = .var [['x']] ∨ r = .var [['y']] ∨ r = .attr .size [['x']] := by
  simp only [IsKey, exMap, List.mem_cons, List.not_mem_nil, or_false, exists_eq_or_imp, exists_eq_left, exVar,
    Expr.ref?, Option.some.injEq, exKeys]
  constructor <;> rintro (rfl | rfl | rfl) <;> simp

example : MapOK exMap ∧ exSubst.WF ∧ SubstOK D.Odd exMap exSubst ∧ Agrees D exMap exEnv exEnv' ∧
    eval D exEnv' exSubst = some (.bool false) := by
  refine ⟨?_, ?_, ?_, ?_, rfl⟩
  · simp only [MapOK, exMap, List.mem_cons, List.not_mem_nil, or_false, forall_eq_or_imp, forall_eq, exVar,
      Expr.WF, Expr.WFL, Expr.n, Expr.ref?]; decide
  · simp only [exSubst, Expr.WF, Expr.WFL, exVar, Expr.headOK, Expr.n]; decide
  · simp only [exSubst, SubstOK, SubstOKL, exVar, Expr.n, isKey_exMap]
    simp [exMap, exVar, Expr.ref?, Expr.n, exKeys, NegOK, Expr.Neg, Expr.refs, Expr.refsL]
    exact ⟨by decide, _, rfl⟩
  · constructor
    · simp only [exMap, List.mem_cons, List.not_mem_nil, or_false, forall_eq_or_imp, forall_eq]
      exact ⟨⟨.int 7, rfl, rfl⟩, ⟨.int 3, rfl, rfl⟩, ⟨.int 6, rfl, rfl⟩⟩
    · intro x hx
      simp only [isKey_exMap, NameRef.var.injEq, not_or] at hx
      simp [exEnv, exEnv', hx]
    · intro a x hx hx'
      simp only [isKey_exMap, NameRef.var.injEq, not_or] at hx hx'
      simp [exEnv, exEnv', hx']
    · intro x s _ _; rfl
    · rfl
    · simp only [exMap, List.mem_cons, List.not_mem_nil, or_false, forall_eq_or_imp, forall_eq, isKey_exMap]
      refine ⟨?_, ?_, ?_⟩
      · intro x _ a _ w hw; simp [eval, Expr.n] at hw
      · intro x hx a _ w hw
        simp [exVar, Expr.ref?, exKeys] at hx
        subst hx
        simp [eval, exVar, exEnv, Val.negIf] at hw
        simp [exEnv', hw]
      · intro x hx; simp [Expr.ref?, exVar] at hx
    · simp only [exMap, List.mem_cons, List.not_mem_nil, or_false, forall_eq_or_imp, forall_eq, isKey_exMap]
      refine ⟨?_, ?_, ?_⟩
      · intro x _ a _ w hw; simp [eval, Expr.n] at hw
      · intro x hx a _ w hw
        simp [exVar, Expr.ref?, exKeys] at hx
        subst hx
        simp [eval, exVar, exEnv, Val.negIf] at hw
        simp [exEnv', hw]
      · intro x hx; simp [Expr.ref?, exVar] at hx

/-- The result for the example: `Y'Last` became `Z'Last`, the sign of `-Y` is kept. -/
example : (subst 9 (substitution exMap) exSubst).toOption.map (fun e => String.ofList e.str) =
    some "Z'Last - 2 * Z + 7 * (-Z) < Z\nand (for all Q in [1, 7] =>\n        Q <= Z)" := by decide

/-! ### Where it fails -/

/-- Substitution of a variable by a number changes the assignment as follows. -/
theorem agrees_number (id : ID) (v : Int) (ρ : Env) :
    Agrees D [(.var false false id, .n v)] ρ (ρ.set id.key (.int v)) := by
  have key : ∀ r, IsKey [(Expr.var false false id, Expr.n v)] r ↔ r = .var id.key := by
    intro r; simp [IsKey, Expr.ref?, eq_comm]
  constructor
  · simp [eval, Expr.n, Val.negIf, Env.set]
  · intro x hx
    simp only [key, NameRef.var.injEq] at hx
    simp [Env.set, hx]
  · intro _ _ _ _; rfl
  · intro _ _ _ _; rfl
  · rfl
  · intro kv hkv x _ a _ w hw
    simp only [List.mem_singleton] at hkv
    subst hkv; simp [eval, Expr.n] at hw
  · intro kv hkv x _ a _ w hw
    simp only [List.mem_singleton] at hkv
    subst hkv; simp [eval, Expr.n] at hw

/-- What C10 claims, for one expression and mapping. -/
def SubstitutionRight (D : Division) (m : List (Expr × Expr)) (e : Expr) : Prop :=
  ∃ r, SubstitutedTo m e r ∧ ∀ ρ ρ', Agrees D m ρ ρ' → ∀ v, eval D ρ' e = some v → eval D ρ r = some v

theorem not_right {m : List (Expr × Expr)} {e r : Expr} (K : Nat)
    (h : ∀ k, K ≤ k → subst k (substitution m) e = .ok r)
    {ρ ρ' : Env} (ha : Agrees D m ρ ρ') {v : Val} (hv : eval D ρ' e = some v) {v' : Val}
    (hr : eval D ρ r = some v') (hne : v' ≠ v) :
    ¬ SubstitutionRight D m e := by
  rintro ⟨r', h1, h2⟩
  have := C10_result_unique m e r r' ⟨K, h⟩ h1
  subst this
  rw [h2 ρ ρ' ha v hv] at hr
  exact hne (Option.some.inj hr).symm

/-- `not (X = 7)` with `X => 7` stays `not (X = 7)`: `Not` does not pass the substitution on. -/
theorem C10_not_counterexample : ∃ m e, MapOK m ∧ e.WF ∧ ¬ SubstitutionRight D m e := by
  refine ⟨[(exVar 'X', .n 7)], .not (.rel .eq (exVar 'X') (.n 7)), ?_, ?_, ?_⟩
  · simp only [MapOK, List.mem_singleton, forall_eq, exVar, Expr.WF, Expr.n, Expr.ref?]; decide
  · simp only [Expr.WF, exVar, Expr.n]; decide
  · refine not_right (v := .bool false) 1 ?_ (agrees_number ⟨[['X']]⟩ 7 exEnv) rfl
      (r := .not (.rel .eq (exVar 'X') (.n 7))) rfl (by decide)
    intro k hk
    obtain ⟨k', rfl⟩ : ∃ k', k = k' + 1 := ⟨k - 1, by omega⟩
    rfl

/-- `for all X in [1] => X = 1` with `X => 7` becomes `for all X in [1] => 7 = 1`: bound occurrences are
replaced as well. -/
theorem C10_capture_counterexample : ∃ m e, MapOK m ∧ e.WF ∧ ¬ SubstitutionRight D m e := by
  refine ⟨[(exVar 'X', .n 7)], .quant .allIn ⟨[['X']]⟩ (.agg [.n 1]) (.rel .eq (exVar 'X') (.n 1)), ?_, ?_, ?_⟩
  · simp only [MapOK, List.mem_singleton, forall_eq, exVar, Expr.WF, Expr.n, Expr.ref?]; decide
  · simp only [Expr.WF, Expr.WFL, exVar, Expr.n]; decide
  · refine not_right (v := .bool true) 3 ?_ (agrees_number ⟨[['X']]⟩ 7 exEnv) rfl
      (r := .quant .allIn ⟨[['X']]⟩ (.agg [.n 1]) (.rel .eq (.n 7) (.n 1))) rfl (by decide)
    intro k hk
    obtain ⟨k', rfl⟩ : ∃ k', k = k' + 3 := ⟨k - 3, by omega⟩
    rfl

/-- `-X.Y` with an unrelated mapping loses its sign. -/
theorem C10_component_sign_counterexample : ∃ m e, MapOK m ∧ e.WF ∧ ¬ SubstitutionRight D m e := by
  refine ⟨[(exVar 'Z', .n 7)], .sel true (exVar 'X') ⟨[['Y']]⟩, ?_, ?_, ?_⟩
  · simp only [MapOK, List.mem_singleton, forall_eq, exVar, Expr.WF, Expr.n, Expr.ref?]; decide
  · simp only [Expr.WF, exVar]; decide
  · refine not_right (v := .int (-1)) 2 ?_ (agrees_number ⟨[['Z']]⟩ 7 exEnv) rfl
      (r := .sel false (exVar 'X') ⟨[['Y']]⟩) rfl (by decide)
    intro k hk
    obtain ⟨k', rfl⟩ : ∃ k', k = k' + 2 := ⟨k - 2, by omega⟩
    rfl

/-- `-X` with `X => Y mod 3` becomes `(-Y) mod 3` (negation is wrong on `mod`, see C13). -/
theorem C10_negative_counterexample : ∃ m e, MapOK m ∧ e.WF ∧ ¬ SubstitutionRight D m e := by
  refine ⟨[(exVar 'X', .bin .mod (exVar 'Y') (.n 3))], .var true false ⟨[['X']]⟩, ?_, ?_, ?_⟩
  · simp only [MapOK, List.mem_singleton, forall_eq, exVar, Expr.WF, Expr.n, Expr.ref?]; decide
  · simp only [Expr.WF]; decide
  · refine not_right (v := .int (-2)) 1 (ρ := exEnv.set [['y']] (.int 5)) (ρ' := (exEnv.set [['y']] (.int 5)).set [['x']] (.int 2)) ?_ ?_ rfl
      (r := .bin .mod (.var true false ⟨[['Y']]⟩) (.n 3)) rfl (by decide)
    · intro k hk
      obtain ⟨k', rfl⟩ : ∃ k', k = k' + 1 := ⟨k - 1, by omega⟩
      rfl
    · constructor
      · simp only [List.mem_singleton, forall_eq]
        exact ⟨.int 2, rfl, rfl⟩
      · intro x hx
        simp only [IsKey, List.mem_singleton, exists_eq_left, exVar, Expr.ref?, exKeys, Option.some.injEq,
          NameRef.var.injEq] at hx
        simp [Env.set, Ne.symm hx]
      · intro _ _ _ _; rfl
      · intro _ _ _ _; rfl
      · rfl
      · intro kv hkv x _ a _ w hw
        simp only [List.mem_singleton] at hkv
        subst hkv; simp [eval] at hw
      · intro kv hkv x _ a _ w hw
        simp only [List.mem_singleton] at hkv
        subst hkv; simp [eval] at hw

/-- `X'Size` with `X'Size => -Y'Size` becomes `Y'Size`: the sign of the replacement is lost. -/
theorem C10_attribute_sign_counterexample : ∃ m e, MapOK m ∧ e.WF ∧ ¬ SubstitutionRight D m e := by
  refine ⟨[(.attr false .size (exVar 'X'), .attr true .size (exVar 'Y'))], .attr false .size (exVar 'X'), ?_, ?_, ?_⟩
  · simp only [MapOK, List.mem_singleton, forall_eq, exVar, Expr.WF, Expr.ref?]; decide
  · simp only [Expr.WF, exVar]; decide
  · refine not_right (v := .int (-8)) 2 (ρ := exEnv)
      (ρ' := { exEnv with attr := fun a x => if a = .size ∧ x = [['x']] then .int (-8) else .int 8 }) ?_ ?_ rfl
      (r := .attr false .size (exVar 'Y')) rfl (by decide)
    · intro k hk
      obtain ⟨k', rfl⟩ : ∃ k', k = k' + 2 := ⟨k - 2, by omega⟩
      rfl
    · constructor
      · simp only [List.mem_singleton, forall_eq]
        exact ⟨.int (-8), rfl, rfl⟩
      · intro _ _; rfl
      · intro a x hx _
        simp only [IsKey, List.mem_singleton, exists_eq_left, exVar, Expr.ref?, exKeys, Option.some.injEq,
          NameRef.attr.injEq] at hx
        have : ¬ (a = .size ∧ x = [['x']]) := fun h => hx ⟨h.1.symm, h.2.symm⟩
        simp [exEnv, this]
      · intro _ _ _ _; rfl
      · rfl
      · intro kv hkv x hx
        simp only [List.mem_singleton] at hkv
        subst hkv; simp [exVar, Expr.ref?] at hx
      · intro kv hkv x hx
        simp only [List.mem_singleton] at hkv
        subst hkv; simp [exVar, Expr.ref?] at hx

/-- `X'Size` with `X'Size => X'Size'Size`: the replacement is substituted again and again, there is no result
for any number of steps (in Python the recursion limit is exceeded). -/
theorem C10_termination_counterexample : ∃ m e, ∀ r, ¬ SubstitutedTo m e r := by
  refine ⟨[(.attr false .size (exVar 'X'), .attr false .size (.attr false .size (exVar 'X')))],
    .attr false .size (exVar 'X'), ?_⟩
  have : ∀ k, subst k (substitution [(.attr false .size (exVar 'X'), .attr false .size (.attr false .size (exVar 'X')))])
      (.attr false .size (exVar 'X')) = .error .fuel := by
    intro k
    induction k with
    | zero => rfl
    | succ k ih =>
      rw [subst]
      have : substitution [(.attr false .size (exVar 'X'), .attr false .size (.attr false .size (exVar 'X')))]
        (.attr false .size (exVar 'X')) = .attr false .size (.attr false .size (exVar 'X')) := rfl
      simp only [this, ih]
      rfl
  rintro r ⟨K, hK⟩
  have h := hK K (Nat.le_refl _)
  rw [this] at h
  cases h

end Verif
