import Verif.Expr.SubstProps
import Verif.Common.Props
import Verif.Ident.Props

/-! # Property C12: reported variables, search for subexpressions -/

namespace Verif

variable {D : Division}

/-! ## Specification -/

/-- The name a reference is about. -/
def NameRef.name : NameRef → List PyStr
  | .var x => x
  | .attr _ x => x
  | .sel x _ => x
  | .call f => f

/-- Two assignments agree on everything that belongs to one name. -/
structure SameName (ρ ρ' : Env) (x : List PyStr) : Prop where
  var : ρ.var x = ρ'.var x
  attr : ∀ a, ρ.attr a x = ρ'.attr a x
  sel : ∀ s, ρ.sel x s = ρ'.sel x s
  call : ρ.call x = ρ'.call x

mutual
/-- The expressions whose variables are reported completely. Excluded are
* aggregates that are not constant (`Aggregate` reports nothing),
* quantified expressions whose parameter also occurs in the iterated sequence (the parameter is removed from
  the variables of both parts) or is used in another way than as a variable. -/
def VarsOK : Expr → Prop
  | .tru | .fls | .num .. | .undefined | .var .. | .attr .. | .sel .. => True
  | .call _ _ args => VarsOKL args
  | .not e => VarsOK e
  | .bool _ ts => VarsOKL ts
  | .add ts => VarsOKL ts
  | .mul ts => VarsOKL ts
  | .bin _ l r => VarsOK l ∧ VarsOK r
  | .rel _ l r => VarsOK l ∧ VarsOK r
  | .agg es => Expr.refsL es = []
  | .quant _ p it pr =>
    VarsOK it ∧ VarsOK pr ∧ (∀ r ∈ it.refs, r.name ≠ p.key) ∧
    ∀ r ∈ pr.refs, r.name = p.key → r = .var p.key
def VarsOKL : List Expr → Prop
  | [] => True
  | e :: es => VarsOK e ∧ VarsOKL es
end

/-- `x` occurs in `e`. -/
inductive Subexpr : Expr → Expr → Prop
  | refl {e} : Subexpr e e
  | attr {x ng a e} : Subexpr x e → Subexpr x (.attr ng a e)
  | sel {x ng e s} : Subexpr x e → Subexpr x (.sel ng e s)
  | call {x ng id e es} : e ∈ es → Subexpr x e → Subexpr x (.call ng id es)
  | not {x e} : Subexpr x e → Subexpr x (.not e)
  | bool {x op e es} : e ∈ es → Subexpr x e → Subexpr x (.bool op es)
  | add {x e es} : e ∈ es → Subexpr x e → Subexpr x (.add es)
  | mul {x e es} : e ∈ es → Subexpr x e → Subexpr x (.mul es)
  | binL {x op l r} : Subexpr x l → Subexpr x (.bin op l r)
  | binR {x op l r} : Subexpr x r → Subexpr x (.bin op l r)
  | relL {x op l r} : Subexpr x l → Subexpr x (.rel op l r)
  | relR {x op l r} : Subexpr x r → Subexpr x (.rel op l r)
  | agg {x e es} : e ∈ es → Subexpr x e → Subexpr x (.agg es)
  | quantL {x q p it pr} : Subexpr x it → Subexpr x (.quant q p it pr)
  | quantR {x q p it pr} : Subexpr x pr → Subexpr x (.quant q p it pr)

/-- `x` occurs in `e` only below conjunctions, disjunctions, sums, products, arithmetic operators and
relations: where `findall` looks. -/
inductive Searched : Expr → Expr → Prop
  | refl {e} : Searched e e
  | bool {x op e es} : e ∈ es → Searched x e → Searched x (.bool op es)
  | add {x e es} : e ∈ es → Searched x e → Searched x (.add es)
  | mul {x e es} : e ∈ es → Searched x e → Searched x (.mul es)
  | binL {x op l r} : Searched x l → Searched x (.bin op l r)
  | binR {x op l r} : Searched x r → Searched x (.bin op l r)
  | relL {x op l r} : Searched x l → Searched x (.rel op l r)
  | relR {x op l r} : Searched x r → Searched x (.rel op l r)

/-! ## Lemmas -/

/-- Reported variables hash consistently with their equality. -/
theorem pyVar_hash (h : List PyStr → Int) (a b : PyVar) (e : a.eq b = true) : a.hash h = b.hash h := by
  simp only [PyVar.eq, Bool.and_eq_true] at e
  exact ID.C38_hash h a.id b.id e.2

theorem variablesL_mem (h : List PyStr → Int) (ts : List Expr) (v : PyVar) :
    v ∈ variablesL h ts ↔ ∃ t ∈ ts, v ∈ variables h t := by
  induction ts with
  | nil => simp [variablesL]
  | cons t ts ih => simp [variablesL, ih]

theorem VarsOKL_iff (ts : List Expr) : VarsOKL ts ↔ ∀ t ∈ ts, VarsOK t := by
  induction ts with
  | nil => simp [VarsOKL]
  | cons t ts ih => simp [VarsOKL, ih]

/-- The names of the reported variables. -/
def reported (h : List PyStr → Int) (e : Expr) : List (List PyStr) := (variables h e).map (·.id.key)

theorem mem_reported (h : List PyStr → Int) (e : Expr) (x : List PyStr) :
    x ∈ reported h e ↔ ∃ v ∈ variables h e, v.id.key = x := by simp [reported]

/-- Removing duplicates does not change the names. -/
theorem names_unique (h : List PyStr → Int) (l : List PyVar) (x : List PyStr) :
    (∃ v ∈ unique (PyVar.hash h) PyVar.eq l, v.id.key = x) ↔ ∃ v ∈ l, v.id.key = x := by
  constructor
  · rintro ⟨v, hv, rfl⟩
    exact ⟨v, (Common.C44_unique_sublist _ _ l).subset hv, rfl⟩
  · rintro ⟨v, hv, rfl⟩
    obtain ⟨w, hw, he⟩ := Common.C44_unique_covers (PyVar.hash h) PyVar.eq
      (fun a => by simp [PyVar.eq, (ID.eq_iff_key _ _).mpr]) l v hv
    simp only [PyVar.eq, Bool.and_eq_true] at he
    exact ⟨w, hw, (ID.eq_iff_key _ _).mp he.2⟩

theorem names_list (h : List PyStr → Int) (ts : List Expr) (x : List PyStr) :
    (∃ v ∈ variablesL h ts, v.id.key = x) ↔ ∃ t ∈ ts, x ∈ reported h t := by
  simp only [variablesL_mem, mem_reported]
  constructor
  · rintro ⟨v, ⟨t, ht, hv⟩, rfl⟩; exact ⟨t, ht, v, hv, rfl⟩
  · rintro ⟨t, ht, v, hv, rfl⟩; exact ⟨v, ⟨t, ht, hv⟩, rfl⟩

theorem names_append (h : List PyStr → Int) (l r : Expr) (x : List PyStr) :
    (∃ v ∈ variables h l ++ variables h r, v.id.key = x) ↔ x ∈ reported h l ∨ x ∈ reported h r := by
  simp only [List.mem_append, mem_reported]
  constructor
  · rintro ⟨v, hv | hv, rfl⟩
    · exact .inl ⟨v, hv, rfl⟩
    · exact .inr ⟨v, hv, rfl⟩
  · rintro (⟨v, hv, rfl⟩ | ⟨v, hv, rfl⟩)
    · exact ⟨v, .inl hv, rfl⟩
    · exact ⟨v, .inr hv, rfl⟩

theorem names_quant (h : List PyStr → Int) (q : QKind) (p : ID) (it pr : Expr) (x : List PyStr) :
    x ∈ reported h (.quant q p it pr) ↔ x ≠ p.key ∧ (x ∈ reported h it ∨ x ∈ reported h pr) := by
  rw [mem_reported, variables, names_unique, ← names_append]
  have key : ∀ v : PyVar, (!v.id.eq p) = true ↔ v.id.key ≠ p.key := by
    intro v
    rw [Bool.not_eq_true', ← Bool.not_eq_true, ID.eq_iff_key]
  constructor
  · rintro ⟨v, hv, rfl⟩
    obtain ⟨h1, h2⟩ := List.mem_filter.mp hv
    exact ⟨(key v).mp h2, v, h1, rfl⟩
  · rintro ⟨h1, v, hv, rfl⟩
    exact ⟨v, List.mem_filter.mpr ⟨hv, (key v).mpr h1⟩, rfl⟩

/-- Every reported name occurs in the expression. -/
theorem reported_occurs (h : List PyStr → Int) (e : Expr) :
    e.WF → ∀ x ∈ reported h e, ∃ r ∈ e.refs, r.name = x := by
  have list : ∀ ts : List Expr, (∀ t ∈ ts, t.WF → ∀ x ∈ reported h t, ∃ r ∈ t.refs, r.name = x) →
      (∀ t ∈ ts, t.WF) → ∀ x, (∃ t ∈ ts, x ∈ reported h t) → ∃ r ∈ Expr.refsL ts, r.name = x := by
    rintro ts ih hw x ⟨t, ht, hx⟩
    obtain ⟨r, hr, hn⟩ := ih t ht (hw t ht) x hx
    exact ⟨r, (refsL_iff ts r).mpr ⟨t, ht, hr⟩, hn⟩
  induction e using Expr.ind with
  | tru => simp [reported, variables]
  | fls => simp [reported, variables]
  | undefined => simp [reported, variables]
  | num v b => simp [reported, variables]
  | var ng imm id => simp [reported, variables, Expr.refs, NameRef.name]
  | attr ng a pre _ =>
    intro hw
    obtain ⟨imm, id, rfl⟩ := WF_prefix hw
    simp [reported, variables, Expr.refs, NameRef.name]
  | sel ng pre s _ =>
    intro hw
    obtain ⟨imm, id, rfl⟩ := WF_prefix_sel hw
    simp [reported, variables, Expr.refs, NameRef.name]
  | call ng id args ih =>
    intro hw x hx
    simp only [Expr.WF, WFL_iff] at hw
    rw [mem_reported, variables] at hx
    simp only [List.mem_cons, exists_eq_or_imp] at hx
    cases args with
    | nil =>
      simp only [variablesL, List.not_mem_nil, false_and, exists_false, or_false] at hx
      exact ⟨.var id.key, by simp [Expr.refs], hx⟩
    | cons a as =>
      simp only [Expr.refs]
      rcases hx with hx | hx
      · exact ⟨.call id.key, List.mem_cons_self .., hx⟩
      · obtain ⟨r, hr, hn⟩ := list _ ih hw.2 x ((names_list h _ x).mp hx)
        exact ⟨r, List.mem_cons_of_mem _ hr, hn⟩
  | not e ih =>
    intro hw x hx
    simp only [Expr.WF] at hw
    exact ih hw x hx
  | bool op ts ih =>
    intro hw x hx
    simp only [Expr.WF, WFL_iff] at hw
    rw [mem_reported, variables, names_unique] at hx
    exact list _ ih hw.1 x ((names_list h _ x).mp hx)
  | add ts ih =>
    intro hw x hx
    simp only [Expr.WF, WFL_iff] at hw
    rw [mem_reported, variables, names_unique] at hx
    exact list _ ih hw.1 x ((names_list h _ x).mp hx)
  | mul ts ih =>
    intro hw x hx
    simp only [Expr.WF, WFL_iff] at hw
    rw [mem_reported, variables, names_unique] at hx
    exact list _ ih hw x ((names_list h _ x).mp hx)
  | bin op l r ihl ihr =>
    intro hw x hx
    simp only [Expr.WF] at hw
    rw [mem_reported, variables, names_unique, names_append] at hx
    simp only [Expr.refs, List.mem_append]
    rcases hx with hx | hx
    · obtain ⟨r, hr, hn⟩ := ihl hw.1 x hx; exact ⟨r, .inl hr, hn⟩
    · obtain ⟨r, hr, hn⟩ := ihr hw.2 x hx; exact ⟨r, .inr hr, hn⟩
  | rel op l r ihl ihr =>
    intro hw x hx
    simp only [Expr.WF] at hw
    rw [mem_reported, variables, names_unique, names_append] at hx
    simp only [Expr.refs, List.mem_append]
    rcases hx with hx | hx
    · obtain ⟨r, hr, hn⟩ := ihl hw.1 x hx; exact ⟨r, .inl hr, hn⟩
    · obtain ⟨r, hr, hn⟩ := ihr hw.2 x hx; exact ⟨r, .inr hr, hn⟩
  | agg ts ih => simp [reported, variables]
  | quant q p it pr ih1 ih2 =>
    intro hw x hx
    simp only [Expr.WF] at hw
    rw [names_quant] at hx
    simp only [Expr.refs, List.mem_append, List.mem_cons]
    rcases hx.2 with hx | hx
    · obtain ⟨r, hr, hn⟩ := ih1 hw.2.1 x hx; exact ⟨r, .inr (.inl hr), hn⟩
    · obtain ⟨r, hr, hn⟩ := ih2 hw.2.2 x hx; exact ⟨r, .inr (.inr hr), hn⟩

/-! ## Theorems -/

/-- Every variable that is reported occurs in the expression. -/
theorem C12_reported_occurs (h : List PyStr → Int) (e : Expr) (hw : e.WF) (v : PyVar) (hv : v ∈ variables h e) :
    ∃ r ∈ e.refs, r.name = v.id.key :=
  reported_occurs h e hw v.id.key ((mem_reported h e _).mpr ⟨v, hv, rfl⟩)

/-- The value of an expression depends only on the names that `variables()` reports. Missing: expressions
outside `VarsOK`, see the counterexamples. -/
theorem C12_value_partial (h : List PyStr → Int) (e : Expr) (hw : e.WF) (hk : VarsOK e) (ρ ρ' : Env)
    (hs : ∀ v ∈ variables h e, SameName ρ ρ' v.id.key) : eval D ρ e = eval D ρ' e := by
  have list : ∀ ts : List Expr, (∀ t ∈ ts, t.WF → VarsOK t → ∀ ρ ρ',
      (∀ x ∈ reported h t, SameName ρ ρ' x) → eval D ρ t = eval D ρ' t) →
      (∀ t ∈ ts, t.WF) → (∀ t ∈ ts, VarsOK t) → ∀ ρ ρ',
      (∀ x, (∃ t ∈ ts, x ∈ reported h t) → SameName ρ ρ' x) → evalL D ρ ts = evalL D ρ' ts := by
    intro ts ih hw hk ρ ρ' hs
    rw [evalL_eq, evalL_eq]
    exact allSome_congr fun t ht => ih t ht (hw t ht) (hk t ht) ρ ρ' fun x hx => hs x ⟨t, ht, hx⟩
  replace hs : ∀ x ∈ reported h e, SameName ρ ρ' x := by
    intro x hx
    obtain ⟨v, hv, rfl⟩ := (mem_reported h e x).mp hx
    exact hs v hv
  induction e using Expr.ind generalizing ρ ρ' with
  | tru => rfl
  | fls => rfl
  | undefined => rfl
  | num v b => rfl
  | var ng imm id =>
    have := hs id.key (by simp [reported, variables])
    simp only [eval, this.var]
  | attr ng a pre _ =>
    obtain ⟨imm, id, rfl⟩ := WF_prefix hw
    have := hs id.key (by simp [reported, variables])
    simp only [eval, this.attr a]
  | sel ng pre s _ =>
    obtain ⟨imm, id, rfl⟩ := WF_prefix_sel hw
    have := hs id.key (by simp [reported, variables])
    simp only [eval, this.sel s.key]
  | call ng id args ih =>
    simp only [Expr.WF, WFL_iff] at hw
    simp only [VarsOK, VarsOKL_iff] at hk
    have hi := hs id.key (by simp [reported, variables])
    cases args with
    | nil => simp only [eval, hi.var]
    | cons a as =>
      have := list (a :: as) ih hw.2 hk ρ ρ' (fun x hx => hs x (by
        rw [mem_reported, variables]
        obtain ⟨v, hv, rfl⟩ := (names_list h _ x).mpr hx
        exact ⟨v, List.mem_cons_of_mem _ hv, rfl⟩))
      simp only [eval, this, hi.call]
  | not e ih =>
    simp only [Expr.WF] at hw
    simp only [VarsOK] at hk
    simp only [eval, ih hw hk ρ ρ' hs]
  | bool op ts ih =>
    simp only [Expr.WF, WFL_iff] at hw
    simp only [VarsOK, VarsOKL_iff] at hk
    simp only [eval, list ts ih hw.1 hk ρ ρ' (fun x hx => hs x (by
      rw [mem_reported, variables, names_unique]; exact (names_list h _ x).mpr hx))]
  | add ts ih =>
    simp only [Expr.WF, WFL_iff] at hw
    simp only [VarsOK, VarsOKL_iff] at hk
    simp only [eval, list ts ih hw.1 hk ρ ρ' (fun x hx => hs x (by
      rw [mem_reported, variables, names_unique]; exact (names_list h _ x).mpr hx))]
  | mul ts ih =>
    simp only [Expr.WF, WFL_iff] at hw
    simp only [VarsOK, VarsOKL_iff] at hk
    simp only [eval, list ts ih hw hk ρ ρ' (fun x hx => hs x (by
      rw [mem_reported, variables, names_unique]; exact (names_list h _ x).mpr hx))]
  | bin op l r ihl ihr =>
    simp only [Expr.WF] at hw
    simp only [VarsOK] at hk
    have h0 : ∀ x, x ∈ reported h l ∨ x ∈ reported h r → SameName ρ ρ' x := fun x hx => hs x (by
      rw [mem_reported, variables, names_unique]; exact (names_append h l r x).mpr hx)
    simp only [eval, ihl hw.1 hk.1 ρ ρ' (fun x hx => h0 x (.inl hx)), ihr hw.2 hk.2 ρ ρ' (fun x hx => h0 x (.inr hx))]
  | rel op l r ihl ihr =>
    simp only [Expr.WF] at hw
    simp only [VarsOK] at hk
    have h0 : ∀ x, x ∈ reported h l ∨ x ∈ reported h r → SameName ρ ρ' x := fun x hx => hs x (by
      rw [mem_reported, variables, names_unique]; exact (names_append h l r x).mpr hx)
    simp only [eval, ihl hw.1 hk.1 ρ ρ' (fun x hx => h0 x (.inl hx)), ihr hw.2 hk.2 ρ ρ' (fun x hx => h0 x (.inr hx))]
  | agg ts ih =>
    simp only [VarsOK] at hk
    apply eval_congr
    intro r hr
    simp [Expr.refs, hk] at hr
  | quant q p it pr ih1 ih2 =>
    simp only [Expr.WF] at hw
    simp only [VarsOK] at hk
    obtain ⟨hk1, hk2, hk3, hk4⟩ := hk
    have h1 : eval D ρ it = eval D ρ' it := by
      apply ih1 hw.2.1 hk1
      intro x hx
      refine hs x ((names_quant h q p it pr x).mpr ⟨?_, .inl hx⟩)
      obtain ⟨r, hr, rfl⟩ := reported_occurs h it hw.2.1 x hx
      exact hk3 r hr
    have h2 : ∀ i : Int, eval D (ρ.set p.key (.int i)) pr = eval D (ρ'.set p.key (.int i)) pr := by
      intro i
      -- the parameter is used as a variable only, so everything else about its name is irrelevant
      let σ : Env :=
        { var := ρ'.var
          attr := fun a x => if x = p.key then ρ.attr a x else ρ'.attr a x
          sel := fun x s => if x = p.key then ρ.sel x s else ρ'.sel x s
          call := fun f => if f = p.key then ρ.call f else ρ'.call f }
      have e1 : eval D (σ.set p.key (.int i)) pr = eval D (ρ'.set p.key (.int i)) pr := by
        apply eval_congr
        intro r hr
        by_cases hn : r.name = p.key
        · rw [hk4 r hr hn]; simp [NameRef.Same, Env.set]
        · cases r <;> simp only [NameRef.name] at hn <;> simp [NameRef.Same, Env.set, σ, hn]
      rw [← e1]
      apply ih2 hw.2.2 hk2
      intro x hx
      by_cases hp : x = p.key
      · subst hp
        exact ⟨by simp [Env.set], by simp [Env.set, σ], by simp [Env.set, σ], by simp [Env.set, σ]⟩
      · have := hs x ((names_quant h q p it pr x).mpr ⟨hp, .inr hx⟩)
        exact ⟨by simp [Env.set, hp, this.var, σ], by simp [Env.set, σ, hp, this.attr],
          by simp [Env.set, σ, hp, this.sel], by simp [Env.set, σ, hp, this.call]⟩
    simp only [eval, h1, h2]

/-- No variable is reported twice. Missing: calls (and attributes, components and negations of calls), see the
counterexample. -/
theorem C12_nodup_partial (h : List PyStr → Int) (e : Expr)
    (hc : match e with | .bool .. | .add .. | .mul .. | .bin .. | .rel .. | .quant .. => True | _ => False) :
    (variables h e).Pairwise (fun a b => a.eq b = false) := by
  cases e <;> simp only at hc <;> simp only [variables] <;> exact Common.C44_unique_nodup _ _ (pyVar_hash h) _

theorem findallL_mem (p : Expr → Bool) (ts : List Expr) (x : Expr) :
    x ∈ findallL p ts ↔ ∃ t ∈ ts, x ∈ findall p t := by
  induction ts with
  | nil => simp [findallL]
  | cons t ts ih => simp [findallL, ih]

/-- What `findall` returns occurs in the expression and satisfies the search condition. -/
theorem C12_findall_sound (p : Expr → Bool) (e x : Expr) (hx : x ∈ findall p e) : Subexpr x e ∧ p x = true := by
  induction e using Expr.ind generalizing x with
  | bool op ts ih =>
    simp only [findall, List.mem_append, findallL_mem] at hx
    rcases hx with hx | ⟨t, ht, hx⟩
    · split at hx
      · simp at hx; subst hx; exact ⟨.refl, by assumption⟩
      · cases hx
    · exact ⟨.bool ht (ih t ht x hx).1, (ih t ht x hx).2⟩
  | add ts ih =>
    simp only [findall, List.mem_append, findallL_mem] at hx
    rcases hx with hx | ⟨t, ht, hx⟩
    · split at hx
      · simp at hx; subst hx; exact ⟨.refl, by assumption⟩
      · cases hx
    · exact ⟨.add ht (ih t ht x hx).1, (ih t ht x hx).2⟩
  | mul ts ih =>
    simp only [findall, List.mem_append, findallL_mem] at hx
    rcases hx with hx | ⟨t, ht, hx⟩
    · split at hx
      · simp at hx; subst hx; exact ⟨.refl, by assumption⟩
      · cases hx
    · exact ⟨.mul ht (ih t ht x hx).1, (ih t ht x hx).2⟩
  | bin op l r ihl ihr =>
    simp only [findall, List.mem_append] at hx
    rcases hx with (hx | hx) | hx
    · split at hx
      · simp at hx; subst hx; exact ⟨.refl, by assumption⟩
      · cases hx
    · exact ⟨.binL (ihl x hx).1, (ihl x hx).2⟩
    · exact ⟨.binR (ihr x hx).1, (ihr x hx).2⟩
  | rel op l r ihl ihr =>
    simp only [findall, List.mem_append] at hx
    rcases hx with (hx | hx) | hx
    · split at hx
      · simp at hx; subst hx; exact ⟨.refl, by assumption⟩
      · cases hx
    · exact ⟨.relL (ihl x hx).1, (ihl x hx).2⟩
    · exact ⟨.relR (ihr x hx).1, (ihr x hx).2⟩
  | attr ng a pre ih =>
    simp only [findall] at hx
    split at hx
    · simp at hx; subst hx; exact ⟨.refl, by assumption⟩
    · exact ⟨.attr (ih x hx).1, (ih x hx).2⟩
  | _ =>
    simp only [findall] at hx
    split at hx
    · simp at hx; subst hx; exact ⟨.refl, by assumption⟩
    · cases hx

/-- `findall` finds every occurrence below Boolean and arithmetic operators and relations that satisfies the
search condition. Missing: occurrences below `not`, in calls, aggregates, quantified expressions and
components. -/
theorem C12_findall_complete_partial (p : Expr → Bool) (e x : Expr) (hs : Searched x e) (hp : p x = true) :
    x ∈ findall p e := by
  induction hs with
  | refl => cases x <;> simp [findall, hp]
  | bool ht _ ih => simp only [findall, List.mem_append, findallL_mem]; exact .inr ⟨_, ht, ih⟩
  | add ht _ ih => simp only [findall, List.mem_append, findallL_mem]; exact .inr ⟨_, ht, ih⟩
  | mul ht _ ih => simp only [findall, List.mem_append, findallL_mem]; exact .inr ⟨_, ht, ih⟩
  | binL _ ih => simp only [findall, List.mem_append]; exact .inl (.inr ih)
  | binR _ ih => simp only [findall, List.mem_append]; exact .inr ih
  | relL _ ih => simp only [findall, List.mem_append]; exact .inl (.inr ih)
  | relR _ ih => simp only [findall, List.mem_append]; exact .inr ih

/-! ### The hypotheses can be met -/

/-- `X + Y'Last < f(X, Z) and for some Q in S => Q = X`. -/
def exVars : Expr :=
  .bool .and [.rel .lt (.add [exVar 'X', .attr false .last (exVar 'Y')]) (.call false ⟨[['f']]⟩ [exVar 'X', exVar 'Z']),
    .quant .someIn ⟨[['Q']]⟩ (exVar 'S') (.rel .eq (exVar 'Q') (exVar 'X'))]

example : exVars.WF ∧ VarsOK exVars ∧
    (variables (fun _ => 0) exVars).map (fun v => String.ofList v.id.str) = ["X", "Y", "f", "Z", "S"] := by
  refine ⟨?_, ?_, by decide⟩
  · simp only [exVars, Expr.WF, Expr.WFL, exVar, Expr.headOK]; decide
  · simp only [exVars, VarsOK, VarsOKL, exVar, Expr.refs]; decide

example : Searched (exVar 'X') (.bool .and [.tru, .rel .lt (.n 3) (.add [exVar 'Y', exVar 'X'])]) :=
  .bool (e := .rel .lt (.n 3) (.add [exVar 'Y', exVar 'X'])) (by simp)
    (.relR (.add (e := exVar 'X') (by simp) .refl))

/-! ### Where it fails -/

/-- `[X] = [5]` has no reported variable, but its value depends on `X`. -/
theorem C12_aggregate_counterexample : ∃ e, e.WF ∧ ∀ h, variables h e = [] ∧
    ∃ ρ ρ', eval D ρ e ≠ eval D ρ' e := by
  refine ⟨.rel .eq (.agg [exVar 'X']) (.agg [.n 5]), ?_, fun h => ⟨rfl, exEnv, exEnv.set [['x']] (.int 6), ?_⟩⟩
  · simp only [Expr.WF, Expr.WFL, exVar, Expr.n]; decide
  · show some (Val.bool true) ≠ some (.bool false); decide

/-- `for all X in X => True or X = 1` does not report the sequence `X`. -/
theorem C12_parameter_counterexample : ∃ e, e.WF ∧ ∀ h, variables h e = [] ∧
    ∃ ρ ρ', eval D ρ e ≠ eval D ρ' e := by
  refine ⟨.quant .allIn ⟨[['X']]⟩ (exVar 'X') (.rel .eq (exVar 'X') (.n 1)), ?_,
    fun h => ⟨rfl, exEnv.set [['x']] (.seq [1]), exEnv.set [['x']] (.seq [2]), ?_⟩⟩
  · simp only [Expr.WF, exVar, Expr.n]; decide
  · show some (Val.bool true) ≠ some (.bool false); decide

/-- `f(X, X)` reports `X` twice. -/
theorem C12_nodup_counterexample : ∃ e, e.WF ∧
    ∀ h, ¬ (variables h e).Pairwise (fun a b => a.eq b = false) := by
  refine ⟨.call false ⟨[['f']]⟩ [exVar 'X', exVar 'X'], ?_, fun h => ?_⟩
  · simp only [Expr.WF, Expr.WFL, exVar]; decide
  · simp only [variables, variablesL, exVar]; decide

/-- `not (X = 1)`: the variable is not found. -/
theorem C12_findall_counterexample : ∃ e x, Subexpr x e ∧
    ∃ p : Expr → Bool, p x = true ∧ x ∉ findall p e := by
  refine ⟨.not (.rel .eq (exVar 'X') (.n 1)), exVar 'X', .not (.relL .refl),
    fun e => match e with | .var .. => true | _ => false, rfl, ?_⟩
  simp [findall]

end Verif
