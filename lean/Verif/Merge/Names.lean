import Verif.Merge.Lemmas
import Verif.Expr.VarsProps
import Verif.Expr.Props
import Verif.Expr.Lex

/-! # The names of an embedded message -/

namespace Verif.Merge
open Verif Verif.Graph

/-! ## Specification -/

/-- The name in the outer message of a name used in the embedded message: fields are prefixed, the other names of a single
part (enumeration literals) are qualified with the package. -/
def outerName (fields : List (List PyStr)) (pre : PyStr) (package : List PyStr) (x : List PyStr) : List PyStr :=
  if x ∈ fields then [pre ++ x.flatten]
  else if x.length = 1 ∧ x ∉ [[['t', 'r', 'u', 'e']], [['f', 'a', 'l', 's', 'e']], [['m', 'e', 's', 's', 'a', 'g', 'e']]] then package ++ x
  else x

/-- The values of the names of the embedded message are those of the names in the outer message. -/
def via (nm : List PyStr → List PyStr) (ρ : Env) : Env :=
  { ρ with var := fun x => ρ.var (nm x), attr := fun a x => ρ.attr a (nm x) }

mutual
/-- Expressions built from numbers, truth values, variables and attributes of variables (all without minus sign) by sums,
products, differences, quotients, powers, remainders, relations and `and`/`or`; all names satisfy `S`. -/
def Simple (S : ID → Prop) : Expr → Prop
  | .tru | .fls | .num .. => True
  | .var ng imm id => ng = false ∧ imm = false ∧ S id
  | .attr ng _ pre =>
    match pre with
    | .var ng' imm id => ng = false ∧ ng' = false ∧ imm = false ∧ S id
    | _ => False
  | .bool _ ts => SimpleL S ts
  | .add ts => SimpleL S ts
  | .mul ts => SimpleL S ts
  | .bin _ l r => Simple S l ∧ Simple S r
  | .rel _ l r => Simple S l ∧ Simple S r
  | _ => False
def SimpleL (S : ID → Prop) : List Expr → Prop
  | [] => True
  | e :: es => Simple S e ∧ SimpleL S es
end

/-! ## Renaming -/

theorem simpleL_iff {S : ID → Prop} {ts : List Expr} : SimpleL S ts ↔ ∀ t ∈ ts, Simple S t := by
  induction ts with
  | nil => simp [SimpleL]
  | cons t ts ih => simp [SimpleL, ih]

theorem depthL_le {ts : List Expr} {t : Expr} (h : t ∈ ts) : depth t ≤ depthL ts := by
  induction ts with
  | nil => cases h
  | cons a ts ih =>
    simp only [depthL]
    rcases List.mem_cons.mp h with rfl | h
    · omega
    · have := ih h; omega

/-- A function on expressions that renames variables. -/
structure Renaming (nm : List PyStr → List PyStr) (f : Expr → Expr) (S : ID → Prop) : Prop where
  var : ∀ id, S id → ∃ id', f (.var false false id) = .var false false id' ∧ id'.key = nm id.key ∧ (id.Lex → id'.Lex)
  other : ∀ e, e.isName = false → f e = e
  attr : ∀ a p, f (.attr false a p) = .attr false a p

/-- The result of a renaming. -/
structure Renamed (D : Division) (nm : List PyStr → List PyStr) (e r : Expr) : Prop where
  good : ∀ s, e.Good D.Odd s → r.Good D.Odd s
  wf : e.WF → r.WF
  const : e.Const → r.Const
  head : ∀ ts, Expr.headOK (e :: ts) → Expr.headOK (r :: ts)
  quant : ¬ r.HQ
  value : ∀ ρ, eval D ρ r = eval D (via nm ρ) e

theorem renamed_list {D : Division} {nm : List PyStr → List PyStr} {g : Expr → Py Expr} : ∀ {ts : List Expr},
    (∀ t ∈ ts, ∃ r, g t = .ok r ∧ Renamed D nm t r) → ∃ rs, ts.mapM g = .ok rs ∧
      (∀ s, Expr.GoodL D.Odd s ts → Expr.GoodL D.Odd s rs) ∧ (Expr.WFL ts → Expr.WFL rs) ∧ (Expr.ConstL ts → Expr.ConstL rs) ∧
      (Expr.headOK ts → Expr.headOK rs) ∧ ¬ Expr.HQL rs ∧ (rs = [] → ts = []) ∧ ∀ ρ, evalL D ρ rs = evalL D (via nm ρ) ts := by
  intro ts
  induction ts with
  | nil => intro _; exact ⟨[], rfl, by simp [Expr.HQL, evalL]⟩
  | cons t ts ih =>
    intro h
    obtain ⟨r, hr, R⟩ := h t List.mem_cons_self
    obtain ⟨rs, hrs, h1, h2, h3, h4, h5, h6, h7⟩ := ih fun t ht => h t (List.mem_cons_of_mem _ ht)
    refine ⟨r :: rs, by rw [List.mapM_cons, hr, hrs]; rfl, ?_, ?_, ?_, ?_, ?_, by simp, ?_⟩
    · intro s hs; exact ⟨R.good s hs.1, h1 s hs.2⟩
    · intro hw; exact ⟨R.wf hw.1, h2 hw.2⟩
    · intro hc; exact ⟨R.const hc.1, h3 hc.2⟩
    · intro hh
      have := R.head rs (by cases t <;> simp [Expr.headOK] at hh ⊢)
      exact this
    · rintro (h | h)
      · exact R.quant h
      · exact h5 h
    · intro ρ
      rw [evalL_eq, evalL_eq] at *
      simp only [allSome, R.value ρ]
      have := h7 ρ
      rw [evalL_eq, evalL_eq] at this
      rw [this]

theorem rename_ok {D : Division} {nm : List PyStr → List PyStr} {f : Expr → Expr} {S : ID → Prop} (F : Renaming nm f S)
    (e : Expr) : Simple S e → ∀ k, depth e ≤ k → ∃ r, subst k f e = .ok r ∧ Renamed D nm e r := by
  have self : ∀ e : Expr, e.isName = false → (∀ k, subst (k + 1) f e = .ok (f e)) → 1 ≤ depth e → ¬ e.HQ →
      (∀ ρ, eval D ρ e = eval D (via nm ρ) e) → ∀ k, depth e ≤ k → ∃ r, subst k f e = .ok r ∧ Renamed D nm e r := by
    intro e hn hs hd hq hv k hk
    obtain ⟨k, rfl⟩ : ∃ k', k = k' + 1 := ⟨k - 1, by omega⟩
    refine ⟨e, by rw [hs, F.other e hn], fun _ h => h, fun h => h, fun h => h, fun _ h => h, hq, hv⟩
  induction e using Expr.ind with
  | tru => intro _; exact self _ rfl (fun _ => rfl) (by simp [depth]) (by simp [Expr.HQ]) fun _ => rfl
  | fls => intro _; exact self _ rfl (fun _ => rfl) (by simp [depth]) (by simp [Expr.HQ]) fun _ => rfl
  | num v b => intro _; exact self _ rfl (fun _ => rfl) (by simp [depth]) (by simp [Expr.HQ]) fun _ => rfl
  | undefined => intro h; simp [Simple] at h
  | var ng imm id =>
    intro h k hk
    simp only [Simple] at h
    obtain ⟨rfl, rfl, hS⟩ := h
    simp only [depth] at hk
    obtain ⟨k, rfl⟩ : ∃ k', k = k' + 1 := ⟨k - 1, by omega⟩
    obtain ⟨id', h1, h2, h3⟩ := F.var id hS
    refine ⟨.var false false id', by simp [subst, h1], ?_, ?_, ?_, ?_, ?_, ?_⟩
    · intro _ _; simp [Expr.Good]
    · intro hw; simp only [Expr.WF] at hw ⊢; exact h3 hw
    · intro hc; simp [Expr.Const] at hc
    · intro _ _; simp [Expr.headOK]
    · simp [Expr.HQ]
    · intro ρ; simp [eval, via, h2]
  | attr ng a pre ih =>
    intro h k hk
    cases pre with
    | var ng' imm id =>
      simp only [Simple] at h
      obtain ⟨rfl, rfl, rfl, hS⟩ := h
      simp only [depth] at hk
      obtain ⟨k, rfl⟩ : ∃ k', k = k' + 2 := ⟨k - 2, by omega⟩
      obtain ⟨id', h1, h2, h3⟩ := F.var id hS
      refine ⟨.attr false a (.var false false id'), by simp [subst, F.attr, h1, Except.map, Except.bind], ?_, ?_, ?_, ?_, ?_, ?_⟩
      · intro _ _; simp [Expr.Good]
      · intro hw; simp only [Expr.WF] at hw ⊢; exact ⟨trivial, h3 hw.2⟩
      · intro hc; simp [Expr.Const] at hc
      · intro _ _; simp [Expr.headOK]
      · simp [Expr.HQ]
      · intro ρ; simp [eval, via, h2]
    | _ => simp [Simple] at h
  | sel => intro h; simp [Simple] at h
  | call => intro h; simp [Simple] at h
  | not => intro h; simp [Simple] at h
  | bool op ts ih =>
    intro h k hk
    simp only [Simple, simpleL_iff] at h
    simp only [depth] at hk
    obtain ⟨k, rfl⟩ : ∃ k', k = k' + 1 := ⟨k - 1, by omega⟩
    obtain ⟨rs, hrs, h1, h2, h3, h4, h5, h6, h7⟩ := renamed_list (g := subst k f) (D := D) (nm := nm) (ts := ts)
      fun t ht => ih t ht (h t ht) k (by have := depthL_le ht; omega)
    refine ⟨.bool op rs, by simp [subst, F.other (.bool op ts) rfl, hrs]; rfl, ?_, ?_, ?_, ?_, ?_, ?_⟩
    · intro s hs; exact ⟨hs.1, h1 _ hs.2⟩
    · intro hw; simp only [Expr.WF] at hw ⊢; exact ⟨h2 hw.1, fun he => hw.2 (h6 he)⟩
    · intro hc; simp [Expr.Const] at hc
    · intro _ hh; simp [Expr.headOK] at hh
    · simpa [Expr.HQ] using h5
    · intro ρ; simp only [eval, h7]
  | add ts ih =>
    intro h k hk
    simp only [Simple, simpleL_iff] at h
    simp only [depth] at hk
    obtain ⟨k, rfl⟩ : ∃ k', k = k' + 1 := ⟨k - 1, by omega⟩
    obtain ⟨rs, hrs, h1, h2, h3, h4, h5, h6, h7⟩ := renamed_list (g := subst k f) (D := D) (nm := nm) (ts := ts)
      fun t ht => ih t ht (h t ht) k (by have := depthL_le ht; omega)
    refine ⟨.add rs, by simp [subst, F.other (.add ts) rfl, hrs]; rfl, ?_, ?_, ?_, ?_, ?_, ?_⟩
    · intro s hs; exact h1 _ hs
    · intro hw; simp only [Expr.WF] at hw ⊢; exact ⟨h2 hw.1, h4 hw.2⟩
    · intro hc; exact h3 hc
    · intro _ _; simp [Expr.headOK]
    · simpa [Expr.HQ] using h5
    · intro ρ; simp only [eval, h7]
  | mul ts ih =>
    intro h k hk
    simp only [Simple, simpleL_iff] at h
    simp only [depth] at hk
    obtain ⟨k, rfl⟩ : ∃ k', k = k' + 1 := ⟨k - 1, by omega⟩
    obtain ⟨rs, hrs, h1, h2, h3, h4, h5, h6, h7⟩ := renamed_list (g := subst k f) (D := D) (nm := nm) (ts := ts)
      fun t ht => ih t ht (h t ht) k (by have := depthL_le ht; omega)
    refine ⟨.mul rs, by simp [subst, F.other (.mul ts) rfl, hrs]; rfl, ?_, ?_, ?_, ?_, ?_, ?_⟩
    · intro s hs; exact h1 _ hs
    · intro hw; simp only [Expr.WF] at hw ⊢; exact h2 hw
    · intro hc; exact h3 hc
    · intro _ _; simp [Expr.headOK]
    · simpa [Expr.HQ] using h5
    · intro ρ; simp only [eval, h7]
  | bin op l r ihl ihr =>
    intro h k hk
    simp only [Simple] at h
    simp only [depth] at hk
    obtain ⟨k, rfl⟩ : ∃ k', k = k' + 1 := ⟨k - 1, by omega⟩
    obtain ⟨l', hl, L⟩ := ihl h.1 k (by omega)
    obtain ⟨r', hr, R⟩ := ihr h.2 k (by omega)
    refine ⟨.bin op l' r', by simp [subst, F.other (.bin op l r) rfl, hl, hr]; rfl, ?_, ?_, ?_, ?_, ?_, ?_⟩
    · intro s hs
      cases op <;> simp only [Expr.Good] at hs ⊢
      · exact ⟨L.good _ hs.1, R.good _ hs.2⟩
      · exact ⟨hs.1, L.good _ hs.2.1, R.good _ hs.2.2⟩
      · exact ⟨fun h => ⟨L.const (hs.1 h).1, R.const (hs.1 h).2⟩, L.good _ hs.2.1, R.good _ hs.2.2⟩
      · exact ⟨fun h => ⟨L.const (hs.1 h).1, R.const (hs.1 h).2⟩, L.good _ hs.2.1, R.good _ hs.2.2⟩
    · intro hw; exact ⟨L.wf hw.1, R.wf hw.2⟩
    · intro hc; exact ⟨hc.1, L.const hc.2.1, R.const hc.2.2⟩
    · intro _ _; simp [Expr.headOK]
    · rintro (h | h)
      · exact L.quant h
      · exact R.quant h
    · intro ρ; simp only [eval, L.value, R.value]
  | rel op l r ihl ihr =>
    intro h k hk
    simp only [Simple] at h
    simp only [depth] at hk
    obtain ⟨k, rfl⟩ : ∃ k', k = k' + 1 := ⟨k - 1, by omega⟩
    obtain ⟨l', hl, L⟩ := ihl h.1 k (by omega)
    obtain ⟨r', hr, R⟩ := ihr h.2 k (by omega)
    refine ⟨.rel op l' r', by simp [subst, F.other (.rel op l r) rfl, hl, hr]; rfl, ?_, ?_, ?_, ?_, ?_, ?_⟩
    · intro s hs; exact ⟨hs.1, L.good _ hs.2.1, R.good _ hs.2.2⟩
    · intro hw; exact ⟨L.wf hw.1, R.wf hw.2⟩
    · intro hc; simp [Expr.Const] at hc
    · intro _ hh; simp [Expr.headOK] at hh
    · rintro (h | h)
      · exact L.quant h
      · exact R.quant h
    · intro ρ; simp only [eval, L.value, R.value]
  | agg => intro h; simp [Simple] at h
  | quant => intro h; simp [Simple] at h

/-! ## The mapping -/

theorem Simple.mono {S S' : ID → Prop} (hS : ∀ id, S id → S' id) (e : Expr) : Simple S e → Simple S' e := by
  induction e using Expr.ind with
  | var ng imm id => intro h; simp only [Simple] at h ⊢; exact ⟨h.1, h.2.1, hS _ h.2.2⟩
  | attr ng a pre ih =>
    intro h
    cases pre with
    | var ng' imm id => simp only [Simple] at h ⊢; exact ⟨h.1, h.2.1, h.2.2.1, hS _ h.2.2.2⟩
    | _ => simp [Simple] at h
  | bool op ts ih => intro h; simp only [Simple, simpleL_iff] at h ⊢; exact fun t ht => ih t ht (h t ht)
  | add ts ih => intro h; simp only [Simple, simpleL_iff] at h ⊢; exact fun t ht => ih t ht (h t ht)
  | mul ts ih => intro h; simp only [Simple, simpleL_iff] at h ⊢; exact fun t ht => ih t ht (h t ht)
  | bin op l r ihl ihr => intro h; exact ⟨ihl h.1, ihr h.2⟩
  | rel op l r ihl ihr => intro h; exact ⟨ihl h.1, ihr h.2⟩
  | _ => intro h; simp [Simple] at h ⊢

/-- A variable without minus sign that satisfies `P` is reported. -/
def Reported (P : ID → Prop) (vs : List PyVar) (id : ID) : Prop := ∃ v ∈ vs, v.neg = false ∧ v.id.key = id.key ∧ P v.id

theorem reported_unique {P : ID → Prop} {h : List PyStr → Int} {vs : List PyVar} (hvs : ∀ v ∈ vs, v.neg = false ∧ P v.id) {id : ID}
    (hr : Reported P vs id) : Reported P (unique (PyVar.hash h) PyVar.eq vs) id := by
  obtain ⟨v, hv, _, hk, _⟩ := hr
  obtain ⟨w, hw, he⟩ := Common.C44_unique_covers (PyVar.hash h) PyVar.eq
    (fun a => by simp [PyVar.eq, (ID.eq_iff_key _ _).mpr]) vs v hv
  have hw' := (Common.C44_unique_sublist _ _ vs).subset hw
  simp only [PyVar.eq, Bool.and_eq_true] at he
  exact ⟨w, hw, (hvs w hw').1, ((ID.eq_iff_key _ _).mp he.2).trans hk, (hvs w hw').2⟩

theorem simple_reported {P : ID → Prop} (h : List PyStr → Int) (e : Expr) : Simple P e →
    (∀ v ∈ variables h e, v.neg = false ∧ P v.id) ∧ Simple (Reported P (variables h e)) e := by
  have list : ∀ ts : List Expr, (∀ t ∈ ts, Simple P t →
      (∀ v ∈ variables h t, v.neg = false ∧ P v.id) ∧ Simple (Reported P (variables h t)) t) → (∀ t ∈ ts, Simple P t) →
      (∀ v ∈ variablesL h ts, v.neg = false ∧ P v.id) ∧ ∀ t ∈ ts, Simple (Reported P (variablesL h ts)) t := by
    intro ts
    induction ts with
    | nil => intro _ _; simp [variablesL]
    | cons t ts ih =>
      intro h1 h2
      obtain ⟨g1, g2⟩ := h1 t List.mem_cons_self (h2 t List.mem_cons_self)
      obtain ⟨g3, g4⟩ := ih (fun t ht => h1 t (List.mem_cons_of_mem _ ht)) fun t ht => h2 t (List.mem_cons_of_mem _ ht)
      simp only [variablesL]
      refine ⟨?_, ?_⟩
      · intro v hv
        rcases List.mem_append.mp hv with hv | hv
        · exact g1 v hv
        · exact g3 v hv
      · intro x hx
        rcases List.mem_cons.mp hx with rfl | hx
        · exact g2.mono (fun id ⟨v, hv, r⟩ => ⟨v, List.mem_append_left _ hv, r⟩) _
        · exact (g4 x hx).mono (fun id ⟨v, hv, r⟩ => ⟨v, List.mem_append_right _ hv, r⟩) _
  have two : ∀ l r : Expr, (Simple P l → (∀ v ∈ variables h l, v.neg = false ∧ P v.id) ∧ Simple (Reported P (variables h l)) l) →
      (Simple P r → (∀ v ∈ variables h r, v.neg = false ∧ P v.id) ∧ Simple (Reported P (variables h r)) r) → Simple P l → Simple P r →
      (∀ v ∈ variables h l ++ variables h r, v.neg = false ∧ P v.id) ∧
        Simple (Reported P (variables h l ++ variables h r)) l ∧ Simple (Reported P (variables h l ++ variables h r)) r := by
    intro l r h1 h2 hl hr
    obtain ⟨g1, g2⟩ := h1 hl
    obtain ⟨g3, g4⟩ := h2 hr
    refine ⟨?_, ?_, ?_⟩
    · intro v hv
      rcases List.mem_append.mp hv with hv | hv
      · exact g1 v hv
      · exact g3 v hv
    · exact g2.mono (fun id ⟨v, hv, r⟩ => ⟨v, List.mem_append_left _ hv, r⟩) _
    · exact g4.mono (fun id ⟨v, hv, r⟩ => ⟨v, List.mem_append_right _ hv, r⟩) _
  have uniq : ∀ vs : List PyVar, (∀ v ∈ vs, v.neg = false ∧ P v.id) →
      ∀ v ∈ unique (PyVar.hash h) PyVar.eq vs, v.neg = false ∧ P v.id :=
    fun vs hvs v hv => hvs v ((Common.C44_unique_sublist _ _ vs).subset hv)
  induction e using Expr.ind with
  | tru => intro _; simp [variables, Simple]
  | fls => intro _; simp [variables, Simple]
  | num => intro _; simp [variables, Simple]
  | undefined => intro h; simp [Simple] at h
  | var ng imm id =>
    intro h
    simp only [Simple] at h
    obtain ⟨rfl, rfl, hP⟩ := h
    simp only [variables, Simple, List.mem_singleton, forall_eq]
    exact ⟨⟨trivial, hP⟩, trivial, trivial, _, List.mem_singleton.mpr rfl, rfl, rfl, hP⟩
  | attr ng a pre ih =>
    intro h
    cases pre with
    | var ng' imm id =>
      simp only [Simple] at h
      obtain ⟨rfl, rfl, rfl, hP⟩ := h
      simp only [variables, Simple, List.mem_singleton, forall_eq]
      exact ⟨⟨trivial, hP⟩, trivial, trivial, trivial, _, List.mem_singleton.mpr rfl, rfl, rfl, hP⟩
    | _ => simp [Simple] at h
  | sel => intro h; simp [Simple] at h
  | call => intro h; simp [Simple] at h
  | not => intro h; simp [Simple] at h
  | bool op ts ih =>
    intro hs
    simp only [Simple, simpleL_iff, variables] at hs ⊢
    obtain ⟨g1, g2⟩ := list ts ih hs
    exact ⟨uniq _ g1, fun t ht => (g2 t ht).mono (fun _ => reported_unique g1) _⟩
  | add ts ih =>
    intro hs
    simp only [Simple, simpleL_iff, variables] at hs ⊢
    obtain ⟨g1, g2⟩ := list ts ih hs
    exact ⟨uniq _ g1, fun t ht => (g2 t ht).mono (fun _ => reported_unique g1) _⟩
  | mul ts ih =>
    intro hs
    simp only [Simple, simpleL_iff, variables] at hs ⊢
    obtain ⟨g1, g2⟩ := list ts ih hs
    exact ⟨uniq _ g1, fun t ht => (g2 t ht).mono (fun _ => reported_unique g1) _⟩
  | bin op l r ihl ihr =>
    intro hs
    simp only [Simple, variables] at hs ⊢
    obtain ⟨g1, g2, g3⟩ := two l r ihl ihr hs.1 hs.2
    exact ⟨uniq _ g1, g2.mono (fun _ => reported_unique g1) _, g3.mono (fun _ => reported_unique g1) _⟩
  | rel op l r ihl ihr =>
    intro hs
    simp only [Simple, variables] at hs ⊢
    obtain ⟨g1, g2, g3⟩ := two l r ihl ihr hs.1 hs.2
    exact ⟨uniq _ g1, g2.mono (fun _ => reported_unique g1) _, g3.mono (fun _ => reported_unique g1) _⟩
  | agg => intro h; simp [Simple] at h
  | quant => intro h; simp [Simple] at h

theorem ofStr_word {w : PyStr} (hw : ':' ∉ w) {r : ID} (h : ID.ofStr w = .ok r) : r.parts = [w] := by
  have : r.parts = splitSep w := by
    simp only [ID.ofStr, ID.checked] at h
    repeat (split at h; · cases h)
    cases h; rfl
  rw [this, splitSep_noColon w hw]

theorem lex_noColon {i : ID} (h : i.Lex) : ∀ p ∈ i.parts, ':' ∉ p := by
  intro p hp hc
  have := (h.2.1 p hp).2 ':' hc
  revert this; decide

theorem lower_append (a b : PyStr) : PyStr.lower (a ++ b) = PyStr.lower a ++ PyStr.lower b := by simp [PyStr.lower]

/-- The prefix is a word. -/
structure Word (w : PyStr) : Prop where
  head : ∃ c s, w = c :: s ∧ c.isDigit = false
  chars : ∀ c ∈ w, wordChar c = true

theorem keyword_underscore : ∀ w ∈ keywords, '_' ∉ w := by decide

theorem prefixEntry_ok {pre : PyStr} {pkg : ID} {fields : List Field} {v : PyVar} {es : List (Expr × Expr)}
    (hpre : Word pre) (hu : '_' ∈ pre) (hpkg : pkg.Lex) (hfields : ∀ g ∈ fields, g.parts.length = 1) (hn : v.neg = false)
    (hl : v.id.Lex) (h : prefixEntry pre pkg fields v = .ok es) :
    (es = [] ∧ outerName (fields.map ID.key) (PyStr.lower pre) pkg.key v.id.key = v.id.key) ∨
    ∃ id', es = [(.var false false v.id, .var false false id')] ∧ id'.Lex ∧
      id'.key = outerName (fields.map ID.key) (PyStr.lower pre) pkg.key v.id.key := by
  have hb : builtinLiterals.any (fun l => l.eq v.id) = true ↔ v.id.key ∈ [[['t', 'r', 'u', 'e']], [['f', 'a', 'l', 's', 'e']]] := by
    simp only [builtinLiterals, List.any_cons, List.any_nil, Bool.or_false, Bool.or_eq_true, ID.eq_iff_key, List.mem_cons,
      List.not_mem_nil, or_false]
    have h1 : ID.key ⟨[['T', 'r', 'u', 'e']]⟩ = [['t', 'r', 'u', 'e']] := by decide
    have h2 : ID.key ⟨[['F', 'a', 'l', 's', 'e']]⟩ = [['f', 'a', 'l', 's', 'e']] := by decide
    rw [h1, h2, eq_comm, @eq_comm _ _ v.id.key]
  have hm : v.id.eq Verify.MESSAGE = true ↔ v.id.key = [['m', 'e', 's', 's', 'a', 'g', 'e']] := by
    rw [ID.eq_iff_key]
    have : Verify.MESSAGE.key = [['m', 'e', 's', 's', 'a', 'g', 'e']] := by decide
    rw [this]
  have hany : fields.any (fun f => f.eq v.id) = true ↔ v.id.key ∈ fields.map ID.key := by
    simp only [List.any_eq_true, ID.eq_iff_key, List.mem_map]
  have hlen : v.id.key.length = v.id.parts.length := by simp [ID.key]
  simp only [prefixEntry, bind, Except.bind, pure, Except.pure] at h
  split at h
  · rename_i hf
    have hf' := hany.mp hf
    obtain ⟨g, hg, hgk⟩ := List.mem_map.mp hf'
    have h1 : v.id.parts.length = 1 := by
      rw [← hlen, ← hgk]
      simp [ID.key, hfields g hg]
    obtain ⟨n, hn'⟩ := List.length_eq_one_iff.mp h1
    have hstr : v.id.str = n := by simp [ID.str, hn', joinSep]
    split at h
    · cases h
    rename_i p hp
    split at h
    · cases h
    rename_i a ha
    cases h
    right
    have hp' := ofStr_str hp
    simp only [ID.addStr, hp', hstr] at ha
    have hcol : ':' ∉ pre ++ n := by
      rw [List.mem_append]
      rintro (hc | hc)
      · have := hpre.chars _ hc; revert this; decide
      · exact lex_noColon hl n (by simp [hn']) hc
    have hparts := ofStr_word hcol ha
    refine ⟨a, by rw [hn], ⟨by simp [hparts], ?_, ?_⟩, ?_⟩
    · intro q hq
      rw [hparts, List.mem_singleton] at hq
      subst hq
      obtain ⟨c, s, rfl, hc⟩ := hpre.head
      refine ⟨⟨c, s ++ n, rfl, hc⟩, ?_⟩
      intro x hx
      rcases List.mem_append.mp hx with hx | hx
      · exact hpre.chars x hx
      · exact (hl.2.1 n (by simp [hn'])).2 x hx
    · intro w hw he
      rw [hparts] at he
      have : pre ++ n = w := by simpa using he
      exact keyword_underscore w hw (by rw [← this]; simp [hu])
    · rw [outerName, if_pos hf']
      simp [ID.key, hparts, hn', lower_append]
  · rename_i hf
    have hf' : v.id.key ∉ fields.map ID.key := fun hc => hf (hany.mpr hc)
    split at h
    · rename_i hc
      simp only [Bool.and_eq_true, beq_iff_eq, Bool.not_eq_true'] at hc
      obtain ⟨⟨h1, h2⟩, h3⟩ := hc
      split at h
      · cases h
      rename_i a ha
      cases h
      right
      obtain ⟨c, hc, _, hparts⟩ := ID.C38_mul pkg v.id hpkg.valid hl.valid
      rw [ID.mul, ha] at hc
      cases hc
      refine ⟨a, by rw [hn], ⟨by simp [hparts, hpkg.1], ?_, ?_⟩, ?_⟩
      · intro q hq
        rw [hparts] at hq
        rcases List.mem_append.mp hq with hq | hq
        · exact hpkg.2.1 q hq
        · exact hl.2.1 q hq
      · intro w _ he
        have := congrArg List.length he
        rw [hparts] at this
        simp only [List.length_append, h1, List.length_cons, List.length_nil] at this
        exact hpkg.1 (List.length_eq_zero_iff.mp (by omega))
      · rw [outerName, if_neg hf', if_pos]
        · simp [ID.key, hparts]
        · refine ⟨by rw [hlen, h1], ?_⟩
          intro hmem
          rcases List.mem_cons.mp hmem with he | hmem
          · have := hb.mpr (by rw [he]; simp)
            rw [h2] at this; cases this
          rcases List.mem_cons.mp hmem with he | hmem
          · have := hb.mpr (by rw [he]; simp)
            rw [h2] at this; cases this
          · have := hm.mpr (by simpa using hmem)
            rw [h3] at this; cases this
    · rename_i hc
      cases h
      refine .inl ⟨rfl, ?_⟩
      rw [outerName, if_neg hf', if_neg]
      rintro ⟨h1, h2⟩
      apply hc
      rw [hlen] at h1
      have h3 : builtinLiterals.any (fun l => l.eq v.id) = false := by
        rw [← Bool.not_eq_true, hb]
        intro hx
        apply h2
        simp only [List.mem_cons, List.not_mem_nil, or_false] at hx ⊢
        rcases hx with hx | hx <;> simp [hx]
      have h4 : v.id.eq Verify.MESSAGE = false := by
        rw [← Bool.not_eq_true, hm]
        intro hx
        exact h2 (by simp [hx])
      simp [h1, h3, h4]

/-- The mapping renames the variables of the expression. -/
theorem prefix_renaming {h : List PyStr → Int} {pre : PyStr} {pkg : ID} {fields : List Field} {e : Expr}
    {L : List (List (Expr × Expr))} (hpre : Word pre) (hu : '_' ∈ pre) (hpkg : pkg.Lex)
    (hfields : ∀ g ∈ fields, g.parts.length = 1)
    (hvars : ∀ v ∈ variables h e, v.neg = false ∧ v.id.Lex) (hL : (variables h e).mapM (prefixEntry pre pkg fields) = .ok L) :
    Renaming (outerName (fields.map ID.key) (PyStr.lower pre) pkg.key) (substitution L.flatten) (Reported ID.Lex (variables h e)) := by
  obtain ⟨m1, m2⟩ := mapM_mem hL
  have hkv : ∀ kv ∈ L.flatten, ∃ v ∈ variables h e, ∃ id', kv = (.var false false v.id, .var false false id') ∧ id'.Lex ∧
      id'.key = outerName (fields.map ID.key) (PyStr.lower pre) pkg.key v.id.key := by
    intro kv hkv
    obtain ⟨es, hes, hkv⟩ := List.mem_flatten.mp hkv
    obtain ⟨v, hv, hve⟩ := m2 es hes
    rcases prefixEntry_ok hpre hu hpkg hfields (hvars v hv).1 (hvars v hv).2 hve with ⟨rfl, _⟩ | ⟨id', rfl, h1, h2⟩
    · cases hkv
    · exact ⟨v, hv, id', List.mem_singleton.mp hkv, h1, h2⟩
  refine ⟨?_, fun e he => substitution_nonname _ _ he, ?_⟩
  · rintro id ⟨v, hv, _, hk, hlex⟩
    rcases substitution_cases L.flatten (.var false false id) rfl with ⟨kv, hm, he, hs⟩ | ⟨hno, hs⟩
    · obtain ⟨w, hw, id', rfl, h1, h2⟩ := hkv kv hm
      rw [hs]
      refine ⟨id', rfl, ?_, fun _ => h1⟩
      have : w.id.key = id.key := by
        simp only [Expr.eq, Expr.cls, Expr.Cls.sub] at he
        simpa [ID.eq_iff_key] using he
      rw [h2, this]
    · rw [hs]
      refine ⟨id, rfl, ?_, fun h => h⟩
      obtain ⟨es, hes, hve⟩ := m1 v hv
      rcases prefixEntry_ok hpre hu hpkg hfields (hvars v hv).1 (hvars v hv).2 hve with ⟨_, h2⟩ | ⟨id', rfl, _, _⟩
      · rw [← hk, h2]
      · have := hno _ (List.mem_flatten.mpr ⟨_, hes, List.mem_singleton.mpr rfl⟩)
        simp [Expr.eq, Expr.cls, Expr.Cls.sub] at this
        rw [← Bool.not_eq_true, ID.eq_iff_key] at this
        exact absurd hk this
  · intro a p
    rcases substitution_cases L.flatten (.attr false a p) rfl with ⟨kv, hm, he, hs⟩ | ⟨hno, hs⟩
    · obtain ⟨w, hw, id', rfl, h1, h2⟩ := hkv kv hm
      simp [Expr.eq, Expr.cls, Expr.Cls.sub] at he
    · exact hs

theorem simple_lex (e : Expr) : Simple (fun _ => True) e → e.WF → Simple ID.Lex e := by
  induction e using Expr.ind with
  | var ng imm id => intro h hw; simp only [Simple] at h ⊢; exact ⟨h.1, h.2.1, hw⟩
  | attr ng a pre ih =>
    intro h hw
    cases pre with
    | var ng' imm id => simp only [Simple, Expr.WF] at h hw ⊢; exact ⟨h.1, h.2.1, h.2.2.1, hw.2⟩
    | _ => simp [Simple] at h
  | bool op ts ih => intro h hw; simp only [Simple, simpleL_iff, Expr.WF, WFL_iff] at h hw ⊢; exact fun t ht => ih t ht (h t ht) (hw.1 t ht)
  | add ts ih => intro h hw; simp only [Simple, simpleL_iff, Expr.WF, WFL_iff] at h hw ⊢; exact fun t ht => ih t ht (h t ht) (hw.1 t ht)
  | mul ts ih => intro h hw; simp only [Simple, simpleL_iff, Expr.WF, WFL_iff] at h hw ⊢; exact fun t ht => ih t ht (h t ht) (hw t ht)
  | bin op l r ihl ihr => intro h hw; exact ⟨ihl h.1 hw.1, ihr h.2 hw.2⟩
  | rel op l r ihl ihr => intro h hw; exact ⟨ihl h.1 hw.1, ihr h.2 hw.2⟩
  | _ => intro h; simp [Simple] at h ⊢

/-- An expression of the embedded message, after renaming, has in the outer message the value the expression had in the
embedded message. -/
theorem prefixedExpr_value {D : Division} {h : List PyStr → Int} {pre : PyStr} {pkg : ID} {fields : List Field} {e r : Expr}
    (hpre : Word pre) (hu : '_' ∈ pre) (hpkg : pkg.Lex) (hfields : ∀ g ∈ fields, g.parts.length = 1)
    (hs : Simple (fun _ => True) e) (hw : e.WF) (hg : e.Good D.Odd false) (hr : prefixedExpr h pre pkg fields e = .ok r) (ρ : Env) (v : Val)
    (hv : eval D (via (outerName (fields.map ID.key) (PyStr.lower pre) pkg.key) ρ) e = some v) : eval D ρ r = some v := by
  simp only [prefixedExpr, bind, Except.bind] at hr
  split at hr
  · cases hr
  rename_i L hL
  split at hr
  · cases hr
  rename_i r0 hr0
  obtain ⟨h1, h2⟩ := simple_reported h e (simple_lex e hs hw)
  have F := prefix_renaming hpre hu hpkg hfields h1 hL
  obtain ⟨r1, hr1, R⟩ := rename_ok (D := D) F e h2 (depth e + 1) (by omega)
  rw [Expr.substituted, hr1] at hr0
  cases hr0
  exact C08_C09_simplified_value_partial _ r (R.good _ hg) (R.wf hw) hr ρ v (by rw [R.value]; exact hv)

end Verif.Merge
