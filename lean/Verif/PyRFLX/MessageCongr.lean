import Verif.PyRFLX.MessageFrame

/-! # Conditions depend only on the fields they mention -/

namespace Verif.PyRFLX

open Verif Verif.Types Verif.Bits Verif.Graph

mutual
/-- Specification: the names a substitution looks at, in the form in which they are looked up. -/
def names : Expr → List Expr
  | .undefined => [.undefined]
  | .var _ imm id => if imm then [] else [.var false imm id]
  | .attr _ a pre => .attr false a pre :: names pre
  | .sel ng pre s => .sel ng pre s :: names pre
  | .call ng id args => .call ng id args :: namesL args
  | .bool _ ts => namesL ts
  | .add ts => namesL ts
  | .mul ts => namesL ts
  | .bin _ l r => names l ++ names r
  | .rel _ l r => names l ++ names r
  | .agg es => namesL es
  | .quant _ _ it pr => names it ++ names pr
  | _ => []
/-- Specification: the names in a list of expressions. -/
def namesL : List Expr → List Expr
  | [] => []
  | e :: es => names e ++ namesL es
end

theorem mem_namesL {n : Expr} {es : List Expr} : n ∈ namesL es ↔ ∃ e ∈ es, n ∈ names e := by
  induction es with
  | nil => simp [namesL]
  | cons e es ih => simp [namesL, ih]

/-- Proof device: replacements are numbers and plain variables, and `TRUE` for names other than variables. -/
def Simple (M : List (Expr × Expr)) : Prop :=
  ∀ kv ∈ M, (∃ v b, kv.2 = .num v b) ∨ (∃ id, kv.2 = .var false false id) ∨
    (kv.2 = .tru ∧ ∀ id, kv.1.eq (.var false false id) = false)

theorem substitution_simple {M : List (Expr × Expr)} (h : Simple M) (e : Expr) :
    substitution M e = e ∨ (∃ v b, substitution M e = .num v b) ∨ (∃ id, substitution M e = .var false false id) ∨
      (substitution M e = .tru ∧ ∀ id, e ≠ .var false false id) := by
  cases hn : e.isName with
  | false => exact .inl (by simp [substitution, hn])
  | true =>
    simp only [substitution, hn, if_true]
    cases hf : M.find? (fun kv => kv.1.eq e) with
    | none => exact .inl rfl
    | some kv =>
      refine .inr ?_
      rcases h kv (List.mem_of_find?_eq_some hf) with h | h | ⟨h, hk⟩
      · exact .inl h
      · exact .inr (.inl h)
      · refine .inr (.inr ⟨h, ?_⟩)
        rintro id rfl
        have := List.find?_some hf
        simp only [hk] at this
        cases this

theorem substitution_nonname' (M : List (Expr × Expr)) {e : Expr} (h : e.isName = false) : substitution M e = e := by
  simp [substitution, h]

theorem mapM_congr' {α β : Type} {f g : α → Py β} {l : List α} (h : ∀ a ∈ l, f a = g a) : l.mapM f = l.mapM g := by
  induction l with
  | nil => rfl
  | cons a l ih =>
    rw [List.mapM_cons, List.mapM_cons, h a (by simp), ih fun b hb => h b (List.mem_cons_of_mem _ hb)]

/-- Two substitutions that agree on the names of an expression have the same result. -/
theorem subst_congr {M M' : List (Expr × Expr)} (hM : Simple M) : ∀ (k : Nat) (e : Expr),
    (∀ n ∈ names e, substitution M n = substitution M' n) → subst k (substitution M) e = subst k (substitution M') e := by
  intro k
  induction k with
  | zero => intros; rfl
  | succ k ih =>
    intro e he
    cases e with
    | tru => simp [subst, substitution_nonname' _ (show Expr.isName .tru = false from rfl)]
    | fls => simp [subst, substitution_nonname' _ (show Expr.isName .fls = false from rfl)]
    | num v b => simp [subst, substitution_nonname' _ (show Expr.isName (.num v b) = false from rfl)]
    | not e => simp [subst, substitution_nonname' _ (show Expr.isName (.not e) = false from rfl)]
    | undefined =>
      have := he .undefined (by simp [names])
      simp [subst, this]
    | var ng imm id =>
      cases imm with
      | true => simp [subst]
      | false =>
        have := he (.var false false id) (by simp [names])
        cases ng <;> simp [subst, this]
    | attr ng a pre =>
      have h1 := he (.attr false a pre) (by simp [names])
      have h2 := ih pre fun n hn => he n (by simp [names, hn])
      simp only [subst]
      rw [← h1]
      rcases substitution_simple hM (.attr false a pre) with h | ⟨v, b, h⟩ | ⟨id, h⟩ | ⟨h, _⟩ <;> rw [h]
      simp [h2]
    | sel ng pre s =>
      have h1 := he (.sel ng pre s) (by simp [names])
      have h2 := ih pre fun n hn => he n (by simp [names, hn])
      simp only [subst]
      rw [← h1]
      rcases substitution_simple hM (.sel ng pre s) with h | ⟨v, b, h⟩ | ⟨id, h⟩ | ⟨h, _⟩ <;> rw [h]
      simp [h2]
    | call ng id args =>
      have h1 := he (.call ng id args) (by simp [names])
      have h2 : ∀ a ∈ args, subst k (substitution M) a = subst k (substitution M') a := fun a ha =>
        ih a fun n hn => he n (by simp only [names, List.mem_cons]; exact .inr (mem_namesL.mpr ⟨a, ha, hn⟩))
      simp only [subst]
      rw [← h1]
      rcases substitution_simple hM (.call ng id args) with h | ⟨v, b, h⟩ | ⟨id, h⟩ | ⟨h, _⟩ <;> rw [h]
      simp [mapM_congr' h2]
    | bool op ts =>
      have h2 : ∀ a ∈ ts, subst k (substitution M) a = subst k (substitution M') a := fun a ha =>
        ih a fun n hn => he n (by simp only [names]; exact mem_namesL.mpr ⟨a, ha, hn⟩)
      simp only [subst]
      rw [substitution_nonname' M (show Expr.isName (.bool op ts) = false from rfl),
        substitution_nonname' M' (show Expr.isName (.bool op ts) = false from rfl)]
      simp [mapM_congr' h2]
    | add ts =>
      have h2 : ∀ a ∈ ts, subst k (substitution M) a = subst k (substitution M') a := fun a ha =>
        ih a fun n hn => he n (by simp only [names]; exact mem_namesL.mpr ⟨a, ha, hn⟩)
      simp only [subst]
      rw [substitution_nonname' M (show Expr.isName (.add ts) = false from rfl),
        substitution_nonname' M' (show Expr.isName (.add ts) = false from rfl)]
      simp [mapM_congr' h2]
    | mul ts =>
      have h2 : ∀ a ∈ ts, subst k (substitution M) a = subst k (substitution M') a := fun a ha =>
        ih a fun n hn => he n (by simp only [names]; exact mem_namesL.mpr ⟨a, ha, hn⟩)
      simp only [subst]
      rw [substitution_nonname' M (show Expr.isName (.mul ts) = false from rfl),
        substitution_nonname' M' (show Expr.isName (.mul ts) = false from rfl)]
      simp [mapM_congr' h2]
    | agg ts =>
      have h2 : ∀ a ∈ ts, subst k (substitution M) a = subst k (substitution M') a := fun a ha =>
        ih a fun n hn => he n (by simp only [names]; exact mem_namesL.mpr ⟨a, ha, hn⟩)
      simp only [subst]
      rw [substitution_nonname' M (show Expr.isName (.agg ts) = false from rfl),
        substitution_nonname' M' (show Expr.isName (.agg ts) = false from rfl)]
      simp [mapM_congr' h2]
    | bin op l r =>
      have h1 := ih l fun n hn => he n (by simp [names, hn])
      have h2 := ih r fun n hn => he n (by simp [names, hn])
      simp only [subst]
      rw [substitution_nonname' M (show Expr.isName (.bin op l r) = false from rfl),
        substitution_nonname' M' (show Expr.isName (.bin op l r) = false from rfl)]
      simp [h1, h2]
    | rel op l r =>
      have h1 := ih l fun n hn => he n (by simp [names, hn])
      have h2 := ih r fun n hn => he n (by simp [names, hn])
      simp only [subst]
      rw [substitution_nonname' M (show Expr.isName (.rel op l r) = false from rfl),
        substitution_nonname' M' (show Expr.isName (.rel op l r) = false from rfl)]
      simp [h1, h2]
    | quant q p it pr =>
      have h1 := ih it fun n hn => he n (by simp [names, hn])
      have h2 := ih pr fun n hn => he n (by simp [names, hn])
      simp only [subst]
      rw [substitution_nonname' M (show Expr.isName (.quant q p it pr) = false from rfl),
        substitution_nonname' M' (show Expr.isName (.quant q p it pr) = false from rfl)]
      simp [h1, h2]

/-! ## Names apart from some fields -/

/-- Specification: the identifier is none of the given ones, neither up to case nor in print. -/
def Apart (bad : List ID) (i : ID) : Prop := ∀ f ∈ bad, f.eq i = false ∧ f.str ≠ i.str

/-- Specification: a name that does not refer to any of the given fields. Attributes of anything but a variable or a number
are excluded. -/
def Free (bad : List ID) : Expr → Prop
  | .var _ _ id => Apart bad id
  | .attr false _ (.var false _ id) => Apart bad id
  | .attr false _ (.num ..) => True
  | .attr .. => False
  | _ => True

/-- Specification: an expression that does not refer to any of the given fields. -/
def FreeOf (bad : List ID) (e : Expr) : Prop := ∀ n ∈ names e, Free bad n

/-- Proof device: the variables among the replacements are none of the given identifiers. -/
def ValuesApart (bad : List ID) (M : List (Expr × Expr)) : Prop := ∀ kv ∈ M, ∀ ng imm id, kv.2 = .var ng imm id → Apart bad id

theorem neg_num {v : Int} {b : NBase} {k : Nat} {e : Expr} (h : neg k (.num v b) = .ok e) : ∃ w c, e = .num w c := by
  cases k with
  | zero => simp [neg] at h
  | succ k => simp [neg] at h; exact ⟨_, _, h.symm⟩

theorem neg_tru {k : Nat} {e : Expr} (h : neg k .tru = .ok e) : e = .fls := by
  cases k with
  | zero => simp [neg] at h
  | succ k => simpa [neg] using h.symm

theorem neg_var {ng imm : Bool} {id : ID} {k : Nat} {e : Expr} (h : neg k (.var ng imm id) = .ok e) :
    ∃ ng' imm', e = .var ng' imm' id := by
  cases k with
  | zero => simp [neg] at h
  | succ k => simp [neg] at h; exact ⟨_, _, h.symm⟩

theorem neg_attr {ng : Bool} {a : AttrKind} {pre : Expr} {k : Nat} {e : Expr} (h : neg k (.attr ng a pre) = .ok e) :
    ∃ ng', e = .attr ng' a pre := by
  cases k with
  | zero => simp [neg] at h
  | succ k => simp [neg] at h; exact ⟨_, h.symm⟩

theorem mapM_mem {α β : Type} {f : α → Py β} {l : List α} {r : List β} (h : l.mapM f = .ok r) {y : β} (hy : y ∈ r) :
    ∃ x ∈ l, f x = .ok y := by
  induction l generalizing r with
  | nil =>
    simp only [List.mapM_nil, pure, Except.pure, Except.ok.injEq] at h
    subst h
    simp at hy
  | cons a l ih =>
    rw [List.mapM_cons] at h
    obtain ⟨b, hb, h⟩ := bind_ok (h : (f a).bind _ = _)
    obtain ⟨bs, hbs, h⟩ := bind_ok (h : (l.mapM f).bind _ = _)
    simp only [pure, Except.pure, Except.ok.injEq] at h
    subst h
    rcases List.mem_cons.mp hy with rfl | hy
    · exact ⟨a, by simp, hb⟩
    · obtain ⟨x, hx, h⟩ := ih hbs hy
      exact ⟨x, List.mem_cons_of_mem _ hx, h⟩

theorem substitution_apart {bad : List ID} {M : List (Expr × Expr)} (hv : ValuesApart bad M) {e : Expr} {ng imm : Bool} {id : ID}
    (h : substitution M e = .var ng imm id) (hne : substitution M e ≠ e) : Apart bad id := by
  unfold substitution at h hne
  split at h
  · rename_i hn
    simp only [hn, if_true] at hne
    cases hf : M.find? (fun kv => kv.1.eq e) with
    | none => simp [hf] at hne
    | some kv =>
      rw [hf] at h
      exact hv kv (List.mem_of_find?_eq_some hf) _ _ _ h
  · rename_i hn
    simp [hn] at hne

/-- A substitution whose values avoid the given fields does not introduce references to them. -/
theorem subst_free {bad : List ID} {M : List (Expr × Expr)} (hM : Simple M) (hv : ValuesApart bad M) :
    ∀ (k : Nat) (e e1 : Expr), FreeOf bad e → subst k (substitution M) e = .ok e1 →
      FreeOf bad e1 ∧ ∀ ng imm id, e1 = .var ng imm id → Apart bad id ∨ ∃ ng', e = .var ng' imm id := by
  intro k
  induction k with
  | zero => intro e e1 _ h; simp [subst] at h
  | succ k ih =>
    -- lists
    have lst : ∀ {ts rs : List Expr}, (∀ n ∈ namesL ts, Free bad n) → ts.mapM (subst k (substitution M)) = .ok rs →
        ∀ n ∈ namesL rs, Free bad n := by
      intro ts rs hf h n hn
      obtain ⟨r, hr, hn⟩ := mem_namesL.mp hn
      obtain ⟨t, ht, h⟩ := mapM_mem h hr
      exact (ih t r (fun n hn => hf n (mem_namesL.mpr ⟨t, ht, hn⟩)) h).1 n hn
    have num : ∀ v b, FreeOf bad (.num v b) := by intro v b n hn; simp [names] at hn
    have tru : FreeOf bad .tru := by intro n hn; simp [names] at hn
    have var : ∀ ng imm id, Apart bad id → FreeOf bad (.var ng imm id) := by
      intro ng imm id h n hn
      cases imm <;> simp [names] at hn
      subst hn; exact h
    intro e e1 hf h
    cases e with
    | tru | fls | num | not =>
      simp only [subst, Except.ok.injEq] at h
      rw [substitution_nonname' _ rfl] at h
      subst h
      exact ⟨hf, by simp⟩
    | undefined =>
      simp only [subst, Except.ok.injEq] at h
      subst h
      rcases substitution_simple hM .undefined with h | ⟨v, b, h⟩ | ⟨id, h⟩ | ⟨h, _⟩
      · rw [h]; exact ⟨hf, by simp⟩
      · rw [h]; exact ⟨num v b, by simp⟩
      · have := substitution_apart hv h (by simp [h])
        rw [h]
        exact ⟨var _ _ _ this, by intro ng imm id' he; cases he; exact .inl this⟩
      · rw [h]; exact ⟨tru, by simp⟩
    | var ng imm id =>
      cases imm with
      | true =>
        simp only [subst, if_true, Except.ok.injEq] at h
        subst h
        exact ⟨hf, by intro ng' imm' id' he; cases he; exact .inr ⟨_, rfl⟩⟩
      | false =>
        have hid : Apart bad id := hf (.var false false id) (by simp [names])
        have key : ∀ x, x = substitution M (.var false false id) →
            (∃ v b, x = .num v b) ∨ ∃ id', x = .var false false id' ∧ Apart bad id' := by
          intro x hx
          rcases substitution_simple hM (.var false false id) with h | ⟨v, b, h⟩ | ⟨id', h⟩ | ⟨_, h⟩
          · exact .inr ⟨id, by rw [hx, h], hid⟩
          · exact .inl ⟨v, b, by rw [hx, h]⟩
          · by_cases hs : substitution M (.var false false id) = .var false false id
            · exact .inr ⟨id, by rw [hx, hs], hid⟩
            · exact .inr ⟨id', by rw [hx, h], substitution_apart hv h hs⟩
          · exact absurd rfl (h id)
        cases ng with
        | false =>
          simp only [subst, Bool.false_eq_true, if_false, Except.ok.injEq] at h
          rcases key e1 h.symm with ⟨v, b, rfl⟩ | ⟨id', rfl, ha⟩
          · exact ⟨num v b, by simp⟩
          · exact ⟨var _ _ _ ha, by intro _ _ _ he; cases he; exact .inl ha⟩
        | true =>
          simp only [subst, Bool.false_eq_true, if_false, if_true] at h
          rcases key _ rfl with ⟨v, b, hx⟩ | ⟨id', hx, ha⟩
          · rw [hx] at h
            obtain ⟨w, c, rfl⟩ := neg_num h
            exact ⟨num w c, by simp⟩
          · rw [hx] at h
            obtain ⟨ng', imm', rfl⟩ := neg_var h
            exact ⟨var _ _ _ ha, by intro _ _ _ he; cases he; exact .inl ha⟩
    | attr ng a pre =>
      simp only [subst] at h
      obtain ⟨x, hx, h⟩ := bind_ok h
      have hn : Free bad (.attr false a pre) := hf _ (by simp [names])
      have hpre : FreeOf bad pre := fun n hn => hf n (by simp [names, hn])
      -- the result before a possible negation
      have hX : (x = .tru ∨ ∃ v b, x = .num v b) ∨ (∃ id, x = .var false false id ∧ Apart bad id) ∨
          ∃ pre1, x = .attr false a pre1 ∧ Free bad (.attr false a pre1) ∧ FreeOf bad pre1 := by
        by_cases hs : substitution M (.attr false a pre) = .attr false a pre
        · rw [hs] at hx
          obtain ⟨pre1, hp, rfl⟩ := map_ok hx
          obtain ⟨h1, h2⟩ := ih pre pre1 hpre hp
          refine .inr (.inr ⟨pre1, rfl, ?_, h1⟩)
          cases pre with
          | num v b =>
            cases k with
            | zero => simp [subst] at hp
            | succ k =>
              simp only [subst, Except.ok.injEq] at hp
              rw [substitution_nonname' _ rfl] at hp
              subst hp
              exact trivial
          | var ng' imm' id' =>
            obtain rfl : ng' = false := by
              cases ng' with
              | false => rfl
              | true => exact absurd hn (by simp [Free])
            have hid' : Apart bad id' := hn
            cases k with
            | zero => simp [subst] at hp
            | succ k =>
              have shape : (∃ v b, pre1 = .num v b) ∨ ∃ b c, pre1 = .var false b c := by
                cases imm' with
                | true =>
                  simp only [subst, if_true, Except.ok.injEq] at hp
                  exact .inr ⟨_, _, hp.symm⟩
                | false =>
                  simp only [subst, Bool.false_eq_true, if_false, Except.ok.injEq] at hp
                  rcases substitution_simple hM (.var false false id') with h | ⟨v, b, h⟩ | ⟨id'', h⟩ | ⟨_, h⟩
                  · rw [h] at hp
                    exact .inr ⟨_, _, hp.symm⟩
                  · rw [h] at hp
                    exact .inl ⟨_, _, hp.symm⟩
                  · rw [h] at hp
                    exact .inr ⟨_, _, hp.symm⟩
                  · exact absurd rfl (h id')
              rcases shape with ⟨v, b, rfl⟩ | ⟨b', c', rfl⟩
              · exact trivial
              · rcases h2 _ _ _ rfl with h | ⟨ng'', h⟩
                · exact h
                · cases h; exact hid'
          | _ => exact absurd hn (by simp [Free])
        · rcases substitution_simple hM (.attr false a pre) with h' | ⟨v, b, h'⟩ | ⟨id', h'⟩ | ⟨h', _⟩
          · exact absurd h' hs
          · rw [h'] at hx
            simp only [Except.ok.injEq] at hx
            exact .inl (.inr ⟨v, b, hx.symm⟩)
          · have ha := substitution_apart hv h' hs
            rw [h'] at hx
            simp only [Except.ok.injEq] at hx
            exact .inr (.inl ⟨id', hx.symm, ha⟩)
          · rw [h'] at hx
            simp only [Except.ok.injEq] at hx
            exact .inl (.inl hx.symm)
      have fin : (e1 = .tru ∨ e1 = .fls ∨ ∃ v b, e1 = .num v b) ∨ (∃ ng' imm' id, e1 = .var ng' imm' id ∧ Apart bad id) ∨
          ∃ ng' pre1, e1 = .attr ng' a pre1 ∧ Free bad (.attr false a pre1) ∧ FreeOf bad pre1 := by
        cases ng with
        | false =>
          simp only [Bool.false_eq_true, if_false, Except.ok.injEq] at h
          subst h
          rcases hX with hx1 | ⟨id, rfl, ha⟩ | ⟨pre1, rfl, h1, h2⟩
          · rcases hx1 with hx1 | hx1
            · exact .inl (.inl hx1)
            · exact .inl (.inr (.inr hx1))
          · exact .inr (.inl ⟨_, _, _, rfl, ha⟩)
          · exact .inr (.inr ⟨_, _, rfl, h1, h2⟩)
        | true =>
          simp only [if_true] at h
          rcases hX with (rfl | ⟨v, b, rfl⟩) | ⟨id, rfl, ha⟩ | ⟨pre1, rfl, h1, h2⟩
          · exact .inl (.inr (.inl (neg_tru h)))
          · exact .inl (.inr (.inr (neg_num h)))
          · obtain ⟨_, _, h⟩ := neg_var h
            exact .inr (.inl ⟨_, _, _, h, ha⟩)
          · obtain ⟨_, h⟩ := neg_attr h
            exact .inr (.inr ⟨_, _, h, h1, h2⟩)
      rcases fin with (rfl | rfl | ⟨v, b, rfl⟩) | ⟨ng', imm', id, rfl, ha⟩ | ⟨ng', pre1, rfl, h1, h2⟩
      · exact ⟨tru, by simp⟩
      · exact ⟨by intro n hn; simp [names] at hn, by simp⟩
      · exact ⟨num v b, by simp⟩
      · exact ⟨var _ _ _ ha, by intro _ _ _ he; cases he; exact .inl ha⟩
      · refine ⟨?_, by simp⟩
        intro n hn
        simp only [names, List.mem_cons] at hn
        rcases hn with rfl | hn
        · exact h1
        · exact h2 n hn
    | sel ng pre s =>
      simp only [subst] at h
      have hpre : FreeOf bad pre := fun n hn => hf n (by simp [names, hn])
      by_cases hs : substitution M (.sel ng pre s) = .sel ng pre s
      · rw [hs] at h
        obtain ⟨pre1, hp, h⟩ := bind_ok (h : (subst k (substitution M) pre).bind _ = _)
        simp only [pure, Except.pure, Except.ok.injEq] at h
        subst h
        refine ⟨?_, by simp⟩
        intro n hn
        simp only [names, List.mem_cons] at hn
        rcases hn with rfl | hn
        · exact trivial
        · exact (ih pre pre1 hpre hp).1 n hn
      · rcases substitution_simple hM (.sel ng pre s) with h' | ⟨v, b, h'⟩ | ⟨id', h'⟩ | ⟨h', _⟩
        · exact absurd h' hs
        · rw [h'] at h
          simp only [Except.ok.injEq] at h
          subst h
          exact ⟨num v b, by simp⟩
        · have ha := substitution_apart hv h' hs
          rw [h'] at h
          simp only [Except.ok.injEq] at h
          subst h
          exact ⟨var _ _ _ ha, by intro _ _ _ he; cases he; exact .inl ha⟩
        · rw [h'] at h
          simp only [Except.ok.injEq] at h
          subst h
          exact ⟨tru, by simp⟩
    | call ng id args =>
      simp only [subst] at h
      rcases substitution_simple hM (.call ng id args) with h' | ⟨v, b, h'⟩ | ⟨id', h'⟩ | ⟨h', _⟩ <;> rw [h'] at h
      · obtain ⟨rs, hr, h⟩ := bind_ok (h : (args.mapM (subst k (substitution M))).bind _ = _)
        simp only [pure, Except.pure, Except.ok.injEq] at h
        subst h
        refine ⟨?_, by simp⟩
        intro n hn
        simp only [names, List.mem_cons] at hn
        rcases hn with rfl | hn
        · exact trivial
        · exact lst (fun n hn => hf n (by simp [names, hn])) hr n hn
      · simp at h
      · simp at h
      · simp at h
    | bool op ts =>
      simp only [subst] at h
      rw [substitution_nonname' _ rfl] at h
      obtain ⟨rs, hr, h⟩ := bind_ok (h : (ts.mapM (subst k (substitution M))).bind _ = _)
      simp only [pure, Except.pure, Except.ok.injEq] at h
      subst h
      exact ⟨lst hf hr, by simp⟩
    | add ts =>
      simp only [subst] at h
      rw [substitution_nonname' _ rfl] at h
      obtain ⟨rs, hr, h⟩ := bind_ok (h : (ts.mapM (subst k (substitution M))).bind _ = _)
      simp only [pure, Except.pure, Except.ok.injEq] at h
      subst h
      exact ⟨lst hf hr, by simp⟩
    | mul ts =>
      simp only [subst] at h
      rw [substitution_nonname' _ rfl] at h
      obtain ⟨rs, hr, h⟩ := bind_ok (h : (ts.mapM (subst k (substitution M))).bind _ = _)
      simp only [pure, Except.pure, Except.ok.injEq] at h
      subst h
      exact ⟨lst hf hr, by simp⟩
    | agg ts =>
      simp only [subst] at h
      rw [substitution_nonname' _ rfl] at h
      obtain ⟨rs, hr, h⟩ := bind_ok (h : (ts.mapM (subst k (substitution M))).bind _ = _)
      simp only [pure, Except.pure, Except.ok.injEq] at h
      subst h
      exact ⟨lst hf hr, by simp⟩
    | bin op l r =>
      simp only [subst] at h
      rw [substitution_nonname' _ rfl] at h
      obtain ⟨l1, hl, h⟩ := bind_ok (h : (subst k (substitution M) l).bind _ = _)
      obtain ⟨r1, hr, h⟩ := bind_ok (h : (subst k (substitution M) r).bind _ = _)
      simp only [pure, Except.pure, Except.ok.injEq] at h
      subst h
      refine ⟨?_, by simp⟩
      intro n hn
      simp only [names, List.mem_append] at hn
      rcases hn with hn | hn
      · exact (ih l l1 (fun n hn => hf n (by simp [names, hn])) hl).1 n hn
      · exact (ih r r1 (fun n hn => hf n (by simp [names, hn])) hr).1 n hn
    | rel op l r =>
      simp only [subst] at h
      rw [substitution_nonname' _ rfl] at h
      obtain ⟨l1, hl, h⟩ := bind_ok (h : (subst k (substitution M) l).bind _ = _)
      obtain ⟨r1, hr, h⟩ := bind_ok (h : (subst k (substitution M) r).bind _ = _)
      simp only [pure, Except.pure, Except.ok.injEq] at h
      subst h
      refine ⟨?_, by simp⟩
      intro n hn
      simp only [names, List.mem_append] at hn
      rcases hn with hn | hn
      · exact (ih l l1 (fun n hn => hf n (by simp [names, hn])) hl).1 n hn
      · exact (ih r r1 (fun n hn => hf n (by simp [names, hn])) hr).1 n hn
    | quant q p l r =>
      simp only [subst] at h
      rw [substitution_nonname' _ rfl] at h
      obtain ⟨l1, hl, h⟩ := bind_ok (h : (subst k (substitution M) l).bind _ = _)
      obtain ⟨r1, hr, h⟩ := bind_ok (h : (subst k (substitution M) r).bind _ = _)
      simp only [pure, Except.pure, Except.ok.injEq] at h
      subst h
      refine ⟨?_, by simp⟩
      intro n hn
      simp only [names, List.mem_append] at hn
      rcases hn with hn | hn
      · exact (ih l l1 (fun n hn => hf n (by simp [names, hn])) hl).1 n hn
      · exact (ih r r1 (fun n hn => hf n (by simp [names, hn])) hr).1 n hn

/-- Two mappings that agree on all names apart from the given fields give the same value to an expression that does not refer
to these fields. -/
theorem simplifiedIn_congr (m : Msg) {bad : List ID} {M M' : List (Expr × Expr)} (hM : Simple (M ++ m.lits))
    (hv : ValuesApart bad (M ++ m.lits))
    (hag : ∀ n, Free bad n → substitution (M ++ m.lits) n = substitution (M' ++ m.lits) n) {e : Expr} (he : FreeOf bad e) :
    m.simplifiedIn M e = m.simplifiedIn M' e := by
  unfold Msg.simplifiedIn
  split
  · rfl
  · unfold Expr.substituted
    rw [← subst_congr hM _ e fun n hn => hag n (he n hn)]
    cases h : subst (depth e + 1) (substitution (M ++ m.lits)) e with
    | error x => rfl
    | ok e1 =>
      have hf := (subst_free hM hv _ _ _ he h).1
      simp only [Except.bind]
      rw [← subst_congr hM _ e1 fun n hn => hag n (hf n hn)]

end Verif.PyRFLX
