import Verif.Generator.Scalar

/-! # C32: conversions between encodings and values of scalar types -/

namespace Verif.Generator

open Verif Verif.Types

/-! ## Specification -/

/-- The rules of Ada for the alternatives of a case expression: `others` is an alternative of its own and the last one, no value
is covered twice, each value that is possible is covered, and each choice is a possible value. -/
structure Legal (alts : Alternatives) (possible : AVal → Prop) : Prop where
  others : ∀ l a r, alts = l ++ a :: r → a.1.any (·.isOthers) = true → r = [] ∧ a.1.length = 1
  disjoint : (alts.flatMap (·.1)).Pairwise fun a b => ∀ v, ¬ (a.covers v = true ∧ b.covers v = true)
  complete : ∀ v, possible v → ∃ c ∈ alts.flatMap (·.1), c.covers v = true ∨ c.isOthers = true
  inside : ∀ c ∈ alts.flatMap (·.1), c.isOthers = false → ∃ v, possible v ∧ c.covers v = true

/-- The values of the base type `mod 2 ** size`. -/
def Base (size : Int) : AVal → Prop
  | .num v => 0 ≤ v ∧ v < 2 ^ size.toNat
  | _ => False

/-- The literals of the enumeration type. -/
def Literal (t : Enum) : AVal → Prop
  | .lit k => ∃ kv ∈ t.literals, kv.1.key = k
  | _ => False

/-- The values of the type generated for an enumeration. -/
def Actual (t : Enum) (size : Int) : AVal → Prop
  | .lit k => t.alwaysValid = false ∧ ∃ kv ∈ t.literals, kv.1.key = k
  | .known k => t.alwaysValid = true ∧ ∃ kv ∈ t.literals, kv.1.key = k
  | .raw v => t.alwaysValid = true ∧ 0 ≤ v ∧ v < 2 ^ size.toNat
  | _ => False

/-! ## Lemmas -/

theorem Leaf.eval_eq {a b : Leaf} (h : a.eq b = true) (arg : AVal) : a.eval arg = b.eval arg := by
  cases a <;> cases b <;> simp_all [Leaf.eq, Leaf.eval, ID.eq_iff_key]

theorem group_find (p : Choice → Bool) (arg : AVal) (cs : Cases) :
    ((group cs).find? (fun a => a.1.any p)).map (fun a => a.2.eval arg) = (cs.find? (fun c => p c.1)).map (fun c => c.2.eval arg) := by
  induction cs with
  | nil => rfl
  | cons c rest ih =>
    obtain ⟨c, e⟩ := c
    simp only [group, List.find?_cons]
    split
    · rename_i hg
      rw [hg] at ih
      cases hp : p c with
      | true => simp [hp]
      | false => simp [hp, ← ih]
    · rename_i cs' e' alts hg
      rw [hg] at ih
      simp only [List.find?_cons] at ih
      split
      · rename_i he
        have hev := Leaf.eval_eq he arg
        cases hp : p c with
        | true => simp [hp]
        | false =>
          simp only [List.find?_cons, List.any_cons, hp, Bool.false_or]
          rw [← ih]
          cases cs'.any p <;> simp [hev]
      · cases hp : p c with
        | true => simp [hp]
        | false =>
          simp only [List.find?_cons, List.any_cons, hp, List.any_nil, Bool.or_self]
          rw [← ih]

/-- The value of a case expression in terms of the cases before grouping. -/
theorem case_eval (cs : Cases) (arg : AVal) : (group cs).eval arg =
    ((cs.find? (fun c => c.1.covers arg)).or (cs.find? (fun c => c.1.isOthers))).bind fun c => c.2.eval arg := by
  have h1 := group_find (·.covers arg) arg cs
  have h2 := group_find (·.isOthers) arg cs
  unfold Alternatives.eval
  cases ha : (group cs).find? (fun a => a.1.any (·.covers arg)) with
  | some a =>
    rw [ha] at h1
    cases hb : cs.find? (fun c => c.1.covers arg) with
    | none => rw [hb] at h1; simp at h1
    | some b => rw [hb] at h1; simpa using h1
  | none =>
    rw [ha] at h1
    cases hb : cs.find? (fun c => c.1.covers arg) with
    | some b => rw [hb] at h1; simp at h1
    | none =>
      cases ha' : (group cs).find? (fun a => a.1.any (·.isOthers)) with
      | some a =>
        rw [ha'] at h2
        cases hb : cs.find? (fun c => c.1.isOthers) with
        | none => rw [hb] at h2; simp at h2
        | some b => rw [hb] at h2; simpa using h2
      | none =>
        rw [ha'] at h2
        cases hb : cs.find? (fun c => c.1.isOthers) with
        | none => rfl
        | some b => rw [hb] at h2; simp at h2

theorem group_flat (cs : Cases) : (group cs).flatMap (·.1) = cs.map (·.1) := by
  induction cs with
  | nil => rfl
  | cons c rest ih =>
    obtain ⟨c, e⟩ := c
    simp only [group]
    split
    · rename_i hg
      rw [hg] at ih
      simp only [List.flatMap_nil] at ih
      simp [← ih]
    · rename_i cs' e' alts hg
      rw [hg] at ih
      split <;> simp [← ih]

theorem group_last (e : Leaf) (c : Choice) (l : Cases) (h : ∀ x ∈ l, x.2.eq e = false) :
    group (l ++ [(c, e)]) = group l ++ [([c], e)] := by
  induction l with
  | nil => rfl
  | cons x l ih =>
    obtain ⟨x, e'⟩ := x
    have hx : e'.eq e = false := h (x, e') List.mem_cons_self
    simp only [List.cons_append, group, ih fun y hy => h y (List.mem_cons_of_mem _ hy)]
    cases group l with
    | nil => simp [hx]
    | cons a alts =>
      simp only [List.cons_append]
      split <;> rfl

theorem no_others {l : Cases} (h : ∀ x ∈ l, x.1.isOthers = false) : ∀ a ∈ group l, a.1.any (·.isOthers) = false := by
  intro a ha
  rw [List.any_eq_false]
  intro c hc
  have : c ∈ (group l).flatMap (·.1) := List.mem_flatMap.mpr ⟨a, ha, hc⟩
  rw [group_flat] at this
  obtain ⟨x, hx, rfl⟩ := List.mem_map.mp this
  simp [h x hx]

theorem legal_without {l : Cases} {P : AVal → Prop} (h1 : ∀ x ∈ l, x.1.isOthers = false)
    (h2 : l.Pairwise fun a b => ∀ v, ¬ (a.1.covers v = true ∧ b.1.covers v = true))
    (h3 : ∀ v, P v → ∃ x ∈ l, x.1.covers v = true) (h4 : ∀ x ∈ l, ∃ v, P v ∧ x.1.covers v = true) : Legal (group l) P where
  others := by
    intro a b r he hb
    have := no_others h1 b (by rw [he]; simp)
    rw [this] at hb
    cases hb
  disjoint := by rw [group_flat, List.pairwise_map]; exact h2
  complete := by
    intro v hv
    obtain ⟨x, hx, hc⟩ := h3 v hv
    exact ⟨x.1, by rw [group_flat]; exact List.mem_map_of_mem hx, .inl hc⟩
  inside := by
    intro c hc _
    rw [group_flat] at hc
    obtain ⟨x, hx, rfl⟩ := List.mem_map.mp hc
    exact h4 x hx

theorem legal_with {l : Cases} {e : Leaf} {P : AVal → Prop} (h0 : ∀ x ∈ l, x.2.eq e = false) (h1 : ∀ x ∈ l, x.1.isOthers = false)
    (h2 : l.Pairwise fun a b => ∀ v, ¬ (a.1.covers v = true ∧ b.1.covers v = true))
    (h4 : ∀ x ∈ l, ∃ v, P v ∧ x.1.covers v = true) : Legal (group (l ++ [(.others, e)])) P where
  others := by
    intro a b r he hb
    rw [group_last e _ l h0] at he
    rcases List.eq_nil_or_concat r with rfl | ⟨r', z, rfl⟩
    · have := List.append_inj_right' he (by rfl)
      simp only [List.cons.injEq, and_true] at this
      exact ⟨rfl, by rw [← this]; rfl⟩
    · exfalso
      rw [List.concat_eq_append, ← List.cons_append, ← List.append_assoc] at he
      have := List.append_inj_left' he (by rfl)
      have := no_others h1 b (by rw [this]; simp)
      rw [this] at hb
      cases hb
  disjoint := by
    rw [group_flat, List.pairwise_map, List.pairwise_append]
    refine ⟨h2, by simp, ?_⟩
    intro a _ b hb v
    simp only [List.mem_singleton] at hb
    subst hb
    cases v <;> simp [Choice.covers]
  complete := by
    intro v hv
    exact ⟨.others, by rw [group_flat]; simp, .inr rfl⟩
  inside := by
    intro c hc ho
    rw [group_flat, List.map_append, List.mem_append] at hc
    rcases hc with hc | hc
    · obtain ⟨x, hx, rfl⟩ := List.mem_map.mp hc
      exact h4 x hx
    · simp only [List.map_cons, List.map_nil, List.mem_singleton] at hc
      subst hc
      cases ho

/-- The case for the value of a literal. -/
theorem find_num {lits : List (ID × Int)} (hd : lits.Pairwise fun a b => a.2 ≠ b.2) (g : ID × Int → Leaf) (tl : Cases)
    {kv : ID × Int} (h : kv ∈ lits) :
    (lits.map (fun kv => (Choice.num kv.2, g kv)) ++ tl).find? (fun c => c.1.covers (.num kv.2)) = some (.num kv.2, g kv) := by
  induction lits with
  | nil => cases h
  | cons a l ih =>
    simp only [List.map_cons, List.cons_append, List.find?_cons, Choice.covers]
    rw [List.pairwise_cons] at hd
    rcases List.mem_cons.mp h with rfl | h
    · simp
    · have : (a.2 == kv.2) = false := by simpa using hd.1 kv h
      rw [this]
      exact ih hd.2 h

theorem find_num_none {lits : List (ID × Int)} (g : ID × Int → Leaf) {v : Int} (h : ∀ kv ∈ lits, kv.2 ≠ v) :
    (lits.map (fun kv => (Choice.num kv.2, g kv))).find? (fun c => c.1.covers (.num v)) = none := by
  rw [List.find?_eq_none]
  intro c hc
  obtain ⟨kv, hkv, rfl⟩ := List.mem_map.mp hc
  simp [Choice.covers, h kv hkv]

/-- The case for a literal. -/
theorem find_lit {lits : List (ID × Int)} (hd : lits.Pairwise fun a b => a.1.key ≠ b.1.key) (g : ID × Int → Leaf)
    {kv : ID × Int} (h : kv ∈ lits) :
    (lits.map (fun kv => (Choice.lit kv.1, g kv))).find? (fun c => c.1.covers (.lit kv.1.key)) = some (.lit kv.1, g kv) := by
  induction lits with
  | nil => cases h
  | cons a l ih =>
    simp only [List.map_cons, List.find?_cons, Choice.covers]
    rw [List.pairwise_cons] at hd
    rcases List.mem_cons.mp h with rfl | h
    · simp
    · have : (a.1.key == kv.1.key) = false := by simpa using hd.1 kv h
      rw [this]
      exact ih hd.2 h

theorem no_others_num (lits : List (ID × Int)) (g : ID × Int → Leaf) :
    (lits.map (fun kv => (Choice.num kv.2, g kv))).find? (fun c => c.1.isOthers) = none := by
  rw [List.find?_eq_none]
  intro c hc
  obtain ⟨kv, _, rfl⟩ := List.mem_map.mp hc
  simp [Choice.isOthers]

theorem eval_num {lits : List (ID × Int)} (hd : lits.Pairwise fun a b => a.2 ≠ b.2) (g : ID × Int → Leaf) (tl : Cases)
    {kv : ID × Int} (h : kv ∈ lits) :
    (group (lits.map (fun kv => (Choice.num kv.2, g kv)) ++ tl)).eval (.num kv.2) = (g kv).eval (.num kv.2) := by
  rw [case_eval, find_num hd g tl h]
  rfl

theorem eval_others {lits : List (ID × Int)} (g : ID × Int → Leaf) (e : Leaf) {v : Int} (h : ∀ kv ∈ lits, kv.2 ≠ v) :
    (group (lits.map (fun kv => (Choice.num kv.2, g kv)) ++ [(.others, e)])).eval (.num v) = e.eval (.num v) := by
  rw [case_eval, List.find?_append, find_num_none g h, List.find?_append, no_others_num]
  rfl

theorem eval_lit {lits : List (ID × Int)} (hd : lits.Pairwise fun a b => a.1.key ≠ b.1.key) (g : ID × Int → Leaf)
    {kv : ID × Int} (h : kv ∈ lits) :
    (group (lits.map (fun kv => (Choice.lit kv.1, g kv)))).eval (.lit kv.1.key) = (g kv).eval (.lit kv.1.key) := by
  rw [case_eval, find_lit hd g h]
  rfl

theorem find_value {lits : List (ID × Int)} (v : Int) : (∃ kv ∈ lits, kv.2 = v) ∨ ∀ kv ∈ lits, kv.2 ≠ v := by
  by_cases h : ∃ kv ∈ lits, kv.2 = v
  · exact .inl h
  · exact .inr fun kv hkv he => h ⟨kv, hkv, he⟩

theorem length_le {lits : List (ID × Int)} {s : Nat} (hr : ∀ kv ∈ lits, 0 ≤ kv.2 ∧ kv.2 < 2 ^ s)
    (hd : lits.Pairwise (fun a b => a.2 ≠ b.2)) : (lits.length : Int) ≤ 2 ^ s := by
  let vals := lits.map (fun kv => kv.2.toNat)
  have nd : vals.Nodup := by
    rw [List.nodup_iff_pairwise_ne, List.pairwise_map]
    refine hd.imp_of_mem ?_
    intro a b ha hb hne he
    have := hr a ha; have := hr b hb
    exact hne (by omega)
  have sub1 : vals ⊆ List.range (2 ^ s) := by
    intro x hx
    obtain ⟨kv, hkv, rfl⟩ := List.mem_map.mp hx
    have := hr kv hkv
    rw [List.mem_range]
    have h2 := this.2
    rw [← pow_cast] at h2
    omega
  have l1 := nd.length_le_of_subset sub1
  simp only [vals, List.length_map, List.length_range] at l1
  rw [← pow_cast]
  omega

/-- If there are as many literals as encodings, each encoding belongs to a literal. -/
theorem all_named {lits : List (ID × Int)} {s : Nat} (hr : ∀ kv ∈ lits, 0 ≤ kv.2 ∧ kv.2 < 2 ^ s)
    (hd : lits.Pairwise (fun a b => a.2 ≠ b.2)) (hl : ¬ (lits.length : Int) < 2 ^ s) {v : Int} (h0 : 0 ≤ v) (h1 : v < 2 ^ s) :
    ∃ kv ∈ lits, kv.2 = v := by
  rcases find_value (lits := lits) v with h | h
  · exact h
  · exfalso
    have h2 : ∀ kv ∈ lits ++ [((⟨[]⟩ : ID), v)], 0 ≤ kv.2 ∧ kv.2 < 2 ^ s := by
      intro kv hkv
      rcases List.mem_append.mp hkv with hkv | hkv
      · exact hr kv hkv
      · simp only [List.mem_singleton] at hkv
        subst hkv
        exact ⟨h0, h1⟩
    have h3 : (lits ++ [((⟨[]⟩ : ID), v)]).Pairwise (fun a b => a.2 ≠ b.2) := by
      rw [List.pairwise_append]
      refine ⟨hd, by simp, ?_⟩
      intro a ha b hb
      simp only [List.mem_singleton] at hb
      subst hb
      exact h a ha
    have := length_le h2 h3
    simp only [List.length_append, List.length_singleton] at this
    omega

/-! ## Enumerations -/

/-- C32 for enumerations: `Valid` accepts exactly the encodings of literals, and every encoding if the type is always valid.
`To_Actual` of an encoding that is accepted raises no exception, and `To_Base` of the result is this encoding. `To_Base` of a
value raises no exception, its result is accepted, and `To_Actual` gives back the value, unless it is a record that contains the
encoding of a literal as `Raw` (see `C32_raw_literal_counterexample`). A literal is represented by its encoding. -/
theorem C32_enumeration_partial (t : Enum) (h : t.Accepted) (_hne : t.literals ≠ []) :
    ∃ (s : Num) (fs : Functions), scalarSize t.size = .ok s ∧ enumerationFunctions t = .ok fs ∧
      (∀ v, Base s.v (.num v) → fs.valid.eval (.num v) = some (.bool (t.alwaysValid || decide (v ∈ t.literals.map (·.2))))) ∧
      (∀ v, Base s.v (.num v) → fs.valid.eval (.num v) = some (.bool true) →
        ∃ a, fs.toActual.eval (.num v) = some a ∧ Actual t s.v a ∧ fs.toBase.eval a = some (.num v)) ∧
      (∀ a, Actual t s.v a → ∃ v, fs.toBase.eval a = some (.num v) ∧ Base s.v (.num v) ∧
        fs.valid.eval (.num v) = some (.bool true) ∧
        ((∀ w, a = .raw w → w ∉ t.literals.map (·.2)) → fs.toActual.eval (.num v) = some a)) ∧
      ∀ kv ∈ t.literals, fs.toBase.eval (if t.alwaysValid then .known kv.1.key else .lit kv.1.key) = some (.num kv.2) ∧
        fs.toActual.eval (.num kv.2) = some (if t.alwaysValid then .known kv.1.key else .lit kv.1.key) := by
  obtain ⟨s, hs, _, hk, hd, hr, _⟩ := C06_accepted t h
  have hr' : ∀ kv ∈ t.literals, 0 ≤ kv.2 ∧ kv.2 < 2 ^ s.v.toNat := fun kv hkv => ⟨(hr kv hkv).1, (hr kv hkv).2.2⟩
  have hand : (Expr.bool .and [.tru]).simplified = .ok .tru := rfl
  cases hav : t.alwaysValid with
  | true =>
    refine ⟨s, _, hs, by simp only [enumerationFunctions, hs, hav, hand, bind, Except.bind, if_true, pure, Except.pure]; rfl, ?_, ?_, ?_, ?_⟩
    · intro v _
      rfl
    · intro v hv _
      rcases find_value (lits := t.literals) v with ⟨kv, hkv, rfl⟩ | hn
      · refine ⟨_, eval_num hd _ _ hkv, ⟨hav, kv, hkv, rfl⟩, ?_⟩
        exact eval_lit hk _ hkv
      · exact ⟨_, eval_others _ _ hn, ⟨hav, hv⟩, rfl⟩
    · intro a ha
      cases a with
      | num => cases ha
      | bool => cases ha
      | lit k => simp [Actual, hav] at ha
      | known k =>
        obtain ⟨_, kv, hkv, rfl⟩ := ha
        exact ⟨kv.2, eval_lit hk _ hkv, hr' kv hkv, rfl, fun _ => eval_num hd _ _ hkv⟩
      | raw v =>
        refine ⟨v, rfl, ha.2, rfl, fun hw => ?_⟩
        exact eval_others _ _ fun kv hkv he => hw v rfl (List.mem_map.mpr ⟨kv, hkv, he⟩)
    · intro kv hkv
      exact ⟨eval_lit hk _ hkv, eval_num hd _ _ hkv⟩
  | false =>
    refine ⟨s, _, hs, by simp only [enumerationFunctions, hs, hav, bind, Except.bind, Bool.false_eq_true, if_false, pure, Except.pure]; rfl,
      ?_, ?_, ?_, ?_⟩
    · intro v hv
      rcases find_value (lits := t.literals) v with ⟨kv, hkv, rfl⟩ | hn
      · have : decide (kv.2 ∈ t.literals.map (·.2)) = true := by simpa using ⟨_, hkv⟩
        rw [this]
        exact eval_num hd _ _ hkv
      · have : decide (v ∈ t.literals.map (·.2)) = false := by
          simp only [List.mem_map, decide_eq_false_iff_not]
          rintro ⟨kv, hkv, he⟩
          exact hn kv hkv he
        rw [this]
        by_cases hinc : (t.literals.length : Int) < 2 ^ s.v.toNat
        · simp only [Body.eval, hinc, decide_true, if_true]
          exact eval_others _ _ hn
        · obtain ⟨kv, hkv, he⟩ := all_named hr' hd hinc hv.1 hv.2
          exact absurd he (hn kv hkv)
    · intro v hv hval
      rcases find_value (lits := t.literals) v with ⟨kv, hkv, rfl⟩ | hn
      · refine ⟨_, eval_num hd _ _ hkv, ⟨hav, kv, hkv, rfl⟩, ?_⟩
        exact eval_lit hk _ hkv
      · exfalso
        by_cases hinc : (t.literals.length : Int) < 2 ^ s.v.toNat
        · simp only [Body.eval, hinc, decide_true, if_true] at hval
          rw [eval_others _ _ hn] at hval
          cases hval
        · obtain ⟨kv, hkv, he⟩ := all_named hr' hd hinc hv.1 hv.2
          exact absurd he (hn kv hkv)
    · intro a ha
      cases a with
      | num => cases ha
      | bool => cases ha
      | known k => simp [Actual, hav] at ha
      | raw k => simp [Actual, hav] at ha
      | lit k =>
        obtain ⟨_, kv, hkv, rfl⟩ := ha
        refine ⟨kv.2, eval_lit hk _ hkv, hr' kv hkv, eval_num hd _ _ hkv, fun _ => eval_num hd _ _ hkv⟩
    · intro kv hkv
      exact ⟨eval_lit hk _ hkv, eval_num hd _ _ hkv⟩

/-- The case expressions generated for an enumeration obey the rules of Ada, over the base type and the literals,
respectively. -/
theorem C32_legal (t : Enum) (h : t.Accepted) :
    ∃ (s : Num) (fs : Functions), scalarSize t.size = .ok s ∧ enumerationFunctions t = .ok fs ∧ ∀ cs,
      (fs.valid = .case cs ∨ fs.toActual = .case cs → t.literals ≠ [] → Legal (group cs) (Base s.v)) ∧
      (fs.toBase = .case cs ∨ fs.toBase = .ifKnown cs ∨ fs.enumToBase = some (.case cs) → Legal (group cs) (Literal t)) := by
  obtain ⟨s, hs, _, hk, hd, hr, _⟩ := C06_accepted t h
  have hr' : ∀ kv ∈ t.literals, 0 ≤ kv.2 ∧ kv.2 < 2 ^ s.v.toNat := fun kv hkv => ⟨(hr kv hkv).1, (hr kv hkv).2.2⟩
  have hand : (Expr.bool .and [.tru]).simplified = .ok .tru := rfl
  have lb : Legal (group (t.literals.map fun kv => (.lit kv.1, .num kv.2))) (Literal t) := by
    apply legal_without
    · intro x hx
      obtain ⟨kv, _, rfl⟩ := List.mem_map.mp hx
      rfl
    · rw [List.pairwise_map]
      refine hk.imp ?_
      intro a b hab v hv
      cases v <;> simp only [Choice.covers, Bool.false_eq_true, false_and, beq_iff_eq] at hv
      exact hab (hv.1.trans hv.2.symm)
    · intro v hv
      cases v <;> simp only [Literal] at hv
      obtain ⟨kv, hkv, rfl⟩ := hv
      exact ⟨_, List.mem_map.mpr ⟨kv, hkv, rfl⟩, by simp [Choice.covers]⟩
    · intro x hx
      obtain ⟨kv, hkv, rfl⟩ := List.mem_map.mp hx
      exact ⟨.lit kv.1.key, ⟨kv, hkv, rfl⟩, by simp [Choice.covers]⟩
  have h1 : ∀ g : ID × Int → Leaf, ∀ x ∈ t.literals.map (fun kv => (Choice.num kv.2, g kv)), x.1.isOthers = false := by
    intro g x hx
    obtain ⟨kv, _, rfl⟩ := List.mem_map.mp hx
    rfl
  have h2 : ∀ g : ID × Int → Leaf, (t.literals.map (fun kv => (Choice.num kv.2, g kv))).Pairwise
      fun a b => ∀ v, ¬ (a.1.covers v = true ∧ b.1.covers v = true) := by
    intro g
    rw [List.pairwise_map]
    refine hd.imp ?_
    intro a b hab v hv
    cases v <;> simp only [Choice.covers, Bool.false_eq_true, false_and, beq_iff_eq] at hv
    exact hab (hv.1.trans hv.2.symm)
  have h4 : ∀ g : ID × Int → Leaf, ∀ x ∈ t.literals.map (fun kv => (Choice.num kv.2, g kv)), ∃ v, Base s.v v ∧ x.1.covers v = true := by
    intro g x hx
    obtain ⟨kv, hkv, rfl⟩ := List.mem_map.mp hx
    exact ⟨.num kv.2, hr' kv hkv, by simp [Choice.covers]⟩
  have key : ∀ (g : ID × Int → Leaf) (e : Leaf), (∀ kv, (g kv).eq e = false) →
      Legal (group (t.literals.map (fun kv => (Choice.num kv.2, g kv)) ++ [(.others, e)])) (Base s.v) := by
    intro g e hg
    refine legal_with ?_ (h1 g) (h2 g) (h4 g)
    intro x hx
    obtain ⟨kv, _, rfl⟩ := List.mem_map.mp hx
    exact hg kv
  have key' : ∀ (g : ID × Int → Leaf) (e : Leaf), (∀ kv, (g kv).eq e = false) →
      Legal (group (t.literals.map (fun kv => (Choice.num kv.2, g kv)) ++
        if decide ((t.literals.length : Int) < 2 ^ s.v.toNat) then [(.others, e)] else [])) (Base s.v) := by
    intro g e hg
    by_cases hinc : (t.literals.length : Int) < 2 ^ s.v.toNat
    · simp only [hinc, decide_true, if_true]
      exact key g e hg
    · simp only [hinc, decide_false, Bool.false_eq_true, if_false, List.append_nil]
      refine legal_without (h1 g) (h2 g) ?_ (h4 g)
      intro v hv
      cases v <;> simp only [Base] at hv
      obtain ⟨kv, hkv, rfl⟩ := all_named hr' hd hinc hv.1 hv.2
      exact ⟨_, List.mem_map.mpr ⟨kv, hkv, rfl⟩, by simp [Choice.covers]⟩
  cases hav : t.alwaysValid with
  | true =>
    refine ⟨s, _, hs, by simp only [enumerationFunctions, hs, hav, hand, bind, Except.bind, if_true, pure, Except.pure]; rfl, fun cs => ⟨?_, ?_⟩⟩
    · rintro (hc | hc) _
      · cases hc
      · cases hc
        exact key _ _ fun _ => rfl
    · rintro (hc | hc | hc)
      · cases hc
      · cases hc; exact lb
      · cases hc; exact lb
  | false =>
    refine ⟨s, _, hs, by simp only [enumerationFunctions, hs, hav, bind, Except.bind, Bool.false_eq_true, if_false, pure, Except.pure]; rfl,
      fun cs => ⟨?_, ?_⟩⟩
    · rintro (hc | hc) _
      · cases hc
        exact key' _ _ fun _ => rfl
      · cases hc
        exact key' _ _ fun _ => rfl
    · rintro (hc | hc | hc)
      · cases hc; exact lb
      · cases hc
      · cases hc

/-- `type E is (Zero => 0, Two => 2) with Size => 2`. -/
def exPlain : Enum := ⟨⟨[['P'], ['E']]⟩, [(⟨[['Z', 'e', 'r', 'o']]⟩, 0), (⟨[['T', 'w', 'o']]⟩, 2)], .n 2, false⟩

/-- The hypotheses of `C32_enumeration_partial` and `C32_legal` can be met by both kinds of enumerations. -/
example : exPlain.Accepted ∧ exPlain.literals ≠ [] ∧ exEnum.Accepted ∧ exEnum.literals ≠ [] := by
  refine ⟨⟨exPlain.id, exPlain.literals.map fun kv => (.id kv.1, kv.2), .n 2, false, ?_⟩, by decide, ⟨_, _, _, _, exEnum_new⟩, by decide⟩
  rfl

/-- C32 is false for records: the record `(Known => False, Raw => 2)` is a value of the type generated for `exEnum`, but
converting it to the encoding and back gives the record `(Known => True, Enum => Two)`. -/
theorem C32_raw_literal_counterexample : ∃ (fs : Functions) (a b : AVal), exEnum.Accepted ∧ enumerationFunctions exEnum = .ok fs ∧
    Actual exEnum 2 a ∧ ∃ v, fs.toBase.eval a = some v ∧ fs.valid.eval v = some (.bool true) ∧ fs.toActual.eval v = some b ∧ b ≠ a :=
  ⟨_, .raw 2, .known [['t', 'w', 'o']], ⟨_, _, _, _, exEnum_new⟩, rfl, ⟨rfl, by decide⟩, .num 2, rfl, rfl, rfl, by decide⟩

/-! ## Integers -/

/-- The constraint of a range type, as it is used in the generated function. -/
theorem range_condition (t : RangeInt) (h : (IntType.range t).Accepted) :
    ∃ (cs : List Expr) (c : Expr) (s : Num), IntType.constraints (.range t) val = .ok cs ∧ (Expr.bool .and cs).simplified = .ok c ∧
      scalarSize t.size = .ok s ∧ ∀ v, 0 ≤ v → v < 2 ^ s.v.toNat →
        Verif.eval .ada (valEnv v) c = some (.bool (decide (t.first.v ≤ v ∧ v ≤ t.last.v))) := by
  have hn : val.Lex := by decide
  have henv : ∀ v, (valEnv v).var val.key = .int v := by intro v; simp [valEnv]
  obtain ⟨f, l, s, hf, hl, hs, hfl, hs0, hs64, hr, _⟩ := C05_accepted (.range t) h
  simp only [IntType.size] at hs
  simp only [IntType.first, Except.ok.injEq] at hf
  simp only [IntType.last, Except.ok.injEq] at hl
  subst hf; subst hl
  have hb : ∃ n : Num, (Expr.bin .sub (.bin .pow (.n 2) s.expr) (.n 1)).simplified = .ok n.expr ∧
      n.v = 2 ^ s.v.toNat - 1 := by
    let e : Expr := .bin .sub (.bin .pow (.n 2) s.expr) (.n 1)
    have hc : e.Const := by simp [e, Expr.Const, Num.expr]
    have hw : e.WF := by simp [e, Expr.WF, Num.expr]
    have hv : Verif.eval .ada exEnv e = some (.int (2 ^ s.v.toNat - 1)) := by
      simp [e, Verif.eval, Num.expr, ArithOp.eval, show ¬ s.v < 0 by omega]
    obtain ⟨e', he⟩ := C08_C09_simplified_returns_partial (D := .ada) e (Const.good _ e hc false) hw
      (by simp [e, Expr.HQ, Num.expr]) exEnv _ hv
    obtain ⟨b, rfl⟩ := C08_constant_folds (D := .ada) e e' hc hw he exEnv _ hv
    exact ⟨⟨_, b⟩, he, rfl⟩
  obtain ⟨n, hb1, hb2⟩ := hb
  have pos : (0 : Int) < 2 ^ s.v.toNat := Int.pow_pos (by omega)
  -- conjunctions of a single constraint
  have fin : ∀ c : Expr, c.Good Division.ada.Odd false → c.WF → ¬ c.HQ →
      (∀ v, 0 ≤ v → v < 2 ^ s.v.toNat → Verif.eval .ada (valEnv v) c = some (.bool (decide (t.first.v ≤ v ∧ v ≤ t.last.v)))) →
      ∃ c', (Expr.bool .and [c]).simplified = .ok c' ∧ ∀ v, 0 ≤ v → v < 2 ^ s.v.toNat →
        Verif.eval .ada (valEnv v) c' = some (.bool (decide (t.first.v ≤ v ∧ v ≤ t.last.v))) := by
    intro c hg hw hq hv
    have hg' : (Expr.bool .and [c]).Good Division.ada.Odd false := by simp [Expr.Good, Expr.GoodL, hg]
    have hw' : (Expr.bool .and [c]).WF := by simp [Expr.WF, Expr.WFL, hw]
    have hq' : ¬ (Expr.bool .and [c]).HQ := by simp [Expr.HQ, Expr.HQL, hq]
    have hv' : ∀ v, 0 ≤ v → v < 2 ^ s.v.toNat →
        Verif.eval .ada (valEnv v) (.bool .and [c]) = some (.bool (decide (t.first.v ≤ v ∧ v ≤ t.last.v))) := by
      intro v h0 h1
      simp [Verif.eval, evalL, hv v h0 h1, allSome, Val.bool?, BoolOp.isAnd]
    obtain ⟨c', hc'⟩ := C08_C09_simplified_returns_partial (D := .ada) _ hg' hw' hq' _ _ (hv' 0 (by omega) pos)
    exact ⟨c', hc', fun v h0 h1 => C08_C09_simplified_value_partial _ _ hg' hw' hc' _ _ (hv' v h0 h1)⟩
  simp only [IntType.constraints, hs, bind, Except.bind, num_simplified, hb1, pure, Except.pure]
  by_cases heq : t.first.expr.eq t.last.expr = true
  · rw [if_pos heq]
    have he := (num_eq _ _).mp heq
    obtain ⟨c', h1, h2⟩ := fin (.rel .eq (.var false false val) t.first.expr) (by simp [Expr.Good, Num.expr])
      (by simp [Expr.WF, Num.expr, hn]) (by simp [Expr.HQ, Num.expr]) (by
        intro v _ _
        have : decide (v = t.first.v) = decide (t.first.v ≤ v ∧ v ≤ t.last.v) := by
          rw [decide_eq_decide]
          omega
        simp [Verif.eval, Num.expr, Val.negIf, henv, RelOp.eval, ← this])
    exact ⟨_, c', s, rfl, h1, rfl, h2⟩
  · rw [if_neg heq]
    have e0 : (Expr.n 0).simplified = .ok (Num.n 0).expr := rfl
    simp only [e0]
    let c1 : Expr := if !t.first.expr.eq (Num.n 0).expr then .rel .ge (.var false false val) t.first.expr else .tru
    let c2 : Expr := if !t.last.expr.eq n.expr then .bool .and [c1, .rel .le (.var false false val) t.last.expr] else c1
    have good : c2.Good Division.ada.Odd false ∧ c2.WF ∧ ¬ c2.HQ := by
      have g1 : c1.Good Division.ada.Odd false ∧ c1.WF ∧ ¬ c1.HQ := by
        simp only [c1]; split <;> simp [Expr.Good, Expr.WF, Expr.HQ, Num.expr, hn]
      simp only [c2]
      split
      · simp [Expr.Good, Expr.GoodL, Expr.WF, Expr.WFL, Expr.HQ, Expr.HQL, Num.expr, hn, g1]
      · exact g1
    have ev : ∀ v, 0 ≤ v → v < 2 ^ s.v.toNat →
        Verif.eval .ada (valEnv v) c2 = some (.bool (decide (t.first.v ≤ v ∧ v ≤ t.last.v))) := by
      intro v h0 h1
      have hv := henv v
      have g1 : Verif.eval .ada (valEnv v) c1 = some (.bool (decide (t.first.v ≤ v))) := by
        simp only [c1]
        split
        · simp [Verif.eval, Num.expr, Val.negIf, hv, RelOp.eval]
        · rename_i hne
          have : t.first.v = (Num.n 0).v := (num_eq _ _).mp (by simpa using hne)
          simp only [Num.n] at this
          simp [Verif.eval, this, h0]
      simp only [c2]
      split
      · simp [Verif.eval, evalL, Num.expr, Val.negIf, hv, RelOp.eval, g1, allSome, Val.bool?, BoolOp.isAnd]
      · rename_i hne
        have : t.last.v = n.v := (num_eq _ _).mp (by simpa using hne)
        rw [g1]
        have : v ≤ t.last.v := by omega
        simp [this]
    obtain ⟨c', hc'⟩ := C08_C09_simplified_returns_partial (D := .ada) c2 good.1 good.2.1 good.2.2 _ _ (ev 0 (by omega) pos)
    have hs' := (soundOK (eqSound .ada) (4 * weight c2)).simp false c2 good.1 good.2.1
    rw [Expr.simplified] at hc'
    rw [hc'] at hs'
    obtain ⟨ho, hw, hk⟩ := hs'
    have hq : ¬ c'.HQ := fun hq => good.2.2 (hk.1 hq)
    obtain ⟨c'', h1, h2⟩ := fin c' ho.good hw hq fun v h0 h1 => hk.2 _ _ (ev v h0 h1)
    refine ⟨[c'], c'', s, ?_, h1, rfl, h2⟩
    rw [Expr.simplified]
    simp only [c2, c1] at hc'
    rw [hc']

/-- C32 for integers: `Valid` accepts exactly the values of the type. `To_Actual` of a value that is accepted and `To_Base`
raise no exception and are the identity on numbers. -/
theorem C32_integer (t : IntType) (h : t.Accepted) :
    ∃ (f l s : Num) (fs : Functions), t.first = .ok f ∧ t.last = .ok l ∧ t.size = .ok s ∧ integerFunctions t = .ok fs ∧
      (∀ v, Base s.v (.num v) → fs.valid.eval (.num v) = some (.bool (decide (f.v ≤ v ∧ v ≤ l.v)))) ∧
      (∀ v, Base s.v (.num v) → fs.valid.eval (.num v) = some (.bool true) →
        fs.toActual.eval (.num v) = some (.num v) ∧ f.v ≤ v ∧ v ≤ l.v) ∧
      ∀ v, f.v ≤ v → v ≤ l.v → fs.toBase.eval (.num v) = some (.num v) ∧ Base s.v (.num v) := by
  obtain ⟨f, l, s, hf, hl, hs, hfl, hs0, hs64, hr, hm⟩ := C05_accepted t h
  cases t with
  | modular t =>
    refine ⟨f, l, s, ⟨.condition .tru, .leaf .param, .leaf .param, none, none⟩, hf, hl, hs, rfl, ?_, ?_, ?_⟩
    · intro v hv
      have : decide (f.v ≤ v ∧ v ≤ l.v) = true := by
        simp only [Base] at hv
        simp only [decide_eq_true_eq]
        omega
      rw [this]
      rfl
    · intro v hv _
      simp only [Base] at hv
      exact ⟨rfl, by omega, by omega⟩
    · intro v h1 h2
      exact ⟨rfl, hr v h1 h2⟩
  | range t =>
    obtain ⟨cs, c, s', hcs, hc, hs', hev⟩ := range_condition t h
    simp only [IntType.size] at hs
    rw [hs] at hs'
    cases hs'
    simp only [IntType.first, Except.ok.injEq] at hf
    simp only [IntType.last, Except.ok.injEq] at hl
    subst hf; subst hl
    refine ⟨t.first, t.last, s, ⟨.condition c, .toMod (2 ^ s.v.toNat), .toRange t.first.v t.last.v, none, none⟩, rfl, rfl, hs, ?_, ?_, ?_, ?_⟩
    · simp only [integerFunctions, hcs, hc, hs, bind, Except.bind, pure, Except.pure]
    · intro v hv
      simp only [Body.eval, hev v hv.1 hv.2]
    · intro v hv hval
      simp only [Body.eval, hev v hv.1 hv.2, Option.some.injEq, AVal.bool.injEq, decide_eq_true_eq] at hval
      exact ⟨by simp only [Body.eval, hval, and_self, if_true], hval⟩
    · intro v h1 h2
      have := hr v h1 h2
      exact ⟨by simp only [Body.eval, this, and_self, if_true], this⟩

/-- The hypothesis of `C32_integer` can be met. -/
example : exRange.Accepted := ⟨⟨[['P'], ['R']]⟩, .n 5, .n 1200, .n 12, by
  rw [C05_range_iff]
  exact ⟨rfl, ⟨5, .b0⟩, ⟨1200, .b0⟩, ⟨12, .b0⟩, rfl, rfl, rfl, by decide, by decide, by decide, by decide, by decide,
    by decide, rfl⟩⟩

end Verif.Generator
