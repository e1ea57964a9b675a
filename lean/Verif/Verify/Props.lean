import Verif.Verify.PathFacts

/-! # Properties C18, C19, C20, C47: what the verification of a message guarantees

The theorems are relative to a solver that decides: its answers are right (`Solver`), and it does not answer `unknown`
(`Solver.Decides`). Missing in all of them: expressions outside `Plain` (see the counterexamples in
`Verif/Verify/Counterexamples.lean`), and names that differ in case only, which the solver distinguishes. -/

namespace Verif.Verify
open Verif Verif.Graph Verif.Types

/-! ## C47 -/

/-- For every message that follows a path, all facts about the path are true. -/
theorem C47_path_facts (D : Division) (m : Msg) (ρ : Env) (F L : Int) (p : List Link) (hl : Layout D m ρ F L p)
    (ht : ∀ l ∈ p, l.target = FINAL ∨ l.target ∈ m.fields) :
    ∃ fs, m.pathFacts p = .ok fs ∧ ∀ c ∈ fs, eval D ρ c = some (.bool true) := by
  have hok : ∀ l ∈ p, ∃ fs, m.linkExpression l = .ok fs := by
    intro l hm
    obtain ⟨a, n, hat, _⟩ := hl.field l hm
    obtain ⟨e, he⟩ := targetSize_ok hat.spans (ht l hm)
    have h2 : m.targetLast l = .ok (.bin .sub (.add [targetFirst l, e]) (.n 1)) := by
      show (m.targetSize l).bind _ = _
      rw [he]; rfl
    cases hle : m.linkExpression l with
    | ok fs => exact ⟨fs, rfl⟩
    | error err =>
      have h3 : (m.targetSize l).bind _ = _ := hle
      rw [he] at h3
      have h4 : (m.targetLast l).bind _ = _ := h3
      rw [h2] at h4
      cases h4
  have : ∃ fs, m.pathFacts p = .ok fs := by
    unfold Msg.pathFacts
    clear hl ht
    induction p with
    | nil => exact ⟨[], rfl⟩
    | cons l p ih =>
      obtain ⟨x, hx⟩ := hok l (by simp)
      obtain ⟨y, hy⟩ := ih (fun l' hl' => hok l' (by simp [hl']))
      refine ⟨x ++ y, ?_⟩
      show (m.linkExpression l).bind _ = _
      rw [hx]
      show (concatM _ p).bind _ = _
      rw [hy]
      rfl
  obtain ⟨fs, hfs⟩ := this
  refine ⟨fs, hfs, fun c hc => ?_⟩
  obtain ⟨l, hm, gs, hgs, hcg⟩ := (concatM_mem hfs c).mp hc
  exact link_facts hl hm hgs c hcg

/-- For every assignment that the types allow, all facts about types that the solver can be given are true for the
solver, for the checks of expressions without aggregates. -/
theorem C47_type_facts_partial (D : Division) (m : Msg) (ρ : Env) (ha : Allowed m ρ) (hok : ∀ e ∈ m.types, e.2.Ok)
    (e : Expr) (hp : Plain D ρ e) (cs : List Expr) (h : m.typeConstraints e = .ok cs)
    (ht : ∀ c ∈ cs, ∃ b, zeval (model ρ) c = .ok (.bool b)) : Holds (model ρ) cs :=
  type_facts ha hok (plain_findall e hp) h ht

/-! ## C18 -/

/-- At most one of the conditions of the links from a field is true. -/
theorem C18_deterministic_partial (s : Solver) (hd : s.Decides) (m : Msg) (ha : m.Accepted s) (hr : m.Regular)
    (hok : ∀ e ∈ m.types, e.2.Ok) (D : Division) (ρ : Env) (hal : Allowed m ρ) (l₁ l₂ : Link) (h₁ : l₁ ∈ m.links)
    (h₂ : l₂ ∈ m.links) (hs : l₁.source = l₂.source) (hf : l₁.source ≠ FINAL) (p₁ : Plain D ρ l₁.condition)
    (p₂ : Plain D ρ l₂.condition) (t₁ : eval D ρ l₁.condition = some (.bool true))
    (t₂ : eval D ρ l₂.condition = some (.bool true)) : l₁ = l₂ := by
  obtain ⟨k, hv⟩ := (accepted_verified ha).2 (List.ne_nil_of_mem h₁)
  have key : ∀ a b : Link, (a, b) ∈ pairs (outgoing m.links l₁.source) → Plain D ρ a.condition → Plain D ρ b.condition →
      eval D ρ a.condition = some (.bool true) → eval D ρ b.condition = some (.bool true) → False := by
    intro a b hab pa pb ta tb
    have h1 := anyM_false hv.conflicts _ (source_mem ha hr h₁ hf)
    have h2 := anyM_false h1 _ hab
    obtain ⟨cs, hcs, h2⟩ := bind_ok (h2 : (m.typeConstraints _).bind _ = _)
    obtain ⟨r, hr', h2⟩ := bind_ok (h2 : (s.check _).bind _ = _)
    have : r = .sat := by
      refine answers_sat hd hr' (M := model ρ) fun ht => ?_
      have hct : ∀ c ∈ cs, ∃ b, zeval (model ρ) c = .ok (.bool b) := fun c hc => ht c (List.mem_cons_of_mem _ hc)
      have hcond : Plain D ρ (.bool .and [a.condition, b.condition]) := by simp [Plain, PlainL, pa, pb]
      intro c hc
      rcases List.mem_cons.mp hc with rfl | hc
      · refine holds_of_eval hcond ?_ (ht _ (List.mem_cons_self ..))
        simp [eval, evalL, ta, tb, allSome, Val.bool?, BoolOp.isAnd]
      · exact type_facts hal hok (plain_findall _ hcond) hcs hct c hc
    subst this
    cases h2
  refine Classical.byContradiction fun hne => ?_
  have o1 : l₁ ∈ outgoing m.links l₁.source := List.mem_filter.mpr ⟨h₁, by simp⟩
  have o2 : l₂ ∈ outgoing m.links l₁.source := List.mem_filter.mpr ⟨h₂, by simp [hs]⟩
  rcases pairs_mem o1 o2 hne with h | h
  · exact key _ _ h p₁ p₂ t₁ t₂
  · exact key _ _ h p₂ p₁ t₂ t₁

/-! ## C19 -/

theorem at_unique {D : Division} {m : Msg} {ρ : Env} {F : Int} {l : Link} {a n a' n' : Int} (h : At D m ρ F l a n)
    (h' : At D m ρ F l a' n') : a = a' ∧ n = n' := by
  have h1 := h.first
  rw [h'.first] at h1
  have h2 := h.size
  rw [h'.size] at h2
  cases h1; cases h2
  exact ⟨rfl, rfl⟩

/-- No field has a negative size; opaque fields start at a byte boundary and consist of whole bytes. The layout follows
a path to a field, and one of the conditions of the links from the field is true. -/
theorem C19_positions_partial (s : Solver) (hd : s.Decides) (m : Msg) (ha : m.Accepted s) (hr : m.Regular)
    (hok : ∀ e ∈ m.types, e.2.Ok) (D : Division) (ρ : Env) (hal : Allowed m ρ) (F L : Int) (q : List Link) (l : Link)
    (hpath : Path m.links INITIAL (q ++ [l]) l.target) (hl : Layout D m ρ F L (q ++ [l]))
    (hp : ∀ x ∈ q ++ [l], PlainLink D ρ x)
    (hnext : l.target = FINAL ∨ ∃ o ∈ m.links, o.source = l.target ∧ Plain D ρ o.condition ∧
      eval D ρ o.condition = some (.bool true)) (a n : Int) (hat : At D m ρ F l a n) :
    0 ≤ n ∧ (m.type? l.target = some .opaque → a % 8 = 1 ∧ n % 8 = 0) := by
  have hmem : l ∈ m.links := by
    generalize hq : q ++ [l] = p at hpath
    generalize l.target = t at hpath
    cases hpath with
    | nil => simp at hq
    | snoc _ hm =>
      have := List.append_inj_right' hq rfl
      cases this
      exact hm
  obtain ⟨k, hv⟩ := (accepted_verified ha).2 (List.ne_nil_of_mem hmem)
  have h1 := existsM_false hv.positions _ (target_mem ha hr hmem)
  obtain ⟨ps, hps, h1⟩ := bind_ok (h1 : (paths _ _ _).bind _ = _)
  have h2 := existsM_false h1 (q ++ [l]) ((mem_paths ha hr hps _).mpr ⟨by simp, hpath⟩)
  unfold Msg.position1 at h2
  simp only [List.getLast?_append, List.getLast?_singleton, Option.some_or] at h2
  obtain ⟨size, hsize, h2⟩ := bind_ok (h2 : (m.targetSize l).bind _ = _)
  obtain ⟨pf, hpf, h2⟩ := bind_ok (h2 : (m.pathFacts _).bind _ = _)
  obtain ⟨tn, htn, h2⟩ := bind_ok (h2 : (m.typeConstraints _).bind _ = _)
  obtain ⟨tst, htst, h2⟩ := bind_ok (h2 : (m.typeConstraints _).bind _ = _)
  have es : eval D ρ size = some (.int n) := targetSize_eval hat.spans hsize
  have ps : Plain D ρ size := plain_targetSize (hp l (by simp)) hsize (by rintro rfl; cases es)
  have ef : eval D ρ (targetFirst l) = some (.int a) := eval_targetFirst hl.first hat.starts
  have pfst : Plain D ρ (targetFirst l) := plain_targetFirst hl.first hat.starts (hp l (by simp))
  have pneg : Plain D ρ (.rel .lt size (.n 0)) := by simp [Plain, ps, Expr.n]
  have pstart : Plain D ρ (.rel .ge (targetFirst l) (at' .first MESSAGE)) := by
    simp [Plain, pfst, at', hl.first, Atomic]
  have hfacts : (∀ c ∈ pf ++ outgoingFact m.links l.target ++ tn ++ tst, ∃ b, zeval (model ρ) c = .ok (.bool b)) →
      Holds (model ρ) (pf ++ outgoingFact m.links l.target ++ tn ++ tst) := by
    intro ht c hc
    have htc := ht c hc
    simp only [List.mem_append] at hc
    rcases hc with ((hc | hc) | hc) | hc
    · exact path_holds hl hp hpf (fun c hc => ht c (by simp [hc])) c hc
    · simp only [outgoingFact] at hc
      split at hc
      · rename_i hcond
        obtain rfl := List.mem_singleton.mp hc
        obtain ⟨b, hb⟩ := htc
        have htt := terms_translated hb
        rcases hnext with hfin | ⟨o, ho, hos, hop, hoe⟩
        · exact absurd hfin hcond.1
        · have hmo : o.condition ∈ (outgoing m.links l.target).map Link.condition :=
            List.mem_map.mpr ⟨o, List.mem_filter.mpr ⟨ho, by simp [hos]⟩, rfl⟩
          exact (zeval_or htt).mpr ⟨_, hmo, holds_of_eval hop hoe (htt _ hmo)⟩
      · cases hc
    · exact type_facts hal hok (plain_findall _ pneg) htn (fun c hc => ht c (by simp [hc])) c hc
    · exact type_facts hal hok (plain_findall _ pstart) htst (fun c hc => ht c (by simp [hc])) c hc
  obtain ⟨r1, hr1, h2⟩ := bind_ok (h2 : (s.check _).bind _ = _)
  have : r1 = .sat := by
    refine answers_sat hd hr1 (M := model ρ) fun ht => ?_
    intro c hc
    rcases List.mem_cons.mp hc with rfl | hc
    · rfl
    · exact hfacts (fun c hc => ht c (List.mem_cons_of_mem _ hc)) c hc
  subst this
  rw [if_neg (by decide)] at h2
  obtain ⟨r2, hr2, h2⟩ := bind_ok (h2 : (s.check _).bind _ = _)
  by_cases hr2u : (r2 != .unsat) = true
  · rw [if_pos hr2u] at h2; cases h2
  rw [if_neg hr2u] at h2
  have hr2u : r2 = .unsat := by cases r2 <;> first | rfl | exact absurd rfl hr2u
  refine ⟨?_, ?_⟩
  · refine Classical.byContradiction fun hn => ?_
    refine not_unsat hr2 (M := model ρ) (fun ht => ?_) hr2u
    intro c hc
    rcases List.mem_cons.mp hc with rfl | hc
    · refine holds_of_eval pneg ?_ (ht _ (List.mem_cons_self ..))
      have : n < 0 := by omega
      simp [eval, es, Expr.n, RelOp.eval, this]
    · exact hfacts (fun c hc => ht c (List.mem_cons_of_mem _ hc)) c hc
  · intro hop
    obtain ⟨r3, hr3, h2⟩ := bind_ok (h2 : (s.check _).bind _ = _)
    obtain ⟨b3, hb3, h2⟩ := bind_ok (h2 : (satOrCore r3).bind _ = _)
    cases b3 with
    | false => cases h2
    | true =>
      rw [if_neg (by decide)] at h2
      rw [hop] at h2
      obtain ⟨ta, hta, h2⟩ := bind_ok (h2 : (m.typeConstraints _).bind _ = _)
      obtain ⟨r4, hr4, h2⟩ := bind_ok (h2 : (s.check _).bind _ = _)
      by_cases hr4u : (r4 != .unsat) = true
      · rw [if_pos hr4u] at h2; cases h2
      rw [if_neg hr4u] at h2
      have hr4u : r4 = .unsat := by cases r4 <;> first | rfl | exact absurd rfl hr4u
      obtain ⟨tm, htm, h2⟩ := bind_ok (h2 : (m.typeConstraints _).bind _ = _)
      obtain ⟨r5, hr5, h2⟩ := bind_ok (h2 : (s.check _).bind _ = _)
      have hr5u : r5 = .unsat := by cases r5 <;> first | rfl | cases h2
      have modplain : ∀ e : Expr, Plain D ρ e → ∀ v : Int,
          Plain D ρ (.not (.rel .eq (.bin .mod e (.n 8)) (.n v))) := by
        intro e he v
        simp [Plain, he, Expr.n, eval]
      have modeval : ∀ (e : Expr) (x v : Int), eval D ρ e = some (.int x) → x % 8 ≠ v →
          eval D ρ (.not (.rel .eq (.bin .mod e (.n 8)) (.n v))) = some (.bool true) := by
        intro e x v he hx
        have : Int.fmod x 8 = x % 8 := Int.fmod_eq_emod_of_nonneg x (by omega)
        simp [eval, he, Expr.n, ArithOp.eval, RelOp.eval, this, hx]
      refine ⟨?_, ?_⟩
      · refine Classical.byContradiction fun hn => ?_
        refine not_unsat hr4 (M := model ρ) (fun ht => ?_) hr4u
        intro c hc
        rcases List.mem_cons.mp hc with rfl | hc
        · exact holds_of_eval (modplain _ pfst 1) (modeval _ a 1 ef hn) (ht _ (List.mem_cons_self ..))
        · rcases List.mem_append.mp hc with hc | hc
          · exact hfacts (fun c hc => ht c (List.mem_cons_of_mem _ (List.mem_append_left _ hc))) c hc
          · exact type_facts hal hok (plain_findall _ (modplain _ pfst 1)) hta
              (fun c hc => ht c (List.mem_cons_of_mem _ (List.mem_append_right _ hc))) c hc
      · refine Classical.byContradiction fun hn => ?_
        refine not_unsat hr5 (M := model ρ) (fun ht => ?_) hr5u
        intro c hc
        rcases List.mem_cons.mp hc with rfl | hc
        · exact holds_of_eval (modplain _ ps 0) (modeval _ n 0 es hn) (ht _ (List.mem_cons_self ..))
        · rcases List.mem_append.mp hc with hc | hc
          · exact hfacts (fun c hc => ht c (List.mem_cons_of_mem _ (List.mem_append_left _ hc))) c hc
          · exact type_facts hal hok (plain_findall _ (modplain _ ps 0)) htm
              (fun c hc => ht c (List.mem_cons_of_mem _ (List.mem_append_right _ hc))) c hc

/-- Every bit of the message belongs to a field: the layout follows a path to the end, and the message ends with its
last field. The bit is the value of the name `f` in the assignment, which is free unless the message uses this name. -/
theorem C19_coverage_partial (s : Solver) (hd : s.Decides) (m : Msg) (ha : m.Accepted s) (hr : m.Regular)
    (D : Division) (ρ : Env) (F L : Int) (q : List Link) (l o : Link)
    (hpath : Path m.links INITIAL (q ++ [l] ++ [o]) FINAL) (hl : Layout D m ρ F L (q ++ [l]))
    (hp : ∀ x ∈ q ++ [l], PlainLink D ρ x) (a n : Int) (hat : At D m ρ F l a n) (hend : a + n - 1 = L)
    (b : Int) (hb : ρ.var [['f']] = .int b) (h1 : F ≤ b) (h2 : b ≤ L) :
    ∃ x ∈ q ++ [l], ∃ a n, At D m ρ F x a n ∧ a ≤ b ∧ b ≤ a + n - 1 := by
  have hmem : o ∈ m.links := by
    generalize hq : q ++ [l] ++ [o] = p at hpath
    generalize FINAL = t at hpath
    cases hpath with
    | nil => simp at hq
    | snoc _ hm =>
      have := List.append_inj_right' hq rfl
      cases this
      exact hm
  obtain ⟨k, hv⟩ := (accepted_verified ha).2 (List.ne_nil_of_mem hmem)
  obtain ⟨ps, hps, h3⟩ := bind_ok (hv.coverage : (paths _ _ _).bind _ = _)
  have h3 := existsM_false h3 _ ((mem_paths ha hr hps _).mpr ⟨by simp, hpath⟩)
  rw [List.dropLast_concat] at h3
  unfold Msg.coverage1 at h3
  simp only [List.getLast?_append, List.getLast?_singleton, Option.some_or] at h3
  obtain ⟨holes, hholes, h3⟩ := bind_ok (h3 : (concatM _ _).bind _ = _)
  obtain ⟨facts, hfacts, h3⟩ := bind_ok (h3 : (m.pathFacts _).bind _ = _)
  obtain ⟨last, hlast, h3⟩ := bind_ok (h3 : (m.targetLast _).bind _ = _)
  obtain ⟨r, hres, h3⟩ := bind_ok (h3 : (s.check _).bind _ = _)
  refine Classical.byContradiction fun hno => ?_
  have hb' : eval D ρ bitVar = some (.int b) := by
    simp only [bitVar, eval, Val.negIf, Bool.false_eq_true, if_false]
    rw [show (⟨[['f']]⟩ : ID).key = [['f']] from rfl, hb]
  have hpb : Plain D ρ bitVar := by
    simp only [bitVar, Plain]
    rw [show (⟨[['f']]⟩ : ID).key = [['f']] from rfl, hb]
    trivial
  have eF : eval D ρ (at' .first MESSAGE) = some (.int F) := by rw [eval_at, hl.first]
  have eL : eval D ρ (at' .last MESSAGE) = some (.int L) := by rw [eval_at, hl.last]
  have pF : Plain D ρ (at' .first MESSAGE) := by simp [at', Plain, hl.first, Atomic]
  have pL : Plain D ρ (at' .last MESSAGE) := by simp [at', Plain, hl.last, Atomic]
  have hsat : r = .sat := by
    refine answers_sat hd hres (M := model ρ) fun ht => ?_
    intro c hc
    have htc := ht c hc
    simp only [List.mem_cons, List.mem_append, List.not_mem_nil, or_false] at hc
    rcases hc with rfl | (((rfl | rfl) | hc) | rfl) | hc
    · rfl
    · exact holds_of_eval (by simp [Plain, hpb, pF]) (eval_ge_int hb' eF h1) htc
    · exact holds_of_eval (D := D) (by simp [Plain, hpb, pL]) (by simp [eval, hb', eL, RelOp.eval, h2]) htc
    · obtain ⟨x, hx, gs, hgs, hcg⟩ := (concatM_mem hholes c).mp hc
      obtain ⟨xl, hxl, hgs⟩ := bind_ok (hgs : (m.targetLast x).bind _ = _)
      cases hgs
      obtain rfl := List.mem_singleton.mp hcg
      obtain ⟨a', n', hat', _⟩ := hl.field x hx
      have e1 := eval_targetFirst hl.first hat'.starts
      have e2 := targetLast_eval hl.first hat'.starts hat'.spans hxl
      refine holds_of_eval (D := D) ?_ ?_ htc
      · simp [Plain, PlainL, hpb, plain_targetFirst hl.first hat'.starts (hp x hx),
          plain_targetLast hl.first hat'.starts hat'.spans (hp x hx) hxl]
      · have : ¬ (a' ≤ b ∧ b ≤ a' + n' - 1) := fun hh => hno ⟨x, hx, a', n', hat', hh⟩
        simp only [eval, evalL, hb', e1, e2, RelOp.eval, Option.map_some, Option.bind_some, allSome, Val.bool?,
          BoolOp.isAnd, if_true, List.all_cons, List.all_nil, id, Bool.and_true, Option.some.injEq, Val.bool.injEq]
        simp only [Bool.not_eq_true', Bool.and_eq_false_iff, decide_eq_false_iff_not]
        omega
    · exact holds_of_eval (by
        simp [Plain, plain_targetLast hl.first hat.starts hat.spans (hp l (by simp)) hlast, pL])
        (eval_eq_int (targetLast_eval hl.first hat.starts hat.spans hlast) eL hend) htc
    · refine path_holds hl hp hfacts (fun c hc => ht c ?_) c hc
      simp [hc]
  subst hsat
  cases h3

theorem path_snoc {s : List Link} {a b : Field} {q : List Link} {l : Link} (h : Path s a (q ++ [l]) b) :
    l.target = b ∧ l ∈ s ∧ Path s a q l.source := by
  generalize hq : q ++ [l] = p at h
  cases h with
  | nil => simp at hq
  | snoc hp hm =>
    have h1 := List.append_inj_right' hq rfl
    have h2 := List.append_inj_left' hq rfl
    cases h1
    cases h2
    exact ⟨rfl, hm, hp⟩

theorem path_nil {s : List Link} {a b : Field} (h : Path s a [] b) : b = a := by
  generalize hq : [] = p at h
  cases h with
  | nil => rfl
  | snoc => simp at hq

theorem snoc_cases {α : Type} (p : List α) : p = [] ∨ ∃ q x, p = q ++ [x] := by
  rcases p.eq_nil_or_concat with h | ⟨q, x, h⟩
  · exact .inl h
  · exact .inr ⟨q, x, by simpa using h⟩

/-- The fields of a path leave no bit out if a field that does not follow its predecessor starts where an earlier field
of the path starts, and no field has a negative size. -/
theorem no_holes {D : Division} {m : Msg} {ρ : Env} {F : Int} {q : List Link} {f : Field}
    (hpath : Path m.links INITIAL q f) (hat : ∀ l ∈ q, ∃ a n, At D m ρ F l a n ∧ 0 ≤ n)
    (hov : ∀ q₁ l q₂, q = q₁ ++ l :: q₂ → l.source ≠ INITIAL → l.first ≠ .undefined →
      ∃ x ∈ q₁, eval D ρ l.first = some (ρ.attr .first x.target.key))
    (b : Int) (h1 : F ≤ b) : (∃ x ∈ q, ∃ a n, At D m ρ F x a n ∧ b ≤ a + n - 1) →
      ∃ x ∈ q, ∃ a n, At D m ρ F x a n ∧ a ≤ b ∧ b ≤ a + n - 1 := by
  induction hpath with
  | nil => rintro ⟨x, hx, _⟩; cases hx
  | @snoc p l hp hm ih =>
    have ih' := ih (fun x hx => hat x (List.mem_append_left _ hx)) (fun q₁ x q₂ hq => hov q₁ x (q₂ ++ [l]) (by simp [hq]))
    have lift : (∃ x ∈ p, ∃ a n, At D m ρ F x a n ∧ b ≤ a + n - 1) →
        ∃ x ∈ p ++ [l], ∃ a n, At D m ρ F x a n ∧ a ≤ b ∧ b ≤ a + n - 1 := by
      intro h
      obtain ⟨x, hx, r⟩ := ih' h
      exact ⟨x, List.mem_append_left _ hx, r⟩
    rintro ⟨x, hx, a, n, hax, hb⟩
    rcases List.mem_append.mp hx with hx | hx
    · exact lift ⟨x, hx, a, n, hax, hb⟩
    · obtain rfl := List.mem_singleton.mp hx
      by_cases hab : a ≤ b
      · exact ⟨x, by simp, a, n, hax, hab, hb⟩
      · rcases hax.starts with ⟨_, rfl⟩ | ⟨hs, _, c, hc, rfl⟩ | ⟨hs, hne, he⟩
        · omega
        · apply lift
          rcases snoc_cases p with rfl | ⟨p, y, rfl⟩
          · exact absurd (path_nil hp) hs
          · obtain ⟨hy, _, _⟩ := path_snoc hp
            obtain ⟨a', n', hay, _⟩ := hat y (by simp)
            have := hay.last
            rw [hy, hc] at this
            cases this
            exact ⟨y, by simp, a', n', hay, by omega⟩
        · apply lift
          obtain ⟨y, hy, hye⟩ := hov p x [] rfl hs hne
          obtain ⟨a', n', hay, hn'⟩ := hat y (by simp [hy])
          rw [he, hay.first] at hye
          cases hye
          exact ⟨y, hy, _, n', hay, by omega⟩

/-- Every prefix of a path is a path. -/
theorem path_prefix {s : List Link} {a b : Field} (q₂ : List Link) {q₁ : List Link} {l : Link}
    (h : Path s a (q₁ ++ l :: q₂) b) : Path s a (q₁ ++ [l]) l.target := by
  generalize hp : q₁ ++ l :: q₂ = p at h
  induction h generalizing q₂ with
  | nil => simp at hp
  | @snoc p y hpy hm ih =>
    rcases snoc_cases q₂ with rfl | ⟨q₂, z, rfl⟩
    · have h1 := List.append_inj_left' hp rfl
      have h2 := List.append_inj_right' hp rfl
      cases h1
      cases h2
      exact hpy.snoc hm
    · rw [show q₁ ++ l :: (q₂ ++ [z]) = (q₁ ++ l :: q₂) ++ [z] by simp] at hp
      exact ih q₂ (List.append_inj_left' hp rfl)

theorem Layout.prefix {D : Division} {m : Msg} {ρ : Env} {F L : Int} {p q : List Link} (h : Layout D m ρ F L p)
    (hs : ∀ x ∈ q, x ∈ p) : Layout D m ρ F L q :=
  { first := h.first, last := h.last, size := h.size, nonneg := h.nonneg, nonempty := h.nonempty
    field := fun l hl => h.field l (hs l hl), condition := fun l hl => h.condition l (hs l hl) }

/-- The sizes of all fields of a message are not negative. -/
theorem C19_sizes_partial (s : Solver) (hd : s.Decides) (m : Msg) (ha : m.Accepted s) (hr : m.Regular)
    (hok : ∀ e ∈ m.types, e.2.Ok) (D : Division) (ρ : Env) (hal : Allowed m ρ) (F L : Int) (q : List Link) (o : Link)
    (hpath : Path m.links INITIAL (q ++ [o]) FINAL) (hl : Layout D m ρ F L q) (hp : ∀ x ∈ q ++ [o], PlainLink D ρ x)
    (ho : eval D ρ o.condition = some (.bool true)) (l : Link) (hmem : l ∈ q) (a n : Int) (hat : At D m ρ F l a n) :
    0 ≤ n := by
  obtain ⟨q₁, q₂, rfl⟩ := List.append_of_mem hmem
  have hpre : Path m.links INITIAL (q₁ ++ [l]) l.target := path_prefix (q₂ ++ [o]) (by simpa using hpath)
  have hsub : ∀ x ∈ q₁ ++ [l], x ∈ q₁ ++ l :: q₂ := by
    intro x hx
    simp only [List.mem_append, List.mem_cons, List.not_mem_nil, or_false] at hx ⊢
    rcases hx with h | h
    · exact .inl h
    · exact .inr (.inl h)
  refine (C19_positions_partial s hd m ha hr hok D ρ hal F L q₁ l hpre (hl.prefix hsub)
    (fun x hx => hp x (List.mem_append_left _ (hsub x hx))) (.inr ?_) a n hat).1
  cases q₂ with
  | nil =>
    obtain ⟨_, hm, hq⟩ := path_snoc hpath
    exact ⟨o, hm, (path_snoc hq).1.symm, (hp o (by simp)).1, ho⟩
  | cons y q₂ =>
    have h2 : Path m.links INITIAL ((q₁ ++ [l]) ++ [y]) y.target := path_prefix (q₂ ++ [o]) (by simpa using hpath)
    obtain ⟨_, hm, hq⟩ := path_snoc h2
    exact ⟨y, hm, (path_snoc hq).1.symm, (hp y (by simp)).1, hl.condition y (by simp)⟩

/-- Every bit from the first bit of the message to the last bit of its last field belongs to a field, where overlays
start with an earlier field of the path (this follows from the type check of expressions, which is not modelled). -/
theorem C19_no_holes_partial (s : Solver) (hd : s.Decides) (m : Msg) (ha : m.Accepted s) (hr : m.Regular)
    (hok : ∀ e ∈ m.types, e.2.Ok) (D : Division) (ρ : Env) (hal : Allowed m ρ) (F L : Int) (q : List Link) (o : Link)
    (hpath : Path m.links INITIAL (q ++ [o]) FINAL) (hl : Layout D m ρ F L q) (hp : ∀ x ∈ q ++ [o], PlainLink D ρ x)
    (ho : eval D ρ o.condition = some (.bool true))
    (hov : ∀ q₁ l q₂, q = q₁ ++ l :: q₂ → l.source ≠ INITIAL → l.first ≠ .undefined →
      ∃ x ∈ q₁, eval D ρ l.first = some (ρ.attr .first x.target.key))
    (l : Link) (hmem : l ∈ q) (a n : Int) (hat : At D m ρ F l a n) (b : Int) (h1 : F ≤ b) (h2 : b ≤ a + n - 1) :
    ∃ x ∈ q, ∃ a n, At D m ρ F x a n ∧ a ≤ b ∧ b ≤ a + n - 1 := by
  refine no_holes (path_snoc hpath).2.2 (fun x hx => ?_) hov b h1 ⟨l, hmem, a, n, hat, h2⟩
  obtain ⟨a', n', hax, _⟩ := hl.field x hx
  exact ⟨a', n', hax, C19_sizes_partial s hd m ha hr hok D ρ hal F L q o hpath hl hp ho x hx a' n' hax⟩

/-! ## C20 -/

theorem no_initial {s : Solver} {m : Msg} (h : m.Accepted s) (hr : m.Regular) : ∀ l ∈ m.links, l.target ≠ INITIAL := by
  obtain ⟨⟨ls, hacc⟩, _⟩ := accepted_verified h
  obtain ⟨R, hR, _⟩ := accepted_sorted (m := ⟨m.links, m.types.map (·.1), ls⟩) hr hacc
  exact hR.toOrder.no_initial

/-- The sum of the sizes of the fields of a message that do not overlay other fields is a multiple of 8, provided that
the sizes of all opaque fields and arrays are. -/
theorem C20_sizes_partial (s : Solver) (hd : s.Decides) (m : Msg) (ha : m.Accepted s) (hr : m.Regular)
    (hok : ∀ e ∈ m.types, e.2.Ok) (D : Division) (ρ : Env) (hal : Allowed m ρ) (F L : Int) (q : List Link) (o : Link)
    (hpath : Path m.links INITIAL (q ++ [o]) FINAL) (hl : Layout D m ρ F L q) (hp : ∀ x ∈ q, PlainLink D ρ x)
    (hbytes : ∀ e ∈ m.types, e.2.isUnconstrained = true → ∃ n, ρ.attr .size e.1.key = .int n ∧ n % 8 = 0)
    (size : Link → Int) (hsize : ∀ l ∈ q, ρ.attr .size l.target.key = .int (size l)) :
    intSum ((q.filter fun l => decide (l.target ≠ FINAL) && l.first.eq .undefined).map size) % 8 = 0 := by
  obtain ⟨_, hmem, _⟩ := path_snoc hpath
  obtain ⟨k, hv⟩ := (accepted_verified ha).2 (List.ne_nil_of_mem hmem)
  obtain ⟨ps, hps, h3⟩ := bind_ok (hv.messageSize : (paths _ _ _).bind _ = _)
  have h3 := existsM_false h3 _ ((mem_paths ha hr hps _).mpr ⟨by simp, hpath⟩)
  rw [List.dropLast_concat] at h3
  obtain ⟨tc, htc, h3⟩ := bind_ok (h3 : (m.typeConstraints _).bind _ = _)
  obtain ⟨facts, hfacts, h3⟩ := bind_ok (h3 : (m.pathFacts _).bind _ = _)
  obtain ⟨r, hres, h3⟩ := bind_ok (h3 : (s.check _).bind _ = _)
  refine Classical.byContradiction fun hno => ?_
  have hsum : ∀ xs : List Link, (∀ l ∈ xs, l ∈ q) →
      (evalL D ρ (xs.map fun l => at' .size l.target)).bind (allSome Val.int?) = some (xs.map size) ∧
      PlainL D ρ (xs.map fun l => at' .size l.target) := by
    intro xs hxs
    induction xs with
    | nil => exact ⟨rfl, trivial⟩
    | cons x xs ih =>
      obtain ⟨i1, i2⟩ := ih (fun l hl => hxs l (List.mem_cons_of_mem _ hl))
      have hx := hsize x (hxs x (List.mem_cons_self ..))
      refine ⟨?_, ?_⟩
      · simp only [List.map_cons, evalL, eval_at, hx]
        cases he : evalL D ρ (xs.map fun l => at' .size l.target) with
        | none => rw [he] at i1; cases i1
        | some vs =>
          rw [he] at i1
          simp only [Option.bind_some] at i1 ⊢
          simp [allSome, Val.int?, i1]
      · exact ⟨by simp [at', Plain, hx, Atomic], i2⟩
  have hsat : r = .sat := by
    refine answers_sat hd hres (M := model ρ) fun ht => ?_
    intro c hc
    have htc' := ht c hc
    simp only [List.mem_cons, List.mem_append] at hc
    rcases hc with rfl | (hc | hc) | hc
    · obtain ⟨e1, e2⟩ := hsum (q.filter fun l => decide (l.target ≠ FINAL) && l.first.eq .undefined)
        (fun l hl => (List.mem_filter.mp hl).1)
      refine holds_of_eval (D := D) ?_ ?_ htc'
      · simp only [Plain, e2, Expr.n, eval, and_true, true_and]
        simp
      · simp only [eval, e1, Expr.n, ArithOp.eval, RelOp.eval]
        have : Int.fmod (intSum ((q.filter fun l => decide (l.target ≠ FINAL) && l.first.eq .undefined).map size)) 8 =
          intSum ((q.filter fun l => decide (l.target ≠ FINAL) && l.first.eq .undefined).map size) % 8 :=
          Int.fmod_eq_emod_of_nonneg _ (by omega)
        rw [if_neg (by decide)]
        simp only [this, Option.map_some, RelOp.eval, Option.some.injEq, Val.bool.injEq, decide_eq_true_eq]
        exact hno
    · exact path_holds hl hp hfacts (fun c hc => ht c (by simp [hc])) c hc
    · exact type_facts hal hok (plain_findall (D := D) (ρ := ρ) _ (by simp [Plain])) htc (fun c hc => ht c (by simp [hc])) c hc
    · obtain ⟨e, he, rfl⟩ := List.mem_map.mp hc
      obtain ⟨he, hu⟩ := List.mem_filter.mp he
      obtain ⟨n, hn, h8⟩ := hbytes e he hu
      refine holds_of_eval (D := D) ?_ ?_ htc'
      · simp [Plain, at', hn, Atomic, Expr.n, eval]
      · have : Int.fmod n 8 = n % 8 := Int.fmod_eq_emod_of_nonneg _ (by omega)
        simp [eval, at', hn, Val.negIf, Expr.n, ArithOp.eval, RelOp.eval, this, h8]
  subst hsat
  cases h3

/-- A message whose fields follow one another ends at a byte boundary, provided that the sizes of all opaque fields and
arrays are multiples of 8. -/
theorem C20_message_size_partial (s : Solver) (hd : s.Decides) (m : Msg) (ha : m.Accepted s) (hr : m.Regular)
    (hok : ∀ e ∈ m.types, e.2.Ok) (D : Division) (ρ : Env) (hal : Allowed m ρ) (F L : Int) (q : List Link) (l o : Link)
    (hpath : Path m.links INITIAL (q ++ [l] ++ [o]) FINAL) (hl : Layout D m ρ F L (q ++ [l]))
    (hp : ∀ x ∈ q ++ [l], PlainLink D ρ x)
    (hbytes : ∀ e ∈ m.types, e.2.isUnconstrained = true → ∃ n, ρ.attr .size e.1.key = .int n ∧ n % 8 = 0)
    (hov : ∀ x ∈ q ++ [l], x.first = .undefined) (hfin : ∀ x ∈ q ++ [l], x.target ≠ FINAL) (a n : Int)
    (hat : At D m ρ F l a n) : (a + n - F) % 8 = 0 := by
  have hsz : ∀ x ∈ q ++ [l], ρ.attr .size x.target.key = .int (match ρ.attr .size x.target.key with
      | .int i => i
      | _ => 0) := by
    intro x hx
    obtain ⟨a', n', hax, _⟩ := hl.field x hx
    rw [hax.size]
  have := C20_sizes_partial s hd m ha hr hok D ρ hal F L _ o hpath hl hp hbytes _ hsz
  rw [List.filter_eq_self.mpr (fun x hx => by rw [hov x hx, (undef_eq _).mpr rfl]; simp [hfin x hx])] at this
  have key : ∀ (p : List Link) (f : Field), Path m.links INITIAL p f → (∀ x ∈ p, x ∈ q ++ [l]) →
      (p = [] → f = INITIAL) ∧ ∀ p' x, p = p' ++ [x] → ∀ a n, At D m ρ F x a n →
      a + n - F = intSum (p.map fun x => match ρ.attr .size x.target.key with
        | .int i => i
        | _ => 0) := by
    intro p f hpf
    induction hpf with
    | nil => intro _; exact ⟨fun _ => rfl, fun p' x h => by simp at h⟩
    | @snoc p y hpy hm ih =>
      intro hsub
      refine ⟨by simp, fun p' x hpx a n hax => ?_⟩
      obtain rfl : y = x := by have := List.append_inj_right' hpx rfl; simpa using this
      obtain ⟨ih0, ih⟩ := ih (fun z hz => hsub z (by simp [hz]))
      have sumApp : ∀ xs ys : List Int, intSum (xs ++ ys) = intSum xs + intSum ys := by
        intro xs ys
        induction xs with
        | nil => simp [intSum]
        | cons z zs i => simp only [List.cons_append, intSum, i]; omega
      rw [List.map_append, sumApp]
      simp only [List.map_cons, List.map_nil, intSum, hax.size]
      rcases snoc_cases p with rfl | ⟨p, z, rfl⟩
      · rcases hax.starts with ⟨_, rfl⟩ | ⟨hs, _⟩ | ⟨hs, _⟩
        · simp [intSum]; omega
        · exact absurd (ih0 rfl) hs
        · exact absurd (ih0 rfl) hs
      · obtain ⟨hz, hzm, _⟩ := path_snoc hpy
        obtain ⟨a', n', haz, _⟩ := hl.field z (hsub z (by simp))
        have h1 := ih p z rfl a' n' haz
        rcases hax.starts with ⟨hi, rfl⟩ | ⟨_, _, c, hc, rfl⟩ | ⟨_, hne, _⟩
        · exact absurd (hz.trans hi) (no_initial ha hr z hzm)
        · have h2 := haz.last
          rw [hz, hc] at h2
          cases h2
          omega
        · exact absurd (hov y (hsub y (by simp))) hne
  have h1 := (key _ _ (path_snoc hpath).2.2 (fun _ h => h)).2 q l rfl a n hat
  omega

end Verif.Verify
