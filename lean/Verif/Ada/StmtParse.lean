import Verif.Ada.StmtGrammar
import Verif.Ada.Parse
import Verif.Ada.Text

/-! # Statements can be read in one way only -/

namespace Verif.Ada
open Verif

/-! ## Expressions at the beginning -/

theorem rest_unique {ts us r r' : List Tok} (h : ts ++ r = us ++ r') (hr : r = r') : ts = us := by
  subst hr; exact List.append_cancel_right h

theorem expr_prefix {ts us r r' : List Tok} {t u : Tree} {k k' : Tok} (ht : Reads .expression ts t) (hu : Reads .expression us u)
    (hk : closing k = true) (hk' : closing k' = true) (h : ts ++ k :: r = us ++ k' :: r') : t = u ∧ k = k' ∧ r = r' := by
  have h1 := (fit ht).1.runs (stops_closing (r := r) hk)
  have h2 := (fit hu).1.runs (stops_closing (r := r') hk')
  rw [h] at h1
  simpa using h1.unique h2

theorem name_prefix {ts us r r' : List Tok} {t u : Tree} {k k' : Tok} (ht : Reads .name ts t) (hu : Reads .name us u)
    (hk : closing k = true) (hk' : closing k' = true) (h : ts ++ k :: r = us ++ k' :: r') : t = u ∧ k = k' ∧ r = r' :=
  have up : ∀ {vs v}, Reads .name vs v → Reads .expression vs v :=
    fun h => .relation (.simple (.term (.factor (.primary (.name h)))))
  expr_prefix (up ht) (up hu) hk hk' h

theorem list_prefix {ts us r r' : List Tok} {t u : Tree} (ht : Reads .list ts t) (hu : Reads .list us u)
    (h : ts ++ .rpar :: r = us ++ .rpar :: r') : t = u ∧ r = r' := by
  have h1 := (fit ht).1 .rpar r rfl (by simp)
  have h2 := (fit hu).1 .rpar r' rfl (by simp)
  rw [h] at h1
  simpa using h1.unique h2

theorem choices_prefix {ts us r r' : List Tok} {t u : Tree} (ht : Reads .choices ts t) (hu : Reads .choices us u)
    (h : ts ++ .arrow :: r = us ++ .arrow :: r') : t = u ∧ r = r' := by
  have h1 := fit ht r
  have h2 := fit hu r'
  rw [h] at h1
  simpa using h1.unique h2

theorem name_first {ts : List Tok} {t : Tree} (h : Reads .name ts t) : ∃ x r, ts = .ident x :: r := by
  generalize hc : Cat.name = c at h
  induction h with
  | ident => exact ⟨_, _, rfl⟩
  | selected _ ih | dereference _ ih | «attribute» _ ih | range _ ih => obtain ⟨x, r, rfl⟩ := ih rfl; exact ⟨_, _, rfl⟩
  | apply _ _ ih _ => obtain ⟨x, r, rfl⟩ := ih rfl; exact ⟨_, _, rfl⟩
  | slice _ _ _ ih _ _ => obtain ⟨x, r, rfl⟩ := ih rfl; exact ⟨_, _, rfl⟩
  | _ => simp at hc

/-! ## First elements -/

/-- The elements at the beginning of statements. -/
def opening (k : Tok) : Prop := (∃ x, k = .ident x) ∨ k = .if_ ∨ k = kw "null" ∨ k = kw "pragma" ∨ k = kw "return" ∨ k = kw "case"

theorem statement_first {c : SCat} {ts : List Tok} {t : STree} (h : SReads c ts t) : (c = .statement ∨ c = .sequence) → ∃ k r, ts = k :: r ∧ opening k := by
  induction h with
  | null => exact fun _ => ⟨_, _, rfl, by simp [opening]⟩
  | assign h _ | call h =>
    obtain ⟨x, r, rfl⟩ := name_first h
    exact fun _ => ⟨_, _, rfl, .inl ⟨_, rfl⟩⟩
  | directive => exact fun _ => ⟨_, _, rfl, by simp [opening]⟩
  | pragma | ret | ite | case => exact fun _ => ⟨_, _, rfl, by simp [opening]⟩
  | one _ ih => exact fun _ => ih (.inl rfl)
  | seq _ _ ih _ => obtain ⟨k, r, rfl, h⟩ := ih (.inl rfl); exact fun _ => ⟨_, _, rfl, h⟩
  | _ => simp

/-- What may follow a sequence of statements. -/
def Ends (r : List Tok) : Prop := ∀ k w, r = k :: w → ¬ opening k

/-- What may follow. -/
def After : SCat → List Tok → Prop
  | .sequence, r => Ends r
  | .alternatives, r => Ends r ∧ ∀ w, r ≠ kw "when" :: w
  | _, _ => True

theorem otherwise_ends {vs r : List Tok} {e : STree} (h : SReads .otherwise vs e) : Ends (vs ++ r) := by
  intro k w hk
  cases h <;> (simp at hk; obtain ⟨rfl, _⟩ := hk; simp [opening, kw])

theorem alternatives_ends {vs r : List Tok} {e : STree} (h : SReads .alternatives vs e) : Ends (vs ++ r) := by
  intro k w hk
  cases h <;> (simp at hk; obtain ⟨rfl, _⟩ := hk; simp [opening, kw])

theorem alternatives_when {vs : List Tok} {e : STree} (h : SReads .alternatives vs e) : ∃ w, vs = kw "when" :: w := by
  cases h <;> exact ⟨_, rfl⟩

theorem ends_end {r : List Tok} : Ends (kw "end" :: r) := by
  intro k w hk
  simp only [List.cons.injEq] at hk
  obtain ⟨rfl, _⟩ := hk
  simp [opening, kw]

/-! ## Inversion by the first element -/

theorem name_ne {ts w r : List Tok} {t : Tree} {k : Tok} (h : Reads .name ts t) (hk : ∀ x, k ≠ .ident x) : k :: w ≠ ts ++ r := by
  obtain ⟨x, v, rfl⟩ := name_first h
  intro he
  simp only [List.cons_append, List.cons.injEq] at he
  exact hk x he.1

/-- Closes the cases in which the first elements differ. -/
macro "differ" h:ident : tactic => `(tactic|
  first
  | (exfalso; simp [kw] at $h:ident; done)
  | (exfalso; simp only [List.append_assoc] at $h:ident; exact absurd $h (name_ne (by assumption) (by intro x; simp [kw]))))

theorem inv_null {us r w : List Tok} {u : STree} (h : SReads .statement us u) (he : kw "null" :: w = us ++ r) : u = .null ∧ w = .semi :: r := by
  cases h <;> try differ he
  simpa using he

theorem inv_ret {us r w : List Tok} {u : STree} (h : SReads .statement us u) (he : kw "return" :: w = us ++ r) :
    ∃ vs e, Reads .expression vs e ∧ u = .ret e ∧ w = vs ++ .semi :: r := by
  cases h <;> try differ he
  next vs e h => exact ⟨vs, e, h, rfl, by simpa using he⟩

theorem inv_pragma {us r w : List Tok} {u : STree} {x : PyStr} (h : SReads .statement us u) (he : kw "pragma" :: .ident x :: w = us ++ r) :
    (w = .semi :: r ∧ u = .pragma x []) ∨ ∃ vs es, Reads .list vs (.agg es) ∧ u = .pragma x es ∧ w = .lpar :: vs ++ .rpar :: .semi :: r := by
  cases h <;> try differ he
  · simp at he
    obtain ⟨rfl, rfl⟩ := he
    exact .inl ⟨rfl, rfl⟩
  · next y vs es h =>
    simp at he
    obtain ⟨rfl, rfl⟩ := he
    exact .inr ⟨vs, es, h, rfl, by simp⟩

theorem inv_ite {us r w : List Tok} {u : STree} (h : SReads .statement us u) (he : .if_ :: w = us ++ r) :
    ∃ ts ss vs c t e, Reads .expression ts c ∧ SReads .sequence ss t ∧ SReads .otherwise vs e ∧ u = .ite c t e ∧ w = ts ++ .then_ :: (ss ++ (vs ++ r)) := by
  cases h <;> try differ he
  next ts ss vs c t e h1 h2 h3 => exact ⟨ts, ss, vs, c, t, e, h1, h2, h3, rfl, by simpa using he⟩

theorem inv_case {us r w : List Tok} {u : STree} (h : SReads .statement us u) (he : kw "case" :: w = us ++ r) :
    ∃ ts as c a, Reads .expression ts c ∧ SReads .alternatives as a ∧ u = .case c a ∧
      w = ts ++ kw "is" :: (as ++ kw "end" :: kw "case" :: .semi :: r) := by
  cases h <;> try differ he
  next ts as c a h1 h2 => exact ⟨ts, as, c, a, h1, h2, rfl, by simpa using he⟩

theorem inv_name {us r w : List Tok} {u : STree} {x : PyStr} (h : SReads .statement us u) (he : .ident x :: w = us ++ r) :
    (∃ ns vs n e, Reads .name ns n ∧ Reads .expression vs e ∧ u = .assign n e ∧ us ++ r = ns ++ .assign :: (vs ++ .semi :: r)) ∨
      ∃ ns n, Reads .name ns n ∧ u = .call n ∧ us ++ r = ns ++ .semi :: r := by
  cases h with
  | @assign ns vs n e h1 h2 => exact .inl ⟨ns, vs, n, e, h1, h2, rfl, by simp⟩
  | @call ns n h1 => exact .inr ⟨ns, n, h1, rfl, by simp⟩
  | _ => simp [kw] at he

theorem inv_endIf {us r w : List Tok} {u : STree} (h : SReads .otherwise us u) (he : kw "end" :: w = us ++ r) : u = .null ∧ w = .if_ :: .semi :: r := by
  cases h <;> try differ he
  simpa using he

theorem inv_else {us r w : List Tok} {u : STree} (h : SReads .otherwise us u) (he : .else_ :: w = us ++ r) :
    ∃ ss, SReads .sequence ss u ∧ w = ss ++ kw "end" :: .if_ :: .semi :: r := by
  cases h <;> try differ he
  next ss h1 => exact ⟨ss, h1, by simpa using he⟩

theorem inv_elsif {us r w : List Tok} {u : STree} (h : SReads .otherwise us u) (he : .elsif :: w = us ++ r) :
    ∃ ts ss vs c t e, Reads .expression ts c ∧ SReads .sequence ss t ∧ SReads .otherwise vs e ∧ u = .ite c t e ∧ w = ts ++ .then_ :: (ss ++ (vs ++ r)) := by
  cases h <;> try differ he
  next ts ss vs c t e h1 h2 h3 => exact ⟨ts, ss, vs, c, t, e, h1, h2, h3, rfl, by simpa using he⟩

/-! ## Uniqueness -/

theorem sreads_prefix {c : SCat} {ts : List Tok} {t : STree} (h : SReads c ts t) :
    ∀ {us : List Tok} {u : STree} {r r' : List Tok}, SReads c us u → After c r → After c r' → ts ++ r = us ++ r' → t = u ∧ r = r' := by
  induction h with
  | null =>
    intro us u r r' hu _ _ he
    obtain ⟨rfl, h2⟩ := inv_null hu he
    simp at h2
    exact ⟨rfl, h2⟩
  | @assign as bs t e ht hb =>
    intro us u r r' hu _ _ he
    obtain ⟨x, w, hx⟩ := name_first ht
    rcases inv_name (x := x) (w := w ++ .assign :: bs ++ [.semi] ++ r) hu (by rw [← he, hx]; simp) with ⟨ns, vs, n, e', h1, h2, rfl, h3⟩ | ⟨ns, n, h1, rfl, h3⟩
    · rw [h3] at he
      obtain ⟨rfl, _, hr⟩ := name_prefix (k := .assign) (k' := .assign) (r := bs ++ .semi :: r) ht h1 rfl rfl (by simpa using he)
      obtain ⟨rfl, _, rfl⟩ := expr_prefix (k := .semi) (k' := .semi) hb h2 rfl rfl hr
      exact ⟨rfl, rfl⟩
    · rw [h3] at he
      obtain ⟨_, hk, _⟩ := name_prefix (k := .assign) (k' := .semi) (r := bs ++ .semi :: r) ht h1 rfl rfl (by simpa using he)
      simp at hk
  | @call as t ht =>
    intro us u r r' hu _ _ he
    obtain ⟨x, w, hx⟩ := name_first ht
    rcases inv_name (x := x) (w := w ++ [.semi] ++ r) hu (by rw [← he, hx]; simp) with ⟨ns, vs, n, e', h1, h2, rfl, h3⟩ | ⟨ns, n, h1, rfl, h3⟩
    · rw [h3] at he
      obtain ⟨_, hk, _⟩ := name_prefix (k := .semi) (k' := .assign) (r := r) ht h1 rfl rfl (by simpa using he)
      simp at hk
    · rw [h3] at he
      obtain ⟨rfl, _, rfl⟩ := name_prefix (k := .semi) (k' := .semi) (r := r) ht h1 rfl rfl (by simpa using he)
      exact ⟨rfl, rfl⟩
  | directive =>
    intro us u r r' hu _ _ he
    rcases inv_pragma hu he with ⟨h1, rfl⟩ | ⟨vs, es, h1, rfl, h2⟩
    · simp at h1; exact ⟨rfl, h1⟩
    · simp at h2
  | @pragma x bs es hb =>
    intro us u r r' hu _ _ he
    rcases inv_pragma hu he with ⟨h1, rfl⟩ | ⟨vs, es, h1, rfl, h2⟩
    · simp at h1
    · obtain ⟨h3, h4⟩ := list_prefix (r := .semi :: r) hb h1 (by simpa using h2)
      simp at h3 h4
      exact ⟨by rw [h3], h4⟩
  | ret hb =>
    intro us u r r' hu _ _ he
    obtain ⟨vs, e, h1, rfl, h2⟩ := inv_ret hu he
    obtain ⟨rfl, _, rfl⟩ := expr_prefix (k := .semi) (k' := .semi) (r := r) hb h1 rfl rfl (by simpa using h2)
    exact ⟨rfl, rfl⟩
  | @ite as bs cs c t e hc _ he' ih1 ih2 =>
    intro us u r r' hu _ _ he
    obtain ⟨ts, ss, vs, c', t', e', h1, h2, h3, rfl, h4⟩ := inv_ite hu he
    obtain ⟨rfl, _, h5⟩ := expr_prefix (k := .then_) (k' := .then_) (r := bs ++ (cs ++ r)) hc h1 rfl rfl (by simpa using h4)
    obtain ⟨rfl, h6⟩ := ih1 h2 (otherwise_ends he') (otherwise_ends h3) h5
    obtain ⟨rfl, rfl⟩ := ih2 h3 trivial trivial h6
    exact ⟨rfl, rfl⟩
  | @case as bs c a hc _ ih =>
    intro us u r r' hu _ _ he
    obtain ⟨ts, ss, c', a', h1, h2, rfl, h4⟩ := inv_case hu he
    obtain ⟨rfl, _, h5⟩ := expr_prefix (k := kw "is") (k' := kw "is") (r := bs ++ kw "end" :: kw "case" :: .semi :: r) hc h1 rfl rfl (by simpa using h4)
    obtain ⟨rfl, h6⟩ := ih h2 ⟨ends_end, fun w => by simp [kw]⟩ ⟨ends_end, fun w => by simp [kw]⟩ h5
    simp at h6
    exact ⟨rfl, h6⟩
  | one _ ih =>
    intro us u r r' hu hr hr' he
    cases hu with
    | one h => exact ih h trivial trivial he
    | @seq as bs _ _ h1 h2 =>
      obtain ⟨_, h3⟩ := ih (r' := bs ++ r') h1 trivial trivial (by simpa using he)
      obtain ⟨k, w, rfl, hk⟩ := statement_first h2 (.inr rfl)
      exact absurd hk (hr k _ h3)
  | @seq as bs t u h1 h2 ih1 ih2 =>
    intro us u r r' hu hr hr' he
    cases hu with
    | one h =>
      obtain ⟨_, h3⟩ := ih1 (r := bs ++ r) h trivial trivial (by simpa using he)
      obtain ⟨k, w, rfl, hk⟩ := statement_first h2 (.inr rfl)
      exact absurd hk (hr' k _ h3.symm)
    | @seq as' bs' _ _ h1' h2' =>
      obtain ⟨rfl, h3⟩ := ih1 (r := bs ++ r) (r' := bs' ++ r') h1' trivial trivial (by simpa using he)
      obtain ⟨rfl, rfl⟩ := ih2 h2' hr hr' h3
      exact ⟨rfl, rfl⟩
  | endIf =>
    intro us u r r' hu _ _ he
    obtain ⟨rfl, h2⟩ := inv_endIf hu he
    simp at h2
    exact ⟨rfl, h2⟩
  | else_ _ ih =>
    intro us u r r' hu _ _ he
    obtain ⟨ss, h1, h2⟩ := inv_else hu he
    obtain ⟨rfl, h3⟩ := ih (r := kw "end" :: .if_ :: .semi :: r) h1 ends_end ends_end (by simpa using h2)
    simp at h3
    exact ⟨rfl, h3⟩
  | @elsif as bs cs c t e hc _ he' ih1 ih2 =>
    intro us u r r' hu _ _ he
    obtain ⟨ts, ss, vs, c', t', e', h1, h2, h3, rfl, h4⟩ := inv_elsif hu he
    obtain ⟨rfl, _, h5⟩ := expr_prefix (k := .then_) (k' := .then_) (r := bs ++ (cs ++ r)) hc h1 rfl rfl (by simpa using h4)
    obtain ⟨rfl, h6⟩ := ih1 h2 (otherwise_ends he') (otherwise_ends h3) h5
    obtain ⟨rfl, rfl⟩ := ih2 h3 trivial trivial h6
    exact ⟨rfl, rfl⟩
  | @alt as bs cs t hc _ ih =>
    intro us u r r' hu hr hr' he
    cases hu with
    | @alt as' bs' cs' t' hc' h2 =>
      obtain ⟨h3, h4⟩ := choices_prefix (r := bs ++ r) (r' := bs' ++ r') hc hc' (by simpa using he)
      obtain ⟨rfl, rfl⟩ := ih h2 hr.1 hr'.1 h4
      simp at h3
      exact ⟨by rw [h3], rfl⟩
    | @alts as' bs' vs' cs' t' v' hc' h2 h2' =>
      obtain ⟨h3, h4⟩ := choices_prefix (r := bs ++ r) (r' := bs' ++ (vs' ++ r')) hc hc' (by simpa using he)
      obtain ⟨rfl, h5⟩ := ih h2 hr.1 (alternatives_ends h2') h4
      obtain ⟨w, rfl⟩ := alternatives_when h2'
      exact absurd h5 (hr.2 _)
  | @alts as bs vs cs t v hc _ hv ih1 ih2 =>
    intro us u r r' hu hr hr' he
    cases hu with
    | @alt as' bs' cs' t' hc' h2 =>
      obtain ⟨h3, h4⟩ := choices_prefix (r := bs ++ (vs ++ r)) (r' := bs' ++ r') hc hc' (by simpa using he)
      obtain ⟨rfl, h5⟩ := ih1 h2 (alternatives_ends hv) hr'.1 h4
      obtain ⟨w, rfl⟩ := alternatives_when hv
      exact absurd h5.symm (hr'.2 _)
    | @alts as' bs' vs' cs' t' v' hc' h2 h2' =>
      obtain ⟨h3, h4⟩ := choices_prefix (r := bs ++ (vs ++ r)) (r' := bs' ++ (vs' ++ r')) hc hc' (by simpa using he)
      obtain ⟨rfl, h5⟩ := ih1 h2 (alternatives_ends hv) (alternatives_ends h2') h4
      obtain ⟨rfl, rfl⟩ := ih2 h2' hr hr' h5
      simp at h3
      exact ⟨by rw [h3], rfl⟩

/-- A statement and a sequence of statements can be read in one way only. -/
theorem SReads.unique {c : SCat} {ts : List Tok} {t u : STree} (ht : SReads c ts t) (hu : SReads c ts u) : t = u := by
  have ha : After c [] := by cases c <;> simp [After, Ends]
  exact (sreads_prefix ht hu ha ha (r := []) (r' := []) rfl).1

end Verif.Ada
