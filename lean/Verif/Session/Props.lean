import Verif.Session.Model

/-! # Properties C33, C34: states of sessions -/

namespace Verif.Session
open Verif

/-! ## Specification -/

/-- Two names are the same up to upper and lower case. -/
def Same (a b : ID) : Prop := ID.Spec.sameName a b

/-- Some state has the name `i`. -/
def Session.Declares (s : Session) (i : ID) : Prop := ∃ st ∈ s.states, Same st.identifier i

/-- There is a transition from a state named `a` to `b`. -/
def Session.Step (s : Session) (a b : ID) : Prop := ∃ st ∈ s.states, Same st.identifier a ∧ ∃ t ∈ st.targets, Same t b

/-- A state named `b` can be entered from the initial state by a sequence of transitions. -/
inductive Session.Reachable (s : Session) : ID → Prop
  | initial {b : ID} : Same s.initial b → s.Reachable b
  | step {a b : ID} : s.Reachable a → s.Step a b → s.Reachable b

/-! ## Lemmas -/

theorem same_iff {a b : ID} : Same a b ↔ a.key = b.key := by
  rw [Same, ← ID.C38_eq_iff, ID.eq_iff_key]

theorem eq_same {a b : ID} : a.eq b = true ↔ Same a b := ID.C38_eq_iff a b

theorem Same.symm {a b : ID} (h : Same a b) : Same b a := by rw [same_iff] at h ⊢; exact h.symm
theorem Same.trans {a b c : ID} (h : Same a b) (h' : Same b c) : Same a c := by
  rw [same_iff] at h h' ⊢; exact h.trans h'
theorem Same.refl (a : ID) : Same a a := by rw [same_iff]

theorem isIn_iff {i : ID} {l : List ID} : isIn i l = true ↔ ∃ j ∈ l, Same i j := by
  simp [isIn, List.any_eq_true, eq_same]

theorem isIn_states {i : ID} {s : Session} : isIn i (s.states.map State.identifier) = true ↔ s.Declares i := by
  rw [isIn_iff]
  constructor
  · rintro ⟨j, hj, h⟩
    obtain ⟨st, hst, rfl⟩ := List.mem_map.mp hj
    exact ⟨st, hst, h.symm⟩
  · rintro ⟨st, hst, h⟩
    exact ⟨_, List.mem_map.mpr ⟨st, hst, rfl⟩, h.symm⟩

theorem existence_nil (s : Session) : existence s = [] ↔
    s.Declares s.initial ∧ s.Declares s.final ∧ ∀ st ∈ s.states, ∀ t ∈ st.targets, s.Declares t := by
  simp only [existence, List.append_eq_nil_iff, List.flatMap_eq_nil_iff, ← isIn_states]
  constructor
  · rintro ⟨⟨h1, h2⟩, h3⟩
    refine ⟨?_, ?_, ?_⟩
    · split at h1 <;> simp_all
    · split at h2 <;> simp_all
    · intro st hst t ht
      have := h3 st hst t ht
      split at this <;> simp_all
  · rintro ⟨h1, h2, h3⟩
    refine ⟨⟨by simp [h1], by simp [h2]⟩, ?_⟩
    intro st hst t ht
    simp [h3 st hst t ht]

/-- The states collected in the dictionary. -/
def DictOK (d : List (ID × List State)) : Prop :=
  (d.map Prod.fst).Pairwise (fun a b => ¬ Same a b) ∧ ∀ e ∈ d, e.2 ≠ [] ∧ ∀ st ∈ e.2, Same st.identifier e.1

theorem addState_mem {d : List (ID × List State)} {s : State} {e : ID × List State} (h : e ∈ addState d s) :
    e ∈ d ∨ (e.1 = s.identifier ∧ e.2 = [s]) ∨ ∃ ss, (e.1, ss) ∈ d ∧ e.2 = ss ++ [s] ∧ Same s.identifier e.1 := by
  induction d with
  | nil => simp [addState] at h; subst h; simp
  | cons x d ih =>
    obtain ⟨i, ss⟩ := x
    simp only [addState] at h
    split at h
    · rename_i he
      rcases List.mem_cons.mp h with rfl | h
      · exact .inr (.inr ⟨ss, by simp, rfl, eq_same.mp he⟩)
      · exact .inl (by simp [h])
    · rcases List.mem_cons.mp h with rfl | h
      · exact .inl (by simp)
      · rcases ih h with h | h | ⟨ss', h, h'⟩
        · exact .inl (by simp [h])
        · exact .inr (.inl h)
        · exact .inr (.inr ⟨ss', by simp [h], h'⟩)

theorem addState_ok {d : List (ID × List State)} {s : State} (h : DictOK d) : DictOK (addState d s) := by
  induction d with
  | nil => simp [addState, DictOK, Same.refl]
  | cons x d ih =>
    obtain ⟨i, ss⟩ := x
    obtain ⟨h1, h2⟩ := h
    simp only [List.map_cons, List.pairwise_cons] at h1
    simp only [addState]
    split
    · rename_i he
      rw [eq_same] at he
      refine ⟨by simpa using h1, ?_⟩
      intro e hm
      rcases List.mem_cons.mp hm with rfl | hm
      · refine ⟨by simp, ?_⟩
        intro st hst
        rcases List.mem_append.mp hst with hst | hst
        · exact (h2 _ (List.mem_cons_self ..)).2 st hst
        · simp at hst; subst hst; exact he
      · exact h2 e (by simp [hm])
    · rename_i he
      rw [eq_same] at he
      obtain ⟨h3, h4⟩ := ih ⟨h1.2, fun e hm => h2 e (by simp [hm])⟩
      refine ⟨?_, ?_⟩
      · simp only [List.map_cons, List.pairwise_cons]
        refine ⟨?_, h3⟩
        intro a ha hs
        obtain ⟨e, hm, rfl⟩ := List.mem_map.mp ha
        rcases addState_mem hm with hm | ⟨hm, _⟩ | ⟨ss', hm, _⟩
        · exact h1.1 _ (List.mem_map.mpr ⟨e, hm, rfl⟩) hs
        · exact he (by rw [← hm]; exact hs.symm)
        · exact h1.1 _ (List.mem_map.mpr ⟨_, hm, rfl⟩) hs
      · intro e hm
        rcases List.mem_cons.mp hm with rfl | hm
        · exact h2 _ (List.mem_cons_self ..)
        · exact h4 e hm

/-- All lists in the dictionary have one element. -/
def Single (d : List (ID × List State)) : Prop := ∀ e ∈ d, e.2.length < 2

theorem addState_single {d : List (ID × List State)} {s : State} (h : DictOK d) :
    Single (addState d s) ↔ Single d ∧ ∀ e ∈ d, ¬ Same s.identifier e.1 := by
  induction d with
  | nil => simp [addState, Single]
  | cons x d ih =>
    obtain ⟨i, ss⟩ := x
    have hd : DictOK d := by
      obtain ⟨h1, h2⟩ := h
      simp only [List.map_cons, List.pairwise_cons] at h1
      exact ⟨h1.2, fun e hm => h2 e (by simp [hm])⟩
    have hss := (h.2 _ (List.mem_cons_self ..)).1
    simp only [addState]
    split
    · rename_i he
      rw [eq_same] at he
      constructor
      · intro hs
        have := hs _ (List.mem_cons_self ..)
        simp only [List.length_append, List.length_cons, List.length_nil] at this
        have : ss.length ≠ 0 := by simpa using hss
        omega
      · rintro ⟨_, hs⟩
        exact absurd he (hs _ (List.mem_cons_self ..))
    · rename_i he
      rw [eq_same] at he
      have ih' := ih hd
      simp only [Single, List.forall_mem_cons] at ih' ⊢
      rw [ih']
      simp only [he, not_false_eq_true, true_and, and_assoc]

theorem addState_keys {d : List (ID × List State)} {s : State} {i : ID} :
    (∃ e ∈ addState d s, Same i e.1) ↔ Same i s.identifier ∨ ∃ e ∈ d, Same i e.1 := by
  induction d with
  | nil => simp [addState]
  | cons x d ih =>
    obtain ⟨j, ss⟩ := x
    simp only [addState]
    split
    · rename_i he
      rw [eq_same] at he
      simp only [List.mem_cons, exists_eq_or_imp]
      constructor
      · exact .inr
      · rintro (h | h)
        · exact .inl (h.trans he)
        · exact h
    · simp only [List.mem_cons, exists_eq_or_imp, ih]
      grind

theorem fold_single (ss : List State) : ∀ d, DictOK d →
    (Single (ss.foldl addState d) ↔ Single d ∧ ss.Pairwise (fun a b => ¬ Same a.identifier b.identifier) ∧
      ∀ s ∈ ss, ∀ e ∈ d, ¬ Same s.identifier e.1) := by
  induction ss with
  | nil => intro d _; simp
  | cons s ss ih =>
    intro d hd
    rw [List.foldl_cons, ih _ (addState_ok hd), addState_single hd]
    have hk : ∀ t : State, (∀ e ∈ addState d s, ¬ Same t.identifier e.1) ↔
        ¬ Same t.identifier s.identifier ∧ ∀ e ∈ d, ¬ Same t.identifier e.1 := by
      intro t
      have := not_congr (addState_keys (d := d) (s := s) (i := t.identifier))
      simpa using this
    simp only [hk, List.pairwise_cons, List.forall_mem_cons]
    constructor
    · rintro ⟨⟨h1, h2⟩, h3, h4⟩
      exact ⟨h1, ⟨fun t ht h => (h4 t ht).1 h.symm, h3⟩, h2, fun t ht => (h4 t ht).2⟩
    · rintro ⟨h1, ⟨h5, h3⟩, h2, h4⟩
      exact ⟨⟨h1, h2⟩, h3, fun t ht => ⟨fun h => h5 t ht h.symm, h4 t ht⟩⟩

theorem duplicates_nil (s : Session) :
    duplicates s = [] ↔ s.states.Pairwise fun a b => ¬ Same a.identifier b.identifier := by
  have h := fold_single s.states [] ⟨by simp, by simp⟩
  have h1 : duplicates s = [] ↔ Single (s.states.foldl addState []) := by
    simp only [duplicates, List.flatMap_eq_nil_iff, Single]
    refine forall_congr' fun e => forall_congr' fun _ => ?_
    split
    · rename_i hl
      constructor
      · intro hn
        rw [List.map_eq_nil_iff, List.drop_eq_nil_iff] at hn
        omega
      · intro; omega
    · rename_i hl
      simp; omega
  rw [h1, h]
  simp [Single]

/-! ## C33 -/

/-- A session is accepted exactly if the remaining checks pass, the reachability check passes, the initial and the final
state and the targets of all transitions are declared and no name is declared twice. -/
theorem C33_accepted (s : Session) (rest : Bool) : (∃ r, new s rest = .ok r) ↔
    rest = false ∧ s.Declares s.initial ∧ s.Declares s.final ∧ (∀ st ∈ s.states, ∀ t ∈ st.targets, s.Declares t) ∧
    s.states.Pairwise (fun a b => ¬ Same a.identifier b.identifier) ∧ reachability s = [] := by
  have h1 : (∃ r, new s rest = .ok r) ↔ validateStates s = [] ∧ rest = false := by
    unfold new
    split
    · rename_i h; simp at h; simp [h]
    · rename_i h; simp at h; simpa using h
  rw [h1, validateStates]
  simp only [List.append_eq_nil_iff, existence_nil, duplicates_nil]
  constructor
  · rintro ⟨⟨⟨⟨_, h2⟩, h3⟩, h4⟩, h5⟩
    exact ⟨h5, h2.1, h2.2.1, h2.2.2, h3, h4⟩
  · rintro ⟨h5, h2, h6, h7, h3, h4⟩
    refine ⟨⟨⟨⟨?_, h2, h6, h7⟩, h3⟩, h4⟩, h5⟩
    obtain ⟨st, hst, _⟩ := h2
    cases hs : s.states with
    | nil => rw [hs] at hst; simp at hst
    | cons => rfl

/-- Every way to start the session and every transition leads to exactly one state. -/
theorem C33_unique_target_partial (s r : Session) (rest : Bool) (h : new s rest = .ok r) (i : ID)
    (hi : i = s.initial ∨ i = s.final ∨ ∃ st ∈ s.states, i ∈ st.targets) :
    ∃ st ∈ s.states, Same st.identifier i ∧ ∀ st' ∈ s.states, Same st'.identifier i → st' = st := by
  obtain ⟨_, h1, h2, h3, h4, _⟩ := (C33_accepted s rest).mp ⟨r, h⟩
  have hd : s.Declares i := by
    rcases hi with rfl | rfl | ⟨st, hst, ht⟩
    · exact h1
    · exact h2
    · exact h3 st hst i ht
  obtain ⟨st, hst, hs⟩ := hd
  refine ⟨st, hst, hs, ?_⟩
  intro st' hst' hs'
  have key : ∀ (l : List State), l.Pairwise (fun a b => ¬ Same a.identifier b.identifier) → st ∈ l → st' ∈ l → st' = st := by
    intro l hl
    induction l with
    | nil => simp
    | cons a l ih =>
      intro m m'
      rw [List.pairwise_cons] at hl
      rcases List.mem_cons.mp m with e | n <;> rcases List.mem_cons.mp m' with e' | n'
      · rw [e, e']
      · exact absurd (hs.trans hs'.symm) (e ▸ hl.1 _ n')
      · exact absurd (hs'.trans hs.symm) (e' ▸ hl.1 _ n)
      · exact ih hl.2 n n'
  exact key _ h4 hst hst'

/-! ## C34 -/

theorem inputs_mem {i : ID} (ts : List ID) : ∀ k,
    isIn i (ts.foldl (fun k t => if isIn t k then k else k ++ [t]) k) = true ↔ isIn i k = true ∨ ∃ t ∈ ts, Same t i := by
  induction ts with
  | nil => simp
  | cons t ts ih =>
    intro k
    rw [List.foldl_cons, ih]
    simp only [List.mem_cons, exists_eq_or_imp]
    split
    · rename_i h
      rw [isIn_iff] at h ⊢
      constructor
      · rintro (h' | h')
        · exact .inl h'
        · exact .inr (.inr h')
      · rintro (h' | h' | h')
        · exact .inl h'
        · obtain ⟨j, hj, h⟩ := h
          exact .inl ⟨j, hj, h'.symm.trans h⟩
        · exact .inr h'
    · simp only [isIn_iff, List.mem_append, List.mem_singleton, or_and_right, exists_or, exists_eq_left]
      constructor
      · rintro ((h' | h') | h')
        · exact .inl h'
        · exact .inr (.inl h'.symm)
        · exact .inr (.inr h')
      · rintro (h' | h' | h')
        · exact .inl (.inl h')
        · exact .inl (.inr h'.symm)
        · exact .inr h'

theorem reachLoop_nil (ini fin : ID) (ss : List State) : ∀ inputs, reachLoop ini fin ss inputs = [] ↔
    ∀ xs st ys, ss = xs ++ st :: ys →
      (Same st.identifier ini ∨ isIn st.identifier inputs = true ∨
        ∃ st' ∈ xs ++ [st], ∃ t ∈ st'.targets, Same t st.identifier) ∧
      (Same st.identifier fin ∨ st.targets ≠ []) := by
  induction ss with
  | nil => intro inputs; simp [reachLoop]
  | cons s ss ih =>
    intro inputs
    simp only [reachLoop, List.append_eq_nil_iff, ih, inputs_mem]
    have hif : ∀ (c : Bool) (e : Err), ((if c = true then [e] else []) = []) ↔ c = false := by
      intro c e; cases c <;> simp
    rw [hif, hif]
    have hb1 : (!s.identifier.eq ini && !isIn s.identifier (s.targets.foldl (fun k t => if isIn t k then k else k ++ [t]) inputs)) = false ↔
        (Same s.identifier ini ∨ isIn s.identifier inputs = true ∨ ∃ t ∈ s.targets, Same t s.identifier) := by
      rw [← inputs_mem, ← eq_same]
      cases s.identifier.eq ini <;> simp
    have hb2 : (!s.identifier.eq fin && s.targets.isEmpty) = false ↔ (Same s.identifier fin ∨ s.targets ≠ []) := by
      rw [← eq_same]
      cases s.identifier.eq fin <;> simp
    rw [hb1, hb2]
    constructor
    · rintro ⟨⟨h1, h2⟩, h3⟩ xs st ys he
      cases xs with
      | nil =>
        simp only [List.nil_append, List.cons.injEq] at he
        obtain ⟨rfl, rfl⟩ := he
        exact ⟨by simpa using h1, h2⟩
      | cons x xs =>
        simp only [List.cons_append, List.cons.injEq] at he
        obtain ⟨rfl, rfl⟩ := he
        obtain ⟨h4, h5⟩ := h3 xs st ys rfl
        refine ⟨?_, h5⟩
        rcases h4 with h | (h | h) | h
        · exact .inl h
        · exact .inr (.inl h)
        · exact .inr (.inr ⟨s, by simp, h⟩)
        · obtain ⟨st', hm, h⟩ := h
          exact .inr (.inr ⟨st', List.mem_cons_of_mem _ hm, h⟩)
    · intro h
      have h0 := h [] s ss rfl
      refine ⟨⟨by simpa using h0.1, h0.2⟩, ?_⟩
      intro xs st ys he
      obtain ⟨h4, h5⟩ := h (s :: xs) st ys (by rw [he]; rfl)
      refine ⟨?_, h5⟩
      rcases h4 with h' | h' | ⟨st', hm, h'⟩
      · exact .inl h'
      · exact .inr (.inl (.inl h'))
      · rcases List.mem_cons.mp hm with rfl | hm
        · exact .inr (.inl (.inr h'))
        · exact .inr (.inr ⟨st', hm, h'⟩)

/-- What the reachability check decides: every state but the initial one is the target of a transition of a state listed
no later than itself, and every state but the final one has a transition. -/
theorem C34_exact_condition (s : Session) : reachability s = [] ↔
    ∀ xs st ys, s.states = xs ++ st :: ys →
      (Same st.identifier s.initial ∨ ∃ st' ∈ xs ++ [st], ∃ t ∈ st'.targets, Same t st.identifier) ∧
      (Same st.identifier s.final ∨ st.targets ≠ []) := by
  rw [reachability, reachLoop_nil]
  simp [isIn]

/-- In an accepted session without transitions from a state to itself every state is reachable from the initial state.
Missing: sessions with such transitions, see the counterexamples. -/
theorem C34_reachable_partial (s r : Session) (rest : Bool) (h : new s rest = .ok r)
    (hself : ∀ st ∈ s.states, ∀ t ∈ st.targets, ¬ Same t st.identifier) :
    ∀ st ∈ s.states, s.Reachable st.identifier := by
  obtain ⟨_, _, _, _, _, h5⟩ := (C33_accepted s rest).mp ⟨r, h⟩
  rw [C34_exact_condition] at h5
  have : ∀ n xs st ys, xs.length = n → s.states = xs ++ st :: ys → s.Reachable st.identifier := by
    intro n
    induction n using Nat.strongRecOn with
    | ind n ih =>
      intro xs st ys hn he
      have hst : st ∈ s.states := by rw [he]; simp
      rcases (h5 xs st ys he).1 with h1 | ⟨st', hm, t, ht, hs⟩
      · exact .initial h1.symm
      · rcases List.mem_append.mp hm with hm | hm
        · obtain ⟨us, ws, hw⟩ := List.append_of_mem hm
          have hr := ih us.length (by rw [← hn, hw]; simp) us st' (ws ++ st :: ys) rfl (by rw [he, hw]; simp)
          exact .step hr ⟨st', by rw [he]; simp [hm], Same.refl _, t, ht, hs⟩
        · simp only [List.mem_singleton] at hm
          subst hm
          exact absurd hs (hself st' hst t ht)
  intro st hst
  obtain ⟨xs, ys, he⟩ := List.append_of_mem hst
  exact this _ xs st ys rfl he

/-! ## Examples -/

/-- A name of one letter. -/
def nm (c : Char) : ID := ⟨[[c]]⟩

/-- Initial state `A`, then `B` or `C`, final state `C`; names in different case. -/
def exSession : Session := ⟨nm 'A', nm 'C', [⟨nm 'a', [nm 'b', nm 'C'], none⟩, ⟨nm 'B', [nm 'A', nm 'c'], none⟩, ⟨nm 'C', [], none⟩]⟩

example : (∃ r, new exSession false = .ok r) ∧ ∀ st ∈ exSession.states, ∀ t ∈ st.targets, ¬ Same t st.identifier := by
  refine ⟨⟨exSession, rfl⟩, ?_⟩
  simp [exSession, same_iff, ID.key, nm, PyStr.lower]

/-- The target of an exception transition need not exist. (For the remaining checks to pass, `A` needs an action that can
fail, such as an assignment of a message aggregate, `rflx/model/session.py:415`.) -/
theorem C33_exception_counterexample :
    ∃ s st t, (∃ r, new s false = .ok r) ∧ st ∈ s.states ∧ st.exception = some t ∧ ¬ s.Declares t := by
  refine ⟨⟨nm 'A', nm 'C', [⟨nm 'A', [nm 'C'], some (nm 'X')⟩, ⟨nm 'C', [], none⟩]⟩, _, nm 'X', ⟨_, rfl⟩,
    List.mem_cons_self .., rfl, ?_⟩
  simp [Session.Declares, same_iff, ID.key, nm, PyStr.lower]

/-- Initial state `A`, final state `C`; only `B` itself leads to `B`. -/
def exLoop : Session :=
  ⟨nm 'A', nm 'C', [⟨nm 'A', [nm 'C'], none⟩, ⟨nm 'B', [nm 'B', nm 'C'], none⟩, ⟨nm 'C', [], none⟩]⟩

theorem exLoop_not_reachable (i : ID) (h : exLoop.Reachable i) : ¬ Same (nm 'B') i := by
  induction h with
  | initial h =>
    intro h'
    have := same_iff.mp (h.trans h'.symm)
    simp [exLoop, nm, ID.key, PyStr.lower] at this
  | @step a b _ hs ih =>
    intro h'
    obtain ⟨st, hst, ha, t, ht, hb⟩ := hs
    have htb := same_iff.mp (hb.trans h'.symm)
    simp only [exLoop, List.mem_cons, List.not_mem_nil, or_false] at hst
    rcases hst with rfl | rfl | rfl
    · simp only [List.mem_cons, List.not_mem_nil, or_false] at ht
      subst ht
      simp [nm, ID.key, PyStr.lower] at htb
    · exact ih ha
    · simp at ht

/-- A state that no transition from another state leads to is accepted if it has a transition to itself. -/
theorem C34_self_loop_counterexample :
    ∃ s st, (∃ r, new s false = .ok r) ∧ st ∈ s.states ∧ ¬ s.Reachable st.identifier :=
  ⟨exLoop, ⟨nm 'B', [nm 'B', nm 'C'], none⟩, ⟨_, rfl⟩, by simp [exLoop],
    fun h => exLoop_not_reachable _ h (Same.refl _)⟩

/-- A session in which every state can be reached is rejected if a state is listed before its predecessor. -/
theorem C34_order_counterexample :
    ∃ s : Session, (∀ st ∈ s.states, s.Reachable st.identifier) ∧ ¬ ∃ r, new s false = .ok r := by
  refine ⟨⟨nm 'A', nm 'C', [⟨nm 'A', [nm 'B'], none⟩, ⟨nm 'C', [], none⟩, ⟨nm 'B', [nm 'C'], none⟩]⟩, ?_, ?_⟩
  · have ha : Session.Reachable ⟨nm 'A', nm 'C', [⟨nm 'A', [nm 'B'], none⟩, ⟨nm 'C', [], none⟩, ⟨nm 'B', [nm 'C'], none⟩]⟩
        (nm 'A') := .initial (Same.refl _)
    have hb := Session.Reachable.step (b := nm 'B') ha ⟨⟨nm 'A', [nm 'B'], none⟩, by simp, Same.refl _, nm 'B', by simp, Same.refl _⟩
    have hc := Session.Reachable.step (b := nm 'C') hb ⟨⟨nm 'B', [nm 'C'], none⟩, by simp, Same.refl _, nm 'C', by simp, Same.refl _⟩
    simp only [List.mem_cons, List.not_mem_nil, or_false, forall_eq_or_imp, forall_eq]
    exact ⟨ha, hc, hb⟩
  · rintro ⟨r, h⟩
    exact nomatch (h : (Except.error PyErr.recordFlux : Py Session) = .ok r)

end Verif.Session
