import Verif.Graph.Props

/-! # Property C14: the constructor of messages terminates -/

namespace Verif.Graph
open Verif

/-! ## Lemmas -/

/-- Fields that the sort can ever append. -/
inductive Ready (s : List Link) : Field → Prop
  | initial : Ready s INITIAL
  | all {t : Field} : (∃ l ∈ s, l.target = t) → (∀ l ∈ s, l.target = t → Ready s l.source) → Ready s t

theorem ready_acyclic {s : List Link} (hi : ∀ l ∈ s, l.target ≠ INITIAL) {f : Field} (h : Ready s f) :
    ¬ Reaches s f f := by
  induction h with
  | initial =>
    rintro ⟨p, hp, hpath⟩
    generalize hx : INITIAL = x at hpath
    cases hpath with
    | nil => exact hp rfl
    | snoc _ hl => exact hi _ hl hx.symm
  | @all t _ _ ih =>
    rintro ⟨p, hp, hpath⟩
    generalize hx : t = x at hpath
    cases hpath with
    | nil => exact hp rfl
    | @snoc q l hq hl =>
      subst hx
      refine ih l hl rfl ⟨l :: q, by simp, Path.cons hl ?_⟩
      cases hq.cons_inv with
      | inl h => obtain ⟨rfl, h⟩ := h; rw [← h]; exact .nil
      | inr _ => exact hq

theorem filter_length_lt {α : Type} (p q : α → Bool) (l : List α) (h : ∀ x, p x = true → q x = true)
    (x : α) (hx : x ∈ l) (h1 : q x = true) (h2 : p x = false) : (l.filter p).length < (l.filter q).length := by
  have hle : ∀ l : List α, (l.filter p).length ≤ (l.filter q).length := by
    intro l
    induction l with
    | nil => simp
    | cons a l ih =>
      simp only [List.filter_cons]
      by_cases hp : p a = true
      · simp [hp, h a hp, ih]
      · cases hq : q a <;> simp_all <;> omega
  induction l with
  | nil => simp at hx
  | cons a l ih =>
    simp only [List.filter_cons]
    rcases List.mem_cons.mp hx with rfl | hx'
    · have := hle l
      simp [h1, h2]; omega
    · have := ih hx'
      by_cases hp : p a = true
      · simp [hp, h a hp, this]
      · cases hq : q a <;> simp_all <;> omega

open Classical in
/-- How many of the mentioned fields (with repetitions) can be reached. -/
noncomputable def height (s : List Link) (f : Field) : Nat :=
  ((structureFields s).filter (fun g => decide (Reaches s f g))).length

theorem height_lt {s : List Link} (hi : ∀ l ∈ s, l.target ≠ INITIAL) {l : Link} (hl : l ∈ s) (hr : Ready s l.target) :
    height s l.target < height s l.source := by
  refine filter_length_lt _ _ _ ?_ l.target ?_ ?_ ?_
  · intro x hx
    simp only [decide_eq_true_eq] at hx ⊢
    obtain ⟨p, hp, hpath⟩ := hx
    exact ⟨l :: p, by simp, Path.cons hl hpath⟩
  · simp only [structureFields, List.mem_append, List.mem_map]
    exact .inr ⟨l, hl, rfl⟩
  · simp only [decide_eq_true_eq]
    exact ⟨[l], by simp, Path.single hl⟩
  · simp only [decide_eq_false_iff_not]
    exact ready_acyclic hi hr

/-- A bound of the work caused by a queued field. -/
noncomputable def cost (s : List Link) (f : Field) : Nat := (s.length + 1) ^ height s f

noncomputable def costs (s : List Link) : List Field → Nat
  | [] => 0
  | f :: fs => cost s f + costs s fs

theorem costs_append (s : List Link) (a b : List Field) : costs s (a ++ b) = costs s a + costs s b := by
  induction a with
  | nil => simp [costs]
  | cons x a ih => simp only [List.cons_append, costs, ih]; omega

theorem costs_le (s : List Link) (c : Nat) (a : List Field) (h : ∀ f ∈ a, cost s f ≤ c) : costs s a ≤ a.length * c := by
  induction a with
  | nil => simp [costs]
  | cons x a ih =>
    have h1 := h x (by simp)
    have h2 := ih (fun f hf => h f (by simp [hf]))
    simp only [costs, List.length_cons, Nat.add_mul, Nat.one_mul]
    omega

theorem visit_length (s : List Link) (es : List Link) : ∀ (Q : List Field) (V : List Link),
    (visit s es Q V).1.length ≤ Q.length + es.length := by
  induction es with
  | nil => simp [visit]
  | cons e es ih =>
    intro Q V
    simp only [visit]
    refine Nat.le_trans (ih _ _) ?_
    split <;> simp <;> omega

theorem kahn_terminates {s : List Link} (hi : ∀ l ∈ s, l.target ≠ INITIAL) (k : Nat) :
    ∀ (Q R : List Field) (V : List Link), Inv s Q R V → (∀ f ∈ R ++ Q, Ready s f) → costs s Q ≤ k →
      kahn s k Q R V ≠ .error .fuel := by
  induction k with
  | zero =>
    intro Q R V _ _ hc
    cases Q with
    | nil => simp [kahn]
    | cons n Q =>
      have : 0 < cost s n := Nat.pow_pos (by omega)
      simp only [costs] at hc
      omega
  | succ k ih =>
    intro Q R V hinv hready hc
    cases Q with
    | nil => simp [kahn]
    | cons n Q =>
      simp only [kahn]
      obtain ⟨A, h1, h2, h3⟩ := visit_spec s (outgoing s n) Q V
      have hA : ∀ t ∈ A, Ready s t ∧ ∃ l ∈ s, l.source = n ∧ l.target = t := by
        intro t ht
        obtain ⟨hcomp, e, he, het⟩ := h3 t ht
        rw [mem_outgoing] at he
        refine ⟨.all ⟨e, he.1, het⟩ ?_, e, he.1, he.2, het⟩
        intro l hl hlt
        rw [complete_iff] at hcomp
        obtain ⟨v, hv, hlv⟩ := hcomp l hl hlt
        rw [link_eq_source hlv]
        rcases List.mem_append.mp hv with hv | hv
        · rw [List.mem_reverse, mem_outgoing] at hv
          rw [hv.2]
          exact hready n (by simp)
        · exact hready _ (by simp [(hinv.visited v hv).2])
      have hlen : A.length ≤ s.length := by
        have := visit_length s (outgoing s n) Q V
        rw [h1] at this
        have h4 : (outgoing s n).length ≤ s.length := List.length_filter_le _ _
        simp only [List.length_append] at this
        omega
      have hcost : costs s A < cost s n := by
        cases A with
        | nil => exact Nat.pow_pos (by omega)
        | cons a A =>
          have hpos : 0 < height s n := by
            obtain ⟨hr, l, hl, hs, ht⟩ := hA a (by simp)
            have := height_lt hi hl (ht ▸ hr)
            rw [hs] at this
            omega
          obtain ⟨j, hj⟩ : ∃ j, height s n = j + 1 := ⟨height s n - 1, by omega⟩
          have h5 := costs_le s ((s.length + 1) ^ j) (a :: A) (by
            intro t ht
            obtain ⟨hr, l, hl, hs, ht'⟩ := hA t ht
            have := height_lt hi hl (ht' ▸ hr)
            rw [hs, hj, ht'] at this
            exact Nat.pow_le_pow_right (by omega) (by omega))
          have h6 : cost s n = (s.length + 1) ^ j * (s.length + 1) := by rw [cost, hj, Nat.pow_succ]
          have h7 : (a :: A).length * (s.length + 1) ^ j ≤ s.length * (s.length + 1) ^ j := Nat.mul_le_mul_right _ hlen
          have h8 : 0 < (s.length + 1) ^ j := Nat.pow_pos (by omega)
          rw [h6, Nat.mul_comm _ (s.length + 1), Nat.add_mul, Nat.one_mul]
          omega
      have hstep := inv_step hinv
      rw [h1] at hstep ⊢
      refine ih _ _ _ hstep ?_ ?_
      · intro f hf
        simp only [List.mem_append, List.mem_singleton] at hf
        rcases hf with (hf | rfl) | hf | hf
        · exact hready f (by simp [hf])
        · exact hready f (by simp)
        · exact hready f (by simp [hf])
        · exact (hA f hf).1
      · simp only [costs, costs_append] at hc ⊢
        omega

theorem kahn_mono {s : List Link} (k : Nat) : ∀ (Q R : List Field) (V : List Link),
    kahn s k Q R V ≠ .error .fuel → kahn s (k + 1) Q R V = kahn s k Q R V := by
  induction k with
  | zero =>
    intro Q R V h
    cases Q with
    | nil => simp [kahn]
    | cons n Q => simp [kahn] at h
  | succ k ih =>
    intro Q R V h
    cases Q with
    | nil => simp [kahn]
    | cons n Q =>
      have h' : kahn s k (visit s (outgoing s n) Q V).1 (R ++ [n]) (visit s (outgoing s n) Q V).2 ≠ .error .fuel := h
      exact ih _ _ _ h'

theorem construct_mono {m : Def} {k : Nat} (h : m.construct k ≠ .error .fuel) : ∀ j, m.construct (k + j) = m.construct k := by
  intro j
  induction j with
  | zero => rfl
  | succ j ih =>
    rw [← ih]
    rw [← ih] at h
    simp only [Def.construct] at h ⊢
    split
    · rfl
    · rename_i he
      rw [if_neg he] at h
      cases hv : m.validate1 with
      | error e => rfl
      | ok b =>
        cases b with
        | true => rfl
        | false =>
          simp only [hv, bind, Except.bind, Bool.false_eq_true, if_false] at h ⊢
          have hk : kahn m.links (k + j) [INITIAL] [] [] ≠ .error .fuel := by
            intro hk; rw [hk] at h; exact h rfl
          have := kahn_mono _ _ _ _ hk
          rw [← Nat.add_assoc, this]

/-! ## C14 -/

/-- The constructor terminates if no link leads to the initial node (otherwise it need not, see
`C14_initial_link_counterexample`): beyond some number of steps the outcome is final. -/
theorem C14_terminates_partial (m : Def) (h : ∀ l ∈ m.links, l.target ≠ INITIAL) :
    ∃ K, m.construct K ≠ .error .fuel ∧ ∀ k, K ≤ k → m.construct k = m.construct K := by
  refine ⟨costs m.links [INITIAL], ?_⟩
  have hk := kahn_terminates h (costs m.links [INITIAL]) [INITIAL] [] [] (inv_initial _) (by simp [Ready.initial])
    (Nat.le_refl _)
  have h1 : m.construct (costs m.links [INITIAL]) ≠ .error .fuel := by
    simp only [Def.construct]
    split
    · simp
    · cases hv : m.validate1 with
      | error e =>
        simp only [Def.validate1] at hv
        split at hv
        · cases hv; simp [bind, Except.bind]
        · cases hv
      | ok b =>
        cases b with
        | true => simp [bind, Except.bind]
        | false =>
          simp only [bind, Except.bind, Bool.false_eq_true, if_false]
          cases hx : kahn m.links (costs m.links [INITIAL]) [INITIAL] [] [] with
          | error e =>
            intro hc
            simp only [pure, Except.pure] at hc
            rw [hx] at hk
            simp_all
          | ok r =>
            simp only [pure, Except.pure]
            split <;> simp
  refine ⟨h1, fun k hk => ?_⟩
  obtain ⟨j, rfl⟩ : ∃ j, k = costs m.links [INITIAL] + j := ⟨_, (Nat.add_sub_cancel' hk).symm⟩
  exact construct_mono h1 j

/-- The outcome is unique. -/
theorem C14_unique (m : Def) (a b : List Field) (ha : m.Accepted a) (hb : m.Accepted b) : a = b := by
  obtain ⟨k, hk⟩ := ha
  obtain ⟨j, hj⟩ := hb
  have h1 := construct_mono (m := m) (k := k) (by rw [hk]; simp) j
  have h2 := construct_mono (m := m) (k := j) (by rw [hj]; simp) k
  rw [Nat.add_comm, h2, hj, hk] at h1
  simpa using h1.symm

example : ∀ l ∈ exTLV.links, l.target ≠ INITIAL := by decide

end Verif.Graph
