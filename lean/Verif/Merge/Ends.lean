import Verif.Merge.Props

/-! # Merging ends -/

namespace Verif.Merge
open Verif Verif.Graph Verif.Verify

theorem countL_append (a b : List (Field × UTy)) : countL (a ++ b) = countL a + countL b := by
  induction a with
  | nil => simp [countL]
  | cons x a ih => obtain ⟨f, t⟩ := x; simp [countL, ih, Nat.add_assoc]

theorem countL_sub {r : List (Field × UTy)} : ∀ {ts : List (Field × UTy)}, (r.map (·.1)).Nodup → (∀ e ∈ r, e ∈ ts) →
    countL r ≤ countL ts := by
  induction r with
  | nil => intro ts _ _; simp [countL]
  | cons e r ih =>
    intro ts hn hs
    obtain ⟨a, b, rfl⟩ := List.append_of_mem (hs e List.mem_cons_self)
    rw [List.map_cons, List.nodup_cons] at hn
    have := ih (ts := a ++ b) hn.2 fun x hx => by
      have h1 := hs x (List.mem_cons_of_mem _ hx)
      have h2 : x ≠ e := by
        rintro rfl
        exact hn.1 (List.mem_map_of_mem hx)
      simp only [List.mem_append, List.mem_cons] at h1 ⊢
      rcases h1 with h1 | h1 | h1
      · exact .inl h1
      · exact absurd h1 h2
      · exact .inr h1
    obtain ⟨f, t⟩ := e
    simp only [countL_append, countL] at this ⊢
    omega

theorem countL_filter (p : Field × UTy → Bool) (ts : List (Field × UTy)) : countL (ts.filter p) ≤ countL ts := by
  induction ts with
  | nil => simp
  | cons x ts ih =>
    obtain ⟨f, t⟩ := x
    rw [List.filter_cons]
    split <;> simp only [countL] <;> omega

theorem countL_remove {f : Field} {t : UTy} {ts : List (Field × UTy)} (h : (f, t) ∈ ts) :
    countL (ts.filter fun e => e.1 != f) + t.count ≤ countL ts := by
  obtain ⟨a, b, rfl⟩ := List.append_of_mem h
  have h1 := countL_filter (fun e => e.1 != f) a
  have h2 := countL_filter (fun e => e.1 != f) b
  simp only [List.filter_append, List.filter_cons, bne_self_eq_false, Bool.false_eq_true, if_false, countL_append, countL]
  omega

theorem reorder_keys {types : List (Field × UTy)} : ∀ {fs : List Field} {r : List (Field × UTy)}, reorder types fs = .ok r →
    r.map (·.1) = fs ∧ ∀ e ∈ r, e ∈ types := by
  intro fs
  induction fs with
  | nil => intro r h; cases h; simp
  | cons f fs ih =>
    intro r h
    rw [reorder] at h
    split at h
    · rename_i e he
      simp only [bind, Except.bind, pure, Except.pure] at h
      split at h
      · cases h
      rename_i r' hr'
      cases h
      obtain ⟨h1, h2⟩ := ih hr'
      have hm := List.mem_of_find?_eq_some he
      have hk := List.find?_some he
      simp only [beq_iff_eq] at hk
      refine ⟨by simp [h1, hk], ?_⟩
      intro x hx
      rcases List.mem_cons.mp hx with rfl | hx
      · exact hm
      · exact h2 x hx
    · cases h

theorem create_count {k : Nat} {id : ID} {links : List Link} {types : List (Field × UTy)} {m : UMsg} (h : create k id links types = .ok m) :
    countL m.types ≤ countL types := by
  simp only [create, bind, Except.bind, pure, Except.pure] at h
  split at h
  · cases h
  split at h
  · cases h
  split at h
  · cases h
  split at h
  · cases h
  rename_i r hr
  cases h
  obtain ⟨h1, h2⟩ := reorder_keys hr
  exact countL_sub (by rw [h1]; exact nodup_dedup _) h2

theorem typed_count {pre : PyStr} {ts : List (Field × UTy)} : ∀ {ts' : List (Field × UTy)},
    ts.mapM (fun e => do return (← prefixField pre e.1, e.2)) = .ok ts' → countL ts' = countL ts := by
  induction ts with
  | nil => intro ts' h; cases h; rfl
  | cons t ts ih =>
    intro ts' h
    rw [List.mapM_cons] at h
    simp only [bind, Except.bind, pure, Except.pure] at h
    split at h
    · cases h
    rename_i x hx
    split at hx
    · cases hx
    cases hx
    split at h
    · cases h
    rename_i r hr
    cases h
    obtain ⟨f, t⟩ := t
    simp only [countL]
    rw [ih hr]

theorem mergeField_count {s : Solver} {h : List PyStr → Int} {k : Nat} {m im m' : UMsg} {f : Field} (hf : (f, im.toTy) ∈ m.types)
    (hmf : mergeField s h k m f im = .ok m') : countL m'.types < countL m.types := by
  obtain ⟨inner, outer, links, types, hinner, _, _, hprune, _, hcreate⟩ := mergeField_ok hmf
  have h1 := create_count hcreate
  obtain ⟨_, _, types', _, _, ht, hcr⟩ := prefixed_ok hinner
  have h2 := create_count hcr
  have h3 := typed_count ht
  have h4 := countL_remove hf
  simp only [UMsg.toTy, UTy.count] at h4
  simp only [prune, bind, Except.bind, pure, Except.pure] at hprune
  split at hprune
  · cases hprune
  simp only [Except.ok.injEq, Prod.mk.injEq] at hprune
  obtain ⟨_, rfl⟩ := hprune
  refine Nat.lt_of_le_of_lt (Nat.le_trans h1 (countL_filter _ _)) ?_
  rw [countL_append]
  omega

/-- The loop of `merged` ends: more iterations than there are embedded messages, at all depths, change nothing, and a bound is
only reached inside of the replacement of a field (the topological sort of the fields or `field_condition`, whose bound `k` is
separate). -/
theorem C21_terminates (s : Solver) (h : List PyStr → Int) (k : Nat) (m : UMsg) :
    (∀ n, countL m.types < n → mergeLoop s h k n m = m.merged s h k) ∧
      (m.merged s h k = .error .fuel → ∃ m1 f im, mergeField s h k m1 f im = .error .fuel) := by
  have h1 : ∀ n1 n2 m, countL m.types < n1 → countL m.types < n2 → mergeLoop s h k n1 m = mergeLoop s h k n2 m := by
    intro n1
    induction n1 with
    | zero => intro n2 m g; omega
    | succ n1 ih =>
      intro n2 m g1 g2
      cases n2 with
      | zero => omega
      | succ n2 =>
        rw [mergeLoop, mergeLoop]
        split
        · rfl
        · rename_i f im hs
          simp only [bind, Except.bind]
          split
          · rfl
          · rename_i m1 hm1
            have := mergeField_count (firstMessage_some hs) hm1
            exact ih n2 m1 (by omega) (by omega)
  refine ⟨fun n hn => h1 _ _ m hn (by omega), ?_⟩
  have h2 : ∀ n m, countL m.types < n → mergeLoop s h k n m = .error .fuel → ∃ m1 f im, mergeField s h k m1 f im = .error .fuel := by
    intro n
    induction n with
    | zero => intro m g; omega
    | succ n ih =>
      intro m g1 g2
      rw [mergeLoop] at g2
      split at g2
      · cases g2
      · rename_i f im hs
        simp only [bind, Except.bind] at g2
        split at g2
        · rename_i e he
          cases g2
          exact ⟨_, _, _, he⟩
        · rename_i m1 hm1
          have := mergeField_count (firstMessage_some hs) hm1
          exact ih m1 (by omega) g2
  exact h2 _ m (by omega)

end Verif.Merge
