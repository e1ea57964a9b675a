import Verif.Refine.Model

/-! # C58: names of the functions of refinements -/

namespace Verif.Refine
open Verif Verif.Graph Verif.Verify Verif.Types Verif.Gen Verif.Spark Verif.Ctx

/-- A word without underscores that is not the reserved word `in`, see `C58_name_counterexample`. -/
def Simple (s : PyStr) : Prop := (∀ c ∈ s, c.isAlphanum = true) ∧ s.map Char.toLower ≠ ['i', 'n']

/-- The identifier of a message: a package and a name. -/
def SimpleId (i : ID) : Prop := ∃ p n, i = ⟨[p, n]⟩ ∧ Simple p ∧ Simple n

namespace Names

/-- Words separated by underscores. -/
def joined : List PyStr → PyStr
  | [] => []
  | [w] => w
  | w :: v :: ws => w ++ '_' :: joined (v :: ws)

theorem joined_inj : ∀ {l l' : List PyStr}, l ≠ [] → l' ≠ [] → (∀ w ∈ l, '_' ∉ w) → (∀ w ∈ l', '_' ∉ w) → joined l = joined l' → l = l'
  | [], _, h, _, _, _, _ => absurd rfl h
  | _ :: _, [], _, h, _, _, _ => absurd rfl h
  | [w], [w'], _, _, _, _, h => by simpa [joined] using h
  | [w], w' :: v' :: l', _, _, h1, _, h => by
    simp only [joined] at h
    exact absurd (by rw [h]; simp) (h1 w List.mem_cons_self)
  | w :: v :: l, [w'], _, _, _, h2, h => by
    simp only [joined] at h
    exact absurd (by rw [← h]; simp) (h2 w' List.mem_cons_self)
  | w :: v :: l, w' :: v' :: l', _, _, h1, h2, h => by
    simp only [joined] at h
    have key : ∀ {a a' b b' : PyStr}, '_' ∉ a → '_' ∉ a' → a ++ '_' :: b = a' ++ '_' :: b' → a = a' ∧ b = b' := by
      intro a
      induction a with
      | nil =>
        intro a' b b' _ h2 h
        cases a' with
        | nil => simpa using h
        | cons c a' =>
          simp only [List.nil_append, List.cons_append, List.cons.injEq] at h
          exact absurd (by rw [h.1]; exact List.mem_cons_self) h2
      | cons c a ih =>
        intro a' b b' h1 h2 h
        cases a' with
        | nil =>
          simp only [List.nil_append, List.cons_append, List.cons.injEq] at h
          exact absurd (by rw [h.1]; exact List.mem_cons_self) h1
        | cons c' a' =>
          simp only [List.cons_append, List.cons.injEq] at h
          obtain ⟨e1, e2⟩ := ih (fun hm => h1 (List.mem_cons_of_mem _ hm)) (fun hm => h2 (List.mem_cons_of_mem _ hm)) h.2
          exact ⟨by rw [h.1, e1], e2⟩
    obtain ⟨e1, e2⟩ := key (h1 w List.mem_cons_self) (h2 w' List.mem_cons_self) h
    rw [e1, joined_inj (by simp) (by simp) (fun x hx => h1 x (List.mem_cons_of_mem _ hx)) (fun x hx => h2 x (List.mem_cons_of_mem _ hx)) e2]

theorem joined_lower : ∀ l : List PyStr, (joined l).map Char.toLower = joined (l.map (List.map Char.toLower))
  | [] => rfl
  | [_] => rfl
  | w :: v :: l => by
    have := joined_lower (v :: l)
    simp only [joined, List.map_append, List.map_cons] at this ⊢
    rw [this]
    rfl

theorem subSep_append {r : Char} {a s : PyStr} (h : ∀ c ∈ a, c ≠ '.' ∧ c ≠ ':') : subSep r (a ++ s) = a ++ subSep r s := by
  induction a with
  | nil => rfl
  | cons c a ih =>
    obtain ⟨h1, h2⟩ := h c List.mem_cons_self
    rw [List.cons_append, subSep.eq_3 _ _ _ (by intro t e _; exact h2 e), if_neg h1, ih fun c hc => h c (List.mem_cons_of_mem _ hc)]
    rfl

theorem plain {s : PyStr} (h : Simple s) : ∀ c ∈ s, c ≠ '.' ∧ c ≠ ':' := by
  intro c hc
  have := h.1 c hc
  constructor <;> rintro rfl <;> revert this <;> decide

theorem lower_no_underscore {s : PyStr} (h : Simple s) : '_' ∉ s.map Char.toLower := by
  intro hm
  obtain ⟨c, hc, e⟩ := List.mem_map.mp hm
  have := h.1 c hc
  have hl : c.toLower = '_' → c.isAlphanum = false := by
    intro e
    by_cases hu : c.isUpper = true
    · exfalso
      have h2 := hu
      simp only [Char.isUpper, Bool.and_eq_true, decide_eq_true_eq] at h2
      rw [Char.toLower] at e
      split at e
      · rename_i hv
        have h3 := congrArg Char.val e
        have h4 := congrArg UInt32.toNat h3
        simp at h4
        have h5 := UInt32.le_iff_toNat_le.1 h2.1
        have h6 := UInt32.le_iff_toNat_le.1 h2.2
        simp at h5 h6
        omega
      · rename_i hv
        exact hv ⟨h2.1, h2.2⟩
    · have : c.toLower = c := by
        rw [Char.toLower]
        split
        · rename_i hv
          exact absurd (by simp only [Char.isUpper, Bool.and_eq_true, decide_eq_true_eq]; exact ⟨hv.1, hv.2⟩) hu
        · rfl
      rw [this] at e
      subst e
      decide
  rw [hl e] at this
  cases this

/-- The words of the name of a message. -/
def words (package p n : PyStr) : List PyStr := if p.lower = package.lower then [n] else [p, n]

theorem functionName_eq {r : Ref} {p n p' n' : PyStr} (hs : r.sduId = ⟨[p, n]⟩) (hp : r.pduId = ⟨[p', n']⟩) (h1 : Simple p) (h2 : Simple n)
    (h3 : Simple p') (h4 : Simple n') (h5 : Simple (r.pdu.m.spell r.field)) :
    r.functionName = joined (words r.package p n ++ [['I', 'n']] ++ words r.package p' n' ++ [r.pdu.m.spell r.field]) := by
  have e0 : subSep '_' (r.pdu.m.spell r.field) = r.pdu.m.spell r.field := by
    have := subSep_append (r := '_') (s := []) (plain h5)
    rw [List.append_nil] at this
    rw [this]
    simp [subSep]
  have e1 : ∀ s, subSep '_' ('_' :: s) = '_' :: subSep '_' s := fun s => by
    rw [subSep.eq_3 _ _ _ (by intro t e; exact absurd e (by decide)), if_neg (by decide)]
  have e2 : ∀ s, subSep '_' ('I' :: s) = 'I' :: subSep '_' s := fun s => by
    rw [subSep.eq_3 _ _ _ (by intro t e; exact absurd e (by decide)), if_neg (by decide)]
  have e3 : ∀ s, subSep '_' ('n' :: s) = 'n' :: subSep '_' s := fun s => by
    rw [subSep.eq_3 _ _ _ (by intro t e; exact absurd e (by decide)), if_neg (by decide)]
  have e4 : ∀ s, subSep '_' (':' :: ':' :: s) = '_' :: subSep '_' s := fun s => by rw [subSep.eq_2]
  unfold Ref.functionName shortName words
  simp only [hs, hp, packageOf, List.headD_cons, List.getLastD_cons, List.getLastD_nil, ID.str, joinSep, flatName]
  by_cases c1 : PyStr.lower p = PyStr.lower r.package <;> by_cases c2 : PyStr.lower p' = PyStr.lower r.package <;>
    simp only [c1, c2, if_true, if_false, List.append_assoc, List.cons_append, List.nil_append, subSep_append (plain h1), subSep_append (plain h2),
      subSep_append (plain h3), subSep_append (plain h4), e0, e1, e2, e3, e4, joined]

theorem split {a a' b b' : List PyStr} {x : PyStr} (h1 : x ∉ a) (h2 : x ∉ a') (h : a ++ x :: b = a' ++ x :: b') : a = a' ∧ b = b' := by
  induction a generalizing a' with
  | nil =>
    cases a' with
    | nil => simpa using h
    | cons y a' =>
      simp only [List.nil_append, List.cons_append, List.cons.injEq] at h
      exact absurd (by rw [h.1]; exact List.mem_cons_self) h2
  | cons y a ih =>
    cases a' with
    | nil =>
      simp only [List.nil_append, List.cons_append, List.cons.injEq] at h
      exact absurd (by rw [h.1]; exact List.mem_cons_self) h1
    | cons y' a' =>
      simp only [List.cons_append, List.cons.injEq] at h
      obtain ⟨e1, e2⟩ := ih (fun hm => h1 (List.mem_cons_of_mem _ hm)) (fun hm => h2 (List.mem_cons_of_mem _ hm)) h.2
      exact ⟨by rw [h.1, e1], e2⟩

theorem words_inj {k k' p n p' n' : PyStr} (hk : k.lower = k'.lower)
    (h : (words k p n).map (List.map Char.toLower) = (words k' p' n').map (List.map Char.toLower)) :
    ID.key ⟨[p, n]⟩ = ID.key ⟨[p', n']⟩ := by
  unfold words at h
  show [PyStr.lower p, PyStr.lower n] = [PyStr.lower p', PyStr.lower n']
  by_cases c1 : PyStr.lower p = PyStr.lower k <;> by_cases c2 : PyStr.lower p' = PyStr.lower k' <;> simp [c1, c2] at h
  · rw [c1, c2, hk]
    simpa [PyStr.lower] using h
  · simpa [PyStr.lower] using h

end Names

open Names in
/-- Functions of refinements in one package have names that differ, also in case, unless the field, the refined message and the message in the
field are the same. Missing: names with underscores, see `C58_name_counterexample`. -/
theorem C58_names_partial {r r' : Ref} (hp : r.package.map Char.toLower = r'.package.map Char.toLower)
    (h1 : SimpleId r.sduId) (h2 : SimpleId r.pduId) (h3 : Simple (r.pdu.m.spell r.field))
    (h1' : SimpleId r'.sduId) (h2' : SimpleId r'.pduId) (h3' : Simple (r'.pdu.m.spell r'.field))
    (h : r.functionName.map Char.toLower = r'.functionName.map Char.toLower) :
    r.sduId.parts.map (List.map Char.toLower) = r'.sduId.parts.map (List.map Char.toLower) ∧
    r.pduId.parts.map (List.map Char.toLower) = r'.pduId.parts.map (List.map Char.toLower) ∧
    (r.pdu.m.spell r.field).map Char.toLower = (r'.pdu.m.spell r'.field).map Char.toLower := by
  obtain ⟨p, n, e1, s1, s2⟩ := h1
  obtain ⟨q, m, e2, s3, s4⟩ := h2
  obtain ⟨p', n', e1', s1', s2'⟩ := h1'
  obtain ⟨q', m', e2', s3', s4'⟩ := h2'
  rw [functionName_eq e1 e2 s1 s2 s3 s4 h3, functionName_eq e1' e2' s1' s2' s3' s4' h3', joined_lower, joined_lower] at h
  have mem : ∀ {k p n : PyStr} {w}, Simple p → Simple n → w ∈ (words k p n).map (List.map Char.toLower) → '_' ∉ w ∧ w ≠ ['i', 'n'] := by
    intro k p n w hp hn hw
    obtain ⟨v, hv, rfl⟩ := List.mem_map.mp hw
    have : Simple v := by
      unfold words at hv
      split at hv
      · rw [List.mem_singleton] at hv
        rw [hv]; exact hn
      · rcases List.mem_cons.mp hv with rfl | hv
        · exact hp
        · rw [List.mem_singleton] at hv
          rw [hv]; exact hn
    exact ⟨lower_no_underscore this, this.2⟩
  have clean : ∀ {k p n q m f : PyStr}, Simple p → Simple n → Simple q → Simple m → Simple f →
      ∀ w ∈ (words k p n ++ [['I', 'n']] ++ words k q m ++ [f]).map (List.map Char.toLower), '_' ∉ w := by
    intro k p n q m f a1 a2 a3 a4 a5 w hw
    simp only [List.map_append, List.mem_append] at hw
    rcases hw with ((hw | hw) | hw) | hw
    · exact (mem a1 a2 hw).1
    · simp only [List.map_cons, List.map_nil, List.mem_singleton] at hw
      rw [hw]; decide
    · exact (mem a3 a4 hw).1
    · simp only [List.map_cons, List.map_nil, List.mem_singleton] at hw
      rw [hw]; exact lower_no_underscore a5
  have key := joined_inj (by simp) (by simp) (clean s1 s2 s3 s4 h3) (clean s1' s2' s3' s4' h3') h
  simp only [List.map_append, List.map_cons, List.map_nil, List.append_assoc, List.cons_append, List.nil_append] at key
  obtain ⟨k1, k2⟩ := split (fun hm => (mem s1 s2 hm).2 (by decide)) (fun hm => (mem s1' s2' hm).2 (by decide)) key
  obtain ⟨k3, k4⟩ := List.append_inj' k2 rfl
  have key : ∀ i : ID, i.key = i.parts.map (List.map Char.toLower) := fun _ => rfl
  refine ⟨?_, ?_, by simpa using k4⟩
  · rw [e1, e1']; exact words_inj hp k1
  · rw [e2, e2']; exact words_inj hp k3

end Verif.Refine
