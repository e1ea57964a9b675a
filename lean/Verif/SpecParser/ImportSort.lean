import Verif.SpecParser.ImportLemmas

/-! # Lemmas: the topological sort of specifications, termination -/

namespace Verif.SpecParser
open Verif

/-! ## Sorting -/

/-- Every entry comes after its withed files. -/
structure Ordered (d : Specs) : Prop where
  nodup : d.keys.Nodup
  order : ∀ xs k n ys, d = xs ++ (k, n) :: ys → ∀ w ∈ n.withed, w ∈ Specs.keys xs

theorem mem_incoming {d : Specs} {e b : PyStr} : b ∈ incoming d e ↔ ∃ n, (b, n) ∈ d ∧ e ∈ n.withed := by
  simp [incoming, mem_keys]

/-- The position of a key. -/
def rank (d : Specs) (k : PyStr) : Nat := d.keys.idxOf k

theorem rank_lt {d : Specs} (h : Ordered d) {k : PyStr} {n : Node} (hk : (k, n) ∈ d) {w : PyStr} (hw : w ∈ n.withed) :
    rank d w < rank d k := by
  obtain ⟨xs, ys, rfl⟩ := List.append_of_mem hk
  have h1 := h.order xs k n ys rfl w hw
  have hn := h.nodup
  have hkeys : Specs.keys (xs ++ (k, n) :: ys) = Specs.keys xs ++ k :: Specs.keys ys := by simp [Specs.keys]
  rw [hkeys, List.nodup_append] at hn
  have hkx : k ∉ Specs.keys xs := fun hm => hn.2.2 k hm k (by simp) rfl
  simp only [rank, hkeys]
  rw [List.idxOf_append, if_pos h1, List.idxOf_append, if_neg hkx]
  have := List.idxOf_lt_length_of_mem h1
  omega

/-- Bound of the number of withed files. -/
def width (d : Specs) : Nat := (d.map fun e => e.2.withed.length).sum

theorem width_le {d : Specs} {e : PyStr × Node} (h : e ∈ d) : e.2.withed.length ≤ width d := by
  induction d with
  | nil => simp at h
  | cons x d ih =>
    simp only [width, List.map_cons, List.sum_cons]
    rcases List.mem_cons.mp h with rfl | h
    · omega
    · have := ih h
      simp only [width] at this
      omega

/-- The work caused by a queue. -/
def work (d : Specs) (q : List PyStr) : Nat := (q.map fun k => (width d + 1) ^ rank d k).sum

theorem visitAll_spec (d : Specs) (es : List PyStr) : ∀ q v, ∃ added, (visitAll d es q v).1 = q ++ added ∧
    added.length ≤ es.length ∧ (∀ x ∈ added, x ∈ es ∧ x ∈ d.keys) ∧
    (∀ x, x ∈ v ∨ x ∈ es → x ∈ (visitAll d es q v).2) ∧
    ∀ e ∈ es, e ∈ d.keys → (∀ i ∈ incoming d e, i ∈ v) → e ∈ added := by
  induction es with
  | nil => intro q v; exact ⟨[], by simp [visitAll], by simp, by simp, by simp [visitAll], by simp⟩
  | cons e es ih =>
    intro q v
    simp only [visitAll]
    by_cases hc : e ∈ d.keys ∧ ∀ i ∈ incoming d e, i ∈ e :: v
    · rw [if_pos hc]
      obtain ⟨added, h1, h2, h3, h4, h5⟩ := ih (q ++ [e]) (e :: v)
      refine ⟨e :: added, by rw [h1]; simp, by simp; exact h2, ?_, ?_, ?_⟩
      · intro x hx
        rcases List.mem_cons.mp hx with rfl | hx
        · exact ⟨by simp, hc.1⟩
        · exact ⟨by simp [(h3 x hx).1], (h3 x hx).2⟩
      · intro x hx
        apply h4
        simp only [List.mem_cons] at hx ⊢
        grind
      · intro x hx hk hi
        rcases List.mem_cons.mp hx with rfl | hx
        · simp
        · exact List.mem_cons_of_mem _ (h5 x hx hk (fun i hi' => by simp [hi i hi']))
    · rw [if_neg hc]
      obtain ⟨added, h1, h2, h3, h4, h5⟩ := ih q (e :: v)
      refine ⟨added, h1, by simp; omega, ?_, ?_, ?_⟩
      · intro x hx
        exact ⟨by simp [(h3 x hx).1], (h3 x hx).2⟩
      · intro x hx
        apply h4
        simp only [List.mem_cons] at hx ⊢
        grind
      · intro x hx hk hi
        rcases List.mem_cons.mp hx with rfl | hx
        · exact absurd ⟨hk, fun i hi' => by simp [hi i hi']⟩ hc
        · exact h5 x hx hk (fun i hi' => by simp [hi i hi'])

theorem split_first {x : PyStr} {l : List PyStr} (h : x ∈ l) : ∃ xs ys, l = xs ++ x :: ys ∧ x ∉ xs := by
  induction l with
  | nil => simp at h
  | cons a l ih =>
    by_cases he : x = a
    · exact ⟨[], l, by simp [he], by simp⟩
    · obtain ⟨xs, ys, h1, h2⟩ := ih (by simpa [he] using h)
      exact ⟨a :: xs, ys, by simp [h1], by simp [he, h2]⟩

/-- The invariant of the loop. -/
structure Inv (d : Specs) (q result visited : List PyStr) : Prop where
  queue : ∀ x ∈ q, x ∈ d.keys ∧ x ∈ visited
  popped : ∀ x ∈ result, x ∈ d.keys ∧ x ∈ visited
  roots : ∀ x ∈ d.keys, incoming d x = [] → x ∈ q ∨ x ∈ result
  order : ∀ s n, (s, n) ∈ d → ∀ e ∈ n.withed, e ∈ d.keys → ∀ xs ys, result = xs ++ s :: ys → s ∉ xs →
    e ∈ q ∨ e ∈ xs ∨ ∃ b ∈ incoming d e, b ∉ result

theorem inv_step {d : Specs} (hd : Ordered d) {s : PyStr} {n : Node} {q result visited : List PyStr}
    (hs : (s, n) ∈ d) (h : Inv d (s :: q) result visited) :
    Inv d (visitAll d n.withed q visited).1 (s :: result) (visitAll d n.withed q visited).2 := by
  obtain ⟨added, h1, h2, h3, h4, h5⟩ := visitAll_spec d n.withed q visited
  rw [h1]
  have hsv := h.queue s (by simp)
  refine ⟨?_, ?_, ?_, ?_⟩
  · intro x hx
    rcases List.mem_append.mp hx with hx | hx
    · have := h.queue x (by simp [hx])
      exact ⟨this.1, h4 x (.inl this.2)⟩
    · exact ⟨(h3 x hx).2, h4 x (.inr (h3 x hx).1)⟩
  · intro x hx
    rcases List.mem_cons.mp hx with rfl | hx
    · exact ⟨hsv.1, h4 _ (.inl hsv.2)⟩
    · have := h.popped x hx
      exact ⟨this.1, h4 x (.inl this.2)⟩
  · intro x hx hi
    rcases h.roots x hx hi with hq | hr
    · rcases List.mem_cons.mp hq with rfl | hq
      · exact .inr (by simp)
      · exact .inl (by simp [hq])
    · exact .inr (by simp [hr])
  · -- a file withed by `s` is queued or waits for another file
    have hnew : ∀ e ∈ n.withed, e ∈ d.keys → e ∈ q ++ added ∨ ∃ b ∈ incoming d e, b ∉ s :: result := by
      intro e he hk
      by_cases hall : ∀ b ∈ incoming d e, b ∈ s :: result
      · left
        refine List.mem_append.mpr (.inr (h5 e he hk ?_))
        intro i hi
        rcases List.mem_cons.mp (hall i hi) with rfl | hr
        · exact hsv.2
        · exact (h.popped i hr).2
      · right
        simp only [Classical.not_forall] at hall
        obtain ⟨b, hb, hb'⟩ := hall
        exact ⟨b, hb, hb'⟩
    intro t m ht e he hk xs ys hr hx
    have hte : rank d e < rank d t := rank_lt hd ht he
    cases xs with
    | nil =>
      simp only [List.nil_append, List.cons.injEq] at hr
      obtain ⟨rfl, rfl⟩ := hr
      have : m = n := by
        have h6 := get_of_mem hd.nodup ht
        rw [get_of_mem hd.nodup hs] at h6
        simpa using h6.symm
      subst this
      rcases hnew e he hk with h' | h'
      · exact .inl h'
      · exact .inr (.inr h')
    | cons x xs =>
      simp only [List.cons_append, List.cons.injEq] at hr
      obtain ⟨rfl, hr⟩ := hr
      have hx' : t ∉ xs := fun hm => hx (by simp [hm])
      rcases h.order t m ht e he hk xs ys hr hx' with h' | h' | ⟨b, hb, hb'⟩
      · rcases List.mem_cons.mp h' with rfl | h'
        · exact .inr (.inl (by simp))
        · exact .inl (by simp [h'])
      · exact .inr (.inl (by simp [h']))
      · by_cases hbs : b = s
        · subst hbs
          obtain ⟨m', hm', he'⟩ := mem_incoming.mp hb
          have : m' = n := by
            have h6 := get_of_mem hd.nodup hm'
            rw [get_of_mem hd.nodup hs] at h6
            simpa using h6.symm
          subst this
          rcases hnew e he' hk with h' | h'
          · exact .inl h'
          · exact .inr (.inr h')
        · exact .inr (.inr ⟨b, hb, by simp [hbs, hb']⟩)

theorem work_step {d : Specs} (hd : Ordered d) {s : PyStr} {n : Node} (hs : (s, n) ∈ d) {added : List PyStr}
    (hl : added.length ≤ n.withed.length) (ha : ∀ x ∈ added, x ∈ n.withed) (q : List PyStr) :
    work d (q ++ added) < work d (s :: q) := by
  have hb : ∀ l : List PyStr, (∀ x ∈ l, x ∈ n.withed) → work d l * (width d + 1) ≤ l.length * (width d + 1) ^ rank d s := by
    intro l
    induction l with
    | nil => simp [work]
    | cons x l ih =>
      intro hl
      have h1 := ih (fun x hx => hl x (by simp [hx]))
      have h2 := rank_lt hd hs (hl x (by simp))
      have h3 : (width d + 1) ^ rank d x * (width d + 1) ≤ (width d + 1) ^ rank d s := by
        rw [← Nat.pow_succ]
        exact Nat.pow_le_pow_right (by omega) h2
      simp only [work, List.map_cons, List.sum_cons, List.length_cons] at h1 ⊢
      rw [Nat.add_mul, Nat.add_mul]
      omega
  have h1 := hb added ha
  have h2 := width_le hs
  have h3 : work d (q ++ added) = work d q + work d added := by simp [work]
  have h4 : work d (s :: q) = (width d + 1) ^ rank d s + work d q := by simp [work]
  rw [h3, h4]
  have h5 : added.length * (width d + 1) ^ rank d s ≤ width d * (width d + 1) ^ rank d s :=
    Nat.mul_le_mul_right _ (by simp only at h2; omega)
  have hpos : 0 < (width d + 1) ^ rank d s := Nat.pow_pos (by omega)
  have h6 : work d added * (width d + 1) < (width d + 1) ^ rank d s * (width d + 1) := by
    calc work d added * (width d + 1) ≤ width d * (width d + 1) ^ rank d s := Nat.le_trans h1 h5
      _ < (width d + 1) ^ rank d s * (width d + 1) := by
        rw [Nat.mul_comm, Nat.mul_add]
        omega
  have := Nat.lt_of_mul_lt_mul_right h6
  omega

theorem sortLoop_ok {d : Specs} (hd : Ordered d) (m : Nat) : ∀ q result visited, work d q ≤ m →
    Inv d q result visited → ∃ r v, Inv d [] r v ∧ ∀ k, m ≤ k → sortLoop d k q result visited = .ok r := by
  induction m using Nat.strongRecOn with
  | ind m ih =>
    intro q result visited hm hi
    cases q with
    | nil =>
      refine ⟨result, visited, hi, fun k _ => ?_⟩
      cases k <;> rfl
    | cons s q =>
      obtain ⟨n, hs⟩ := mem_keys.mp (hi.queue s (by simp)).1
      obtain ⟨added, h1, h2, h3, _⟩ := visitAll_spec d n.withed q visited
      have hlt := work_step hd hs h2 (fun x hx => (h3 x hx).1) q
      have hlt' : work d (visitAll d n.withed q visited).1 < m := by rw [h1]; omega
      obtain ⟨r, v, h4, h5⟩ := ih _ hlt' _ _ _ (Nat.le_refl _) (inv_step hd hs hi)
      refine ⟨r, v, h4, ?_⟩
      intro k hk
      obtain ⟨k, rfl⟩ : ∃ j, k = j + 1 := ⟨k - 1, by omega⟩
      simp only [sortLoop, get_of_mem hd.nodup hs]
      exact h5 k (by omega)

theorem inv_initial {d : Specs} :
    Inv d (d.keys.filter fun f => (incoming d f).isEmpty) [] (d.keys.filter fun f => (incoming d f).isEmpty) := by
  refine ⟨?_, by simp, ?_, by simp⟩
  · intro x hx
    exact ⟨(List.mem_filter.mp hx).1, hx⟩
  · intro x hx hi
    exact .inl (List.mem_filter.mpr ⟨hx, by simp [hi]⟩)

theorem inv_all {d : Specs} (hd : Ordered d) {r v : List PyStr} (h : Inv d [] r v) (m : Nat) :
    ∀ x ∈ d.keys, d.keys.length - rank d x ≤ m → x ∈ r := by
  induction m using Nat.strongRecOn with
  | ind m ih =>
    intro x hx hm
    cases hi : incoming d x with
    | nil => exact (h.roots x hx hi).resolve_left (by simp)
    | cons b bs =>
      have hb : ∀ b ∈ incoming d x, b ∈ r := by
        intro b hb
        obtain ⟨n, hn, hxn⟩ := mem_incoming.mp hb
        have hlt := rank_lt hd hn hxn
        have hbk : b ∈ d.keys := mem_keys.mpr ⟨n, hn⟩
        have : rank d b < d.keys.length := List.idxOf_lt_length_of_mem hbk
        exact ih (d.keys.length - rank d b) (by omega) b hbk (Nat.le_refl _)
      have hbm : b ∈ incoming d x := by rw [hi]; simp
      obtain ⟨n, hn, hxn⟩ := mem_incoming.mp hbm
      have hbr := hb b hbm
      obtain ⟨xs, ys, hsp, hnot⟩ : ∃ xs ys, r = xs ++ b :: ys ∧ b ∉ xs := split_first hbr
      rcases h.order b n hn x hxn hx xs ys hsp hnot with h' | h' | ⟨c, hc, hc'⟩
      · simp at h'
      · rw [hsp]; simp [h']
      · exact absurd (hb c hc) hc'

theorem mem_firsts {l : List PyStr} {x : PyStr} : x ∈ firsts l ↔ x ∈ l := by
  induction l with
  | nil => simp [firsts]
  | cons a l ih =>
    simp only [firsts, List.mem_cons, List.mem_filter, ih, bne_iff_ne, ne_eq]
    by_cases h : x = a <;> simp [h]

theorem nodup_firsts (l : List PyStr) : (firsts l).Nodup := by
  induction l with
  | nil => simp [firsts]
  | cons a l ih =>
    simp only [firsts, List.nodup_cons]
    exact ⟨by simp, ih.filter _⟩

theorem firsts_split {s : PyStr} (xs ys : List PyStr) (h : s ∉ xs) : ∃ zs, firsts (xs ++ s :: ys) = firsts xs ++ s :: zs := by
  induction xs with
  | nil => exact ⟨_, rfl⟩
  | cons x xs ih =>
    simp only [List.mem_cons, not_or] at h
    obtain ⟨zs, hz⟩ := ih h.2
    refine ⟨zs.filter (· != x), ?_⟩
    simp only [List.cons_append, firsts, hz, List.filter_append, List.filter_cons]
    have : (s != x) = true := by simpa using h.1
    simp [this]

theorem mapM_get {d : Specs} (l : List PyStr) (h : ∀ x ∈ l, x ∈ d.keys) :
    ∃ d', l.mapM (fun f => match d.get? f with
      | some n => (.ok (f, n) : Py (PyStr × Node))
      | none => .error .keyError) = .ok d' ∧ Specs.keys d' = l ∧ ∀ e ∈ d', e ∈ d := by
  induction l with
  | nil => exact ⟨[], rfl, rfl, by simp⟩
  | cons x l ih =>
    obtain ⟨d', h1, h2, h3⟩ := ih (fun x hx => h x (by simp [hx]))
    obtain ⟨n, hn⟩ := get_isSome.mpr (h x (by simp))
    refine ⟨(x, n) :: d', ?_, ?_, ?_⟩
    · rw [List.mapM_cons, hn, h1]; rfl
    · simp only [Specs.keys] at h2 ⊢
      simp [h2]
    · intro e he
      rcases List.mem_cons.mp he with rfl | he
      · exact get_mem hn
      · exact h3 e he

/-- `a` comes before `b` in the list. -/
def Before (l : List PyStr) (a b : PyStr) : Prop := ∃ xs ys zs, l = xs ++ a :: ys ++ b :: zs

theorem sortSpecs_ok {d : Specs} (hd : Ordered d) : ∃ d' K, (∀ k, K ≤ k → sortSpecs d k = .ok d') ∧ d'.keys.Nodup ∧
    (∀ e, e ∈ d' ↔ e ∈ d) ∧ ∀ s n, (s, n) ∈ d → ∀ e ∈ n.withed, e ∈ d.keys → Before d'.keys e s := by
  obtain ⟨r, v, hi, hk⟩ := sortLoop_ok hd _ _ _ _ (Nat.le_refl _) (inv_initial (d := d))
  have hall : ∀ x ∈ d.keys, x ∈ r := fun x hx => inv_all hd hi _ x hx (Nat.le_refl _)
  obtain ⟨d', h1, h2, h3⟩ := mapM_get (d := d) (firsts r) (fun x hx => (hi.popped x (mem_firsts.mp hx)).1)
  refine ⟨d', work d (d.keys.filter fun f => (incoming d f).isEmpty), ?_, by rw [h2]; exact nodup_firsts r, ?_, ?_⟩
  · intro k hk'
    simp only [sortSpecs, hk k hk']
    exact h1
  · rintro ⟨s, n⟩
    refine ⟨h3 _, fun hm => ?_⟩
    have : s ∈ d'.keys := by
      rw [h2, mem_firsts]
      exact hall s (mem_keys.mpr ⟨n, hm⟩)
    obtain ⟨n', hn'⟩ := mem_keys.mp this
    have h6 := get_of_mem hd.nodup (h3 _ hn')
    rw [get_of_mem hd.nodup hm] at h6
    simp only [Option.some.injEq] at h6
    rw [h6]; exact hn'
  · intro s n hs e he hk'
    obtain ⟨xs, ys, hr, hx⟩ := split_first (hall s (mem_keys.mpr ⟨n, hs⟩))
    rcases hi.order s n hs e he hk' xs ys hr hx with h | h | ⟨b, hb, hb'⟩
    · simp at h
    · obtain ⟨zs, hz⟩ := firsts_split xs ys hx
      obtain ⟨us, ws, hw⟩ := List.append_of_mem (mem_firsts.mpr h)
      refine ⟨us, ws, zs, ?_⟩
      rw [h2, hr, hz, hw]
    · obtain ⟨m, hm, _⟩ := mem_incoming.mp hb
      exact absurd (hall b (mem_keys.mpr ⟨m, hm⟩)) hb'

/-! ## Termination of reading -/

/-- The items not yet on the chain of packages. -/
def missing (items tr : List ID) : Nat := (items.filter fun j => !isIn j tr).length

theorem missing_lt {items tr : List ID} {i j : ID} (hj : j ∈ items) (hij : i.eq j = true) (h : isIn i tr = false) :
    missing items (tr ++ [i]) < missing items tr := by
  have key : ∀ a b : ID, a.eq b = true ↔ a.key = b.key := ID.eq_iff_key
  have hsub : ∀ l : List ID, (l.filter fun j => !isIn j (tr ++ [i])).length ≤ (l.filter fun j => !isIn j tr).length ∧
      (j ∈ l → (l.filter fun j => !isIn j (tr ++ [i])).length < (l.filter fun j => !isIn j tr).length) := by
    intro l
    induction l with
    | nil => simp
    | cons a l ih =>
      have hmono : isIn a tr = true → isIn a (tr ++ [i]) = true := by
        simp only [isIn, List.any_append]
        intro h; simp [h]
      constructor
      · simp only [List.filter_cons]
        cases h1 : isIn a tr with
        | true => simp [hmono h1, ih.1]
        | false =>
          cases h2 : isIn a (tr ++ [i]) <;> simp [ih.1]
          exact Nat.le_trans ih.1 (Nat.le_succ _)
      · intro hm
        simp only [List.filter_cons]
        by_cases haj : a = j
        · subst haj
          have h1 : isIn a (tr ++ [i]) = true := by
            simp only [isIn, List.any_append, List.any_cons, List.any_nil, Bool.or_false, Bool.or_eq_true]
            right
            rw [key] at hij ⊢
            exact hij.symm
          have h2 : isIn a tr = false := by
            simp only [isIn, List.any_eq_false] at h ⊢
            intro x hx hax
            apply h x hx
            rw [key] at hij hax ⊢
            exact hij.trans hax
          simp only [h1, h2]
          simp
          exact Nat.lt_succ_of_le ih.1
        · have hm' : j ∈ l := by
            rcases List.mem_cons.mp hm with h | h
            · exact absurd h.symm haj
            · exact h
          have := ih.2 hm'
          cases h1 : isIn a tr with
          | true => simp [hmono h1, this]
          | false =>
            cases h2 : isIn a (tr ++ [i]) <;> simp <;> omega
  exact (hsub items).2 hj

theorem contextLoop_returns {rec : Path → List ID → Specs → Py (List Err × Specs)} {dir : PyStr} {tr : List ID}
    (items : List ID) (h : ∀ i ∈ items, isIn i tr = false → ∀ f d, ∃ r, rec f (tr ++ [i]) d = .ok r) :
    ∀ errs withed d, ∃ r, contextLoop rec dir tr items errs withed d = .ok r := by
  induction items with
  | nil => intro errs withed d; exact ⟨_, rfl⟩
  | cons i items ih =>
    intro errs withed d
    have ih' := ih (fun i hi => h i (by simp [hi]))
    simp only [contextLoop]
    split
    · exact ih' _ _ _
    · rename_i hn
      split
      · exact ih' _ _ _
      · obtain ⟨r, hr⟩ := h i (by simp) (by simpa using hn) ⟨dir, rflx i.str⟩ d
        rw [hr]
        exact ih' _ _ _

/-- Only finitely many packages are mentioned in `with` clauses. -/
def Finite (fs : Files) (items : List ID) : Prop := ∀ f s, fs f = .spec s → ∀ i ∈ s.context, ∃ j ∈ items, i.eq j = true

theorem parseFile_returns {fs : Files} {items : List ID} (hf : Finite fs items) (m : Nat) :
    ∀ f tr d, missing items tr < m → ∃ r, parseFile fs m f tr d = .ok r := by
  induction m with
  | zero => intro f tr d h; omega
  | succ m ih =>
    intro f tr d h
    simp only [parseFile]
    split
    · exact ⟨_, rfl⟩
    · exact ⟨_, rfl⟩
    · rename_i s hs
      obtain ⟨r, hr⟩ := contextLoop_returns (rec := parseFile fs m) (dir := f.dir) (tr := tr) s.context (by
        intro i hi hn f' d'
        obtain ⟨j, hj, hij⟩ := hf f s hs i hi
        have := missing_lt hj hij hn
        exact ih f' _ d' (by omega)) (checkNaming s f) [] d
      rw [hr]
      exact ⟨_, rfl⟩

theorem contextLoop_mono {rec rec' : Path → List ID → Specs → Py (List Err × Specs)}
    (h : ∀ f tr d r, rec f tr d = .ok r → rec' f tr d = .ok r) {dir : PyStr} {tr : List ID} (items : List ID) :
    ∀ errs withed d r, contextLoop rec dir tr items errs withed d = .ok r →
      contextLoop rec' dir tr items errs withed d = .ok r := by
  induction items with
  | nil => intro errs withed d r hr; exact hr
  | cons i items ih =>
    intro errs withed d r hr
    simp only [contextLoop] at hr ⊢
    split
    · rename_i h1; rw [if_pos h1] at hr; exact ih _ _ _ _ hr
    · rename_i h1
      rw [if_neg h1] at hr
      split
      · rename_i h2; rw [if_pos h2] at hr; exact ih _ _ _ _ hr
      · rename_i h2
        rw [if_neg h2] at hr
        cases hc : rec ⟨dir, rflx i.str⟩ (tr ++ [i]) d with
        | error e => rw [hc] at hr; cases hr
        | ok x =>
          rw [hc] at hr
          rw [h _ _ _ _ hc]
          exact ih _ _ _ _ hr

theorem parseFile_mono (fs : Files) (k : Nat) : ∀ k', k ≤ k' → ∀ f tr d r, parseFile fs k f tr d = .ok r →
    parseFile fs k' f tr d = .ok r := by
  induction k with
  | zero => intro k' _ f tr d r h; simp [parseFile] at h
  | succ k ih =>
    intro k' hk f tr d r h
    obtain ⟨k', rfl⟩ : ∃ j, k' = j + 1 := ⟨k' - 1, by omega⟩
    simp only [parseFile] at h ⊢
    cases hf : fs f with
    | bad => rw [hf] at h; exact h
    | empty => rw [hf] at h; exact h
    | spec s =>
      rw [hf] at h
      simp only at h ⊢
      cases hc : contextLoop (parseFile fs k) f.dir tr s.context (checkNaming s f) [] d with
      | error e => rw [hc] at h; cases h
      | ok x =>
        rw [hc] at h
        rw [contextLoop_mono (ih k' (by omega)) _ _ _ _ _ hc]
        exact h

theorem parseFiles_returns {fs : Files} {items : List ID} (hf : Finite fs items) (files : List Path) :
    ∀ errs d, ∃ r, ∀ k, items.length < k → parseFiles fs k files errs d = .ok r := by
  induction files with
  | nil => intro errs d; exact ⟨_, fun _ _ => rfl⟩
  | cons f files ih =>
    intro errs d
    obtain ⟨⟨es, d1⟩, h1⟩ := parseFile_returns hf (items.length + 1) f [] d (by
      have : missing items [] ≤ items.length := List.length_filter_le _ _
      omega)
    obtain ⟨r, hr⟩ := ih (errs ++ es) d1
    refine ⟨r, fun k hk => ?_⟩
    simp only [parseFiles, parseFile_mono fs _ k (by omega) _ _ _ _ h1]
    exact hr k hk

end Verif.SpecParser
