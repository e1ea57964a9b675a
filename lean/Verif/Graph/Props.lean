import Verif.Graph.Lemmas

/-! # Property C14: order of the fields of accepted messages -/

namespace Verif.Graph
open Verif

/-! ## Lemmas -/

/-- What the constructor has checked when it returns without error. -/
structure Checked (m : Def) (fields R : List Field) (V : List Link) : Prop where
  valid : m.validate1 = .ok false
  inv : Inv m.links [] R V
  all : ∀ l ∈ m.links, ∃ v ∈ V, l.eq v = true
  nodups : hasDuplicates m.links = false
  exponents : hasVarExponent m.links = false
  sorted : ∃ k, kahn m.links k [INITIAL] [] [] = .ok (R, V)
  head : R.head? = some INITIAL
  fields : fields = R.filter (fun f => f != INITIAL && f != FINAL)

theorem accepted_checked {m : Def} {fields : List Field} (h : m.Accepted fields) :
    (m.links = [] ∧ fields = []) ∨ ∃ R V, Checked m fields R V := by
  obtain ⟨k, h⟩ := h
  simp only [Def.construct] at h
  split at h
  · rename_i he
    simp only [Bool.and_eq_true, List.isEmpty_iff] at he
    simp only [Except.ok.injEq] at h
    exact .inl ⟨he.1, h.symm⟩
  · right
    cases hv : m.validate1 with
    | error e => simp [hv, bind, Except.bind] at h
    | ok b =>
      cases b with
      | true => simp [hv, bind, Except.bind] at h
      | false =>
        simp only [hv, bind, Except.bind, Bool.false_eq_true, if_false] at h
        cases hk : kahn m.links k [INITIAL] [] [] with
        | error e => simp [hk, pure, Except.pure] at h
        | ok r =>
          obtain ⟨R, V⟩ := r
          simp only [hk, pure, Except.pure] at h
          split at h
          · cases h
          · rename_i hn
            simp only [Except.ok.injEq] at h
            have hn' : hasUnreachable m.links = false ∧ hasDuplicates m.links = false ∧
                hasVarExponent m.links = false ∧
                m.links.any (fun l => !V.any l.eq) = false := by
              revert hn
              cases hasUnreachable m.links <;> cases hasDuplicates m.links <;> cases hasVarExponent m.links <;> simp
            obtain ⟨g1, X, g2, g3⟩ := inv_kahn k (inv_initial m.links) hk
            refine ⟨R, V, hv, g1, ?_, hn'.2.1, hn'.2.2.1, ⟨k, hk⟩, ?_, h.symm⟩
            · intro l hl
              have := hn'.2.2.2
              rw [← Bool.not_eq_true, List.any_eq_true] at this
              have := fun hc => this ⟨l, hl, hc⟩
              simpa using this
            · have := g3 INITIAL rfl
              simpa [g2] using this

theorem hasDuplicates_pairwise {s : List Link} (h : hasDuplicates s = false) :
    s.Pairwise (fun a b => sameKey a b = false) := by
  induction s with
  | nil => exact .nil
  | cons l ls ih =>
    simp only [hasDuplicates, Bool.or_eq_false_iff] at h
    refine .cons ?_ (ih h.2)
    intro b hb
    have := h.1
    rw [← Bool.not_eq_true, List.any_eq_true] at this
    simpa using fun hc => this ⟨b, hb, hc⟩

theorem sameKey_of_eq {m : Def} (hr : m.Regular) {a b : Link} (ha : a ∈ m.links) (hb : b ∈ m.links)
    (h : a.eq b = true) : sameKey a b = true := by
  have h' := h
  simp only [Link.eq, Bool.and_eq_true, beq_iff_eq] at h'
  obtain ⟨⟨⟨⟨h1, h2⟩, h3⟩, _⟩, _⟩ := h'
  simp [sameKey, h1, h2, h3, hr a ha b hb h3]

theorem pairwise_forall {α : Type} {R : α → α → Prop} (hs : ∀ a b, R a b → R b a) {l : List α} (h : l.Pairwise R) :
    ∀ x ∈ l, ∀ y ∈ l, x ≠ y → R x y := by
  induction h with
  | nil => simp
  | cons h1 _ ih =>
    intro x hx y hy hne
    rcases List.mem_cons.mp hx with rfl | hx' <;> rcases List.mem_cons.mp hy with rfl | hy'
    · exact absurd rfl hne
    · exact h1 y hy'
    · exact hs _ _ (h1 x hx')
    · exact ih x hx' y hy' hne

theorem links_distinct {m : Def} (hr : m.Regular) (h : hasDuplicates m.links = false) :
    (∀ x ∈ m.links, ∀ y ∈ m.links, x.eq y = true → x = y) ∧ m.links.Nodup := by
  have hp := hasDuplicates_pairwise h
  have hp' : m.links.Pairwise (fun a b => a ∈ m.links → b ∈ m.links → a.eq b = false ∧ b.eq a = false) := by
    refine hp.imp ?_
    intro a b hab ha hb
    have : a.eq b = false := by
      cases hc : a.eq b with
      | false => rfl
      | true => rw [sameKey_of_eq hr ha hb hc] at hab; cases hab
    exact ⟨this, by rw [link_eq_comm]; exact this⟩
  constructor
  · intro x hx y hy hxy
    by_cases hne : x = y
    · exact hne
    · exfalso
      have := (pairwise_forall (fun a b h hb ha => (h ha hb).symm) hp' x hx y hy hne hx hy).1
      rw [hxy] at this
      cases this
  · refine List.Pairwise.imp_of_mem ?_ hp'
    intro a b ha hb h hab
    subst hab
    have := (h ha hb).1
    rw [link_eq_refl] at this
    cases this


/-- What is known about the sorted list of all fields (including the artificial ones) of an accepted message. -/
structure Order (s : List Link) (R : List Field) : Prop where
  initial : INITIAL ∈ R
  links : ∀ l ∈ s, l.source ∈ R ∧ l.target ∈ R
  later : ∀ xs n ys, R = xs ++ n :: ys → ∀ e ∈ s, e.source = n → e.target ∈ ys
  reach : ∀ t ∈ R, ∃ p, Path s INITIAL p t
  acyclic : ∀ f, ¬ Reaches s f f

theorem Checked.order {m : Def} {fields R : List Field} {V : List Link} (h : Checked m fields R V) :
    Order m.links R := by
  have hlater : ∀ xs n ys, R = xs ++ n :: ys → ∀ e ∈ m.links, e.source = n → e.target ∈ ys := by
    intro xs n ys hR e he hn
    rcases h.inv.later xs n ys hR e he hn with h1 | h1
    · simpa using h1
    · rw [complete_iff.mpr fun l hl _ => h.all l hl] at h1; cases h1
  have hsrc : ∀ l ∈ m.links, l.source ∈ R := by
    intro l hl
    obtain ⟨v, hv, he⟩ := h.all l hl
    rw [link_eq_source he]
    exact (h.inv.visited v hv).2
  refine ⟨?_, ?_, hlater, fun t ht => h.inv.reach t (by simpa using ht), acyclic_of_inv h.inv h.all⟩
  · have := h.head
    cases R with
    | nil => simp at this
    | cons r R => simp at this; simp [this]
  · intro l hl
    refine ⟨hsrc l hl, ?_⟩
    obtain ⟨xs, ys, hR⟩ := List.append_of_mem (hsrc l hl)
    have := hlater xs _ ys hR l hl rfl
    rw [hR]; simp [this]

theorem Order.no_initial {s : List Link} {R : List Field} (h : Order s R) : ∀ l ∈ s, l.target ≠ INITIAL := by
  intro l hl ht
  obtain ⟨p, hp⟩ := h.reach l.source (h.links l hl).1
  have := hp.snoc hl
  rw [ht] at this
  exact h.acyclic INITIAL ⟨_, by simp, this⟩

theorem Order.mentioned {s : List Link} {R : List Field} (h : Order s R) (f : Field) (hf : f ∈ R) (hi : f ≠ INITIAL) :
    ∃ l ∈ s, l.target = f := by
  obtain ⟨p, hp⟩ := h.reach f hf
  cases hp with
  | nil => exact absurd rfl hi
  | snoc _ hl => exact ⟨_, hl, rfl⟩

theorem Checked.nodup {m : Def} {fields R : List Field} {V : List Link} (h : Checked m fields R V) (hr : m.Regular) :
    R.Nodup := by
  obtain ⟨k, hk⟩ := h.sorted
  obtain ⟨h1, h2⟩ := links_distinct hr h.nodups
  refine nodup_kahn h1 h2 k (inv_initial m.links) (by simp) ?_ hk
  intro t ht ⟨l, hl, hlt⟩
  simp only [List.nil_append, List.mem_singleton] at ht
  exact absurd (hlt.trans ht) (h.order.no_initial l hl)

theorem before_filter {R : List Field} (q : Field → Bool) {a b : Field} (h : Before R a b) (ha : q a = true)
    (hb : q b = true) : Before (R.filter q) a b := by
  obtain ⟨xs, ys, zs, rfl⟩ := h
  exact ⟨xs.filter q, ys.filter q, zs.filter q, by simp [List.filter_append, ha, hb]⟩

/-! ## C14 -/

/-- The order of the fields of an accepted message: every field exactly once, every link from an earlier to a later
field. -/
theorem C14_order_partial (m : Def) (hr : m.Regular) (fields : List Field) (h : m.Accepted fields) :
    fields.Nodup ∧ (∀ f, f ∈ fields ↔ m.IsField f) ∧
    ∀ l ∈ m.links, m.IsField l.source → m.IsField l.target → Before fields l.source l.target := by
  rcases accepted_checked h with ⟨h1, rfl⟩ | ⟨R, V, hc⟩
  · simp [Def.IsField, h1]
  · have ho := hc.order
    have hmem : ∀ f, f ∈ fields ↔ m.IsField f := by
      intro f
      rw [hc.fields]
      simp only [List.mem_filter, Bool.and_eq_true, bne_iff_ne, ne_eq, Def.IsField]
      constructor
      · rintro ⟨h1, h2, h3⟩
        obtain ⟨l, hl, hlt⟩ := ho.mentioned f h1 h2
        exact ⟨⟨l, hl, .inr hlt⟩, h2, h3⟩
      · rintro ⟨⟨l, hl, hlt⟩, h2, h3⟩
        refine ⟨?_, h2, h3⟩
        rcases hlt with rfl | rfl
        · exact (ho.links l hl).1
        · exact (ho.links l hl).2
    refine ⟨?_, hmem, ?_⟩
    · rw [hc.fields]; exact (hc.nodup hr).filter _
    · intro l hl h1 h2
      rw [hc.fields]
      refine before_filter _ ?_ (by simp [h1.2.1, h1.2.2]) (by simp [h2.2.1, h2.2.2])
      obtain ⟨xs, ys, hR⟩ := List.append_of_mem (ho.links l hl).1
      obtain ⟨us, ws, hw⟩ := List.append_of_mem (ho.later xs _ ys hR l hl rfl)
      exact ⟨xs, us, ws, by rw [hR, hw]; simp⟩

/-- An accepted message has no cycle. -/
theorem C14_acyclic (m : Def) (fields : List Field) (h : m.Accepted fields) (f : Field) : ¬ Reaches m.links f f := by
  rcases accepted_checked h with ⟨h1, rfl⟩ | ⟨R, V, hc⟩
  · rintro ⟨p, hp, hpath⟩
    cases hpath with
    | nil => exact hp rfl
    | snoc _ hl => rw [h1] at hl; simp at hl
  · exact hc.order.acyclic f

/-- Every field of an accepted message can be reached from the initial node, which no link leads to. -/
theorem C14_reachable (m : Def) (fields : List Field) (h : m.Accepted fields) :
    (∀ f ∈ fields, ∃ p, Path m.links INITIAL p f) ∧ ∀ l ∈ m.links, l.target ≠ INITIAL := by
  rcases accepted_checked h with ⟨h1, rfl⟩ | ⟨R, V, hc⟩
  · simp [h1]
  · refine ⟨fun f hf => hc.order.reach f ?_, hc.order.no_initial⟩
    rw [hc.fields, List.mem_filter] at hf
    exact hf.1

/-! ### The hypotheses can be met -/

/-- A field with a name of one letter. -/
def fld (c : Char) : Field := ⟨[[c]]⟩

/-- A link without aspects. -/
def lnk (a b : Field) (c : Expr := .tru) : Link := ⟨a, b, c, .undefined, .undefined⟩

/-- `T = v`. -/
def tagIs (v : Int) : Expr := .rel .eq (.var false false ⟨[['T']]⟩) (.n v)

/-- A type-length-value message: `T` is followed by `L` and `V` or by nothing. -/
def exTLV : Def :=
  ⟨[lnk INITIAL (fld 't'), lnk (fld 't') (fld 'l') (tagIs 1), lnk (fld 't') FINAL (tagIs 3),
    ⟨fld 'l', fld 'v', .tru, .mul [.var false false ⟨[['L']]⟩, .n 8], .undefined⟩, lnk (fld 'v') FINAL],
   [fld 't', fld 'l', fld 'v'], []⟩

theorem exTLV_accepted : exTLV.Accepted [fld 't', fld 'l', fld 'v'] := ⟨6, rfl⟩

theorem exTLV_regular : exTLV.Regular := by
  simp only [Def.Regular]; decide

example : exTLV.Accepted [fld 't', fld 'l', fld 'v'] ∧ exTLV.Regular := ⟨exTLV_accepted, exTLV_regular⟩

/-! ### Where it fails -/

/-- A link back to the initial node: the constructor does not return. -/
theorem C14_initial_link_counterexample : ∃ m : Def, m.Diverges := by
  let l1 := lnk INITIAL (fld 'a')
  let l2 := lnk (fld 'a') INITIAL
  refine ⟨⟨[l1, l2], [fld 'a'], []⟩, ?_⟩
  have hloop : ∀ k R V, l1 ∈ V → l2 ∈ V → kahn [l1, l2] k [INITIAL] R V = .error .fuel ∧
      kahn [l1, l2] k [fld 'a'] R V = .error .fuel := by
    intro k
    induction k with
    | zero => intro R V _ _; exact ⟨rfl, rfl⟩
    | succ k ih =>
      intro R V h1 h2
      have o1 : outgoing [l1, l2] INITIAL = [l1] := by rfl
      have o2 : outgoing [l1, l2] (fld 'a') = [l2] := by rfl
      have c : ∀ V t, l1 ∈ V → l2 ∈ V → complete [l1, l2] V t = true := by
        intro V t g1 g2
        rw [complete_iff]
        intro l hl _
        simp only [List.mem_cons, List.not_mem_nil, or_false] at hl
        rcases hl with rfl | rfl
        · exact ⟨l1, g1, link_eq_refl _⟩
        · exact ⟨l2, g2, link_eq_refl _⟩
      constructor
      · simp only [kahn, o1, visit, c (l1 :: V) _ (by simp) (by simp [h2]), if_true, List.nil_append]
        exact (ih _ _ (by simp) (by simp [h2])).2
      · simp only [kahn, o2, visit, c (l2 :: V) _ (by simp [h1]) (by simp), if_true, List.nil_append]
        exact (ih _ _ (by simp [h1]) (by simp)).1
  have hk : ∀ k, kahn [l1, l2] k [INITIAL] [] [] = .error .fuel := by
    intro k
    match k with
    | 0 => rfl
    | 1 => rfl
    | k + 2 =>
      have : kahn [l1, l2] (k + 2) [INITIAL] [] [] = kahn [l1, l2] k [INITIAL] [INITIAL, fld 'a'] [l2, l1] := rfl
      rw [this]
      exact (hloop k _ _ (by simp) (by simp)).1
  intro k
  have hv : Def.validate1 ⟨[l1, l2], [fld 'a'], []⟩ = .ok false := by rfl
  simp only [Def.construct, List.isEmpty_cons, Bool.false_and, Bool.false_eq_true, if_false, hv, bind, Except.bind, hk k]

/-- Without a link from the initial node the constructor raises `IndexError` instead of reporting an error. -/
theorem C14_no_initial_counterexample : ∃ m : Def, ∀ k, m.construct k = .error .indexError :=
  ⟨⟨[lnk (fld 'a') FINAL], [fld 'a'], []⟩, fun _ => rfl⟩

/-- Two links whose conditions compare equal but are of different classes are not reported as duplicates; the target
gets listed twice. -/
theorem C14_order_counterexample : ∃ m : Def, m.Accepted [fld 'a', fld 'b', fld 'b'] :=
  ⟨⟨[lnk INITIAL (fld 'a'), lnk (fld 'a') (fld 'b') (.bool .and [tagIs 1]),
    lnk (fld 'a') (fld 'b') (.bool .andThen [tagIs 1]), lnk (fld 'b') FINAL], [fld 'a', fld 'b'], []⟩, 20, rfl⟩

/-- The final node may have successors. -/
theorem C14_final_link_counterexample : ∃ m : Def, m.Accepted [fld 'a', fld 'b'] ∧ m.Regular ∧
    ∃ l ∈ m.links, l.source = FINAL ∧ l.target = fld 'b' := by
  refine ⟨⟨[lnk INITIAL (fld 'a'), lnk (fld 'a') FINAL, lnk FINAL (fld 'b')], [fld 'a', fld 'b'], []⟩, ⟨20, rfl⟩, ?_,
    lnk FINAL (fld 'b'), by simp, rfl, rfl⟩
  simp only [Def.Regular]; decide

end Verif.Graph
