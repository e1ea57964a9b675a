import Verif.Dot.Spec
import Verif.Session.DeclLemmas
import Verif.SpecParser.PackageTypes

/-! # Property C54: drawings of messages and sessions -/

namespace Verif.Dot
open Verif Verif.Session Verif.SpecParser

/-! ## Messages -/

theorem eq_tru {e : Expr} (h : e.eq .tru = true) : e = .tru := by
  cases e with
  | tru => rfl
  | bool op ts => cases op <;> (exfalso; revert h; simp [Expr.eq, Expr.cls, Expr.Cls.sub])
  | bin op l r => cases op <;> (exfalso; revert h; simp [Expr.eq, Expr.cls, Expr.Cls.sub])
  | rel op l r => cases op <;> (exfalso; revert h; simp [Expr.eq, Expr.cls, Expr.Cls.sub])
  | attr ng k e => cases k <;> (exfalso; revert h; simp [Expr.eq, Expr.cls, Expr.Cls.sub])
  | quant k p i e => cases k <;> (exfalso; revert h; simp [Expr.eq, Expr.cls, Expr.Cls.sub])
  | _ => exfalso; revert h; simp [Expr.eq, Expr.cls, Expr.Cls.sub]

theorem eq_tru_iff {e : Expr} : e.eq .tru = true ↔ e = .tru := ⟨eq_tru, by rintro rfl; decide⟩

theorem eq_undefined_iff {e : Expr} : e.eq .undefined = true ↔ e = .undefined := ⟨eq_undefined, by rintro rfl; decide⟩

theorem nodup_get {α : Type} {l : List α} (h : l.Nodup) {i j : Nat} (hi : i < l.length) (hj : j < l.length) (he : l[i] = l[j]) : i = j := by
  have := List.pairwise_iff_getElem.1 h
  rcases Nat.lt_trichotomy i j with hij | hij | hij
  · exact absurd he (this i j hi hj hij)
  · exact hij
  · exact absurd he.symm (this j i hj hi hij)

theorem intermediate_inj {i j : Nat} (h : intermediate i = intermediate j) : i = j := by
  have h := List.append_cancel_left h
  have h1 := fromDigits_digits (b := 10) (f := i) (m := i) (by omega) (by omega) (Nat.le_refl _)
  have h2 := fromDigits_digits (b := 10) (f := j) (m := j) (by omega) (by omega) (Nat.le_refl _)
  unfold digits at h
  rw [← h1, ← h2, h]

theorem edgeLabel_ok {m : Message} {l : Link}
    (h : l.target.key = [['f', 'i', 'n', 'a', 'l']] ∨ (∃ f ∈ m.fields, f.key = l.target.key) ∧ ∃ t ∈ m.types, t.1.key = l.target.key) :
    ∃ t, edgeLabel m l = .ok t ∧ Shows m l t := by
  have hs : ∃ s, (if l.size.eq .undefined then targetSize m l.target else .ok l.size.str) = .ok s ∧ SizeText m l s := by
    by_cases hu : l.size = .undefined
    · rw [if_pos (eq_undefined_iff.2 hu)]
      have hf : l.target.eq FINAL = true ↔ l.target.key = [['f', 'i', 'n', 'a', 'l']] := by rw [key_eq]; rfl
      unfold targetSize
      by_cases hk : l.target.key = [['f', 'i', 'n', 'a', 'l']]
      · rw [if_pos (hf.2 hk)]
        exact ⟨_, rfl, .final hu hk⟩
      · rw [if_neg (fun h => hk (hf.1 h))]
        rcases h with h | ⟨⟨f, hfm, hfk⟩, t, ht, htk⟩
        · exact absurd h hk
        · have : m.fields.any (·.eq l.target) = true := List.any_eq_true.2 ⟨f, hfm, key_eq.2 hfk⟩
          rw [this]
          simp only [Bool.not_true, Bool.false_eq_true, if_false]
          cases hfind : m.types.find? (·.1.eq l.target) with
          | none => exact absurd (key_eq.2 htk) (by simpa using List.find?_eq_none.1 hfind t ht)
          | some u =>
            obtain ⟨u, o⟩ := u
            have hm := List.mem_of_find?_eq_some hfind
            have hk0 := List.find?_some hfind
            have hk' : u.key = l.target.key := key_eq.1 hk0
            clear hk0
            cases o with
            | some s => exact ⟨_, rfl, .scalar hu hk hm hk'⟩
            | none => exact ⟨_, rfl, .other hu hk hm hk'⟩
    · rw [if_neg (fun h => hu (eq_undefined_iff.1 h))]
      exact ⟨_, rfl, .given hu⟩
  obtain ⟨s, hs1, hs2⟩ := hs
  refine ⟨_, by unfold edgeLabel; rw [hs1]; rfl, ?_⟩
  refine ⟨if l.condition.eq .tru then ['⊤'] else l.condition.str, s, if l.first.eq .undefined then ['⋆'] else l.first.str,
    if l.condition.eq .tru || l.size.eq .undefined then ' ' else '\n', if l.first.eq .undefined then ' ' else '\n', ?_, ?_, ?_, ?_, hs2, ?_⟩
  · have hif : ∀ (b : Bool) (x y : Char), (if b = true then [x] else [y]) = [if b = true then x else y] := by intro b x y; cases b <;> rfl
    rw [hif, hif]
    simp only [List.append_assoc, List.cons_append, List.nil_append]
  · split <;> simp
  · split <;> simp
  · by_cases hc : l.condition = .tru
    · exact .inl ⟨hc, if_pos (eq_tru_iff.2 hc)⟩
    · exact .inr ⟨hc, if_neg fun h => hc (eq_tru_iff.1 h)⟩
  · by_cases hc : l.first = .undefined
    · exact .inl ⟨hc, if_pos (eq_undefined_iff.2 hc)⟩
    · exact .inr ⟨hc, if_neg fun h => hc (eq_undefined_iff.1 h)⟩

theorem addLinks_spec {m : Message} : ∀ (ls : List Link) (i : Nat) (g : Graph),
    (∀ l ∈ ls, l.target.key = [['f', 'i', 'n', 'a', 'l']] ∨ (∃ f ∈ m.fields, f.key = l.target.key) ∧ ∃ t ∈ m.types, t.1.key = l.target.key) →
    ∃ labels : List PyStr, labels.length = ls.length ∧ (∀ (k : Nat) l t, ls[k]? = some l → labels[k]? = some t → Shows m l t) ∧
      addLinks m i ls g = .ok ⟨g.nodes ++ labels.zipIdx.map (fun t => ⟨intermediate (i + t.2), some t.1, none⟩),
        g.edges ++ ls.zipIdx.flatMap fun l => [⟨l.1.source.str, intermediate (i + l.2), none⟩, ⟨intermediate (i + l.2), l.1.target.str, none⟩]⟩
  | [], i, g, _ => ⟨[], rfl, by simp, by simp [addLinks]⟩
  | l :: ls, i, g, h => by
    obtain ⟨t, ht, hs⟩ := edgeLabel_ok (h l (by simp))
    obtain ⟨labels, h1, h2, h3⟩ := addLinks_spec ls (i + 1) ⟨g.nodes ++ [⟨intermediate i, some t, none⟩],
      g.edges ++ [⟨l.source.str, intermediate i, none⟩, ⟨intermediate i, l.target.str, none⟩]⟩ (fun l hl => h l (by simp [hl]))
    refine ⟨t :: labels, by simp [h1], ?_, ?_⟩
    · intro k l' t' hk hk'
      cases k with
      | zero => cases hk; cases hk'; exact hs
      | succ k => exact h2 k l' t' (by simpa using hk) (by simpa using hk')
    · unfold addLinks
      rw [ht]
      show addLinks m (i + 1) ls _ = _
      rw [h3]
      simp only [List.zipIdx_cons, List.map_cons, List.flatMap_cons, Nat.add_zero, List.append_assoc, List.cons_append, List.nil_append,
        Except.ok.injEq, Graph.mk.injEq, Nat.zero_add]
      constructor
      · congr 2
        rw [List.zipIdx_succ, List.map_map]
        apply List.map_congr_left
        intro a _
        simp only [Function.comp_apply]
        rw [Nat.add_assoc, Nat.add_comm 1]
      · congr 3
        rw [List.zipIdx_succ, List.flatMap_map]
        congr 1
        funext a
        rw [Nat.add_assoc, Nat.add_comm 1]

theorem drawn_eq (m : Message) : (if m.structure_.isEmpty then [⟨INITIAL, FINAL, .tru, .undefined, .undefined⟩] else m.structure_) = m.drawn := by
  unfold Message.drawn
  cases m.structure_ <;> rfl

/-- **C54**, messages: the drawing has one node for the beginning, the end and each field, and for every link a node of its own with its condition,
size and first bit, an edge from the source of the link to that node and an edge from that node to the target of the link. There are no other
nodes and edges. -/
theorem C54_message (m : Message) (hc : m.Closed) : ∃ g, getMessage m = .ok g ∧ ∃ aux : List PyStr,
    aux.Nodup ∧ aux.length = m.drawn.length ∧ (m.NoClash → ∀ x ∈ aux, ¬ m.IsField x) ∧
    (∀ a, g.HasNode a ↔ m.IsField a ∨ a ∈ aux) ∧
    (∀ a b, g.HasEdge a b ↔ ∃ (i : Nat) (l : Link) (x : PyStr), m.drawn[i]? = some l ∧ aux[i]? = some x ∧
      (a = l.source.str ∧ b = x ∨ a = x ∧ b = l.target.str)) ∧
    ∀ (i : Nat) l x, m.drawn[i]? = some l → aux[i]? = some x → ∃ n ∈ g.nodes, n.name = x ∧ ∃ t, n.label = some t ∧ Shows m l t := by
  have hcl : ∀ l ∈ m.drawn, l.target.key = [['f', 'i', 'n', 'a', 'l']] ∨
      (∃ f ∈ m.fields, f.key = l.target.key) ∧ ∃ t ∈ m.types, t.1.key = l.target.key := by
    intro l hl
    unfold Message.drawn at hl
    cases hm : m.structure_ with
    | nil =>
      rw [hm] at hl
      simp only [List.mem_singleton] at hl
      subst hl
      exact .inl rfl
    | cons a as =>
      rw [hm] at hl
      exact hc.2 l (by rw [hm]; exact hl)
  obtain ⟨labels, h1, h2, h3⟩ := addLinks_spec m.drawn 0 ⟨⟨start, some [], some ['#', 'f', 'f', 'f', 'f', 'f', 'f']⟩ ::
    m.fields.map (fun f => ⟨f.str, none, none⟩), []⟩ hcl
  refine ⟨_, by unfold getMessage; simp only [drawn_eq]; erw [h3]; rfl, (List.range m.drawn.length).map intermediate, ?_, by simp, ?_, ?_, ?_, ?_⟩
  · exact List.pairwise_map.2 (List.nodup_range.imp fun h h' => h (intermediate_inj h'))
  · intro hn x hx
    obtain ⟨k, _, rfl⟩ := List.mem_map.1 hx
    rintro (h | h | ⟨f, hf, h⟩)
    · cases h
    · cases h
    · exact hn f hf _ h
  · intro a
    unfold Graph.HasNode Message.IsField
    simp only [List.mem_append, List.mem_cons, List.mem_map, List.mem_singleton, List.not_mem_nil, or_false, List.mem_range]
    constructor
    · rintro ⟨n, ((rfl | ⟨f, hf, rfl⟩) | ⟨t, ht, rfl⟩) | rfl, rfl⟩
      · exact .inl (.inl rfl)
      · exact .inl (.inr (.inr ⟨f, hf, rfl⟩))
      · have := (List.mem_zipIdx ht).2.1
        exact .inr ⟨t.2, by omega, by simp⟩
      · exact .inl (.inr (.inl rfl))
    · rintro ((rfl | rfl | ⟨f, hf, rfl⟩) | ⟨k, hk, rfl⟩)
      · exact ⟨_, .inl (.inl (.inl rfl)), rfl⟩
      · exact ⟨_, .inr rfl, rfl⟩
      · exact ⟨_, .inl (.inl (.inr ⟨f, hf, rfl⟩)), rfl⟩
      · have hkl : k < labels.length := by omega
        refine ⟨⟨intermediate (0 + k), some labels[k], none⟩, .inl (.inr ⟨(labels[k], k), ?_, rfl⟩), by simp⟩
        exact List.mem_zipIdx_iff_getElem?.2 (List.getElem?_eq_getElem hkl)
  · intro a b
    unfold Graph.HasEdge
    simp only [List.nil_append, List.mem_flatMap, List.mem_cons, List.not_mem_nil, or_false]
    constructor
    · rintro ⟨e, ⟨⟨l, k⟩, hl, he⟩, rfl, rfl⟩
      have hk := List.mem_zipIdx_iff_getElem?.1 hl
      have hlt : k < m.drawn.length := (List.getElem?_eq_some_iff.1 hk).1
      refine ⟨k, l, intermediate k, hk, by simp [hlt], ?_⟩
      rcases he with rfl | rfl
      · exact .inl ⟨rfl, by simp⟩
      · exact .inr ⟨by simp, rfl⟩
    · rintro ⟨k, l, x, hk, hx, h⟩
      have hlt : k < m.drawn.length := (List.getElem?_eq_some_iff.1 hk).1
      have hx' : x = intermediate k := by simpa [hlt, eq_comm] using hx
      subst hx'
      rcases h with ⟨rfl, rfl⟩ | ⟨rfl, rfl⟩
      · exact ⟨⟨l.source.str, intermediate (0 + k), none⟩, ⟨(l, k), List.mem_zipIdx_iff_getElem?.2 hk, .inl rfl⟩, rfl, by simp⟩
      · exact ⟨⟨intermediate (0 + k), l.target.str, none⟩, ⟨(l, k), List.mem_zipIdx_iff_getElem?.2 hk, .inr rfl⟩, by simp, rfl⟩
  · intro k l x hk hx
    have hlt : k < m.drawn.length := (List.getElem?_eq_some_iff.1 hk).1
    have hx' : x = intermediate k := by simpa [hlt, eq_comm] using hx
    subst hx'
    have hkl : k < labels.length := by omega
    refine ⟨⟨intermediate (0 + k), some labels[k], none⟩, ?_, by simp, labels[k], rfl, h2 k l _ hk (List.getElem?_eq_getElem hkl)⟩
    simp only [List.mem_append, List.mem_map]
    exact .inl (.inr ⟨(labels[k], k), List.mem_zipIdx_iff_getElem?.2 (List.getElem?_eq_getElem hkl), rfl⟩)

/-- **C54**, reading of a drawing: two fields are connected (through a node that is not a field) exactly if there is a link from the first to the
second. -/
theorem C54_arrows (m : Message) (hc : m.Closed) (hn : m.NoClash) (g : Graph) (hg : getMessage m = .ok g) (a b : PyStr) (ha : m.IsField a)
    (hb : m.IsField b) :
    ((∃ x, ¬ m.IsField x ∧ g.HasEdge a x ∧ g.HasEdge x b) ↔ ∃ l ∈ m.drawn, l.source.str = a ∧ l.target.str = b) ∧ ¬ g.HasEdge a b := by
  obtain ⟨g', hg', aux, h1, h2, h3, h4, h5, h6⟩ := C54_message m hc
  rw [hg] at hg'
  cases hg'
  have h3 := h3 hn
  have hcl : ∀ l ∈ m.drawn, m.IsField l.source.str ∧ m.IsField l.target.str := by
    intro l hl
    unfold Message.drawn at hl
    cases hm : m.structure_ with
    | nil =>
      rw [hm] at hl
      simp only [List.mem_singleton] at hl
      subst hl
      exact ⟨.inl rfl, .inr (.inl rfl)⟩
    | cons a as =>
      rw [hm] at hl
      exact hc.1 l (by rw [hm]; exact hl)
  refine ⟨⟨?_, ?_⟩, ?_⟩
  · rintro ⟨x, hx, he1, he2⟩
    obtain ⟨i, l, y, hi, hy, hor⟩ := (h5 a x).1 he1
    obtain ⟨j, l', y', hj, hy', hor'⟩ := (h5 x b).1 he2
    rcases hor with ⟨rfl, rfl⟩ | ⟨rfl, rfl⟩
    · rcases hor' with ⟨rfl, rfl⟩ | ⟨rfl, rfl⟩
      · exact absurd (hcl l' (List.mem_of_getElem? hj)).1 hx
      · obtain ⟨hi', hi''⟩ := List.getElem?_eq_some_iff.1 hy
        obtain ⟨hj', hj''⟩ := List.getElem?_eq_some_iff.1 hy'
        have : i = j := nodup_get h1 hi' hj' (hi''.trans hj''.symm)
        subst this
        rw [hi] at hj
        cases hj
        exact ⟨l, List.mem_of_getElem? hi, rfl, rfl⟩
    · exact absurd ha (h3 _ (List.mem_of_getElem? hy))
  · rintro ⟨l, hl, rfl, rfl⟩
    obtain ⟨i, hi⟩ := List.getElem?_of_mem hl
    have hlt : i < aux.length := by rw [h2]; exact (List.getElem?_eq_some_iff.1 hi).1
    have hx := List.getElem?_eq_getElem hlt
    exact ⟨aux[i], h3 _ (List.getElem_mem _), (h5 _ _).2 ⟨i, l, _, hi, hx, .inl ⟨rfl, rfl⟩⟩, (h5 _ _).2 ⟨i, l, _, hi, hx, .inr ⟨rfl, rfl⟩⟩⟩
  · intro he
    obtain ⟨i, l, y, hi, hy, hor⟩ := (h5 a b).1 he
    rcases hor with ⟨rfl, rfl⟩ | ⟨rfl, rfl⟩
    · exact h3 _ (List.mem_of_getElem? hy) hb
    · exact h3 _ (List.mem_of_getElem? hy) ha

/-! ## Sessions -/

variable {M : Type}

theorem count_sub : ∀ (is keys : List ID) (k : ID), k ∈ count keys is → k ∈ keys ∨ k ∈ is
  | [], keys, k, h => .inl h
  | i :: is, keys, k, h => by
    rw [count] at h
    rcases count_sub is _ k h with h | h
    · split at h
      · exact .inl h
      · rcases List.mem_append.1 h with h | h
        · exact .inl h
        · exact .inr (by simp at h; simp [h])
    · exact .inr (by simp [h])

theorem count_keys : ∀ (is keys : List ID) (x : List PyStr), (∃ k ∈ keys, k.key = x) ∨ (∃ k ∈ is, k.key = x) → ∃ k ∈ count keys is, k.key = x
  | [], keys, x, h => by simpa [count] using h
  | i :: is, keys, x, h => by
    rw [count]
    apply count_keys is
    rcases h with ⟨k, hk, rfl⟩ | ⟨k, hk, rfl⟩
    · left
      refine ⟨k, ?_, rfl⟩
      split
      · exact hk
      · simp [hk]
    · rcases List.mem_cons.1 hk with rfl | hk
      · left
        split
        · rename_i hany
          obtain ⟨j, hj, hje⟩ := List.any_eq_true.1 hany
          exact ⟨j, hj, key_eq.1 hje⟩
        · exact ⟨k, by simp, rfl⟩
      · exact .inr ⟨k, hk, rfl⟩

theorem name_simple {i : ID} (hv : i.Valid) (hl : i.parts.length = 1) : i.name = .ok i := by
  obtain ⟨ps⟩ := i
  obtain ⟨p, rfl⟩ := List.length_eq_one_iff.1 hl
  have hp := hv.2 p (by simp)
  show ID.ofStr p = _
  rw [ID.ofStr, splitSep_noColon p hp.2.2.2]
  exact ID.checked_ok _ hv

theorem mem_notDeclared {st : FullState M} {is : List ID} {i : ID} : i ∈ notDeclared st is ↔ i ∈ is ∧ ¬ Declares st i := by
  unfold notDeclared
  rw [List.mem_filter]
  have : isIn i ((declDict st.declarations).map (·.1)) = true ↔ Declares st i := by
    haveI : DecidableEq M := fun _ _ => Classical.propDecidable _
    unfold isIn Declares
    rw [List.any_eq_true, ← declDict_keys]
    constructor
    · rintro ⟨j, hj, he⟩
      obtain ⟨e, he', rfl⟩ := List.mem_map.1 hj
      exact ⟨e, he', (key_eq.1 he).symm⟩
    · rintro ⟨e, he', hk⟩
      exact ⟨e.1, List.mem_map.2 ⟨e, he', rfl⟩, key_eq.2 hk.symm⟩
  rw [← this]
  simp

/-- The names of variables are counted from lists of names. -/
def Keys (is ks : List ID) : Prop := (∀ k ∈ ks, k ∈ is) ∧ ∀ i ∈ is, ∃ k ∈ ks, k.key = i.key

theorem Keys.count {is ks js : List ID} (h : Keys is ks) : Keys (is ++ js) (count ks js) := by
  refine ⟨fun k hk => ?_, fun i hi => ?_⟩
  · rcases count_sub _ _ _ hk with h' | h'
    · exact List.mem_append_left _ (h.1 k h')
    · exact List.mem_append_right _ h'
  · apply count_keys
    rcases List.mem_append.1 hi with h' | h'
    · exact .inl (h.2 i h')
    · exact .inr ⟨i, h', rfl⟩

theorem transitions_spec {h : List PyStr → Int} {st : FullState M} {src : PyStr} : ∀ (ts : List (ID × Expr)) (i : Nat) (es : List Edge)
    (is reads : List ID), (∀ t ∈ ts, t.1.Valid ∧ t.1.parts.length = 1) → Keys is reads →
    ∃ r, transitions h st src i ts es reads =
        .ok (es ++ ts.zipIdx.map (fun t => ⟨src, t.1.1.str, some (transitionLabel src t.1.1.str (i + t.2) t.1.2)⟩), r) ∧
      Keys (is ++ ts.flatMap fun t => notDeclared st ((Verif.variables h t.2).map PyVar.id)) r
  | [], i, es, is, reads, _, hk => ⟨reads, by simp [transitions], by simpa using hk⟩
  | (t, c) :: ts, i, es, is, reads, hv, hk => by
    obtain ⟨r, h1, h2⟩ := transitions_spec (h := h) (st := st) (src := src) ts (i + 1)
      (es ++ [⟨src, t.str, some (transitionLabel src t.str i c)⟩]) _ _
      (fun t ht => hv t (by simp [ht])) (hk.count (js := notDeclared st ((Verif.variables h c).map PyVar.id)))
    refine ⟨r, ?_, by simpa [List.append_assoc] using h2⟩
    rw [transitions, name_simple (hv (t, c) (by simp)).1 (hv (t, c) (by simp)).2]
    show transitions h st src (i + 1) ts _ _ = _
    rw [h1]
    simp only [List.zipIdx_cons, List.map_cons, Nat.add_zero, List.append_assoc, List.cons_append, List.nil_append, Nat.zero_add]
    rw [List.zipIdx_succ, List.map_map]
    congr 4
    apply List.map_congr_left
    intro a _
    simp only [Function.comp_apply]
    rw [Nat.add_assoc, Nat.add_comm 1]

/-- The names read by an action. -/
def actionReads (h : List PyStr → Int) : Action → List ID
  | .assign _ e => (e.variables h).map PyVar.id
  | _ => []

theorem actions_spec {h : List PyStr → Int} {st : FullState M} : ∀ (as : List Action) (is js reads writes : List ID), Keys is reads → Keys js writes →
    Keys (is ++ as.flatMap fun a => notDeclared st (actionReads h a)) (actions h st as reads writes).1 ∧
    Keys (js ++ as.flatMap fun a => notDeclared st [a.id]) (actions h st as reads writes).2
  | [], is, js, reads, writes, h1, h2 => by simpa [actions] using ⟨h1, h2⟩
  | a :: as, is, js, reads, writes, h1, h2 => by
    have h2' := h2.count (js := notDeclared st [a.id])
    have other : actionReads h a = [] → actions h st (a :: as) reads writes = actions h st as reads (count writes (notDeclared st [a.id])) →
        Keys (is ++ (a :: as).flatMap fun a => notDeclared st (actionReads h a)) (actions h st (a :: as) reads writes).1 ∧
        Keys (js ++ (a :: as).flatMap fun a => notDeclared st [a.id]) (actions h st (a :: as) reads writes).2 := by
      intro hr hs
      have ih := actions_spec (h := h) (st := st) as is (js ++ notDeclared st [a.id]) reads _ h1 h2'
      rw [hs, List.flatMap_cons, List.flatMap_cons, hr]
      simpa [notDeclared, List.append_assoc] using ih
    cases a with
    | assign i e =>
      have h1' := h1.count (js := notDeclared st ((e.variables h).map PyVar.id))
      have ih := actions_spec (h := h) (st := st) as _ _ _ _ h1' h2'
      rw [List.flatMap_cons, List.flatMap_cons, ← List.append_assoc, ← List.append_assoc]
      exact ih
    | append i e => exact other rfl rfl
    | extend i e => exact other rfl rfl
    | reset i => exact other rfl rfl
    | read i e => exact other rfl rfl
    | write i e => exact other rfl rfl

theorem mem_reads {h : List PyStr → Int} {st : FullState M} {i : ID} :
    (i ∈ (st.transitions.flatMap fun t => notDeclared st ((Verif.variables h t.2).map PyVar.id)) ++
      st.actions.flatMap fun a => notDeclared st (actionReads h a)) ↔ Reads h st i := by
  rw [List.mem_append, List.mem_flatMap, List.mem_flatMap]
  unfold Reads
  constructor
  · rintro (⟨t, ht, hi⟩ | ⟨a, ha, hi⟩)
    · obtain ⟨hi, hd⟩ := mem_notDeclared.1 hi
      obtain ⟨v, hv, rfl⟩ := List.mem_map.1 hi
      exact ⟨.inl ⟨t, ht, v, hv, rfl⟩, hd⟩
    · obtain ⟨hi, hd⟩ := mem_notDeclared.1 hi
      cases a with
      | assign j e =>
        obtain ⟨v, hv, rfl⟩ := List.mem_map.1 hi
        exact ⟨.inr ⟨j, e, ha, v, hv, rfl⟩, hd⟩
      | _ => cases hi
  · rintro ⟨⟨t, ht, v, hv, rfl⟩ | ⟨j, e, ha, v, hv, rfl⟩, hd⟩
    · exact .inl ⟨t, ht, mem_notDeclared.2 ⟨List.mem_map.2 ⟨v, hv, rfl⟩, hd⟩⟩
    · exact .inr ⟨_, ha, mem_notDeclared.2 ⟨List.mem_map.2 ⟨v, hv, rfl⟩, hd⟩⟩

theorem mem_writes {st : FullState M} {i : ID} : (i ∈ st.actions.flatMap fun a => notDeclared st [a.id]) ↔ Writes st i := by
  rw [List.mem_flatMap]
  unfold Writes
  constructor
  · rintro ⟨a, ha, hi⟩
    obtain ⟨hi, hd⟩ := mem_notDeclared.1 hi
    exact ⟨⟨a, ha, (List.mem_singleton.1 hi).symm⟩, hd⟩
  · rintro ⟨⟨a, ha, rfl⟩, hd⟩
    exact ⟨a, ha, mem_notDeclared.2 ⟨by simp, hd⟩⟩

/-- What one state adds to a drawing. -/
structure Adds (h : List PyStr → Int) (s : FullSession M) (st : FullState M) (rs ws : List ID) (es : List Edge) : Prop where
  reads : (∀ k ∈ rs, Reads h st k) ∧ ∀ i, Reads h st i → ∃ k ∈ rs, k.key = i.key
  writes : (∀ k ∈ ws, Writes st k) ∧ ∀ i, Writes st i → ∃ k ∈ ws, k.key = i.key
  edges : es = st.transitions.zipIdx.map (fun t => ⟨st.identifier.str, t.1.1.str, some (transitionLabel st.identifier.str t.1.1.str t.2 t.1.2)⟩) ++
    rs.map (fun v => ⟨v.str, st.identifier.str, some (st.identifier.str ++ [':', ' ', 'r', 'e', 'a', 'd', ' '] ++ v.str)⟩) ++
    ws.map (fun v => ⟨st.identifier.str, v.str, some (st.identifier.str ++ [':', ' ', 'w', 'r', 'i', 't', 'e', ' '] ++ v.str)⟩)

theorem addState_spec {h : List PyStr → Int} {s : FullSession M} {st : FullState M} (hv : st.identifier.Valid ∧ st.identifier.parts.length = 1)
    (ht : ∀ t ∈ st.transitions, t.1.Valid ∧ t.1.parts.length = 1) (g : Graph) (vars : List ID) :
    ∃ rs ws es, Adds h s st rs ws es ∧
      addState h s st g vars = .ok (⟨g.nodes ++ [stateNode s st st.identifier.str], g.edges ++ es⟩, count (count vars rs) ws) := by
  obtain ⟨r, h1, h2⟩ := transitions_spec (h := h) (st := st) (src := st.identifier.str) st.transitions 0 [] [] [] ht ⟨by simp, by simp⟩
  obtain ⟨h3, h4⟩ := actions_spec (h := h) (st := st) st.actions _ [] r [] h2 ⟨by simp, by simp⟩
  simp only [List.nil_append, Nat.zero_add] at h1 h3 h4
  refine ⟨_, _, _, ⟨⟨fun k hk => mem_reads.1 (h3.1 k hk), fun i hi => h3.2 i (mem_reads.2 hi)⟩,
    ⟨fun k hk => mem_writes.1 (h4.1 k hk), fun i hi => h4.2 i (mem_writes.2 hi)⟩, rfl⟩, ?_⟩
  unfold addState
  rw [name_simple hv.1 hv.2]
  show (transitions h st st.identifier.str 0 st.transitions [] [] >>= _) = _
  rw [h1]
  simp only [List.append_assoc]
  rfl

/-- The states of a session with what they add to the drawing. -/
theorem addStates_spec {h : List PyStr → Int} {s : FullSession M} : ∀ (ts : List (FullState M)) (g : Graph) (is vars : List ID),
    (∀ st ∈ ts, st.identifier.Valid ∧ st.identifier.parts.length = 1) → (∀ st ∈ ts, ∀ t ∈ st.transitions, t.1.Valid ∧ t.1.parts.length = 1) →
    Keys is vars →
    ∃ (xs : List (FullState M × List ID × List ID × List Edge)) (vs : List ID), xs.map (·.1) = ts ∧ (∀ x ∈ xs, Adds h s x.1 x.2.1 x.2.2.1 x.2.2.2) ∧
      Keys (is ++ xs.flatMap fun x => x.2.1 ++ x.2.2.1) vs ∧
      addStates h s ts g vars =
        .ok (⟨g.nodes ++ ts.map (fun st => stateNode s st st.identifier.str), g.edges ++ xs.flatMap fun x => x.2.2.2⟩, vs)
  | [], g, is, vars, _, _, hk => ⟨[], vars, rfl, by simp, by simpa using hk, by simp [addStates]⟩
  | st :: ts, g, is, vars, hv, ht, hk => by
    obtain ⟨rs, ws, es, ha, he⟩ := addState_spec (h := h) (s := s) (hv st (by simp)) (ht st (by simp)) g vars
    have hk' := (hk.count (js := rs)).count (js := ws)
    obtain ⟨xs, vs, h1, h2, h3, h4⟩ := addStates_spec (h := h) (s := s) ts ⟨g.nodes ++ [stateNode s st st.identifier.str], g.edges ++ es⟩ _ _
      (fun st hs => hv st (by simp [hs])) (fun st hs => ht st (by simp [hs])) hk'
    refine ⟨(st, rs, ws, es) :: xs, vs, by simp [h1], ?_, ?_, ?_⟩
    · intro x hx
      rcases List.mem_cons.1 hx with rfl | hx
      · exact ha
      · exact h2 x hx
    · simpa [List.append_assoc] using h3
    · unfold addStates
      rw [he]
      show addStates h s ts _ _ = _
      rw [h4]
      simp [List.append_assoc]

/-- The tooltip of a transition. -/
def TransitionText (source target : PyStr) (index : Nat) (c : Expr) (t : PyStr) : Prop :=
  (c = .tru → t = []) ∧ (c ≠ .tru → t = source ++ " → ".toList ++ target ++ "\n\n[".toList ++ digits 10 index ++ "] ".toList ++ c.str)

/-- **C54**, sessions: the drawing has a node for each state (white for the initial, grey for the final state) and a node for each
name that states use; it has an edge from a state to the target of each of its transitions, with the condition as tooltip, an edge from a name to
each state where a condition or assignment reads it, an edge from a state to each name that its actions change, and no other edges.

Missing: exception transitions (`C54_exception_counterexample`), names read by other actions than assignments (`C54_read_counterexample`), names that
are not always spelled in the same way (`C54_spelling_counterexample`). -/
theorem C54_session_partial (h : List PyStr → Int) (s : FullSession M) (hr : Regular h s) : ∃ g, getSession h s = .ok g ∧
    (∀ a, g.HasNode a ↔ (∃ st ∈ s.states, st.identifier.str = a) ∨ ∃ st ∈ s.states, ∃ i, Uses h st i ∧ i.str = a) ∧
    (∀ st ∈ s.states, ∃ n ∈ g.nodes, n.name = st.identifier.str ∧ n.fill =
      if st.identifier.key = s.initial.key then some "#ffffff".toList else if st.identifier.key = s.final.key then some "#6f6f6f".toList else none) ∧
    (∀ a b, g.HasEdge a b ↔ (∃ st ∈ s.states, ∃ t ∈ st.transitions, a = st.identifier.str ∧ b = t.1.str) ∨
      (∃ st ∈ s.states, ∃ i, Reads h st i ∧ a = i.str ∧ b = st.identifier.str) ∨
      ∃ st ∈ s.states, ∃ i, Writes st i ∧ a = st.identifier.str ∧ b = i.str) ∧
    ∀ st ∈ s.states, ∀ (k : Nat) t, st.transitions[k]? = some t → ∃ e ∈ g.edges, e.src = st.identifier.str ∧ e.dst = t.1.str ∧
      ∃ x, e.tooltip = some x ∧ TransitionText st.identifier.str t.1.str k t.2 x := by
  obtain ⟨xs, vs, h1, h2, h3, h4⟩ := addStates_spec (h := h) (s := s) s.states ⟨[], []⟩ [] [] hr.states hr.targets ⟨by simp, by simp⟩
  simp only [List.nil_append] at h3 h4
  have hst : ∀ st, st ∈ s.states ↔ ∃ x ∈ xs, x.1 = st := by
    intro st
    rw [← h1, List.mem_map]
  have huse : ∀ a, (∃ v ∈ vs, v.str = a) ↔ ∃ st ∈ s.states, ∃ i, Uses h st i ∧ i.str = a := by
    intro a
    have used : ∀ i, (i ∈ xs.flatMap fun x => x.2.1 ++ x.2.2.1) → ∃ st ∈ s.states, Uses h st i := by
      intro i hi
      obtain ⟨x, hx, hi⟩ := List.mem_flatMap.1 hi
      rcases List.mem_append.1 hi with hi | hi
      · exact ⟨x.1, (hst _).2 ⟨x, hx, rfl⟩, .inl ((h2 x hx).reads.1 i hi)⟩
      · exact ⟨x.1, (hst _).2 ⟨x, hx, rfl⟩, .inr ((h2 x hx).writes.1 i hi)⟩
    constructor
    · rintro ⟨v, hv, rfl⟩
      obtain ⟨st, hs, hu⟩ := used v (h3.1 v hv)
      exact ⟨st, hs, v, hu, rfl⟩
    · rintro ⟨st, hs, i, hu, rfl⟩
      obtain ⟨x, hx, rfl⟩ := (hst st).1 hs
      have : ∃ j ∈ xs.flatMap (fun x => x.2.1 ++ x.2.2.1), j.key = i.key := by
        rcases hu with hu | hu
        · obtain ⟨k, hk, he⟩ := (h2 x hx).reads.2 i hu
          exact ⟨k, List.mem_flatMap.2 ⟨x, hx, List.mem_append_left _ hk⟩, he⟩
        · obtain ⟨k, hk, he⟩ := (h2 x hx).writes.2 i hu
          exact ⟨k, List.mem_flatMap.2 ⟨x, hx, List.mem_append_right _ hk⟩, he⟩
      obtain ⟨j, hj, hje⟩ := this
      obtain ⟨v, hv, hve⟩ := h3.2 j hj
      obtain ⟨st', hs', hu'⟩ := used v (h3.1 v hv)
      exact ⟨v, hv, hr.spelling st' hs' _ hs v i hu' hu (hve.trans hje)⟩
  refine ⟨⟨s.states.map (fun st => stateNode s st st.identifier.str) ++ vs.map (fun v => ⟨v.str, none, some ['#', '7', 'e', '8', 'a', 'b', '8']⟩),
    xs.flatMap fun x => x.2.2.2⟩, by unfold getSession; rw [h4]; rfl, ?_, ?_, ?_, ?_⟩
  · intro a
    rw [← huse]
    unfold Graph.HasNode
    simp only [List.mem_append, List.mem_map]
    have hname : ∀ st : FullState M, (stateNode s st st.identifier.str).name = st.identifier.str := by
      intro st; unfold stateNode; (repeat' split) <;> rfl
    constructor
    · rintro ⟨n, ⟨st, hs, rfl⟩ | ⟨v, hv, rfl⟩, rfl⟩
      · exact .inl ⟨st, hs, (hname st).symm⟩
      · exact .inr ⟨v, hv, rfl⟩
    · rintro (⟨st, hs, rfl⟩ | ⟨v, hv, rfl⟩)
      · exact ⟨_, .inl ⟨st, hs, rfl⟩, hname st⟩
      · exact ⟨_, .inr ⟨v, hv, rfl⟩, rfl⟩
  · intro st hs
    refine ⟨stateNode s st st.identifier.str, by simp only [List.mem_append, List.mem_map]; exact .inl ⟨st, hs, rfl⟩, ?_⟩
    unfold stateNode
    by_cases hi : st.identifier.key = s.initial.key
    · rw [if_pos (key_eq.2 hi), if_pos hi]
      exact ⟨rfl, rfl⟩
    · rw [if_neg (fun h => hi (key_eq.1 h)), if_neg hi]
      by_cases hf : st.identifier.key = s.final.key
      · rw [if_pos (key_eq.2 hf), if_pos hf]
        exact ⟨rfl, rfl⟩
      · rw [if_neg (fun h => hf (key_eq.1 h)), if_neg hf]
        exact ⟨rfl, rfl⟩
  · intro a b
    unfold Graph.HasEdge
    simp only [List.mem_flatMap]
    constructor
    · rintro ⟨e, ⟨x, hx, he⟩, rfl, rfl⟩
      have hs := (hst x.1).2 ⟨x, hx, rfl⟩
      rw [(h2 x hx).edges, List.mem_append, List.mem_append] at he
      rcases he with (he | he) | he
      · obtain ⟨t, ht, rfl⟩ := List.mem_map.1 he
        exact .inl ⟨x.1, hs, t.1, List.fst_mem_of_mem_zipIdx ht, rfl, rfl⟩
      · obtain ⟨v, hv, rfl⟩ := List.mem_map.1 he
        exact .inr (.inl ⟨x.1, hs, v, (h2 x hx).reads.1 v hv, rfl, rfl⟩)
      · obtain ⟨v, hv, rfl⟩ := List.mem_map.1 he
        exact .inr (.inr ⟨x.1, hs, v, (h2 x hx).writes.1 v hv, rfl, rfl⟩)
    · rintro (⟨st, hs, t, ht, rfl, rfl⟩ | ⟨st, hs, i, hi, rfl, rfl⟩ | ⟨st, hs, i, hi, rfl, rfl⟩)
      · obtain ⟨x, hx, rfl⟩ := (hst st).1 hs
        obtain ⟨k, hk⟩ := List.getElem?_of_mem ht
        refine ⟨⟨x.1.identifier.str, t.1.str, some (transitionLabel x.1.identifier.str t.1.str k t.2)⟩, ⟨x, hx, ?_⟩, rfl, rfl⟩
        · rw [(h2 x hx).edges]
          exact List.mem_append_left _ (List.mem_append_left _ (List.mem_map.2 ⟨(t, k), List.mem_zipIdx_iff_getElem?.2 hk, rfl⟩))
      · obtain ⟨x, hx, rfl⟩ := (hst st).1 hs
        obtain ⟨k, hk, he⟩ := (h2 x hx).reads.2 i hi
        refine ⟨⟨k.str, x.1.identifier.str, some (x.1.identifier.str ++ [':', ' ', 'r', 'e', 'a', 'd', ' '] ++ k.str)⟩, ⟨x, hx, ?_⟩, hr.spelling _ hs _ hs k i (.inl ((h2 x hx).reads.1 k hk)) (.inl hi) he, rfl⟩
        · rw [(h2 x hx).edges]
          exact List.mem_append_left _ (List.mem_append_right _ (List.mem_map.2 ⟨k, hk, rfl⟩))
      · obtain ⟨x, hx, rfl⟩ := (hst st).1 hs
        obtain ⟨k, hk, he⟩ := (h2 x hx).writes.2 i hi
        refine ⟨⟨x.1.identifier.str, k.str, some (x.1.identifier.str ++ [':', ' ', 'w', 'r', 'i', 't', 'e', ' '] ++ k.str)⟩, ⟨x, hx, ?_⟩, rfl, hr.spelling _ hs _ hs k i (.inr ((h2 x hx).writes.1 k hk)) (.inr hi) he⟩
        · rw [(h2 x hx).edges]
          exact List.mem_append_right _ (List.mem_map.2 ⟨k, hk, rfl⟩)
  · intro st hs k t hk
    obtain ⟨x, hx, rfl⟩ := (hst st).1 hs
    refine ⟨⟨x.1.identifier.str, t.1.str, some (transitionLabel x.1.identifier.str t.1.str k t.2)⟩, ?_, rfl, rfl, _, rfl, ?_⟩
    · refine List.mem_flatMap.2 ⟨x, hx, ?_⟩
      rw [(h2 x hx).edges]
      exact List.mem_append_left _ (List.mem_append_left _ (List.mem_map.2 ⟨(t, k), List.mem_zipIdx_iff_getElem?.2 hk, rfl⟩))
    · unfold transitionLabel
      constructor
      · intro hc
        rw [if_pos (eq_tru_iff.2 hc)]
      · intro hc
        rw [if_neg (fun h => hc (eq_tru_iff.1 h))]
        rfl

/-- **C54**, reading of the drawing of a session: if no state has the name of a variable, two states are connected exactly if there is a transition. -/
theorem C54_transitions (h : List PyStr → Int) (s : FullSession M) (hr : Regular h s) (g : Graph) (hg : getSession h s = .ok g)
    (hn : ∀ st ∈ s.states, ∀ st' ∈ s.states, ∀ i, Uses h st' i → i.str ≠ st.identifier.str)
    (a b : FullState M) (ha : a ∈ s.states) (hb : b ∈ s.states) (hd : ∀ st ∈ s.states, st.identifier.str = a.identifier.str → st = a) :
    g.HasEdge a.identifier.str b.identifier.str ↔ ∃ t ∈ a.transitions, t.1.str = b.identifier.str := by
  obtain ⟨g', hg', _, _, he, _⟩ := C54_session_partial h s hr
  rw [hg] at hg'
  cases hg'
  rw [he]
  constructor
  · rintro (⟨st, hs, t, ht, h1, h2⟩ | ⟨st, hs, i, hi, h1, h2⟩ | ⟨st, hs, i, hi, h1, h2⟩)
    · obtain rfl := hd st hs h1.symm
      exact ⟨t, ht, h2.symm⟩
    · exact absurd h1.symm (hn a ha st hs i (.inl hi))
    · exact absurd h2.symm (hn b hb st hs i (.inr hi))
  · rintro ⟨t, ht, h1⟩
    exact .inl ⟨a, ha, t, ht, rfl, h1.symm⟩

/-! ## Examples and counterexamples -/

/-- Names of one letter. -/
def exId (c : Char) : ID := ⟨[[c]]⟩

/-- A variable. -/
def exVar (c : Char) : Expr := .var false false (exId c)

/-- A message with a tag `T`, an optional field `L` and data `D`: `T` then `L` if `T = 1`, then `D`, or `T` then `D` with size 8. -/
def exMessage : Message where
  structure_ := [⟨INITIAL, exId 'T', .tru, .undefined, .undefined⟩, ⟨exId 'T', exId 'L', .rel .eq (exVar 'T') (.num 1 .b0), .undefined, .undefined⟩,
    ⟨exId 'T', exId 'D', .rel .ne (exVar 'T') (.num 1 .b0), .num 8 .b0, .undefined⟩,
    ⟨exId 'L', exId 'D', .tru, .mul [exVar 'L', .num 8 .b0], .undefined⟩, ⟨exId 'D', FINAL, .tru, .undefined, .undefined⟩]
  fields := [exId 'T', exId 'L', exId 'D']
  types := [(exId 'T', some (.num 8 .b0)), (exId 'L', some (.num 16 .b0)), (exId 'D', none)]

/-- The hypotheses of `C54_message` and `C54_arrows`. -/
example : exMessage.Closed ∧ exMessage.NoClash := by
  refine ⟨⟨?_, ?_⟩, ?_⟩
  · intro l hl
    simp only [exMessage, List.mem_cons, List.not_mem_nil, or_false] at hl
    rcases hl with rfl | rfl | rfl | rfl | rfl <;> simp [Message.IsField, exMessage, exId, ID.str, joinSep, INITIAL, FINAL, start, finish]
  · intro l hl
    simp only [exMessage, List.mem_cons, List.not_mem_nil, or_false] at hl
    rcases hl with rfl | rfl | rfl | rfl | rfl <;> simp [exMessage, exId, ID.key, FINAL, PyStr.lower]
  · intro f hf x
    simp only [exMessage, List.mem_cons, List.not_mem_nil, or_false] at hf
    rcases hf with rfl | rfl | rfl <;> simp [exId, ID.str, joinSep]

/-- The labels of the drawing of `exMessage`. -/
example : (getMessage exMessage).toOption.map (fun g => g.nodes.filterMap (·.label)) = some [[], "(⊤, 8, ⋆)".toList, "(T = 1, 16, ⋆)".toList,
    "(T /= 1,\n8, ⋆)".toList, "(⊤, L * 8, ⋆)".toList, "(⊤, 0, ⋆)".toList, []] := by
  with_unfolding_all rfl

/-- The name `intermediate_0`. -/
def exClash : ID := ⟨["intermediate_0".toList]⟩

/-- A field named `intermediate_0` is drawn as the node for the label of the first link: the field seems to follow `Initial` and to precede `A`,
though it is the last field. -/
theorem C54_clash_counterexample : ∃ m : Message, m.Closed ∧ ∃ g, getMessage m = .ok g ∧ m.IsField exClash.str ∧
    g.HasEdge start exClash.str ∧ g.HasEdge exClash.str (exId 'A').str ∧
    ¬ (∃ l ∈ m.drawn, l.source.str = start ∧ l.target.str = exClash.str) ∧ ¬ ∃ l ∈ m.drawn, l.source.str = exClash.str ∧ l.target.str = (exId 'A').str := by
  refine ⟨⟨[⟨INITIAL, exId 'A', .tru, .undefined, .undefined⟩, ⟨exId 'A', exClash, .tru, .undefined, .undefined⟩,
    ⟨exClash, FINAL, .tru, .undefined, .undefined⟩], [exId 'A', exClash], [(exId 'A', none), (exClash, none)]⟩, ⟨?_, ?_⟩,
    _, by with_unfolding_all rfl, .inr (.inr ⟨exClash, by simp, rfl⟩), ⟨_, .head _, rfl, by with_unfolding_all rfl⟩,
    ⟨_, .tail _ (.head _), by with_unfolding_all rfl, rfl⟩, ?_, ?_⟩
  · intro l hl
    simp only [List.mem_cons, List.not_mem_nil, or_false] at hl
    rcases hl with rfl | rfl | rfl <;> simp [Message.IsField, exId, ID.str, joinSep, INITIAL, FINAL, start, finish, exClash]
  · intro l hl
    simp only [List.mem_cons, List.not_mem_nil, or_false] at hl
    rcases hl with rfl | rfl | rfl <;> simp [exId, ID.key, FINAL, PyStr.lower, exClash]
  · rintro ⟨l, hl, h1, h2⟩
    simp only [Message.drawn, List.mem_cons, List.not_mem_nil, or_false] at hl
    rcases hl with rfl | rfl | rfl <;> simp [exId, ID.str, joinSep, INITIAL, FINAL, start, exClash] at h1 h2
  · rintro ⟨l, hl, h1, h2⟩
    simp only [Message.drawn, List.mem_cons, List.not_mem_nil, or_false] at hl
    rcases hl with rfl | rfl | rfl <;> simp [exId, ID.str, joinSep, INITIAL, FINAL, start, exClash] at h1 h2

/-- Names that differ in case denote the same field, but are drawn as different nodes: no path leads from the beginning to the end. -/
theorem C54_message_spelling_counterexample : ∃ (m : Message) (g : Graph), getMessage m = .ok g ∧
    (∃ a b, m.drawn = [a, b] ∧ a.target.eq b.source = true) ∧ ¬ g.HasNode ['a'] ∧
    ∀ x, g.HasEdge x (exId 'A').str → ¬ ∃ y, g.HasEdge (exId 'A').str y := by
  refine ⟨⟨[⟨INITIAL, exId 'A', .tru, .undefined, .undefined⟩, ⟨exId 'a', FINAL, .tru, .undefined, .undefined⟩], [exId 'A'], [(exId 'A', none)]⟩,
    _, by with_unfolding_all rfl, ⟨_, _, rfl, by decide⟩, ?_, ?_⟩
  · rintro ⟨n, hn, h⟩
    simp only [List.cons_append, List.nil_append, List.map_cons, List.map_nil, List.mem_cons, List.not_mem_nil, or_false] at hn
    rcases hn with rfl | rfl | rfl | rfl | rfl <;> revert h <;> with_unfolding_all decide
  · rintro x - ⟨y, e, he, h, -⟩
    simp only [List.cons_append, List.nil_append, List.mem_cons, List.not_mem_nil, or_false] at he
    rcases he with rfl | rfl | rfl | rfl <;> revert h <;> with_unfolding_all decide

/-- A session: state `S` sets `X` and goes to `T` if `X = Y`, otherwise to itself; `T` is the final state. -/
def exSession : FullSession Unit where
  identifier := ⟨[['P'], ['N']]⟩
  initial := exId 'S'
  final := exId 'T'
  states := [⟨exId 'S', [(exId 'T', .rel .eq (exVar 'X') (exVar 'Y')), (exId 'S', .tru)], none, [.assign (exId 'X') (.plain (.num 1 .b0))], []⟩,
    ⟨exId 'T', [], none, [], []⟩]
  declarations := []
  parameters := []
  types := []

theorem exVariables : Verif.variables (fun _ => 0) (.rel .eq (exVar 'X') (exVar 'Y')) = [⟨false, exId 'X'⟩, ⟨false, exId 'Y'⟩] := by
  with_unfolding_all rfl

theorem hasEdge_iff {g : Graph} {a b : PyStr} : g.HasEdge a b ↔ (a, b) ∈ g.edges.map (fun e => (e.src, e.dst)) := by
  simp [Graph.HasEdge, List.mem_map]

theorem hasNode_iff {g : Graph} {a : PyStr} : g.HasNode a ↔ a ∈ g.nodes.map (fun n => n.name) := by
  simp [Graph.HasNode, List.mem_map]

/-- The hypotheses of `C54_session_partial` and `C54_transitions`. -/
example : Regular (fun _ => 0) exSession ∧
    ∀ st ∈ exSession.states, ∀ st' ∈ exSession.states, ∀ i, Uses (fun _ => 0) st' i → i.str ≠ st.identifier.str := by
  have huse : ∀ st ∈ exSession.states, ∀ i, Uses (fun _ => 0) st i → i = exId 'X' ∨ i = exId 'Y' := by
    intro st hs i hi
    simp only [exSession, List.mem_cons, List.not_mem_nil, or_false] at hs
    rcases hs with rfl | rfl
    · rcases hi with ⟨⟨t, ht, v, hv, rfl⟩ | ⟨j, e, he, v, hv, rfl⟩, _⟩ | ⟨⟨a, ha, rfl⟩, _⟩
      · simp only [List.mem_cons, List.not_mem_nil, or_false] at ht
        rcases ht with rfl | rfl
        · rw [exVariables] at hv
          simp only [List.mem_cons, List.not_mem_nil, or_false] at hv
          rcases hv with rfl | rfl
          · exact .inl rfl
          · exact .inr rfl
        · simp [Verif.variables] at hv
      · simp only [List.mem_cons, List.not_mem_nil, or_false] at he
        cases he
        simp [SExpr.variables, Verif.variables] at hv
      · simp only [List.mem_cons, List.not_mem_nil, or_false] at ha
        subst ha
        exact .inl rfl
    · rcases hi with ⟨⟨t, ht, _⟩ | ⟨j, e, he, _⟩, _⟩ | ⟨⟨a, ha, _⟩, _⟩
      · cases ht
      · cases he
      · cases ha
  refine ⟨⟨?_, ?_, ?_⟩, ?_⟩
  · intro st hs
    simp only [exSession, List.mem_cons, List.not_mem_nil, or_false] at hs
    rcases hs with rfl | rfl <;> exact ⟨⟨by decide, by decide⟩, rfl⟩
  · intro st hs t ht
    simp only [exSession, List.mem_cons, List.not_mem_nil, or_false] at hs
    rcases hs with rfl | rfl
    · simp only [List.mem_cons, List.not_mem_nil, or_false] at ht
      rcases ht with rfl | rfl <;> exact ⟨⟨by decide, by decide⟩, rfl⟩
    · cases ht
  · intro st hs st' hs' i j hi hj
    rcases huse st hs i hi with rfl | rfl <;> rcases huse st' hs' j hj with rfl | rfl <;> decide
  · intro st hs st' hs' i hi
    simp only [exSession, List.mem_cons, List.not_mem_nil, or_false] at hs
    rcases hs with rfl | rfl <;> rcases huse st' hs' i hi with rfl | rfl <;> decide

/-- The edges of the drawing of `exSession`. -/
example : (getSession (fun _ => 0) exSession).toOption.map (fun g => g.edges.map fun e => (e.src, e.dst)) =
    some [(['S'], ['T']), (['S'], ['S']), (['X'], ['S']), (['Y'], ['S']), (['S'], ['X'])] := by
  with_unfolding_all rfl

/-- Exception transitions are not drawn: the state `E` is not connected, though it is the target of an exception transition. -/
theorem C54_exception_counterexample : ∃ (s : FullSession Unit) (g : Graph), getSession (fun _ => 0) s = .ok g ∧
    (∃ st ∈ s.states, st.identifier = exId 'S' ∧ st.exception = some (exId 'E')) ∧ (∃ st ∈ s.states, st.identifier = exId 'E') ∧
    g.HasNode ['E'] ∧ ∀ x, ¬ g.HasEdge x ['E'] := by
  let s : FullSession Unit := { exSession with states := [⟨exId 'S', [(exId 'S', .tru)], some (exId 'E'), [.append (exId 'X') (.plain (exVar 'Y'))], []⟩,
    ⟨exId 'E', [(exId 'S', .tru)], none, [], []⟩] }
  obtain ⟨g, hg, hn, he⟩ : ∃ g, getSession (fun _ => 0) s = .ok g ∧ g.nodes.map (fun n => n.name) = [['S'], ['E'], ['X']] ∧
      g.edges.map (fun e => (e.src, e.dst)) = [(['S'], ['S']), (['S'], ['X']), (['E'], ['S'])] :=
    ⟨_, by with_unfolding_all rfl, by with_unfolding_all rfl, by with_unfolding_all rfl⟩
  refine ⟨s, g, hg, ⟨_, .head _, rfl, rfl⟩, ⟨_, .tail _ (.head _), rfl⟩, ?_, ?_⟩
  · rw [hasNode_iff, hn]; simp
  · intro x
    rw [hasEdge_iff, he]
    simp

/-- Only conditions and assignments are regarded as reading: the variable `Y` that is appended to the list `X` is not drawn. -/
theorem C54_read_counterexample : ∃ (s : FullSession Unit) (g : Graph), getSession (fun _ => 0) s = .ok g ∧
    (∃ st ∈ s.states, ∃ a ∈ st.actions, ∃ v ∈ a.variables (fun _ => 0), v.id = exId 'Y') ∧ ¬ g.HasNode ['Y'] := by
  let s : FullSession Unit := { exSession with states := [⟨exId 'S', [(exId 'S', .tru)], none, [.append (exId 'X') (.plain (exVar 'Y'))], []⟩] }
  obtain ⟨g, hg, hn⟩ : ∃ g, getSession (fun _ => 0) s = .ok g ∧ g.nodes.map (fun n => n.name) = [['S'], ['X']] :=
    ⟨_, by with_unfolding_all rfl, by with_unfolding_all rfl⟩
  refine ⟨s, g, hg, ⟨_, .head _, _, .head _, ⟨false, exId 'Y'⟩, .tail _ (.head _), rfl⟩, ?_⟩
  rw [hasNode_iff, hn]
  simp

/-- A transition to `T` written `t` is drawn as an edge to a node that is not the node of the state. -/
theorem C54_spelling_counterexample : ∃ (s : FullSession Unit) (g : Graph), getSession (fun _ => 0) s = .ok g ∧
    (∃ a b t, s.states = [a, b] ∧ a.transitions = [t] ∧ t.1.eq b.identifier = true ∧ g.HasEdge a.identifier.str ['t'] ∧
      ¬ g.HasEdge a.identifier.str b.identifier.str) ∧ ¬ g.HasNode ['t'] := by
  let s : FullSession Unit := { exSession with states := [⟨exId 'S', [(exId 't', .tru)], none, [], []⟩, ⟨exId 'T', [], none, [], []⟩] }
  obtain ⟨g, hg, hn, he⟩ : ∃ g, getSession (fun _ => 0) s = .ok g ∧ g.nodes.map (fun n => n.name) = [['S'], ['T']] ∧
      g.edges.map (fun e => (e.src, e.dst)) = [(['S'], ['t'])] :=
    ⟨_, by with_unfolding_all rfl, by with_unfolding_all rfl, by with_unfolding_all rfl⟩
  refine ⟨s, g, hg, ⟨_, _, _, rfl, rfl, by decide, ?_, ?_⟩, ?_⟩
  · rw [hasEdge_iff, he]; simp [exId, ID.str, joinSep]
  · rw [hasEdge_iff, he]; simp [exId, ID.str, joinSep]
  · rw [hasNode_iff, hn]; simp

end Verif.Dot
