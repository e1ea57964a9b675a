import Verif.Bridge.Assign

/-! # From messages in a buffer to layouts of the model verification -/

namespace Verif.Bridge
open Verif Verif.Graph Verif.Verify Verif.Types Verif.Gen Verif.Spark Verif.Ctx

/-- The solver reads the conditions and sizes of a message as they are meant. -/
structure Understood (m : Msg) : Prop where
  condition : ∀ l ∈ m.links, Linear l.condition
  size : ∀ l ∈ m.links, l.size ≠ .undefined → Linear l.size

section
variable {P : Pkg} {b : Bytes} {lo hi : Int} {es : List Item} {p : Field} {pos : Int} {dflt : Field → Int} {s : Solver}

/-- Size aspects belong to fields of composite types only, and to all of them. -/
theorem size_aspect {m : Msg} (ha : m.Accepted s) (hr : m.Regular) {l : Link} (hl : l ∈ m.links) (hs : l.source ≠ FINAL) :
    (l.target = FINAL → l.size = .undefined) ∧
      (l.target ≠ FINAL → ∀ t, m.type? l.target = some t → (l.size ≠ .undefined ↔ t.isUnconstrained = true)) := by
  obtain ⟨k, hv⟩ := (accepted_verified ha).2 (List.ne_nil_of_mem hl)
  have h1 := anyM_false hv.expressions _ (source_mem ha hr hl hs)
  have h2 := anyM_false h1 l (by simp [outgoing, hl])
  obtain ⟨x, _, h2⟩ := bind_ok (h2 : (m.checkAttributes _).bind _ = _)
  have h3 : (x || checkFirst l || m.checkSize l) = false := Except.ok.inj h2
  simp only [Bool.or_eq_false_iff] at h3
  have h4 := h3.2
  unfold Msg.checkSize at h4
  constructor
  · intro ht
    rw [if_pos ht] at h4
    simpa [undef_eq] using h4
  · intro ht t htt
    rw [if_neg ht, htt] at h4
    have hu : l.size.eq .undefined = true ↔ l.size = .undefined := undef_eq l.size
    cases hc : t.isUnconstrained <;> cases he : l.size.eq .undefined <;> simp [hc, he] at h4 hu ⊢
    · exact hu
    · exact hu

theorem plainLink (W : WellFormed P) (ha : P.m.msg.Accepted s) (hr : P.m.msg.Regular) (hU : Understood P.m.msg) {ρ : Env} (T : Typed P.m ρ) {l : Link}
    (hl : l ∈ P.m.msg.links) : PlainLink .ada ρ l := by
  obtain ⟨fs, hp⟩ := path_source W hl
  have hs : l.source ≠ FINAL := by
    intro h
    rcases (W.links l hl).1 with h' | h'
    · rw [h] at h'; exact absurd h' (by decide)
    · rw [h] at h'; exact W.final h'
  refine ⟨cond_plain T _ (W.scope l hl fs hp) (hU.condition l hl), fun hne => ?_, fun hne => (hne (W.noFirst l hl)).elim⟩
  obtain ⟨h1, h2⟩ := size_aspect ha hr hl hs
  by_cases ht : l.target = FINAL
  · exact (hne (h1 ht)).elim
  · obtain ⟨t, htt⟩ := W.typed _ ((W.links l hl).2.resolve_left ht)
    have hu := (h2 ht t (type?_some W.names htt)).mp hne
    have hc : ¬ Scalar t := by intro h; cases t <;> simp_all [FTy.isUnconstrained, Scalar]
    exact cond_plain T _ (W.sizeScope l hl t htt hc fs hp) (hU.size l hl hne)

/-- Where the next field begins. -/
def Reached (ρ : Env) (lo : Int) (p : Field) (pos : Int) : Prop :=
  (p = INITIAL ∧ pos = lo) ∨ (p ≠ INITIAL ∧ ρ.attr .last p.key = .int (pos - 1))

theorem item_attrs (W : WellFormed P) (hn : (es.map (·.f)).Nodup) {e : Item} (he : e ∈ es) (hf : e.f ∈ P.m.msg.fields) :
    (fullEnv P.m.msg b lo hi es dflt).attr .first e.f.key = .int e.first ∧ (fullEnv P.m.msg b lo hi es dflt).attr .last e.f.key = .int e.last ∧
    (fullEnv P.m.msg b lo hi es dflt).attr .size e.f.key = .int (e.last - e.first + 1) := by
  have hne := field_single W.names hf
  rw [field_parts W.names hf] at hne ⊢
  simp only [(fullEnv_item hn he).2]
  exact itemEnv_attr hn he hne

/-- A link with its target at the given place. -/
theorem at_link (W : WellFormed P) {xs : List Item} {y : Item} (hn : ((xs ++ y :: es).map (·.f)).Nodup) {l : Link} (hl : l ∈ P.m.msg.links)
    (hy : y.f = l.target) (ht : l.target ≠ FINAL) (hpos : y.first = pos) (hsrc : l.source = p)
    (hR : Reached (fullEnv P.m.msg b lo hi (xs ++ y :: es) dflt) lo p pos)
    (hsp : Spans .ada P.m.msg (fullEnv P.m.msg b lo hi (xs ++ y :: es) dflt) l (y.last - y.first + 1)) :
    At .ada P.m.msg (fullEnv P.m.msg b lo hi (xs ++ y :: es) dflt) lo l pos (y.last - y.first + 1) := by
  have hf : y.f ∈ P.m.msg.fields := by rw [hy]; exact (W.links l hl).2.resolve_left ht
  obtain ⟨h1, h2, h3⟩ := item_attrs (b := b) (lo := lo) (hi := hi) (dflt := dflt) W hn (List.mem_append_right xs List.mem_cons_self) hf
  rw [hy] at h1 h2 h3
  refine ⟨?_, hsp, by rw [h1, hpos], h3, by rw [h2]; congr 1; omega⟩
  subst hsrc
  rcases hR with ⟨h, h'⟩ | ⟨h, h'⟩
  · exact .inl ⟨h, h'⟩
  · exact .inr (.inl ⟨h, W.noFirst l hl, _, h', by omega⟩)

theorem spans_composite (W : WellFormed P) {xs : List Item} {y : Item} (hn : ((xs ++ y :: es).map (·.f)).Nodup) {l : Link} (hl : l ∈ P.m.msg.links)
    {t : FTy} (ht : (l.target, t) ∈ P.m.msg.types) (hc : ¬ Scalar t) (hp : Path P.m.msg (es.map (·.f)) l.source) {n : Int}
    (he : eval .ada (itemEnv P.m.msg b lo hi es) l.size = some (.int n)) :
    Spans .ada P.m.msg (fullEnv P.m.msg b lo hi (xs ++ y :: es) dflt) l n := by
  refine .inl ⟨fun h => by rw [h] at he; simp [eval] at he, ?_⟩
  have hn' : (((xs ++ [y]) ++ es).map (·.f)).Nodup := by simpa using hn
  have := cond_congr (D := .ada) W.names (agreeOn (b := b) (lo := lo) (hi := hi) (dflt := dflt) W hn') l.size (W.sizeScope l hl t ht hc _ hp)
  simp only [List.append_assoc, List.singleton_append] at this
  rw [this, he]

theorem source_ne_final (W : WellFormed P) {l : Link} (hl : l ∈ P.m.msg.links) : l.source ≠ FINAL := by
  intro h
  rcases (W.links l hl).1 with h' | h'
  · rw [h] at h'; exact absurd h' (by decide)
  · rw [h] at h'; exact W.final h'

theorem target_ne_initial (W : WellFormed P) {l : Link} (hl : l ∈ P.m.msg.links) : l.target ≠ INITIAL := by
  intro h
  rcases (W.links l hl).2 with h' | h'
  · rw [h] at h'; exact absurd h' (by decide)
  · rw [h] at h'; exact W.initial h'

/-- The fields at the beginning of a longer message have a layout. -/
theorem layout (W : WellFormed P) (ha : P.m.msg.Accepted s) (hr : P.m.msg.Regular) (h : Follows P.m.msg b lo hi es p pos) :
    ∀ xs : List Item, ((xs ++ es).map (·.f)).Nodup → ∃ q, Graph.Path P.m.msg.links INITIAL q p ∧ (∀ l ∈ q, l ∈ P.m.msg.links) ∧
      Reached (fullEnv P.m.msg b lo hi (xs ++ es) dflt) lo p pos ∧
      (∀ l ∈ q, ∃ a n, At .ada P.m.msg (fullEnv P.m.msg b lo hi (xs ++ es) dflt) lo l a n ∧ a + n - 1 ≤ hi) ∧
      (∀ l ∈ q, eval .ada (fullEnv P.m.msg b lo hi (xs ++ es) dflt) l.condition = some (.bool true)) ∧
      ∀ e ∈ es, ∃ l q₁ q₂, q = q₁ ++ l :: q₂ ∧ l.target = e.f ∧
        At .ada P.m.msg (fullEnv P.m.msg b lo hi (xs ++ es) dflt) lo l e.first (e.last - e.first + 1) := by
  have step : ∀ {es : List Item} {p pos} {l : Link} {y : Item}, Follows P.m.msg b lo hi es p pos → l ∈ P.m.msg.links → l.source = p → l.target ≠ FINAL →
      IsTrue P.m.msg b lo hi es l.condition → y.f = l.target → y.first = pos → y.last ≤ hi →
      (∀ xs : List Item, ((xs ++ y :: es).map (·.f)).Nodup → Spans .ada P.m.msg (fullEnv P.m.msg b lo hi (xs ++ y :: es) dflt) l (y.last - y.first + 1)) →
      (∀ xs : List Item, ((xs ++ es).map (·.f)).Nodup → ∃ q, Graph.Path P.m.msg.links INITIAL q p ∧ (∀ l ∈ q, l ∈ P.m.msg.links) ∧
        Reached (fullEnv P.m.msg b lo hi (xs ++ es) dflt) lo p pos ∧
        (∀ l ∈ q, ∃ a n, At .ada P.m.msg (fullEnv P.m.msg b lo hi (xs ++ es) dflt) lo l a n ∧ a + n - 1 ≤ hi) ∧
        (∀ l ∈ q, eval .ada (fullEnv P.m.msg b lo hi (xs ++ es) dflt) l.condition = some (.bool true)) ∧
        ∀ e ∈ es, ∃ l q₁ q₂, q = q₁ ++ l :: q₂ ∧ l.target = e.f ∧
          At .ada P.m.msg (fullEnv P.m.msg b lo hi (xs ++ es) dflt) lo l e.first (e.last - e.first + 1)) →
      ∀ xs : List Item, ((xs ++ y :: es).map (·.f)).Nodup → ∃ q, Graph.Path P.m.msg.links INITIAL q l.target ∧ (∀ l ∈ q, l ∈ P.m.msg.links) ∧
        Reached (fullEnv P.m.msg b lo hi (xs ++ y :: es) dflt) lo l.target (y.last + 1) ∧
        (∀ l ∈ q, ∃ a n, At .ada P.m.msg (fullEnv P.m.msg b lo hi (xs ++ y :: es) dflt) lo l a n ∧ a + n - 1 ≤ hi) ∧
        (∀ l ∈ q, eval .ada (fullEnv P.m.msg b lo hi (xs ++ y :: es) dflt) l.condition = some (.bool true)) ∧
        ∀ e ∈ y :: es, ∃ l q₁ q₂, q = q₁ ++ l :: q₂ ∧ l.target = e.f ∧
          At .ada P.m.msg (fullEnv P.m.msg b lo hi (xs ++ y :: es) dflt) lo l e.first (e.last - e.first + 1) := by
    intro es p pos l y hfol hl hsrc ht hc hy hpos hlast hsp ih xs hn
    have hn' : (((xs ++ [y]) ++ es).map (·.f)).Nodup := by simpa using hn
    have ih := ih (xs ++ [y]) hn'
    have hcc := cond_congr (D := .ada) W.names (agreeOn (b := b) (lo := lo) (hi := hi) (dflt := dflt) W hn') l.condition
      (W.scope l hl _ (hsrc ▸ follows_path hfol))
    simp only [List.append_assoc, List.singleton_append] at ih hcc
    obtain ⟨q, hq, hm, hR, hA, hC, hE⟩ := ih
    have hAt := at_link W hn hl hy ht hpos hsrc hR (hsp xs hn)
    have hcond : eval .ada (fullEnv P.m.msg b lo hi (xs ++ y :: es) dflt) l.condition = some (.bool true) := hcc.trans hc
    have hf : y.f ∈ P.m.msg.fields := by rw [hy]; exact (W.links l hl).2.resolve_left ht
    refine ⟨q ++ [l], .snoc (hsrc ▸ hq) hl, ?_, ?_, ?_, ?_, ?_⟩
    · intro l' hl'
      simp only [List.mem_append, List.mem_singleton] at hl'
      rcases hl' with h | rfl
      · exact hm _ h
      · exact hl
    · refine .inr ⟨target_ne_initial W hl, ?_⟩
      have := (item_attrs (b := b) (lo := lo) (hi := hi) (dflt := dflt) W hn (List.mem_append_right xs List.mem_cons_self) hf).2.1
      rw [hy] at this
      rw [this]
      congr 1
      omega
    · intro l' hl'
      simp only [List.mem_append, List.mem_singleton] at hl'
      rcases hl' with h | rfl
      · exact hA _ h
      · exact ⟨_, _, hAt, by omega⟩
    · intro l' hl'
      simp only [List.mem_append, List.mem_singleton] at hl'
      rcases hl' with h | rfl
      · exact hC _ h
      · exact hcond
    · intro e he
      rcases List.mem_cons.mp he with rfl | he
      · exact ⟨l, q, [], rfl, hy.symm, hpos ▸ hAt⟩
      · obtain ⟨l', q₁, q₂, h1, h2, h3⟩ := hE e he
        exact ⟨l', q₁, q₂ ++ [l], by rw [h1]; simp, h2, h3⟩
  induction h with
  | start => exact fun xs _ => ⟨[], .nil, by simp, .inl ⟨rfl, rfl⟩, by simp, by simp, by simp⟩
  | @scalar es p pos l t n hfol hl hsrc ht hc htt hs hsz hle hin ih =>
    intro xs hn
    have := step (y := ⟨l.target, pos, pos + n.v - 1, bitsAt b pos n.v.toNat⟩) hfol hl hsrc ht hc rfl rfl hle (fun xs _ => ?_) ih xs hn
    · have e : pos + n.v - 1 + 1 = pos + n.v := by omega
      simpa only [e] using this
    · refine .inr (.inr ⟨?_, ht, t, n, type?_some W.names htt, hsz, by simp only; omega⟩)
      have h1 := (size_aspect ha hr hl (source_ne_final W hl)).2 ht t (type?_some W.names htt)
      refine Classical.byContradiction fun hne => ?_
      have := h1.mp hne
      cases t <;> simp_all [FTy.isUnconstrained, Scalar]
  | @composite es p pos l t n hfol hl hsrc ht hc htt hs he hn0 hle ih =>
    intro xs hn
    have := step (y := ⟨l.target, pos, pos + n - 1, 0⟩) hfol hl hsrc ht hc rfl rfl hle (fun xs hn => ?_) ih xs hn
    · have e : pos + n - 1 + 1 = pos + n := by omega
      simpa only [e] using this
    · have := spans_composite (b := b) (lo := lo) (hi := hi) (dflt := dflt) W hn hl htt hs (hsrc ▸ follows_path hfol) he
      have e : pos + n - 1 - pos + 1 = n := by omega
      simpa only [e] using this

end
end Verif.Bridge
