import Verif.Ctx.Embedded
import Verif.Ctx.Steps

/-! # The predicate holds in every state of a context -/

namespace Verif.Ctx
open Verif Verif.Graph Verif.Verify Verif.Types Verif.Gen Verif.Spark

/-- The buffer is there, or the predicate does not read it. -/
def Pkg.Buffered (P : Pkg) (c : Context) : Prop :=
  c.hasBuffer = true ∨ ∀ l ∈ P.m.msg.links, l.target ≠ FINAL → compares l.condition = false ∧ compares l.size = false

theorem every_true {xs : List (Run Bool)} (h : ∀ x ∈ xs, x = .ok true) : every xs = .ok true := by
  induction xs with
  | nil => rfl
  | cons x xs ih =>
    rw [every, h x List.mem_cons_self]
    exact ih fun x hx => h x (List.mem_cons_of_mem _ hx)

theorem anyOf_true {xs : List (Run Bool)} (h : ∀ x ∈ xs, ∃ b, x = .ok b) (ht : .ok true ∈ xs) : anyOf xs = .ok true := by
  have : ∃ bs : List Bool, xs.mapM id = .ok bs ∧ (.ok true ∈ xs → true ∈ bs) := by
    clear ht
    induction xs with
    | nil => exact ⟨[], rfl, by simp⟩
    | cons x xs ih =>
      obtain ⟨b, rfl⟩ := h x List.mem_cons_self
      obtain ⟨bs, h1, h2⟩ := ih fun x hx => h x (List.mem_cons_of_mem _ hx)
      refine ⟨b :: bs, ?_, ?_⟩
      · rw [List.mapM_cons, h1]
        rfl
      · intro hm
        rcases List.mem_cons.mp hm with hm | hm
        · cases hm; exact List.mem_cons_self
        · exact List.mem_cons_of_mem _ (h2 hm)
  obtain ⟨bs, h1, h2⟩ := this
  unfold anyOf
  rw [h1]
  show Except.ok _ = _
  congr 1
  simp only [Bool.or_eq_true, List.any_eq_true]
  exact .inr ⟨true, h2 ht, rfl⟩

section
variable {P : Pkg} {b : Bytes} {lo hi : Int} {c : Context} {es : List Item} {p : Field} {pos : Int} {f : Field} {l : Link}

theorem Inv.sv (V : Inv P lo hi c b es p pos) (hf : f ∈ P.m.msg.fields) : (c.cursors f).sv = true ↔ f ∈ es.map (·.f) := by
  constructor
  · intro h
    by_cases hm : f ∈ es.map (·.f)
    · exact hm
    · have := V.others f hf hm
      simp only [Cursor.sv, Cursor.inv, Bool.or_eq_true, decide_eq_true_eq] at h this
      rcases h with h | h <;> rw [h] at this <;> rcases this with this | this <;> cases this
  · intro h
    obtain ⟨e, he, rfl⟩ := List.mem_map.mp h
    exact V.holds.cursors.sv e he

theorem Inv.buffered (V : Inv P lo hi c b es p pos) (hb : P.Buffered c) (hl : l ∈ P.m.msg.links) (ht : l.target ≠ FINAL) :
    (c.buffer = some b ∨ compares l.condition = false) ∧ (c.buffer = some b ∨ compares l.size = false) := by
  rcases hb with hb | hb
  · have : c.buffer = some b := by
      rcases V.buffer with h | h
      · exact h
      · simp [Context.hasBuffer, h] at hb
    exact ⟨.inl this, .inl this⟩
  · exact ⟨.inr (hb l hl ht).1, .inr (hb l hl ht).2⟩

/-- Conditions in the predicate. -/
theorem Inv.condition (W : WellFormed P) (E : Embeddable P) (V : Inv P lo hi c b es p pos) (hb : P.Buffered c) {ys : List Item} {q : Field} {qpos : Int}
    (H : Contains P b lo hi { c with buffer := some b } ys q qpos) (hl : l ∈ P.m.msg.links) (hs : l.source = q) (ht : l.target ≠ FINAL) :
    ∃ x, P.embedded (some U64) c l.condition = .ok (.bool x) ∧ (x = true ↔ IsTrue P.m.msg b lo hi ys l.condition) := by
  obtain ⟨x, hx⟩ := W.bool l hl _ (itemEnv_typed W (b := b) (lo := lo) (hi := hi) (es := ys))
  refine ⟨x, embedded_ok W E V.inside H (.inl rfl) (E.scope l hl ht _ (hs ▸ follows_path H.follows)) (W.wf l hl).1 (W.wf l hl).2
    (V.buffered hb hl ht).1 hx, ?_⟩
  rw [IsTrue, hx]
  simp

/-- The structure of the message. -/
theorem Inv.structure (W : WellFormed P) (U : Verified P lo hi) (E : Embeddable P) (V : Inv P lo hi c b es p pos) (hb : P.Buffered c) :
    ∀ (k : Nat) (xs ys : List Item) (q : Field) (qpos : Int), es = xs ++ ys → Contains P b lo hi { c with buffer := some b } ys q qpos → xs.length < k →
      ∀ l ∈ P.m.msg.links, l.source = q → P.structure c k l = .ok true := by
  intro k
  induction k with
  | zero => intro xs ys q qpos _ _ h; omega
  | succ k ih =>
    intro xs ys q qpos hes H hk l hl hs
    unfold Pkg.structure
    by_cases hfin : l.target = FINAL
    · rw [if_pos hfin]
    · rw [if_neg hfin]
      by_cases hsv : (c.cursors l.target).sv = true
      · rw [if_pos hsv]
        have hf := (W.links l hl).2.resolve_left hfin
        obtain ⟨x, hx, hiff⟩ := V.condition W E hb H hl hs hfin
        rw [hx]
        cases x with
        | false => rfl
        | true =>
          have htrue := hiff.mp rfl
          have hin := (V.sv hf).mp hsv
          -- the field is the next one
          obtain ⟨xs', z, rfl⟩ : ∃ xs' z, xs = xs' ++ [z] := by
            cases hxs : xs.reverse with
            | nil =>
              have : xs = [] := by simpa using hxs
              subst this
              rw [hes] at hin
              exact absurd hin (path_next W (follows_path H.follows) hl hs hfin)
            | cons z zs => exact ⟨zs.reverse, z, by rw [← List.reverse_reverse xs, hxs]; simp⟩
          have hes' : es = xs' ++ z :: ys := by simp [hes]
          obtain ⟨q', qpos', l', R, S, hq'⟩ := V.holds.ready W V.chained hes'
          obtain ⟨rfl, rfl⟩ := follows_fun R.follows H.follows
          have hll : l' = l := U.deterministic b V.inside ys _ _ H.follows l' R.mem l hl R.source hs R.holds htrue
          subst hll
          have hzf := S.field
          have hz : z ∈ es := by rw [hes']; simp
          have c1 : (c.cursors z.f).first = z.first := V.holds.cursors.first z hz
          have c2 : (c.cursors z.f).last = z.last := V.holds.cursors.last z hz
          have hpred : (c.cursors z.f).pred = lastField ys := V.chained xs' z ys hes'
          rw [hzf.1] at c1 c2 hpred
          obtain ⟨_, _, _, _, t, ht, hty⟩ := S
          have hsize : ∃ n, P.structureSize c l' = .ok n ∧ z.last = z.first + n - 1 := by
            unfold Pkg.structureSize
            rw [type?_some W.names ht]
            rcases hty with ⟨h1, n, h2, _, _, rfl⟩ | ⟨h1, n, h2, _, _, rfl⟩
            · refine ⟨n.v, ?_, rfl⟩
              simp only [(scalar_iff t).mpr h1, if_true, h2]
              rfl
            · refine ⟨n, ?_, rfl⟩
              have := embedded_ok W E V.inside H (.inr rfl) (E.sizeScope l' hl t ht h1 _ (hs ▸ follows_path H.follows)) (W.sizeWF l' hl t ht h1).1
                (W.sizeWF l' hl t ht h1).2 (V.buffered hb hl hfin).2 h2
              simp only [mt (scalar_iff t).mp h1, this]
              rfl
          obtain ⟨n, hn, hlast⟩ := hsize
          have hfirst : P.structureFirst c l' = .ok z.first := by
            unfold Pkg.structureFirst
            have hp := follows_last H.follows
            cases ys with
            | nil =>
              have : l'.source = INITIAL := by rw [hs, hp]; rfl
              rw [if_pos this]
              have h1 : c.first = lo := V.holds.first
              rw [h1, hzf.2, (follows_nil H.follows).2]
            | cons w ws =>
              have hw : l'.source = w.f := by rw [hs, hp]; rfl
              have hwm := follows_fields W H.follows (e := w) List.mem_cons_self
              rw [if_neg (fun h : l'.source = INITIAL => W.initial (h ▸ hw ▸ hwm)), W.noFirst l' hl, if_pos (by rfl), hw]
              have h1 : (c.cursors w.f).last = w.last := V.holds.cursors.last w (by rw [hes]; simp)
              obtain ⟨_, _, _, _, _, _, h2⟩ := follows_cons H.follows
              rw [h1, hzf.2, ← h2]
          simp only [asBool, bind, Except.bind, if_true, hn, hfirst]
          refine every_true ?_
          intro x hx
          simp only [List.mem_append, List.mem_cons, List.not_mem_nil, or_false] at hx
          rcases hx with (rfl | rfl | rfl) | hx
          · rw [c1, c2]
            congr 1
            simp only [decide_eq_true_eq]
            omega
          · rw [hpred, hs]
            congr 1
            simp only [decide_eq_true_eq]
            exact (follows_last H.follows).symm
          · rw [c1]
            simp
          · obtain ⟨l2, hl2, rfl⟩ := List.mem_map.mp hx
            simp only [outgoing, List.mem_filter, beq_iff_eq] at hl2
            obtain ⟨q2, qpos2, H2⟩ := Contains.suffix (xs := xs') (ys := z :: ys) (hes' ▸ V.holds)
            refine ih xs' (z :: ys) q2 qpos2 hes' H2 ?_ l2 hl2.1 ?_
            · simp only [List.length_append, List.length_cons, List.length_nil] at hk
              omega
            · rw [follows_last H2.follows, hl2.2]
              exact hzf.1.symm
      · rw [if_neg hsv]

/-- A field that is valid comes after another one, or is the first. -/
theorem Inv.later (W : WellFormed P) (V : Inv P lo hi c b es p pos) (hf : f ∈ P.later) (hm : f ∈ es.map (·.f)) :
    ∃ w ws l, Contains P b lo hi { c with buffer := some b } (w :: ws) w.f (w.last + 1) ∧ w ∈ es ∧ l ∈ P.m.msg.links ∧ l.source = w.f ∧ l.target = f ∧
      IsTrue P.m.msg b lo hi (w :: ws) l.condition ∧ (c.cursors f).pred = w.f := by
  obtain ⟨z, hz, rfl⟩ := List.mem_map.mp hm
  obtain ⟨xs, ys, hes⟩ := List.append_of_mem hz
  obtain ⟨q, qpos, l, R, S, hq⟩ := V.holds.ready W V.chained hes
  have hpred : (c.cursors z.f).pred = lastField ys := V.chained xs z ys hes
  cases ys with
  | nil =>
    exfalso
    simp only [Pkg.later, List.mem_filter, Bool.not_eq_true', List.contains_eq_mem, decide_eq_false_iff_not, directSuccessors, mem_dedup, List.mem_map, outgoing,
      beq_iff_eq] at hf
    exact hf.2 ⟨l, ⟨R.mem, by rw [R.source, hq]; rfl⟩, R.target⟩
  | cons w ws =>
    have hq' : q = w.f := hq
    subst hq'
    obtain ⟨_, _, _, _, _, _, h2⟩ := follows_cons R.follows
    subst h2
    exact ⟨w, ws, l, R.toContains, by rw [hes]; simp, R.mem, R.source, R.target, R.holds, hpred⟩

theorem Inv.validPredecessors (W : WellFormed P) (E : Embeddable P) (V : Inv P lo hi c b es p pos) (hb : P.Buffered c) :
    P.validPredecessors c = .ok true := by
  refine every_true ?_
  intro x hx
  obtain ⟨f, hf, rfl⟩ := List.mem_map.mp hx
  have hff : f ∈ P.m.msg.fields := (List.mem_filter.mp hf).1
  by_cases hsv : (c.cursors f).sv = true
  · rw [if_pos hsv]
    obtain ⟨w, ws, l, H, hw, h1, h2, h3, h4, h5⟩ := V.later W hf ((V.sv hff).mp hsv)
    have hterm : ∀ l' ∈ P.m.msg.links, l'.target = f → l'.source = w.f → ∃ x, (do asBool (← P.embedded (some U64) c l'.condition) : Run Bool) = .ok x ∧
        (x = true ↔ IsTrue P.m.msg b lo hi (w :: ws) l'.condition) := by
      intro l' hl' ht' hs'
      obtain ⟨x, hx, hiff⟩ := V.condition W E hb H hl' hs' (ht' ▸ fun h => W.final (h ▸ hff))
      refine ⟨x, ?_, hiff⟩
      rw [hx]
      rfl
    have hvalid : (if P.isComposite w.f then (c.cursors w.f).sv else (c.cursors w.f).ok) = true := by
      split
      · exact V.holds.cursors.sv w hw
      · rename_i h
        exact V.holds.cursors.ok w hw (by simpa using h)
    refine anyOf_true ?_ ?_
    · intro x hx
      obtain ⟨l', hl', rfl⟩ := List.mem_map.mp hx
      simp only [incoming, List.mem_filter, beq_iff_eq] at hl'
      by_cases hs : l'.source = w.f
      · obtain ⟨x, hx, _⟩ := hterm l' hl'.1 hl'.2 hs
        rw [hs, hvalid, h5, hx]
        simp only [decide_true]
        cases x
        · exact ⟨false, rfl⟩
        · exact ⟨true, rfl⟩
      · have : decide ((c.cursors f).pred = l'.source) = false := by simpa [h5] using fun h => hs h.symm
        rw [this]
        cases (if P.isComposite l'.source then (c.cursors l'.source).sv else (c.cursors l'.source).ok)
        · exact ⟨false, rfl⟩
        · exact ⟨false, rfl⟩
    · obtain ⟨x, hx, hiff⟩ := hterm l h1 h3 h2
      have : x = true := hiff.mpr h4
      subst this
      refine List.mem_map.mpr ⟨l, by simp [incoming, h1, h3], ?_⟩
      rw [h2, hvalid, h5, hx]
      simp only [decide_true]
      rfl
  · rw [if_neg hsv]

theorem Inv.invalidSuccessors (W : WellFormed P) (V : Inv P lo hi c b es p pos) : P.invalidSuccessors c = true := by
  simp only [Pkg.invalidSuccessors, List.all_eq_true]
  intro f hf
  have hff : f ∈ P.m.msg.fields := (List.mem_filter.mp hf).1
  by_cases hm : f ∈ es.map (·.f)
  · obtain ⟨w, ws, l, H, hw, h1, h2, h3, h4, h5⟩ := V.later W hf hm
    have hsv := V.holds.cursors.sv w hw
    have hninv : (c.cursors w.f).inv = false := by
      simp only [Cursor.sv, Cursor.inv, Bool.or_eq_true, decide_eq_true_eq] at hsv ⊢
      rcases hsv with h | h <;> rw [h] <;> rfl
    have : ((directPredecessors P.m.msg.links f).all fun p => (c.cursors p).inv) = false := by
      rw [List.all_eq_false]
      refine ⟨w.f, ?_, by simp [hninv]⟩
      simp only [directPredecessors, mem_dedup, List.mem_map, incoming, List.mem_filter, beq_iff_eq]
      exact ⟨l, ⟨h1, h3⟩, h2⟩
    rw [this]
    rfl
  · rw [V.others f hff hm]
    simp

theorem Inv.validContext (W : WellFormed P) (U : Verified P lo hi) (E : Embeddable P) (V : Inv P lo hi c b es p pos) (hb : P.Buffered c) :
    P.validContext c = .ok true := by
  have hfirst : c.first = lo := V.holds.first
  have hlast : c.last = hi := V.holds.last
  have I := V.inside
  refine every_true ?_
  intro x hx
  simp only [List.mem_cons, List.not_mem_nil, or_false] at hx
  rcases hx with rfl | rfl | rfl | rfl | rfl | rfl | rfl | rfl
  · rcases V.buffer with h | h
    · rw [h]
      simp [V.bounds.1, V.bounds.2]
    · rw [h]
  · congr 1
    have h1 := I.low (Int.le_refl lo)
    have h2 := I.high (Int.le_refl hi)
    have h3 := I.range
    simp only [hfirst, hlast, V.bounds.1, V.bounds.2, Bool.and_eq_true, decide_eq_true_eq]
    exact ⟨⟨⟨h1, h2⟩, I.order⟩, by omega⟩
  · rw [hfirst]
    simp [V.messageLast.1]
  · rw [hlast]
    simp [V.messageLast.2]
  · congr 1
    simp only [List.all_eq_true, Bool.or_eq_true, Bool.and_eq_true, decide_eq_true_eq, Bool.not_eq_true']
    intro f hf
    by_cases hsv : (c.cursors f).sv = true
    · right
      obtain ⟨e, he, rfl⟩ := List.mem_map.mp ((V.sv hf).mp hsv)
      obtain ⟨h1, h2, h3⟩ := (follows_bounds W I.order V.holds.follows).2.2 e he
      have c1 : (c.cursors e.f).first = e.first := V.holds.cursors.first e he
      have c2 : (c.cursors e.f).last = e.last := V.holds.cursors.last e he
      rw [c1, c2, hfirst]
      exact ⟨⟨h1, V.covers e he⟩, h2⟩
    · left
      simpa using hsv
  · exact V.validPredecessors W E hb
  · rw [V.invalidSuccessors W]
  · unfold Pkg.structureInvariant
    obtain ⟨l, hl, _⟩ := W.start
    rw [hl]
    have hmem : l ∈ outgoing P.m.msg.links INITIAL := by rw [hl]; exact List.mem_cons_self
    simp only [outgoing, List.mem_filter, beq_iff_eq] at hmem
    obtain ⟨q, qpos, H⟩ := Contains.suffix (xs := es) (ys := []) (by simpa using V.holds)
    have hq := follows_last H.follows
    refine V.structure W U E hb _ es [] q qpos (by simp) H ?_ l hmem.1 (by rw [hmem.2, hq]; rfl)
    have hnd := follows_nodup W V.holds.follows
    have hsub : ∀ f ∈ es.map (·.f), f ∈ P.m.msg.fields := by
      intro f hf
      obtain ⟨e, he, rfl⟩ := List.mem_map.mp hf
      exact follows_fields W V.holds.follows he
    have := List.Nodup.length_le_of_subset hnd hsub
    simp only [List.length_map] at this
    omega

theorem Inv.validCursors (W : WellFormed P) (V : Inv P lo hi c b es p pos) : P.validCursors c = .ok true := by
  refine every_true ?_
  intro x hx
  obtain ⟨f, hf, rfl⟩ := List.mem_map.mp hx
  by_cases hsv : (c.cursors f).sv = true
  · rw [if_pos hsv]
    obtain ⟨e, he, rfl⟩ := List.mem_map.mp ((V.sv hf).mp hsv)
    obtain ⟨t, ht, h1, h2⟩ := follows_type V.holds.follows he
    have c1 : (c.cursors e.f).value = e.value := V.holds.cursors.value e he
    rw [c1]
    by_cases hs : Scalar t
    · obtain ⟨n, h3, h4, _, h5⟩ := h2 hs
      have h6 := bitsAt_lt b e.first n.v.toNat
      obtain ⟨x, hx, hiff⟩ := validValue_ok W ht hs h3 (v := e.value) (by rw [h4]; omega) (by rw [h4]; exact_mod_cast h6)
      rw [hx, hiff.mpr h5]
    · exact validValue_other W ht hs _
  · rw [if_neg hsv]

end

end Verif.Ctx
