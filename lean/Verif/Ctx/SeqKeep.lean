import Verif.Ctx.SeqFill
import Verif.Ctx.Valid

/-! # What calls leave alone -/

namespace Verif.Ctx
open Verif Verif.Graph Verif.Verify Verif.Types Verif.Gen
open Verif.Spark hiding byteIndex

section
variable {P : Pkg} {b b' : Bytes} {lo hi : Int} {c c' : Context} {es : List Item} {p : Field} {pos : Int} {f g : Field} {l : Link}

/-! ## Other content of sequences -/

/-- The buffers have the same bits, except for those of sequences. -/
structure Touch (P : Pkg) (b b' : Bytes) (es : List Item) : Prop where
  first : b'.first = b.first
  length : b'.data.length = b.data.length
  bytes : AreBytes b'.data
  bits : ∀ e ∈ es, (¬ ∃ t, ArrayOf P.m.msg e.f t) → ∀ i, e.first ≤ i → i ≤ e.last → bitAt b' i = bitAt b i

theorem Touch.tail {e : Item} (T : Touch P b b' (e :: es)) : Touch P b b' es :=
  ⟨T.first, T.length, T.bytes, fun x hx => T.bits x (List.mem_cons_of_mem _ hx)⟩

theorem Touch.inBuffer (T : Touch P b b' es) (I : InBuffer P b lo hi) : InBuffer P b' lo hi where
  bytes := T.bytes
  lower := by rw [T.first]; exact I.lower
  order := I.order
  upper := by simp only [Bytes.last, T.first, T.length]; exact I.upper
  range := I.range

theorem Touch.vars (W : WellFormed P) (I : InBuffer P b lo hi) (hal : Aligned P b lo hi) (T : Touch P b b' es) (h : Follows P.m.msg b lo hi es p pos) :
    ∀ k, ¬ (∃ t, ArrayOf P.m.msg ⟨k⟩ t) → (itemEnv P.m.msg b' lo hi es).var k = (itemEnv P.m.msg b lo hi es).var k := by
  intro k hk
  simp only [itemEnv]
  cases ht : P.m.msg.type? ⟨k⟩ with
  | none => rfl
  | some t =>
    cases hf : es.find? (fun e => e.f == ⟨k⟩) with
    | none => rfl
    | some e =>
      simp only
      have hk' : e.f = ⟨k⟩ := by simpa using List.find?_some hf
      have he := List.mem_of_find?_eq_some hf
      cases hs : t.isScalar with
      | true => rfl
      | false =>
        have hm := type?_mem ht
        obtain ⟨h1, h2⟩ := hal es p pos h e he t (hk' ▸ hm) (by rw [← scalar_iff, hs]; simp)
        have hle := (follows_bounds W I.order h).2.2 e he
        have hlow := I.low hle.1
        simp only [byteIndex] at hlow
        have : bytesAt b' e.first e.last = bytesAt b e.first e.last := by
          unfold bytesAt
          refine List.map_congr_left fun j hj => ?_
          rw [List.mem_range] at hj
          have := byte_congr (k := (e.first - 1) / 8 + 1 + j) I.bytes T.bytes T.first (by omega)
            fun t h3 h4 => T.bits e he (hk' ▸ hk) _ (by omega) (by omega)
          rw [T.first]
          have e : (((e.first - 1) / 8 + 1 - (b.first : Int)).toNat + j) = ((e.first - 1) / 8 + 1 + (j : Int) - (b.first : Int)).toNat := by omega
          rw [e, this]
        simp only [this]

/-- The fields are the same. -/
theorem Touch.follows (W : WellFormed P) (N : Unread P) (I : InBuffer P b lo hi) (hal : Aligned P b lo hi) (T : Touch P b b' es)
    (h : Follows P.m.msg b lo hi es p pos) : Follows P.m.msg b' lo hi es p pos := by
  induction h with
  | start => exact .start
  | @scalar es p pos l t n h h1 h2 h3 h4 h5 h6 h7 h8 h9 ih =>
    obtain ⟨n', hn, h10⟩ := W.sized _ _ h5 h6
    rw [h7] at hn
    cases hn
    have he := T.tail.vars W I hal h
    have hv : bitsAt b' pos n.v.toNat = bitsAt b pos n.v.toNat := by
      refine bitsAt_congr fun k hk => T.bits _ List.mem_cons_self ?_ _ (by simp only; omega) (by simp only; omega)
      rintro ⟨t', _, _, h11⟩
      have := (type?_some W.names h5).symm.trans (type?_some W.names h11)
      cases this
      exact h6
    rw [← hv]
    refine .scalar (ih T.tail) h1 h2 h3 ?_ h5 h6 h7 h8 (by rw [hv]; exact h9)
    exact (N.condition l h1 (itemEnv P.m.msg b' lo hi es) (itemEnv P.m.msg b lo hi es) rfl he).trans h4
  | @composite es p pos l t n h h1 h2 h3 h4 h5 h6 h7 h8 h9 ih =>
    have he := T.tail.vars W I hal h
    have hc : P.isComposite l.target = true := by
      simp [Pkg.isComposite, type?_some W.names h5, mt (scalar_iff t).mp h6]
    refine .composite (ih T.tail) h1 h2 h3 ?_ h5 h6 ?_ h8 h9
    · exact (N.condition l h1 (itemEnv P.m.msg b' lo hi es) (itemEnv P.m.msg b lo hi es) rfl he).trans h4
    · exact (N.size l h1 hc (itemEnv P.m.msg b' lo hi es) (itemEnv P.m.msg b lo hi es) rfl he).trans h7

/-! ## Without a buffer -/

theorem env_bare (x : Option Bytes) : (P.env { c with buffer := x } none).attr = (P.env c none).attr ∧
    ∀ k, ¬ P.isComposite ⟨k⟩ = true → (P.env { c with buffer := x } none).var k = (P.env c none).var k := by
  refine ⟨rfl, fun k hk => ?_⟩
  simp only [Pkg.env]
  cases ht : P.m.msg.type? ⟨k⟩ with
  | none => rfl
  | some t =>
    have : t.isScalar = true := by
      cases h : t.isScalar with
      | true => rfl
      | false => simp [Pkg.isComposite, ht, h] at hk
    simp only [this, if_true]

theorem cond_bare (W : WellFormed P) {t : ID} (ht : t = U64 ∨ t = BIT_LENGTH) (hl : l ∈ P.m.msg.links) (hB : Blind (fun f => P.isComposite f = true) l.condition)
    (x : Option Bytes) : P.cond (some t) { c with buffer := x } none l.condition = P.cond (some t) c none l.condition := by
  obtain ⟨y, hy⟩ := W.bool l hl (P.env c none) (env_typed W.names rfl rfl)
  have hy' := (hB _ _ (env_bare (P := P) (c := c) x).1 (env_bare x).2).trans hy
  have A := accepts_cond W (cond_fields W hl) (W.wf l hl).1
  simp only [Pkg.cond, value_ok W ht A (W.wf l hl).1 (W.wf l hl).2 hy, value_ok W ht A (W.wf l hl).1 (W.wf l hl).2 hy']

theorem evalL_congr {σ σ' : Env} : ∀ {ts : List Expr}, (∀ t ∈ ts, eval .ada σ t = eval .ada σ' t) → evalL .ada σ ts = evalL .ada σ' ts
  | [], _ => rfl
  | t :: ts, h => by simp only [evalL, h t List.mem_cons_self, evalL_congr fun t ht => h t (List.mem_cons_of_mem _ ht)]

theorem or_bare (W : WellFormed P) {ls : List Link} (hne : ls ≠ []) (hl : ∀ l ∈ ls, l ∈ P.m.msg.links ∧ Blind (fun f => P.isComposite f = true) l.condition)
    (x : Option Bytes) : P.cond (some U64) { c with buffer := x } none (.bool .or (ls.map (·.condition))) =
      P.cond (some U64) c none (.bool .or (ls.map (·.condition))) := by
  have hb : ∀ t ∈ ls.map (·.condition), ∃ x, eval .ada (P.env c none) t = some (.bool x) := by
    intro t ht
    obtain ⟨l, hm, rfl⟩ := List.mem_map.mp ht
    exact W.bool l (hl l hm).1 _ (env_typed W.names rfl rfl)
  obtain ⟨y, hy, _⟩ := eval_or hb
  have hy' : eval .ada (P.env { c with buffer := x } none) (.bool .or (ls.map (·.condition))) = some (.bool y) := by
    rw [← hy]
    simp only [eval]
    rw [evalL_congr]
    intro t ht
    obtain ⟨l, hm, rfl⟩ := List.mem_map.mp ht
    exact (hl l hm).2 _ _ (env_bare x).1 (env_bare x).2
  have hc : Accepts P.m (.bool .or (ls.map (·.condition))) := by
    simp only [Accepts, Cov, covL_iff, List.mem_map]
    rintro _ ⟨l, hm, rfl⟩
    exact accepts_cond W (cond_fields W (hl l hm).1) (W.wf l (hl l hm).1).1
  have hw : (Expr.bool .or (ls.map (·.condition))).WF := by
    simp only [Expr.WF, WFL_iff, List.mem_map]
    refine ⟨?_, fun h => absurd (by simpa using h) hne⟩
    rintro _ ⟨l, hm, rfl⟩
    exact (W.wf l (hl l hm).1).1
  have hg : (Expr.bool .or (ls.map (·.condition))).Good Division.ada.Odd false := by
    simp only [Expr.Good, GoodL_iff, List.mem_map]
    refine ⟨trivial, ?_⟩
    rintro _ ⟨l, hm, rfl⟩
    exact (W.wf l (hl l hm).1).2
  simp only [Pkg.cond, value_ok W (.inl rfl) hc hw hg hy, value_ok W (.inl rfl) hc hw hg hy']

theorem num_bare (W : WellFormed P) (hl : l ∈ P.m.msg.links) (hc : P.isComposite l.target = true) (hB : Blind (fun f => P.isComposite f = true) l.size)
    (hs : Cond P.m opts (· ∈ P.m.msg.fields) l.size) (x : Option Bytes) :
    P.num (some BIT_LENGTH) { c with buffer := x } none l.size = P.num (some BIT_LENGTH) c none l.size := by
  obtain ⟨t, ht, hs'⟩ := composite_type W.names hc
  obtain ⟨y, hy⟩ := W.sizeInt l hl t ht hs' (P.env c none) (env_typed W.names rfl rfl)
  have hy' := (hB _ _ (env_bare (P := P) (c := c) x).1 (env_bare x).2).trans hy
  have hw := W.sizeWF l hl t ht hs'
  have A := accepts_cond W hs hw.1
  simp only [Pkg.num, value_ok W (.inr rfl) A hw.1 hw.2 hy, value_ok W (.inr rfl) A hw.1 hw.2 hy']

theorem firstTrue_congr {α : Type} {ls : List Link} {g g' : Link → Run Bool} {h : Link → α} (hg : ∀ l ∈ ls, g l = g' l) :
    firstTrue (ls.map fun l => (g l, h l)) = firstTrue (ls.map fun l => (g' l, h l)) := by
  congr 1
  exact List.map_congr_left fun l hl => by rw [hg l hl]

/-- The place of a sequence is known without the buffer. -/
theorem Ready.bare (W : WellFormed P) (N : Unread P) {t : FTy} (ha : ArrayOf P.m.msg f t) (R : Ready P b lo hi { c with buffer := some b } es p pos f l) :
    P.needNext c f = P.needNext { c with buffer := some b } f ∧ P.fieldSize c f = P.fieldSize { c with buffer := some b } f ∧
      P.fieldFirst c f = P.fieldFirst { c with buffer := some b } f ∧ P.fieldLast c f = P.fieldLast { c with buffer := some b } f := by
  have hp : (c.cursors f).pred = p := R.pred
  have hbt : ∀ l ∈ between P.m.msg p f, l ∈ P.m.msg.links ∧ l.source = p ∧ l.target = f := fun l hl => mem_between.mp hl
  have hpl := fun l (hl : l ∈ P.m.msg.links) (ht : l.target = f) => N.place l hl t (ht ▸ ha)
  have hcomp := arrayOf_composite W.names ha
  have hpath : P.pathCondition c f = P.pathCondition { c with buffer := some b } f := by
    unfold Pkg.pathCondition
    simp only [hp]
    rw [choose_ok W (R.toNext.ne_final W) R.link]
    simp only [bind, Except.bind]
    rw [or_bare (c := c) W R.link (fun l hl => ⟨(hbt l hl).1, (hpl l (hbt l hl).1 (hbt l hl).2.2).1⟩) (some b)]
    rfl
  have hnext : P.needNext c f = P.needNext { c with buffer := some b } f := by
    unfold Pkg.needNext Pkg.validNext
    rw [hpath]
    rfl
  have hsize : P.fieldSize c f = P.fieldSize { c with buffer := some b } f := by
    obtain ⟨_, id, hm⟩ := ha
    have hnum : ∀ l ∈ between P.m.msg p f, P.num (some BIT_LENGTH) { c with buffer := some b } none l.size = P.num (some BIT_LENGTH) c none l.size := by
      intro l hl
      obtain ⟨h1, h2, h3⟩ := hbt l hl
      refine num_bare W h1 (h3 ▸ hcomp) (hpl l h1 h3).2 ?_ _
      exact cond_mono (path_mem W (follows_path R.follows)).1 _ (W.sizeScope l h1 (.array id t) (h3 ▸ hm) (fun h => h.elim) _ (h2 ▸ follows_path R.follows))
    have hcond : ∀ l ∈ between P.m.msg p f, P.cond (some BIT_LENGTH) { c with buffer := some b } none l.condition = P.cond (some BIT_LENGTH) c none l.condition := by
      intro l hl
      obtain ⟨h1, h2, h3⟩ := hbt l hl
      exact cond_bare W (.inr rfl) h1 (hpl l h1 h3).1 _
    unfold Pkg.fieldSize
    rw [hnext]
    simp only [hp]
    rw [choose_ok' W (R.toNext.ne_final W) R.link]
    simp only [type?_some W.names hm, FTy.isScalar, Bool.false_eq_true, if_false, bind, Except.bind]
    generalize between P.m.msg p f = ls at hnum hcond
    match ls, hnum, hcond with
    | [], _, _ => rfl
    | [l], hnum, _ => simp only [hnum l List.mem_cons_self]
    | l1 :: l2 :: ls, hnum, hcond =>
      simp only
      rw [firstTrue_congr hcond]
      cases hft : firstTrue ((l1 :: l2 :: ls).map fun l => (P.cond (some BIT_LENGTH) c none l.condition, l)) with
      | error e => rfl
      | ok r =>
        cases r with
        | none => rfl
        | some l' =>
          obtain ⟨x, hx, he⟩ := firstTrue_mem hft
          obtain ⟨l'', hl'', rfl⟩ := List.mem_map.mp hx
          subst he
          simp only [hnum _ hl'']
  have hfirst : P.fieldFirst c f = P.fieldFirst { c with buffer := some b } f := by
    unfold Pkg.fieldFirst
    rw [hnext]
    simp only
    rw [firstTrue_congr (g' := fun l => (if (c.cursors f).pred = l.source then
            (if l.condition.eq .tru then .ok true else P.cond (some U64) { c with buffer := some b } none l.condition)
          else .ok false : Run Bool))]
    · cases hft : firstTrue ((incoming P.m.msg.links f).map fun l =>
        ((if (c.cursors f).pred = l.source then
            (if l.condition.eq .tru then .ok true else P.cond (some U64) { c with buffer := some b } none l.condition)
          else .ok false : Run Bool), l)) with
      | error e => rfl
      | ok r =>
        cases r with
        | none => rfl
        | some l' =>
          obtain ⟨x, hx, he⟩ := firstTrue_mem hft
          obtain ⟨l'', hl'', rfl⟩ := List.mem_map.mp hx
          subst he
          have : l''.first = .undefined := W.noFirst l'' (by have := hl''; simp only [incoming, List.mem_filter] at this; exact this.1)
          simp only [this, bind, Except.bind]
          rfl
    · intro l hl
      have hl : l ∈ P.m.msg.links ∧ l.target = f := by simpa [incoming] using hl
      rw [cond_bare (c := c) W (.inl rfl) hl.1 (hpl l hl.1 hl.2).1 (some b)]
  refine ⟨hnext, hsize, hfirst, ?_⟩
  unfold Pkg.fieldLast Pkg.sufficientSpace Pkg.availableSpace
  rw [hnext, hsize, hfirst]

end

end Verif.Ctx
