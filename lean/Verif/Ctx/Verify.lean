import Verif.Ctx.Next

/-! # `Verify` and `Verify_Message` -/

namespace Verif.Ctx
open Verif Verif.Graph Verif.Verify Verif.Types Verif.Gen Verif.Spark

section
variable {P : Pkg} {b : Bytes} {lo hi : Int} {c : Context} {es : List Item} {p : Field} {pos : Int} {f : Field} {l : Link}

/-- The predecessors in the cursors are the fields in front. -/
def Chained (c : Context) (es : List Item) : Prop := ∀ xs y ys, es = xs ++ y :: ys → (c.cursors y.f).pred = lastField ys

theorem Contains.congr (H : Contains P b lo hi c es p pos) {c' : Context} (hb : c'.buffer = c.buffer) (hf : c'.first = c.first) (hl : c'.last = c.last)
    (hc : ∀ e ∈ es, c'.cursors e.f = c.cursors e.f) : Contains P b lo hi c' es p pos where
  follows := H.follows
  buffer := by rw [hb, H.buffer]
  first := by rw [hf, H.first]
  last := by rw [hl, H.last]
  cursors :=
    { sv := fun e he => by rw [hc e he]; exact H.cursors.sv e he
      ok := fun e he => by rw [hc e he]; exact H.cursors.ok e he
      first := fun e he => by rw [hc e he]; exact H.cursors.first e he
      last := fun e he => by rw [hc e he]; exact H.cursors.last e he
      value := fun e he => by rw [hc e he]; exact H.cursors.value e he }

theorem Chained.congr (H : Chained c es) {c' : Context} (hc : ∀ e ∈ es, c'.cursors e.f = c.cursors e.f) : Chained c' es := by
  intro xs y ys he
  rw [hc y (by simp [he])]
  exact H xs y ys he

/-- One more field. -/
theorem Contains.advance (W : WellFormed P) (H : Contains P b lo hi c es p pos) (hch : Chained c es) {y : Item} (hs : Step P.m.msg b lo hi es p pos l y)
    {k : Cursor} (hsv : k.sv = true) (hok : P.isComposite y.f = false → k.ok = true) (hp : k.pred = p) (h1 : k.first = y.first) (h2 : k.last = y.last)
    (h3 : k.value = y.value) {c' : Context} (hb : c'.buffer = c.buffer) (hf : c'.first = c.first) (hl : c'.last = c.last)
    (hk : c'.cursors y.f = k) (hc : ∀ e ∈ es, c'.cursors e.f = c.cursors e.f) :
    Contains P b lo hi c' (y :: es) l.target (y.last + 1) ∧ Chained c' (y :: es) := by
  have H' := H.congr hb hf hl hc
  constructor
  · exact
      { follows := follows_step H.follows hs
        buffer := H'.buffer
        first := H'.first
        last := H'.last
        cursors :=
          { sv := fun e he => by
              rcases List.mem_cons.mp he with rfl | he
              · rw [hk]; exact hsv
              · exact H'.cursors.sv e he
            ok := fun e he => by
              rcases List.mem_cons.mp he with rfl | he
              · rw [hk]; exact hok
              · exact H'.cursors.ok e he
            first := fun e he => by
              rcases List.mem_cons.mp he with rfl | he
              · rw [hk]; exact h1
              · exact H'.cursors.first e he
            last := fun e he => by
              rcases List.mem_cons.mp he with rfl | he
              · rw [hk]; exact h2
              · exact H'.cursors.last e he
            value := fun e he => by
              rcases List.mem_cons.mp he with rfl | he
              · rw [hk]; exact h3
              · exact H'.cursors.value e he } }
  · intro xs z ys he
    cases xs with
    | nil =>
      simp only [List.nil_append, List.cons.injEq] at he
      rw [← he.1, ← he.2, hk, hp, follows_last H.follows]
    | cons x xs =>
      simp only [List.cons_append, List.cons.injEq] at he
      exact (hch.congr hc) xs z ys he.2

theorem isComposite_iff (hN : Names P.m opts) {t : FTy} (ht : (f, t) ∈ P.m.msg.types) : P.isComposite f = !t.isScalar := by
  simp only [Pkg.isComposite, type?_some hN ht]

theorem isScalar_iff (hN : Names P.m opts) {t : FTy} (ht : (f, t) ∈ P.m.msg.types) : P.isScalar f = t.isScalar := by
  simp only [Pkg.isScalar, type?_some hN ht]

theorem isScalar_false {t : FTy} (hs : ¬ Scalar t) : t.isScalar = false := by
  cases h : t.isScalar
  · rfl
  · exact absurd ((scalar_iff t).mp h) hs

/-- The value of the next field is checked. -/
theorem Ready.validValue (W : WellFormed P) (R : Ready P b lo hi c es p pos f l) {n : Int} (hz : SizeOf P b lo hi es l f n) (h0 : 0 ≤ n) (hle : pos + n - 1 ≤ hi) :
    ∃ x, P.validValue f (valueAt P b f pos n) = .ok x ∧ (x = true ↔ ∃ y, Step P.m.msg b lo hi es p pos l y) ∧
      ∀ y, Step P.m.msg b lo hi es p pos l y → y = nextItem P b f pos n := by
  have hlf : l.target ≠ FINAL := R.target ▸ R.ne_final W
  obtain ⟨t, ht, hz⟩ := hz
  have hsc := isScalar_iff W.names ht
  rcases hz with ⟨hs, k, hk, rfl, hk1, hk64⟩ | ⟨hs, hev⟩
  · have hsc' : P.isScalar f = true := by rw [hsc]; exact (scalar_iff t).mpr hs
    have hv : valueAt P b f pos k.v = bitsAt b pos k.v.toNat := by simp [valueAt, hsc']
    have hlt := bitsAt_lt b pos k.v.toNat
    obtain ⟨x, hx, hiff⟩ := validValue_ok (v := (bitsAt b pos k.v.toNat : Int)) W ht hs hk (by omega) (by exact_mod_cast hlt)
    refine ⟨x, by rw [hv]; exact hx, ?_, ?_⟩
    · rw [hiff]
      constructor
      · intro hin
        exact ⟨_, R.mem, R.source, hlf, R.holds, t, R.target ▸ ht, .inl ⟨hs, k, hk, hle, hin, rfl⟩⟩
      · rintro ⟨y, _, _, _, _, t', ht', ⟨hs', n', hn', _, hin, rfl⟩ | ⟨hs', _⟩⟩
        · have := nodup_pair W.names.once ht (R.target ▸ ht'); subst this
          rw [hk] at hn'; cases hn'
          exact hin
        · have := nodup_pair W.names.once ht (R.target ▸ ht'); subst this
          exact absurd hs hs'
    · rintro y ⟨_, _, _, _, t', ht', h⟩
      have := nodup_pair W.names.once ht (R.target ▸ ht'); subst this
      rcases h with ⟨hs', n', hn', _, hin, rfl⟩ | ⟨hs', _⟩
      · rw [hk] at hn'; cases hn'
        simp only [nextItem, hv, R.target]
      · exact absurd hs hs'
  · have hsc' : P.isScalar f = false := by rw [hsc]; exact isScalar_false hs
    have hv : valueAt P b f pos n = 0 := by simp [valueAt, hsc']
    refine ⟨true, validValue_other W ht hs _, ?_, ?_⟩
    · simp only [true_iff]
      exact ⟨_, R.mem, R.source, hlf, R.holds, t, R.target ▸ ht, .inr ⟨hs, n, hev, h0, hle, rfl⟩⟩
    · rintro y ⟨_, _, _, _, t', ht', h⟩
      have := nodup_pair W.names.once ht (R.target ▸ ht'); subst this
      rcases h with ⟨hs', _⟩ | ⟨_, n', hn', _, _, rfl⟩
      · exact absurd hs' hs
      · rw [hev] at hn'; cases hn'
        simp only [nextItem, hv, R.target]

/-- A step needs space. -/
theorem step_space (W : WellFormed P) (hlt : l.target = f) {n : Int} (hz : SizeOf P b lo hi es l f n) {y : Item} (hs : Step P.m.msg b lo hi es p pos l y) :
    pos + n - 1 ≤ hi := by
  obtain ⟨_, _, _, _, t', ht', h⟩ := hs
  obtain ⟨t, ht, hz⟩ := hz
  have := nodup_pair W.names.once ht (hlt ▸ ht'); subst this
  rcases hz with ⟨hs, k, hk, rfl, _⟩ | ⟨hs, hev⟩
  · rcases h with ⟨_, n', hn', hle, _⟩ | ⟨hs', _⟩
    · rw [hk] at hn'; cases hn'
      exact hle
    · exact absurd hs hs'
  · rcases h with ⟨hs', _⟩ | ⟨_, n', hn', _, hle, _⟩
    · exact absurd hs' hs
    · rw [hev] at hn'; cases hn'
      exact hle

theorem inv_of_not_sv {k : Cursor} (h : k.sv = true) : k.inv = false := by
  cases hk : k.state <;> simp_all [Cursor.sv, Cursor.inv]

/-- `Verify` of the next field. -/
theorem Ready.verify (W : WellFormed P) (I : InBuffer P b lo hi) (hD : Deterministic P.m.msg b lo hi) (hS : Sizes P b lo hi)
    (R : Ready P b lo hi c es p pos f l) (hch : Chained c es) (hinv : (c.cursors f).inv = true) :
    (∃ y l' c', Step P.m.msg b lo hi es p pos l y ∧ l' ∈ P.m.msg.links ∧ l'.source = f ∧
      IsTrue P.m.msg b lo hi (y :: es) l'.condition ∧ P.verify c f = .ok c' ∧
      c' = (({ c with messageLast := y.last } : Context).set f
        ⟨if P.isComposite f then .structuralValid else .valid, p, y.first, y.last, y.value⟩).set l'.target (invalidFrom f) ∧
      Contains P b lo hi c' (y :: es) f (y.last + 1) ∧ Chained c' (y :: es)) ∨
    ((∀ y, Step P.m.msg b lo hi es p pos l y → ¬ Goes P.m.msg b lo hi (y :: es) f) ∧
      ∃ s, (s = .invalid ∨ s = .incomplete) ∧ P.verify c f = .ok (c.set f ⟨s, FINAL, 0, 0, 0⟩)) := by
  obtain ⟨n, hz, hn, h0, hbl, h1⟩ := R.fieldSize W I hD hS
  obtain ⟨x, hx, hxi⟩ := R.toNext.pathCondition W I
  have hxt : x = true := hxi.mpr ⟨l, mem_between.mpr ⟨R.mem, R.source, R.target⟩, R.holds⟩
  subst hxt
  have hb : c.hasBuffer = true := by simp [Context.hasBuffer, R.buffer]
  by_cases hle : pos + n - 1 ≤ hi
  · obtain ⟨v, hv, hviff, hvy⟩ := R.validValue W hz h0 hle
    obtain ⟨g, hg, hgiff⟩ := R.fieldCondition W I hn h0 h1 hle (v := valueAt P b f pos n)
    have hpre : P.verify c f = (if v && g then (do
          let c := { c with messageLast := pos + n - 1 }
          let c := c.set f ⟨if P.isComposite f then .structuralValid else .valid, (c.cursors f).pred, pos, pos + n - 1, valueAt P b f pos n⟩
          let s ← P.successor c f
          return c.set s (invalidFrom f)) else return c.set f (invalidFrom FINAL)) := by
      simp only [Pkg.verify, hb, hinv, R.validPredecessor, Bool.and_self, if_true, hx, bind, Except.bind, R.sufficientBufferLength W I hn h0,
        decide_eq_true hle, R.getFieldValue W I hz hn h0 h1 hle, hv, hn, hg, R.fieldLast W I hn h0 h1 hle, R.fieldFirst W I]
    by_cases hvg : v = true ∧ g = true
    · obtain ⟨rfl, rfl⟩ := hvg
      left
      obtain ⟨y, hy⟩ := hviff.mp rfl
      have hye := hvy y hy
      subst hye
      have hgo := hgiff.mp rfl
      let c1 : Context := ({ c with messageLast := pos + n - 1 } : Context).set f
        ⟨if P.isComposite f then .structuralValid else .valid, p, pos, pos + n - 1, valueAt P b f pos n⟩
      have hnew := R.toNext.new W
      have hsame : ∀ e ∈ es, c1.cursors e.f = c.cursors e.f := by
        intro e he
        have : e.f ≠ f := fun h => hnew (h ▸ List.mem_map_of_mem he)
        simp only [c1, Context.set, this, if_false]
      have hadv := R.toContains.advance W hch hy (c' := c1)
        (k := ⟨if P.isComposite f then .structuralValid else .valid, p, pos, pos + n - 1, valueAt P b f pos n⟩)
        (by simp only [Cursor.sv]; split <;> rfl)
        (by
          intro h
          simp only [nextItem] at h
          simp [Cursor.ok, h])
        rfl rfl rfl rfl rfl rfl rfl (by simp [c1, Context.set, nextItem]) hsame
      rw [R.target] at hadv
      have hvp : P.validPredecessor c1 f = true := by
        have N' : Next P b lo hi c1 es p pos f :=
          ⟨R.toContains.congr rfl rfl rfl hsame, R.field, by simp [c1, Context.set], R.link⟩
        exact N'.validPredecessor
      have hfi : f ≠ INITIAL := fun h => W.initial (h ▸ R.field)
      obtain ⟨l', hl', hs', ht', hsucc⟩ := hadv.1.successor W I hfi hvp hgo
      have hlt : ∀ e ∈ (nextItem P b f pos n) :: es, e.f ≠ l'.target := by
        intro e he h
        by_cases hfin : l'.target = FINAL
        · exact W.final (hfin ▸ h ▸ follows_fields W hadv.1.follows he)
        · exact path_next W (follows_path hadv.1.follows) hl' hs' hfin (h ▸ List.mem_map_of_mem he)
      have hsame2 : ∀ e ∈ (nextItem P b f pos n) :: es, (c1.set l'.target (invalidFrom f)).cursors e.f = c1.cursors e.f := by
        intro e he
        simp only [Context.set, if_neg (hlt e he)]
      refine ⟨_, l', c1.set l'.target (invalidFrom f), hy, hl', hs', ht', ?_, rfl, hadv.1.congr rfl rfl rfl hsame2, hadv.2.congr hsame2⟩
      rw [hpre]
      simp only [Bool.and_self, if_true, bind, Except.bind, R.pred]
      rw [show P.successor (({ c with messageLast := pos + n - 1 } : Context).set f
        ⟨if P.isComposite f then .structuralValid else .valid, p, pos, pos + n - 1, valueAt P b f pos n⟩) f = .ok l'.target from hsucc]
      rfl
    · right
      constructor
      · intro y hy hgo
        apply hvg
        have hye := hvy y hy
        subst hye
        exact ⟨hviff.mpr ⟨_, hy⟩, hgiff.mpr hgo⟩
      · refine ⟨.invalid, .inl rfl, ?_⟩
        rw [hpre]
        have : (v && g) = false := by
          cases v <;> cases g <;> simp_all
        simp only [this, Bool.false_eq_true, if_false]
        rfl
  · right
    constructor
    · intro y hy
      exact absurd (step_space W R.target hz hy) hle
    · refine ⟨.incomplete, .inr rfl, ?_⟩
      simp only [Pkg.verify, hb, hinv, R.validPredecessor, Bool.and_self, if_true, hx, bind, Except.bind, R.sufficientBufferLength W I hn h0,
        decide_eq_false hle, Bool.false_eq_true, if_false]
      rfl

/-- `Verify` of a field that has been verified. -/
theorem verify_done (h : (c.cursors f).sv = true) : P.verify c f = .ok c := by
  simp only [Pkg.verify, inv_of_not_sv h, Bool.and_false, Bool.false_and, Bool.false_eq_true, if_false]
  rfl

/-- `Verify` of a field that cannot come next. -/
theorem verify_final (W : WellFormed P) (hf : f ∈ P.m.msg.fields) (h : (c.cursors f).pred = FINAL) : P.verify c f = .ok c := by
  simp only [Pkg.verify, validPredecessor_final W hf h, Bool.and_false, Bool.false_eq_true, if_false]
  rfl

/-- `Verify` of a field whose conditions do not hold. -/
theorem Next.verify (W : WellFormed P) (I : InBuffer P b lo hi) (N : Next P b lo hi c es p pos f)
    (h : ∀ l ∈ between P.m.msg p f, ¬ IsTrue P.m.msg b lo hi es l.condition) : P.verify c f = .ok c := by
  obtain ⟨x, hx, hiff⟩ := N.pathCondition W I
  have : x = false := by
    cases x with
    | false => rfl
    | true =>
      obtain ⟨l, hl, ht⟩ := hiff.mp rfl
      exact absurd ht (h l hl)
  subst this
  simp only [Pkg.verify, N.validPredecessor, hx, bind, Except.bind]
  split <;> rfl

/-! ## The loop -/

/-- The fields that are not part of the message are not valid. -/
def Others (P : Pkg) (c : Context) (es : List Item) : Prop := ∀ f ∈ P.m.msg.fields, f ∉ es.map (·.f) → (c.cursors f).inv = true

/-- Composite fields are structurally valid only. -/
def Structural (P : Pkg) (c : Context) (es : List Item) : Prop :=
  ∀ e ∈ es, P.isComposite e.f = true → (c.cursors e.f).state = .structuralValid

/-- The state of `Verify_Message` with the given fields still to be verified. -/
inductive Loop (P : Pkg) (b : Bytes) (lo hi : Int) (c : Context) : List Field → Prop
  | active {rest} (es p pos l) : Contains P b lo hi c es p pos → Chained c es → Structural P c es → Others P c es → l ∈ P.m.msg.links → l.source = p →
      IsTrue P.m.msg b lo hi es l.condition →
      (l.target = FINAL ∨ l.target ∈ rest ∧ (c.cursors l.target).pred = p) →
      (∀ f ∈ P.m.msg.fields, f ∉ es.map (·.f) → f ≠ l.target → (c.cursors f).pred = FINAL) → Loop P b lo hi c rest
  | stuck {rest} (es p pos) : Contains P b lo hi c es p pos → Chained c es → Structural P c es → Others P c es → (¬ ∃ es', IsMessage P.m.msg b lo hi es') →
      (∀ l ∈ P.m.msg.links, l.source = p → l.target = FINAL → ¬ IsTrue P.m.msg b lo hi es l.condition) →
      (∀ f ∈ P.m.msg.fields, f ∉ es.map (·.f) → (c.cursors f).pred = FINAL ∨
        (c.cursors f).pred = p ∧ between P.m.msg p f ≠ [] ∧ ∀ l ∈ between P.m.msg p f, ¬ IsTrue P.m.msg b lo hi es l.condition) → Loop P b lo hi c rest

theorem mem_rest {xs : List Field} {g h : Field} {done rest : List Field} (hx : xs = done ++ g :: rest) (hn : xs.Nodup) (hh : h ∈ xs)
    (hi : xs.idxOf g < xs.idxOf h) : h ∈ rest := by
  subst hx
  rw [List.nodup_append] at hn
  obtain ⟨_, hn2, hdis⟩ := hn
  have hg : g ∉ done := fun h => hdis g h g List.mem_cons_self rfl
  rcases List.mem_append.mp hh with h1 | h1
  · rw [List.idxOf_append, List.idxOf_append, if_pos h1, if_neg hg] at hi
    have := List.idxOf_lt_length_of_mem h1
    simp at hi
    omega
  · rcases List.mem_cons.mp h1 with rfl | h1
    · omega
    · exact h1

theorem Loop.step (W : WellFormed P) (I : InBuffer P b lo hi) (hD : Deterministic P.m.msg b lo hi) (hS : Sizes P b lo hi)
    {g : Field} {done rest : List Field} (hfs : P.m.msg.fields = done ++ g :: rest) (L : Loop P b lo hi c (g :: rest)) :
    ∃ c', P.verify c g = .ok c' ∧ Loop P b lo hi c' rest := by
  have hgf : g ∈ P.m.msg.fields := by simp [hfs]
  cases L with
  | stuck es p pos H hch hst ho hno hfin hpred =>
    refine ⟨c, ?_, .stuck es p pos H hch hst ho hno hfin hpred⟩
    by_cases hg : g ∈ es.map (·.f)
    · obtain ⟨e, he, rfl⟩ := List.mem_map.mp hg
      exact verify_done (H.cursors.sv e he)
    · rcases hpred g hgf hg with h | ⟨h1, h2, h3⟩
      · exact verify_final W hgf h
      · exact Next.verify W I ⟨H, hgf, h1, h2⟩ h3
  | active es p pos l H hch hst ho hl hls ht hnext hpred =>
    by_cases hg : g ∈ es.map (·.f)
    · obtain ⟨e, he, rfl⟩ := List.mem_map.mp hg
      refine ⟨c, verify_done (H.cursors.sv e he), .active es p pos l H hch hst ho hl hls ht ?_ hpred⟩
      rcases hnext with h | ⟨h1, h2⟩
      · exact .inl h
      · rcases List.mem_cons.mp h1 with h1 | h1
        · have hfin : l.target ≠ FINAL := fun h => W.final (by rw [← h, h1]; exact hgf)
          exact absurd hg (h1 ▸ path_next W (follows_path H.follows) hl hls hfin)
        · exact .inr ⟨h1, h2⟩
    · by_cases hgl : g = l.target
      · subst hgl
        have hfin : l.target ≠ FINAL := fun h => W.final (h ▸ hgf)
        have hp : (c.cursors l.target).pred = p := by
          rcases hnext with h | ⟨_, h⟩
          · exact absurd h hfin
          · exact h
        have R : Ready P b lo hi c es p pos l.target l :=
          ⟨⟨H, hgf, hp, List.ne_nil_of_mem (mem_between.mpr ⟨hl, hls, rfl⟩)⟩, hl, hls, rfl, ht⟩
        rcases R.verify W I hD hS hch (ho _ hgf hg) with ⟨y, l', c', hy, hl', hs', ht', hv, hc', H', hch'⟩ | ⟨hno, s, hs, hv⟩
        · refine ⟨c', hv, .active (y :: es) l.target (y.last + 1) l' H' hch' ?_ ?_ hl' hs' ht' ?_ ?_⟩
          · intro e he hcomp
            have hnt : e.f ≠ l'.target := by
              intro h
              by_cases hfin' : l'.target = FINAL
              · exact W.final (hfin' ▸ h ▸ follows_fields W H'.follows he)
              · exact path_next W (follows_path H'.follows) hl' hs' hfin' (h ▸ List.mem_map_of_mem he)
            rw [hc']
            simp only [Context.set, if_neg hnt]
            rcases List.mem_cons.mp he with rfl | he
            · rw [hy.field.1] at hcomp
              simp [hy.field.1, hcomp]
            · have : e.f ≠ l.target := fun h => hg (h ▸ List.mem_map_of_mem he)
              simp only [if_neg this]
              exact hst e he hcomp
          · intro h hh hnot
            simp only [List.map_cons, List.mem_cons, not_or, hy.field.1] at hnot
            rw [hc']
            simp only [Context.set, if_neg hnot.1]
            split
            · rfl
            · exact ho h hh hnot.2
          · by_cases hfin' : l'.target = FINAL
            · exact .inl hfin'
            · right
              have hm : l'.target ∈ P.m.msg.fields := ((W.links l' hl').2).resolve_left hfin'
              refine ⟨mem_rest hfs W.nodup hm (hs' ▸ W.order l' hl' (hs' ▸ hgf) hm), ?_⟩
              rw [hc']
              simp [Context.set, invalidFrom]
          · intro h hh hnot hne
            simp only [List.map_cons, List.mem_cons, not_or, hy.field.1] at hnot
            rw [hc']
            simp only [Context.set, if_neg hnot.1, if_neg hne]
            exact hpred h hh hnot.2 hnot.1
        · refine ⟨_, hv, .stuck es p pos (H.congr rfl rfl rfl ?_) (hch.congr ?_) ?_ ?_ ?_ ?_ ?_⟩
          · intro e he
            have : e.f ≠ l.target := fun h => hg (h ▸ List.mem_map_of_mem he)
            simp only [Context.set, if_neg this]
          · intro e he
            have : e.f ≠ l.target := fun h => hg (h ▸ List.mem_map_of_mem he)
            simp only [Context.set, if_neg this]
          · intro e he hcomp
            have : e.f ≠ l.target := fun h => hg (h ▸ List.mem_map_of_mem he)
            simp only [Context.set, if_neg this]
            exact hst e he hcomp
          · intro h hh hnot
            simp only [Context.set]
            split
            · rcases hs with rfl | rfl <;> rfl
            · exact ho h hh hnot
          · refine no_message W hD H.follows ?_ ?_
            · intro l1 h1 h2 h3
              rw [hD es p pos H.follows l1 h1 l hl h2 hls h3 ht]
              exact hfin
            · intro l1 y hy
              have : l1 = l := hD es p pos H.follows l1 hy.1 l hl hy.2.1 hls hy.2.2.2.1 ht
              subst this
              exact hno y hy
          · intro l1 h1 h2 h3 h4
            exact hfin (hD es p pos H.follows l1 h1 l hl h2 hls h4 ht ▸ h3)
          · intro h hh hnot
            left
            simp only [Context.set]
            split
            · rfl
            · rename_i hne
              exact hpred h hh hnot hne
      · refine ⟨c, verify_final W hgf (hpred g hgf hg hgl), .active es p pos l H hch hst ho hl hls ht ?_ hpred⟩
        rcases hnext with h | ⟨h1, h2⟩
        · exact .inl h
        · exact .inr ⟨(List.mem_cons.mp h1).resolve_left fun h => hgl h.symm, h2⟩

theorem Loop.run (W : WellFormed P) (I : InBuffer P b lo hi) (hD : Deterministic P.m.msg b lo hi) (hS : Sizes P b lo hi) {rest : List Field} :
    ∀ {c : Context} {done : List Field}, P.m.msg.fields = done ++ rest → Loop P b lo hi c rest → ∃ c', rest.foldlM P.verify c = .ok c' ∧ Loop P b lo hi c' [] := by
  induction rest with
  | nil => intro c _ _ L; exact ⟨c, rfl, L⟩
  | cons g rest ih =>
    intro c done hfs L
    obtain ⟨c1, h1, L1⟩ := L.step W I hD hS hfs
    obtain ⟨c2, h2, L2⟩ := ih (done := done ++ [g]) (by simp [hfs]) L1
    exact ⟨c2, by simp only [List.foldlM_cons, h1, bind, Except.bind]; exact h2, L2⟩

/-- `Initialize`. -/
theorem initialize_ok (I : InBuffer P b lo hi) : P.initialize b lo hi = .ok ⟨b.first, b.last, lo, hi, lo, some b,
    fun f => if P.m.msg.fields.head? = some f then invalidFrom INITIAL else invalidFrom FINAL⟩ := by
  have h1 := I.lower
  have h2 := I.order
  have h3 := I.upper
  have h4 := I.range
  have hlen : 0 < b.length := by
    simp only [Bytes.last, Bytes.length] at h3 ⊢
    omega
  simp only [Pkg.initialize, need, bind, Except.bind, decide_eq_true hlen, decide_eq_true h2,
    decide_eq_true (show byteIndex lo ≥ b.first from h1.2), decide_eq_true (show byteIndex hi ≤ b.last from h3),
    decide_eq_true (show hi < P.bitLast by omega), Bool.and_self, if_true]
  rfl

theorem Loop.init (W : WellFormed P) (hD : Deterministic P.m.msg b lo hi) :
    Loop P b lo hi ⟨b.first, b.last, lo, hi, lo, some b,
      fun f => if P.m.msg.fields.head? = some f then invalidFrom INITIAL else invalidFrom FINAL⟩ P.m.msg.fields := by
  obtain ⟨l, hl, hhd⟩ := W.start
  have hlm : l ∈ P.m.msg.links ∧ l.source = INITIAL := by
    have : l ∈ outgoing P.m.msg.links INITIAL := by rw [hl]; exact List.mem_cons_self
    simpa [outgoing] using this
  have huniq : ∀ l' ∈ P.m.msg.links, l'.source = INITIAL → l' = l := by
    intro l' h1 h2
    have : l' ∈ outgoing P.m.msg.links INITIAL := by simp [outgoing, h1, h2]
    rw [hl] at this
    exact List.mem_singleton.mp this
  have htf : l.target ∈ P.m.msg.fields := List.mem_of_head? hhd
  have hfin : l.target ≠ FINAL := fun h => W.final (h ▸ htf)
  have H : Contains P b lo hi ⟨b.first, b.last, lo, hi, lo, some b,
      fun f => if P.m.msg.fields.head? = some f then invalidFrom INITIAL else invalidFrom FINAL⟩ [] INITIAL lo :=
    ⟨.start, rfl, rfl, rfl, ⟨by simp, by simp, by simp, by simp, by simp⟩⟩
  have hch : Chained ⟨b.first, b.last, lo, hi, lo, some b,
      fun f => if P.m.msg.fields.head? = some f then invalidFrom INITIAL else invalidFrom FINAL⟩ [] := by
    intro xs y ys h; simp at h
  have ho : Others P ⟨b.first, b.last, lo, hi, lo, some b,
      fun f => if P.m.msg.fields.head? = some f then invalidFrom INITIAL else invalidFrom FINAL⟩ [] := by
    intro f _ _
    simp only
    split <;> rfl
  by_cases ht : IsTrue P.m.msg b lo hi [] l.condition
  · refine .active [] INITIAL lo l H hch (by intro e he; cases he) ho hlm.1 hlm.2 ht (.inr ⟨htf, ?_⟩) ?_
    · simp only [hhd, if_true]; rfl
    · intro f hf _ hne
      have : P.m.msg.fields.head? ≠ some f := by rw [hhd]; simpa using hne.symm
      simp only [if_neg this]; rfl
  · refine .stuck [] INITIAL lo H hch (by intro e he; cases he) ho ?_ ?_ ?_
    · refine no_message W hD .start ?_ ?_
      · intro l' h1 h2 h3
        rw [huniq l' h1 h2]
        exact hfin
      · intro l' y hy
        have := huniq l' hy.1 hy.2.1
        subst this
        exact absurd hy.2.2.2.1 ht
    · intro l' h1 h2 h3
      rw [huniq l' h1 h2]
      exact ht
    · intro f hf _
      by_cases hh : P.m.msg.fields.head? = some f
      · right
        simp only [hh, if_true]
        have hlt : l.target = f := by rw [hhd] at hh; simpa using hh
        refine ⟨rfl, List.ne_nil_of_mem (mem_between.mpr ⟨hlm.1, hlm.2, hlt⟩), ?_⟩
        intro l' h'
        obtain ⟨h1, h2, _⟩ := mem_between.mp h'
        rw [huniq l' h1 h2]
        exact ht
      · left
        simp only [if_neg hh]
        rfl

end

end Verif.Ctx
