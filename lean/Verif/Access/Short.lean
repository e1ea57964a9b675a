import Verif.Access.Spec
import Verif.Ctx.Props
import Verif.Ctx.Steps

/-! # Fields that do not fit into the buffer -/

namespace Verif.Ctx
open Verif Verif.Graph Verif.Verify Verif.Types Verif.Gen Verif.Spark

section
variable {P : Pkg} {b : Bytes} {lo hi : Int} {c c' : Context} {es : List Item} {p : Field} {pos : Int} {f g : Field} {l : Link}

/-- Where the field that does not fit is, seen from fields that are there: it comes next, or there is a next field and something after
it. -/
theorem short_cases (W : WellFormed P) (hD : Deterministic P.m.msg b lo hi) (h : Follows P.m.msg b lo hi es p pos) (T : TooShort P.m.msg b lo hi f) :
    (∃ l n, l ∈ P.m.msg.links ∧ l.source = p ∧ l.target = f ∧ IsTrue P.m.msg b lo hi es l.condition ∧ SizeOf P b lo hi es l f n ∧ hi < pos + n - 1) ∨
    ∃ l y, Step P.m.msg b lo hi es p pos l y ∧ Goes P.m.msg b lo hi (y :: es) l.target := by
  obtain ⟨es', p', pos', l', t, n, h', hl', hs', ht', hne, hc', hty, hsize, hlt⟩ := T
  have hz : SizeOf P b lo hi es' l' f n := by
    refine ⟨t, hty, hsize.imp ?_ id⟩
    rintro ⟨h1, h2⟩
    obtain ⟨k, hk, h3, h4⟩ := scalar_size W hty h1
    rw [hk] at h2
    have : k.v = n := Option.some.inj h2
    exact ⟨h1, k, hk, this, by omega, by omega⟩
  rcases follows_compare W hD h h' with ⟨xs, rfl⟩ | ⟨xs, rfl⟩
  · rcases List.eq_nil_or_concat xs with rfl | ⟨zs, z, rfl⟩
    · simp only [List.nil_append] at h' hc' hz
      obtain ⟨rfl, rfl⟩ := follows_fun h h'
      exact .inl ⟨l', n, hl', hs', ht', hc', hz, by omega⟩
    · rw [List.concat_eq_append, List.append_assoc] at h' hc'
      obtain ⟨q, qpos, h2⟩ := follows_suffix h'
      simp only [List.singleton_append] at h' hc' h2
      obtain ⟨q3, qpos3, l, h3, hs, rfl, _⟩ := follows_cons h2
      obtain ⟨rfl, rfl⟩ := follows_fun h h3
      refine .inr ⟨l, z, hs, ?_⟩
      rcases List.eq_nil_or_concat zs with rfl | ⟨ws, w, rfl⟩
      · simp only [List.nil_append] at h' hc'
        obtain ⟨rfl, rfl⟩ := follows_fun h2 h'
        exact ⟨l', hl', hs', hc'⟩
      · rw [List.concat_eq_append, List.append_assoc] at h'
        obtain ⟨_, _, h4⟩ := follows_suffix h'
        simp only [List.singleton_append] at h4
        obtain ⟨_, _, l4, h5, hs4, _⟩ := follows_cons h4
        obtain ⟨rfl, rfl⟩ := follows_fun h2 h5
        exact ⟨l4, hs4.1, hs4.2.1, hs4.2.2.2.1⟩
  · rcases List.eq_nil_or_concat xs with rfl | ⟨zs, z, rfl⟩
    · simp only [List.nil_append] at h ⊢
      obtain ⟨rfl, rfl⟩ := follows_fun h h'
      exact .inl ⟨l', n, hl', hs', ht', hc', hz, by omega⟩
    · exfalso
      rw [List.concat_eq_append, List.append_assoc] at h
      obtain ⟨_, _, h4⟩ := follows_suffix h
      simp only [List.singleton_append] at h4
      obtain ⟨_, _, l4, h5, hs4, _⟩ := follows_cons h4
      obtain ⟨rfl, rfl⟩ := follows_fun h' h5
      have := hD _ _ _ h' l' hl' l4 hs4.1 hs' hs4.2.1 hc' hs4.2.2.2.1
      subst this
      have := step_space W ht' hz hs4
      omega

/-- `Verify` of a field that fits does not make it incomplete. -/
theorem verify_fits (hs : P.sufficientBufferLength c f = .ok true) (h : P.verify c f = .ok c') (hc : (c.cursors f).state ≠ .incomplete) :
    (c'.cursors f).state ≠ .incomplete := by
  unfold Pkg.verify at h
  split at h
  · obtain ⟨x, _, h⟩ := bind_run h
    cases x with
    | false => cases h; exact hc
    | true =>
      obtain ⟨y, hy, h⟩ := bind_run h
      obtain rfl : y = true := Except.ok.inj (hy.symm.trans hs)
      obtain ⟨v, _, h⟩ := bind_run h
      obtain ⟨ok, _, h⟩ := bind_run h
      obtain ⟨n, _, h⟩ := bind_run h
      obtain ⟨fu, _, h⟩ := bind_run h
      simp only at h
      split at h
      · obtain ⟨last, _, h⟩ := bind_run h
        obtain ⟨first, _, h⟩ := bind_run h
        obtain ⟨s, _, h⟩ := bind_run h
        cases h
        rw [set_cursor]
        split
        · exact fun h => by cases h
        · rw [set_cursor, if_pos rfl]
          simp only
          split <;> exact fun h => by cases h
      · cases h
        rw [set_cursor, if_pos rfl]
        exact fun h => by cases h
  · cases h
    exact hc

/-- The state of `Verify_Message` with the given fields still to be verified: all fields so far have been there; or the verification
has come to an end. -/
inductive Watch (P : Pkg) (b : Bytes) (lo hi : Int) (c : Context) : List Field → Prop
  | active {rest} (es p pos l) : Contains P b lo hi c es p pos → Chained c es → Others P c es → l ∈ P.m.msg.links → l.source = p →
      IsTrue P.m.msg b lo hi es l.condition → (l.target = FINAL ∨ l.target ∈ rest ∧ (c.cursors l.target).pred = p) →
      (∀ f ∈ P.m.msg.fields, f ∉ es.map (·.f) → f ≠ l.target → (c.cursors f).pred = FINAL) →
      (∀ f ∈ P.m.msg.fields, (c.cursors f).state ≠ .incomplete) → Watch P b lo hi c rest
  | ended {rest} (es p pos) : Contains P b lo hi c es p pos →
      (∀ f ∈ P.m.msg.fields, f ∉ es.map (·.f) → (c.cursors f).pred = FINAL ∨
        (c.cursors f).pred = p ∧ between P.m.msg p f ≠ [] ∧ ∀ l ∈ between P.m.msg p f, ¬ IsTrue P.m.msg b lo hi es l.condition) →
      (∀ f ∈ P.m.msg.fields, (c.cursors f).state = .incomplete ↔ TooShort P.m.msg b lo hi f) → Watch P b lo hi c rest

theorem Watch.init (W : WellFormed P) (hD : Deterministic P.m.msg b lo hi) :
    Watch P b lo hi ⟨b.first, b.last, lo, hi, lo, some b,
      fun f => if P.m.msg.fields.head? = some f then invalidFrom INITIAL else invalidFrom FINAL⟩ P.m.msg.fields := by
  obtain ⟨l, hl, hhd⟩ := W.start
  have hlm : l ∈ P.m.msg.links ∧ l.source = INITIAL := by
    have : l ∈ outgoing P.m.msg.links INITIAL := by rw [hl]; exact List.mem_cons_self
    simpa [outgoing] using this
  have huniq : ∀ l' ∈ P.m.msg.links, l'.source = INITIAL → l' = l := by
    intro l' h1 h2
    have : l' ∈ outgoing P.m.msg.links INITIAL := by simp [outgoing, h1, h2]
    rw [hl] at this
    exact List.mem_singleton.mp this
  have htf : l.target ∈ P.m.msg.fields := List.mem_of_head? hhd
  have H : Contains P b lo hi ⟨b.first, b.last, lo, hi, lo, some b,
      fun f => if P.m.msg.fields.head? = some f then invalidFrom INITIAL else invalidFrom FINAL⟩ [] INITIAL lo :=
    ⟨.start, rfl, rfl, rfl, ⟨by simp, by simp, by simp, by simp, by simp⟩⟩
  have hinc : ∀ f ∈ P.m.msg.fields, ((if P.m.msg.fields.head? = some f then invalidFrom INITIAL else invalidFrom FINAL) : Cursor).state ≠ .incomplete := by
    intro f _
    split <;> exact fun h => by cases h
  by_cases ht : IsTrue P.m.msg b lo hi [] l.condition
  · refine .active [] INITIAL lo l H (by intro xs y ys h; simp at h) ?_ hlm.1 hlm.2 ht (.inr ⟨htf, ?_⟩) ?_ hinc
    · intro f _ _
      simp only
      split <;> rfl
    · simp only [hhd, if_true]; rfl
    · intro f hf _ hne
      have : P.m.msg.fields.head? ≠ some f := by rw [hhd]; simpa using hne.symm
      simp only [if_neg this]; rfl
  · refine .ended [] INITIAL lo H ?_ ?_
    · intro f hf _
      by_cases hh : P.m.msg.fields.head? = some f
      · right
        simp only [hh, if_true]
        have hlt : l.target = f := by rw [hhd] at hh; simpa using hh
        refine ⟨rfl, List.ne_nil_of_mem (mem_between.mpr ⟨hlm.1, hlm.2, hlt⟩), ?_⟩
        intro l' h'
        obtain ⟨h1, h2, _⟩ := mem_between.mp h'
        rw [huniq l' h1 h2]
        exact ht
      · left
        simp only [if_neg hh]
        rfl
    · intro f hf
      refine ⟨fun h => absurd h (hinc f hf), fun T => ?_⟩
      rcases short_cases W hD .start T with ⟨l', _, h1, h2, _, h3, _⟩ | ⟨l', _, hs, _⟩
      · exact absurd (huniq l' h1 h2 ▸ h3) ht
      · exact absurd (huniq l' hs.1 hs.2.1 ▸ hs.2.2.2.1) ht

theorem Watch.step (W : WellFormed P) (I : InBuffer P b lo hi) (hD : Deterministic P.m.msg b lo hi) (hS : Sizes P b lo hi)
    {g : Field} {done rest : List Field} (hfs : P.m.msg.fields = done ++ g :: rest) (L : Watch P b lo hi c (g :: rest)) :
    ∃ c', P.verify c g = .ok c' ∧ Watch P b lo hi c' rest := by
  have hgf : g ∈ P.m.msg.fields := by simp [hfs]
  cases L with
  | ended es p pos H hpred hiff =>
    refine ⟨c, ?_, .ended es p pos H hpred hiff⟩
    by_cases hg : g ∈ es.map (·.f)
    · obtain ⟨e, he, rfl⟩ := List.mem_map.mp hg
      exact verify_done (H.cursors.sv e he)
    · rcases hpred g hgf hg with h | ⟨h1, h2, h3⟩
      · exact verify_final W hgf h
      · exact Next.verify W I ⟨H, hgf, h1, h2⟩ h3
  | active es p pos l H hch ho hl hls ht hnext hpred hinc =>
    by_cases hg : g ∈ es.map (·.f)
    · obtain ⟨e, he, rfl⟩ := List.mem_map.mp hg
      refine ⟨c, verify_done (H.cursors.sv e he), .active es p pos l H hch ho hl hls ht ?_ hpred hinc⟩
      rcases hnext with h | ⟨h1, h2⟩
      · exact .inl h
      · rcases List.mem_cons.mp h1 with h1 | h1
        · have hfin : l.target ≠ FINAL := fun h => W.final (by rw [← h, h1]; exact hgf)
          exact absurd hg (h1 ▸ path_next W (follows_path H.follows) hl hls hfin)
        · exact .inr ⟨h1, h2⟩
    · by_cases hgl : g = l.target
      · subst hgl
        have hfin : l.target ≠ FINAL := fun h => W.final (h ▸ hgf)
        have hp : (c.cursors l.target).pred = p := by
          rcases hnext with h | ⟨_, h⟩
          · exact absurd h hfin
          · exact h
        have R : Ready P b lo hi c es p pos l.target l :=
          ⟨⟨H, hgf, hp, List.ne_nil_of_mem (mem_between.mpr ⟨hl, hls, rfl⟩)⟩, hl, hls, rfl, ht⟩
        obtain ⟨n, hz, hn, h0, hbl, h1⟩ := R.fieldSize W I hD hS
        have hsuf := R.sufficientBufferLength W I hn h0
        -- what is left if the field is not there
        have stop : ∀ s, P.verify c l.target = .ok (c.set l.target ⟨s, FINAL, 0, 0, 0⟩) →
            (s = .incomplete ↔ TooShort P.m.msg b lo hi l.target) →
            (∀ y, Step P.m.msg b lo hi es p pos l y → ¬ Goes P.m.msg b lo hi (y :: es) l.target) →
            ∃ c', P.verify c l.target = .ok c' ∧ Watch P b lo hi c' rest := by
          intro s hv hsi hno
          refine ⟨_, hv, .ended es p pos (H.congr rfl rfl rfl ?_) ?_ ?_⟩
          · intro e he
            have : e.f ≠ l.target := fun h => hg (h ▸ List.mem_map_of_mem he)
            simp only [Context.set, if_neg this]
          · intro h hh hnot
            left
            simp only [Context.set]
            split
            · rfl
            · rename_i hne
              exact hpred h hh hnot hne
          · intro f hf
            rw [set_cursor]
            split
            · rename_i hfl
              rw [hfl]
              exact hsi
            · rename_i hfl
              refine ⟨fun h => absurd h (hinc f hf), fun T => ?_⟩
              rcases short_cases W hD H.follows T with ⟨l1, n1, h1, h2, h3, h4, _⟩ | ⟨l1, y, hs, hgo⟩
              · have := hD es p pos H.follows l1 h1 l hl h2 hls h4 ht
                subst this
                exact absurd h3.symm hfl
              · have := hD es p pos H.follows l1 hs.1 l hl hs.2.1 hls hs.2.2.2.1 ht
                subst this
                exact absurd hgo (hno y hs)
        rcases R.verify W I hD hS hch (ho _ hgf hg) with ⟨y, l', c', hy, hl', hs', ht', hv, hc', H', hch'⟩ | ⟨hno, s, hs, hv⟩
        · refine ⟨c', hv, .active (y :: es) l.target (y.last + 1) l' H' hch' ?_ hl' hs' ht' ?_ ?_ ?_⟩
          · intro h hh hnot
            simp only [List.map_cons, List.mem_cons, not_or, hy.field.1] at hnot
            rw [hc']
            simp only [Context.set, if_neg hnot.1]
            split
            · rfl
            · exact ho h hh hnot.2
          · by_cases hfin' : l'.target = FINAL
            · exact .inl hfin'
            · right
              have hm : l'.target ∈ P.m.msg.fields := ((W.links l' hl').2).resolve_left hfin'
              refine ⟨mem_rest hfs W.nodup hm (hs' ▸ W.order l' hl' (hs' ▸ hgf) hm), ?_⟩
              rw [hc']
              simp [Context.set, invalidFrom]
          · intro h hh hnot hne
            simp only [List.map_cons, List.mem_cons, not_or, hy.field.1] at hnot
            rw [hc']
            simp only [Context.set, if_neg hnot.1, if_neg hne]
            exact hpred h hh hnot.2 hnot.1
          · intro h hh
            rw [hc', set_cursor]
            split
            · exact fun h => by cases h
            · rw [set_cursor]
              split
              · simp only
                split <;> exact fun h => by cases h
              · exact hinc h hh
        · by_cases hle : pos + n - 1 ≤ hi
          · rw [decide_eq_true hle] at hsuf
            have hsi : s ≠ .incomplete := by
              have := verify_fits hsuf hv (hinc _ hgf)
              rwa [set_cursor, if_pos rfl] at this
            refine stop s hv ⟨fun h => absurd h hsi, fun T => ?_⟩ hno
            exfalso
            rcases short_cases W hD H.follows T with ⟨l1, n1, h1, h2, h3, h4, h5, h6⟩ | ⟨l1, y, hs, hgo⟩
            · have := hD es p pos H.follows l1 h1 l hl h2 hls h4 ht
              subst this
              have : n1 = n := by
                obtain ⟨t, ht1, hz1⟩ := h5
                obtain ⟨t', ht1', hz1'⟩ := hz
                have := nodup_pair W.names.once ht1 ht1'
                subst this
                rcases hz1 with ⟨a1, k, hk, hkv, _⟩ | ⟨a1, hev⟩ <;> rcases hz1' with ⟨a2, k', hk', hkv', _⟩ | ⟨a2, hev'⟩
                · have := Except.ok.inj (hk.symm.trans hk')
                  subst this
                  omega
                · exact absurd a1 a2
                · exact absurd a2 a1
                · have := Option.some.inj (hev.symm.trans hev')
                  cases this
                  rfl
              omega
            · have := hD es p pos H.follows l1 hs.1 l hl hs.2.1 hls hs.2.2.2.1 ht
              subst this
              exact hno y hs hgo
          · rw [decide_eq_false hle] at hsuf
            obtain ⟨x, hx, hxi⟩ := R.toNext.pathCondition W I
            obtain rfl : x = true := hxi.mpr ⟨l, mem_between.mpr ⟨R.mem, R.source, R.target⟩, R.holds⟩
            have hb : c.hasBuffer = true := by simp [Context.hasBuffer, R.buffer]
            have hv2 : P.verify c l.target = .ok (c.set l.target ⟨.incomplete, FINAL, 0, 0, 0⟩) := by
              simp only [Pkg.verify, hb, ho _ hgf hg, R.validPredecessor, Bool.and_self, if_true, hx, bind, Except.bind, hsuf, Bool.false_eq_true, if_false]
              rfl
            refine stop .incomplete hv2 ⟨fun _ => ?_, fun _ => rfl⟩ hno
            obtain ⟨t, hty, hz⟩ := hz
            refine ⟨es, p, pos, l, t, n, H.follows, hl, hls, rfl, hfin, ht, hty, hz.imp ?_ id, by omega⟩
            rintro ⟨h2, k, hk, hkv, _⟩
            exact ⟨h2, by rw [hk]; exact congrArg some hkv⟩
      · refine ⟨c, verify_final W hgf (hpred g hgf hg hgl), .active es p pos l H hch ho hl hls ht ?_ hpred hinc⟩
        rcases hnext with h | ⟨h1, h2⟩
        · exact .inl h
        · exact .inr ⟨(List.mem_cons.mp h1).resolve_left fun h => hgl h.symm, h2⟩

theorem Watch.run (W : WellFormed P) (I : InBuffer P b lo hi) (hD : Deterministic P.m.msg b lo hi) (hS : Sizes P b lo hi) {rest : List Field} :
    ∀ {c : Context} {done : List Field}, P.m.msg.fields = done ++ rest → Watch P b lo hi c rest → ∃ c', rest.foldlM P.verify c = .ok c' ∧ Watch P b lo hi c' [] := by
  induction rest with
  | nil => intro c _ _ L; exact ⟨c, rfl, L⟩
  | cons g rest ih =>
    intro c done hfs L
    obtain ⟨c1, h1, L1⟩ := L.step W I hD hS hfs
    obtain ⟨c2, h2, L2⟩ := ih (done := done ++ [g]) (by simp [hfs]) L1
    exact ⟨c2, by simp only [List.foldlM_cons, h1, bind, Except.bind]; exact h2, L2⟩

/-- Which fields are incomplete after `Initialize` and `Verify_Message`. -/
theorem parse_incomplete (W : WellFormed P) (I : InBuffer P b lo hi) (hD : Deterministic P.m.msg b lo hi) (hS : Sizes P b lo hi) :
    ∃ c, P.parse b lo hi = .ok c ∧ ∀ f ∈ P.m.msg.fields, (c.cursors f).state = .incomplete ↔ TooShort P.m.msg b lo hi f := by
  obtain ⟨c, hc, L⟩ := (Watch.init W hD).run W I hD hS (done := []) rfl
  refine ⟨c, ?_, ?_⟩
  · simp only [Pkg.parse, initialize_ok I, bind, Except.bind]
    exact hc
  · cases L with
    | ended es p pos H hpred hiff => exact hiff
    | active es p pos l H hch ho hl hls ht hnext hpred hinc =>
      have hfin : l.target = FINAL := by
        rcases hnext with h | ⟨h, _⟩
        · exact h
        · cases h
      intro f hf
      refine ⟨fun h => absurd h (hinc f hf), fun T => ?_⟩
      exfalso
      rcases short_cases W hD H.follows T with ⟨l1, n1, h1, h2, h3, h4, _⟩ | ⟨l1, y, hs, hgo⟩
      · have := hD es p pos H.follows l1 h1 l hl h2 hls h4 ht
        subst this
        exact W.final (hfin ▸ h3 ▸ hf)
      · have := hD es p pos H.follows l1 hs.1 l hl hs.2.1 hls hs.2.2.2.1 ht
        subst this
        exact hs.2.2.1 hfin

/-! ## C69: incomplete messages -/

/-- After `Initialize` and `Verify_Message`, exactly those fields are incomplete that do not fit into the buffer after the fields in
front of them, and `Incomplete_Message` is true if and only if there is such a field. In this case there is no message in the
buffer, and `Structural_Valid_Message` is false. -/
theorem C69_incomplete (W : WellFormed P) (I : InBuffer P b lo hi) (hD : Deterministic P.m.msg b lo hi) (hS : Sizes P b lo hi)
    (h : P.parse b lo hi = .ok c) :
    (∀ f ∈ P.m.msg.fields, c.incomplete f = true ↔ TooShort P.m.msg b lo hi f) ∧
    (P.incompleteMessage c = true ↔ ∃ f, TooShort P.m.msg b lo hi f) ∧
    (P.incompleteMessage c = true → (¬ ∃ es, IsMessage P.m.msg b lo hi es) ∧ P.structuralValidMessage c = .ok false) := by
  obtain ⟨c1, h1, hiff⟩ := parse_incomplete W I hD hS
  cases h1.symm.trans h
  have hf : ∀ f ∈ P.m.msg.fields, c.incomplete f = true ↔ TooShort P.m.msg b lo hi f := by
    intro f hf
    rw [← hiff f hf]
    simp [Context.incomplete]
  have hm : P.incompleteMessage c = true ↔ ∃ f, TooShort P.m.msg b lo hi f := by
    simp only [Pkg.incompleteMessage, List.any_eq_true]
    constructor
    · rintro ⟨f, h2, h3⟩
      exact ⟨f, (hf f h2).mp h3⟩
    · rintro ⟨f, T⟩
      have h2 : f ∈ P.m.msg.fields := by
        obtain ⟨es, p, pos, l, t, n, _, hl, _, ht, hne, _⟩ := T
        exact ht ▸ ((W.links l hl).2).resolve_left (ht ▸ hne)
      exact ⟨f, h2, (hf f h2).mpr T⟩
  refine ⟨hf, hm, fun h2 => ?_⟩
  obtain ⟨f, T⟩ := hm.mp h2
  have hno : ¬ ∃ es, IsMessage P.m.msg b lo hi es := by
    rintro ⟨es, p, pos, l, hF, hl, hls, hfin, ht⟩
    rcases short_cases W hD hF T with ⟨l1, n1, h1, h2, h3, h4, _⟩ | ⟨l1, y, hs, hgo⟩
    · have := hD es p pos hF l1 h1 l hl h2 hls h4 ht
      subst this
      obtain ⟨_, _, _, _, _, _, _, _, _, _, hne, _⟩ := T
      exact hne (h3 ▸ hfin)
    · have := hD es p pos hF l1 hs.1 l hl hs.2.1 hls hs.2.2.2.1 ht
      subst this
      exact hs.2.2.1 hfin
  refine ⟨hno, ?_⟩
  obtain ⟨c2, r, h3, h4, h5⟩ := C29_accepts W I hD hS
  cases h3.symm.trans h
  rw [h4]
  cases r with
  | false => rfl
  | true => exact absurd (h5.mp rfl) hno

end

end Verif.Ctx
