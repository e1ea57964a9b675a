import Verif.Access.Spec
import Verif.Ctx.SeqStep
import Verif.Ctx.HistoryProps
import Verif.Post.Read

/-! # Reading fields of a message context -/

namespace Verif.Ctx
open Verif Verif.Graph Verif.Verify Verif.Types Verif.Gen
open Verif.Spark hiding byteIndex

section
variable {P : Pkg} {b b' : Bytes} {lo hi : Int} {c c' c'' : Context} {es : List Item} {p : Field} {pos : Int} {f g : Field} {l : Link}

/-- The field `f` has the same cursor, and the bits of its cursor are the same. -/
structure Untouched (f : Field) (c : Context) (b : Bytes) (c' : Context) (b' : Bytes) : Prop where
  buffer : c.buffer = some b → c'.buffer = some b'
  first : b'.first = b.first
  length : b'.data.length = b.data.length
  cursor : c'.cursors f = c.cursors f
  bits : ∀ i, (c.cursors f).first ≤ i → i ≤ (c.cursors f).last → bitAt b' i = bitAt b i

theorem Untouched.refl : Untouched f c b c b := ⟨id, rfl, rfl, rfl, fun _ _ _ => rfl⟩

theorem Untouched.trans {b'' : Bytes} (h : Untouched f c b c' b') (h' : Untouched f c' b' c'' b'') : Untouched f c b c'' b'' where
  buffer h1 := h'.buffer (h.buffer h1)
  first := h'.first.trans h.first
  length := h'.length.trans h.length
  cursor := h'.cursor.trans h.cursor
  bits i h1 h2 := by
    rw [h'.bits i (by rw [h.cursor]; exact h1) (by rw [h.cursor]; exact h2)]
    exact h.bits i h1 h2

/-- `Verify` of any field leaves the fields alone that are structurally valid. -/
theorem Inv.verify_cursor (W : WellFormed P) (U : Verified P lo hi) (V : Inv P lo hi c b es p pos) (hf : f ∈ P.m.msg.fields) (h : P.verify c f = .ok c')
    (hg : g ∈ P.m.msg.fields) (hv : (c.cursors g).sv = true) : c'.cursors g = c.cursors g ∧ c'.buffer = c.buffer := by
  refine ⟨?_, (verify_old h).1⟩
  obtain ⟨e, he, rfl, _⟩ := V.item hg hv
  rcases V.buffer with hb | hb
  · have H := V.contains hb
    by_cases hm : f ∈ es.map (·.f)
    · obtain ⟨e, he, rfl⟩ := List.mem_map.mp hm
      rw [verify_done (H.cursors.sv e he)] at h
      cases h
      rfl
    · have hne : e.f ≠ f := fun h => hm (h ▸ List.mem_map_of_mem he)
      rcases V.pending f hf hm with h1 | ⟨h1, h2⟩
      · rw [verify_final W hf h1] at h
        cases h
        rfl
      · have N : Next P b lo hi c es p pos f := ⟨H, hf, h1, h2⟩
        by_cases ht : ∃ l ∈ between P.m.msg p f, IsTrue P.m.msg b lo hi es l.condition
        · obtain ⟨l, hl, ht⟩ := ht
          obtain ⟨h5, h6, h7⟩ := mem_between.mp hl
          have R : Ready P b lo hi c es p pos f l := ⟨N, h5, h6, h7, ht⟩
          rcases R.verify W V.inside (U.deterministic b V.inside) (U.sizes b V.inside) V.chained (V.others f hf hm) with
            ⟨y, l', c2, hy, hl', hs', ht', hv2, hc2, H2, _⟩ | ⟨_, s, hs, hv2⟩
          · rw [hv2] at h
            cases h
            have h8 := H2.cursors.sv e (List.mem_cons_of_mem _ he)
            rw [hc2, set_cursor] at h8 ⊢
            split at h8
            · cases h8
            · rename_i h9
              rw [if_neg h9, set_cursor, if_neg hne]
          · rw [hv2] at h
            cases h
            rw [set_cursor, if_neg hne]
        · rw [N.verify W V.inside fun l hl h => ht ⟨l, hl, h⟩] at h
          cases h
          rfl
  · have : c.hasBuffer = false := by simp [Context.hasBuffer, hb]
    simp only [Pkg.verify, this, Bool.false_and, Bool.false_eq_true, if_false] at h
    cases h
    rfl

theorem Inv.verifyMessage_cursor (W : WellFormed P) (U : Verified P lo hi) (V : Inv P lo hi c b es p pos) (h : P.verifyMessage c = .ok c')
    (hg : g ∈ P.m.msg.fields) (hv : (c.cursors g).sv = true) : c'.cursors g = c.cursors g ∧ c'.buffer = c.buffer := by
  unfold Pkg.verifyMessage at h
  suffices ∀ (gs : List Field), (∀ g ∈ gs, g ∈ P.m.msg.fields) → ∀ {c es p pos}, Inv P lo hi c b es p pos → (c.cursors g).sv = true →
      gs.foldlM P.verify c = .ok c' → c'.cursors g = c.cursors g ∧ c'.buffer = c.buffer from this _ (fun _ h => h) V hv h
  intro gs
  induction gs with
  | nil => intro _ c es p pos _ _ h; cases h; exact ⟨rfl, rfl⟩
  | cons k gs ih =>
    intro hgs c es p pos V hv h
    rw [List.foldlM_cons] at h
    obtain ⟨c1, h1, h2⟩ := bind_run h
    obtain ⟨c2, es1, p1, pos1, h3, V1⟩ := V.verify W U (hgs k List.mem_cons_self)
    cases h3.symm.trans h1
    obtain ⟨e1, e2⟩ := V.verify_cursor W U (hgs k List.mem_cons_self) h1 hg hv
    obtain ⟨e3, e4⟩ := ih (fun g h => hgs g (List.mem_cons_of_mem _ h)) V1 (e1 ▸ hv) h2
    exact ⟨e3.trans e1, e4.trans e2⟩

/-- What a setter for a later field leaves. -/
theorem Inv.untouched {y : Item} {ys : List Item} (W : WellFormed P) (V' : Inv P lo hi c' b' (y :: ys) f pos) (hy : y.f = f) (I : InBuffer P b lo hi)
    {q : Field} {qpos : Int} (hF : Follows P.m.msg b lo hi ys q qpos) (A : Agree b b' lo qpos) (hb : c'.buffer = some b')
    (hg : g ∈ P.m.msg.fields) (hv : (c.cursors g).sv = true) (hgf : g ≠ f) (hcur : c'.cursors g = c.cursors g) : Untouched g c b c' b' := by
  refine ⟨fun _ => hb, A.first, A.length, hcur, fun i h1 h2 => ?_⟩
  obtain ⟨e, he, hef, h3, h4⟩ := V'.item hg (by rw [hcur]; exact hv)
  rw [hcur] at h3 h4
  have he : e ∈ ys := (List.mem_cons.mp he).resolve_left fun h => hgf (by rw [← hef, h, hy])
  have h5 := follows_last_lt W I.order hF e he
  have h6 := (follows_bounds W I.order hF).2.2 e he
  exact A.bits i (by omega) (by omega)

/-- A call that does not touch a field. -/
theorem Inv.other (W : WellFormed P) (U : Verified P lo hi) (V : Inv P lo hi c b es p pos) {op : Op} (h : P.step c op = .ok c')
    (hg : g ∈ P.m.msg.fields) (hv : (c.cursors g).sv = true) (hop : Later P g op) :
    ∃ b' es' p' pos', Inv P lo hi c' b' es' p' pos' ∧ Untouched g c b c' b' := by
  cases op with
  | verify f =>
    obtain ⟨_, h1, h⟩ := bind_run h
    obtain ⟨c2, es', p', pos', h2, V'⟩ := V.verify W U (needField_run h1)
    obtain ⟨e1, e2⟩ := V.verify_cursor W U (needField_run h1) h hg hv
    cases h2.symm.trans h
    exact ⟨_, _, _, _, V', fun h => e2.trans h, rfl, rfl, e1, fun _ _ _ => rfl⟩
  | verifyMessage =>
    obtain ⟨c2, es', p', pos', h2, V'⟩ := V.verifyMessage W U
    have h : P.verifyMessage c = .ok c' := h
    obtain ⟨e1, e2⟩ := V.verifyMessage_cursor W U h hg hv
    cases h2.symm.trans h
    exact ⟨_, _, _, _, V', fun h => e2.trans h, rfl, rfl, e1, fun _ _ _ => rfl⟩
  | reset f =>
    obtain ⟨_, h1, h⟩ := bind_run h
    obtain ⟨_, h2, h⟩ := bind_run h
    have hb : c.buffer = some b := by
      rcases V.buffer with hb | hb
      · exact hb
      · have := need_run h2
        simp [Context.hasBuffer, hb] at this
    have hn : P.needNext c f = .ok () := by
      unfold Pkg.reset at h
      obtain ⟨_, h3, _⟩ := bind_run h
      exact h3
    have e1 := reset_front W (needField_run h1) h hop
    obtain ⟨c2, _, ys, q, qpos, _, h3, _, V', _, _, hb2, _⟩ := V.reset W hb (needField_run h1) hn
    cases h3.symm.trans h
    exact ⟨_, _, _, _, V', fun _ => hb2, rfl, rfl, e1, fun _ _ _ => rfl⟩
  | setScalar f v =>
    obtain ⟨_, h1, h⟩ := bind_run h
    have hop : P.m.msg.fields.idxOf g < P.m.msg.fields.idxOf f := hop
    have hgf : g ≠ f := fun e => by rw [e] at hop; omega
    have e1 := setScalar_front W (needField_run h1) h hg hop
    obtain ⟨hb, hpre⟩ := V.scalarPre W U (needField_run h1) h
    obtain ⟨c2, b', xs, ys, q, qpos, l, t, n, s, h2, _, R, ht, hs, _, _, _, A, _, _, hb2, _, _, _, V'⟩ := V.setScalar W U hb hpre
    cases h2.symm.trans h
    exact ⟨_, _, _, _, V', V'.untouched W rfl V.inside R.follows A hb2 hg hv hgf e1⟩
  | setEmpty f =>
    obtain ⟨_, h1, h⟩ := bind_run h
    have hop : P.m.msg.fields.idxOf g < P.m.msg.fields.idxOf f := hop
    have hgf : g ≠ f := fun e => by rw [e] at hop; omega
    have hpre : P.compositePre c f = .ok () ∧ P.fieldSize c f = .ok 0 ∧ c'.cursors g = c.cursors g := by
      unfold Pkg.setEmpty at h
      obtain ⟨_, h2, h⟩ := bind_run h
      obtain ⟨n, h3, h⟩ := bind_run h
      obtain ⟨_, h4, h⟩ := bind_run h
      have := of_decide_eq_true (need_run h4)
      refine ⟨h2, this ▸ h3, ?_⟩
      obtain ⟨_, _, h⟩ := bind_run h
      obtain ⟨_, _, h⟩ := bind_run h
      obtain ⟨c1, h5, h⟩ := bind_run h
      exact (finish_front W (needField_run h1) h hg hop).trans (reset_front W (needField_run h1) h5 hop)
    obtain ⟨c2, _, ys, q, qpos, l, l', h2, _, C, _, _, hb2, hcur, _, _, _, _, V'⟩ := V.setEmpty W U (needField_run h1) hpre.1 hpre.2.1
    cases h2.symm.trans h
    exact ⟨_, _, _, _, V', fun _ => hb2, rfl, rfl, hpre.2.2, fun _ _ _ => rfl⟩
  | initializeField f =>
    obtain ⟨_, h1, h⟩ := bind_run h
    have hpre : P.compositePre c f = .ok () := by
      unfold Pkg.initializeField at h
      obtain ⟨_, h2, h⟩ := bind_run h
      exact h2
    have e1 := initializeField_front W (needField_run h1) h hg hop
    obtain ⟨c2, _, ys, q, qpos, l, n, l', h2, _, C, _, _, hb2, hcur, _, _, _, _, V'⟩ := V.initializeField W U (needField_run h1) hpre
    cases h2.symm.trans h
    exact ⟨_, _, _, _, V', fun _ => hb2, rfl, rfl, e1, fun _ _ _ => rfl⟩
  | setOpaque f ds =>
    have hop : P.m.msg.fields.idxOf g < P.m.msg.fields.idxOf f := hop
    have hgf : g ≠ f := fun e => by rw [e] at hop; omega
    obtain ⟨hf, h, hpre, hd, hlen⟩ := V.setOpaque_step W U h
    have e1 := setOpaque_front W hf h hg hop
    obtain ⟨c2, b', _, ys, q, qpos, l, l', h6, _, C, hb2, hcur, A, _, _, _, _, _, _, V'⟩ := V.setOpaque W U hf hpre hd hlen
    cases h6.symm.trans h
    exact ⟨_, _, _, _, V', V'.untouched W rfl V.inside C.ready.follows A hb2 hg hv hgf e1⟩
  | takeBuffer => exact hop.elim

/-- Calls that do not touch a field. -/
theorem Inv.others_later (W : WellFormed P) (U : Verified P lo hi) (hg : g ∈ P.m.msg.fields) {ops : List Op} (V : Inv P lo hi c b es p pos)
    (h : ops.foldlM P.step c = .ok c') (hv : (c.cursors g).sv = true) (hop : ∀ op ∈ ops, Later P g op) :
    ∃ b' es' p' pos', Inv P lo hi c' b' es' p' pos' ∧ Untouched g c b c' b' := by
  induction ops generalizing c b es p pos with
  | nil => cases h; exact ⟨b, es, p, pos, V, .refl⟩
  | cons op ops ih =>
    rw [List.foldlM_cons] at h
    obtain ⟨c1, h1, h2⟩ := bind_run h
    obtain ⟨b1, es1, p1, pos1, V1, T1⟩ := V.other W U h1 hg hv (hop op List.mem_cons_self)
    obtain ⟨b2, es2, p2, pos2, V2, T2⟩ := ih V1 h2 (T1.cursor ▸ hv) fun o ho => hop o (List.mem_cons_of_mem _ ho)
    exact ⟨b2, es2, p2, pos2, V2, T1.trans T2⟩

/-! ## Bytes of a field -/

/-- A slice contains the bytes of the buffer. -/
theorem slice_bytes {i j : Int} (h1 : (b.first : Int) ≤ byteIndex i) (h2 : byteIndex j ≤ b.last) :
    ∃ s, slice b (byteIndex i) (byteIndex j) = .ok s ∧ s.data.map (fun (x : Nat) => (x : Int)) = bytesAt b i j := by
  have h := content_eq (i := i) (j := j) h1 h2
  cases hs : slice b (byteIndex i) (byteIndex j) with
  | ok s =>
    rw [content, hs] at h
    exact ⟨s, rfl, h⟩
  | error e =>
    exfalso
    unfold slice at hs
    split at hs
    · cases hs
    · rw [if_pos ⟨h1, h2⟩] at hs
      cases hs

theorem map_cast {xs ys : List Nat} (h : xs.map (fun (x : Nat) => (x : Int)) = ys.map (fun (x : Nat) => (x : Int))) : xs = ys :=
  (List.map_inj_right fun _ _ h => Int.ofNat.inj h).mp h

/-- The bounds of a composite field. -/
theorem Inv.composite (W : WellFormed P) (U : Verified P lo hi) (V : Inv P lo hi c b es p pos) (hg : g ∈ P.m.msg.fields) (hc : P.isComposite g = true)
    (hv : (c.cursors g).sv = true) : (b.first : Int) ≤ byteIndex (c.cursors g).first ∧ byteIndex (c.cursors g).last ≤ b.last ∧
      (c.cursors g).first % 8 = 1 ∧ (c.cursors g).last % 8 = 0 ∧ lo ≤ (c.cursors g).first ∧ (c.cursors g).first ≤ (c.cursors g).last + 1 ∧
      (c.cursors g).last ≤ hi := by
  obtain ⟨e, he, rfl, h3, h4⟩ := V.item hg hv
  obtain ⟨h5, h6, h7⟩ := (follows_bounds W V.inside.order V.holds.follows).2.2 e he
  obtain ⟨t, ht⟩ := W.typed _ hg
  have hs : ¬ Scalar t := by
    rw [isComposite_iff W.names ht] at hc
    rw [← scalar_iff]
    simpa using hc
  obtain ⟨a1, a2⟩ := U.aligned b V.inside es p pos V.holds.follows e he t ht hs
  rw [h3, h4]
  exact ⟨V.inside.low h5, V.inside.high h7, a1, a2, h5, h6, h7⟩

/-- `Get_X` of a composite field. -/
theorem Inv.getComposite (W : WellFormed P) (U : Verified P lo hi) (V : Inv P lo hi c b es p pos) (hb : c.buffer = some b) (hg : g ∈ P.m.msg.fields)
    (hc : P.isComposite g = true) (hp : c.present g = true) :
    ∃ s, P.getComposite c g = .ok s ∧ s.data.map (fun (x : Nat) => (x : Int)) = bytesAt b (c.cursors g).first (c.cursors g).last ∧
      8 * (s.data.length : Int) = (c.cursors g).last - (c.cursors g).first + 1 := by
  have hv : (c.cursors g).sv = true := by
    simp only [Context.present, Bool.and_eq_true] at hp
    exact hp.1
  obtain ⟨h1, h2, h3, h4, _, h5, _⟩ := V.composite W U hg hc hv
  obtain ⟨s, hs, hd⟩ := slice_bytes h1 h2
  have hbuf : c.hasBuffer = true := by simp [Context.hasBuffer, hb]
  refine ⟨s, ?_, hd, ?_⟩
  · simp only [Pkg.getComposite, hc, hbuf, hp, need, if_true, bind, Except.bind, hb, hs, ofAda]
  · have := congrArg List.length hd
    simp only [List.length_map, bytesAt, List.length_range] at this
    omega

/-- `Equal` for a field that has been set. -/
theorem Inv.equal (W : WellFormed P) (U : Verified P lo hi) (V : Inv P lo hi c b es p pos) (hb : c.buffer = some b) (hg : g ∈ P.m.msg.fields)
    (hv : (c.cursors g).sv = true) (data : List Nat) : ∃ x, P.equal c g data = .ok x ∧
      (x = true ↔ P.isComposite g = true ∧ bytesAt b (c.cursors g).first (c.cursors g).last = data.map (fun (x : Nat) => (x : Int))) := by
  have H := V.contains hb
  have hbuf : c.hasBuffer = true := by simp [Context.hasBuffer, hb]
  obtain ⟨e, he, rfl, h3, h4⟩ := V.item hg hv
  obtain ⟨n1, n2, n3, n4⟩ := H.positions W V.inside U V.chained he
  obtain ⟨h5, h6, h7⟩ := (follows_bounds W V.inside.order H.follows).2.2 e he
  obtain ⟨xs, ys, hes⟩ := List.append_of_mem he
  obtain ⟨q, qpos, l, R, hs, _⟩ := H.ready W V.chained hes
  have e1 : qpos = e.first := Except.ok.inj ((R.fieldFirst W V.inside).symm.trans n2)
  have hsuf := R.sufficientBufferLength W V.inside n4 (by omega)
  rw [decide_eq_true (by omega)] at hsuf
  cases hc : P.isComposite e.f with
  | false =>
    refine ⟨false, ?_, by simp⟩
    simp only [Pkg.equal, hbuf, n1, hsuf, hc, need, if_true, bind, Except.bind, Bool.false_eq_true, if_false]
    rfl
  | true =>
    obtain ⟨h8, h9, _⟩ := V.composite W U hg hc hv
    rw [h3] at h8
    rw [h4] at h9
    obtain ⟨s, hs, hd⟩ := slice_bytes h8 h9
    refine ⟨decide (s.data = data), ?_, ?_⟩
    · simp only [Pkg.equal, hbuf, n1, n2, n3, hsuf, hc, need, if_true, bind, Except.bind, hb, hs, ofAda]
      rfl
    · rw [decide_eq_true_iff, h3, h4, ← hd]
      constructor
      · rintro rfl
        exact ⟨rfl, rfl⟩
      · rintro ⟨_, h⟩
        exact map_cast h

end

end Verif.Ctx
