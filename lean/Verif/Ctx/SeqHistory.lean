import Verif.Ctx.SeqWorld

/-! # Histories of a message and its sequences -/

namespace Verif.Ctx
open Verif Verif.Graph Verif.Verify Verif.Types Verif.Gen
open Verif.Spark hiding byteIndex

section
variable {P : Pkg} {b b' : Bytes} {lo hi : Int} {c c' c'' : Context} {es : List Item} {p : Field} {pos : Int} {f g : Field} {l : Link} {t : FTy}
  {E : ScalarSeq.Params Nat} {s s' : ScalarSeq.Ctx} {k : Nat}

/-- Bytes that are copied have the same bits. -/
theorem copied_bits {bs b' : Bytes} {qpos n : Int} {first bufferFirst : Nat} {ds : List Nat} (hq : qpos % 8 = 1) (hs : first % 8 = 1) (hn : n = 8 * ds.length)
    (hbf : bs.first = bufferFirst) (hle : bufferFirst ≤ Spark.byteIndex first)
    (hd : ∀ i, i < ds.length → ds[i]? = bs.data[Spark.byteIndex first - bufferFirst + i]?)
    (hbytes : bytesAt b' qpos (qpos + n - 1) = ds.map (fun (x : Nat) => (x : Int))) (hlow : (b'.first : Int) ≤ byteIndex qpos) {j : Int} (h0 : 0 ≤ j) (h1 : j < n) :
    bitAt b' (qpos + j) = bitAt bs (first + j) := by
  have hk : (j / 8).toNat < ds.length := by omega
  have h2 := congrArg (fun xs => xs[(j / 8).toNat]?) hbytes
  simp only [bytesAt, List.getElem?_map] at h2
  rw [List.getElem?_range (by omega), List.getElem?_eq_getElem hk] at h2
  simp only [Option.map_some, Option.some.injEq] at h2
  have h3 := hd _ hk
  rw [List.getElem?_eq_getElem hk] at h3
  unfold bitAt
  simp only [byteIndex, Spark.byteIndex] at hlow hle h3
  have e1 : ((qpos + j - 1) / 8 + 1 - (b'.first : Int)).toNat = ((qpos - 1) / 8 + 1 - (b'.first : Int)).toNat + (j / 8).toNat := by omega
  have e2 : (((first : Int) + j - 1) / 8 + 1 - (bs.first : Int)).toNat = (first - 1) / 8 + 1 - bufferFirst + (j / 8).toNat := by omega
  have e3 : (qpos + j - 1) % 8 = ((first : Int) + j - 1) % 8 := by omega
  rw [e1, e2, e3]
  congr 1
  rw [List.getD_eq_getElem?_getD (l := bs.data), ← h3]
  simp only [Option.getD_some]
  exact_mod_cast h2

/-- `Set_X` for a sequence. -/
theorem Inv.setSequence (W : WellFormed P) (U : Verified P lo hi) (T : ElementTypes P) (V : Inv P lo hi c b es p pos) (S : Sound P c b)
    (hf : f ∈ P.m.msg.fields) (hE : P.element f = .ok E) {bs : Bytes} (F : Filling E s bs k) (h : P.setSequence c f s = .ok c') :
    ∃ b' es' p' pos', Inv P lo hi c' b' es' p' pos' ∧ c.buffer = some b ∧ c'.buffer = some b' ∧ b'.first = b.first ∧ b'.data.length = b.data.length ∧
      Sound P c' b' ∧ (c'.cursors f).state = .valid ∧ (c'.cursors f).last - (c'.cursors f).first + 1 = s.size ∧
      (∀ j : Int, 0 ≤ j → j < s.size → bitAt b' ((c'.cursors f).first + j) = bitAt bs (s.first + j)) ∧
      ∀ i, lo ≤ i → i < (c'.cursors f).first ∨ (c'.cursors f).last < i → bitAt b' i = bitAt b i := by
  have I := V.inside
  obtain ⟨t, n0, Ins⟩ := element_instance T I.range.2 hE
  unfold Pkg.setSequence at h
  obtain ⟨E', h1, h⟩ := bind_run h
  have : E = E' := Except.ok.inj (hE.symm.trans h1)
  subst this
  obtain ⟨u, hpre, h⟩ := bind_run h
  obtain ⟨z, hz, h⟩ := bind_run h
  obtain ⟨_, hzs, h⟩ := bind_run h
  obtain ⟨_, _, h⟩ := bind_run h
  obtain ⟨_, hsv, h⟩ := bind_run h
  obtain ⟨first, hfi, h⟩ := bind_run h
  obtain ⟨last, hla, h⟩ := bind_run h
  obtain ⟨c0, hr, h⟩ := bind_run h
  obtain ⟨c1, hfn, h⟩ := bind_run h
  have hb := (V.compositePre W U hf hpre).1
  obtain ⟨c0', c1', xs, ys, q, qpos, l, n, l', r1, r2, r3, C, r5, r6, r7, hcur, _, _, _, _, V1⟩ := V.setComposite W U hf hpre (st := .valid) (.inl rfl)
  have e1 : first = qpos := Except.ok.inj (hfi.symm.trans r5)
  have e2 : last = qpos + n - 1 := Except.ok.inj (hla.symm.trans r6)
  have e3 : c0 = c0' := Except.ok.inj (hr.symm.trans r1)
  rw [e1, e2, e3, r2] at hfn
  have e4 : c1' = c1 := Except.ok.inj hfn
  subst e4
  rw [r7] at h
  simp only at h
  obtain ⟨ds, hcopy, h⟩ := bind_run h
  obtain ⟨b', has, h⟩ := bind_run h
  have hn : n = s.size := by
    have := of_decide_eq_true (need_run hzs)
    rw [← this]
    exact Except.ok.inj (C.size.symm.trans hz)
  obtain ⟨a1, a2⟩ := C.aligned
  have h0 := C.natural
  have hB := F.bounds
  have hgrid := F.grid
  have hsz : (s.size : Int) = s.sequenceLast + 1 - s.first := by
    simp only [ScalarSeq.Ctx.size]
    omega
  have hbyte : s.byteSize = (byteIndex last - byteIndex first + 1).toNat := by
    rw [e1, e2]
    simp only [ScalarSeq.Ctx.byteSize, byteIndex, Spark.byteIndex]
    split <;> omega
  obtain ⟨d, hd, hdl, hdb⟩ := ScalarSeq.copy_ok Ins.ok F.inv F.buffer hbyte
  rw [hd] at hcopy
  have : d = ds := Except.ok.inj hcopy
  subst this
  have hlen : (d.length : Int) = byteIndex (qpos + n - 1) - byteIndex qpos + 1 := by
    rw [hdl, e1, e2]
    simp only [byteIndex]
    omega
  have hdB : AreBytes d := by
    intro x hx
    obtain ⟨i, hi, rfl⟩ := List.mem_iff_getElem.mp hx
    have := hdb i (by omega)
    rw [List.getElem?_eq_getElem hi] at this
    exact hB.2.2.2.1 _ (List.mem_of_getElem? this.symm)
  obtain ⟨b2, has2, A, hafter, hbytes, hfo⟩ := C.write W I (U.aligned b I) hdB hlen
  rw [e1, e2, has2] at has
  have : b2 = b' := Except.ok.inj has
  subst this
  have h := Except.ok.inj h
  have V2 := V1.rewrite (A.inBuffer I) A.first A.length hfo
  have hbits : ∀ j : Int, 0 ≤ j → j < s.size → bitAt b2 (qpos + j) = bitAt bs (s.first + j) := by
    intro j j0 j1
    have hlow := I.low (follows_bounds W I.order C.ready.follows).1
    have hle : s.bufferFirst ≤ Spark.byteIndex s.first := by
      have := hB.2.2.2.2.1
      simp only [byteIndex] at this
      simp only [Spark.byteIndex]
      omega
    refine copied_bits (ds := d) a1 hB.2.2.2.2.2.2.1 ?_ hB.2.1 hle ?_ hbytes (by rw [A.first]; exact hlow) j0 (by omega)
    · rw [hlen]
      simp only [byteIndex]
      omega
    · intro i hi
      exact hdb i (by omega)
  have hcur' : c'.cursors f = ⟨.valid, q, qpos, qpos + n - 1, 0⟩ := by rw [← h]; exact hcur
  have hout : ∀ i, lo ≤ i → i < qpos ∨ qpos + n - 1 < i → bitAt b2 i = bitAt b i := by
    intro i h3 h4
    rcases h4 with h4 | h4
    · exact A.bits i h3 h4
    · exact hafter i (by omega)
  refine ⟨b2, _, _, _, h ▸ V2, hb, by rw [← h], A.first, A.length, ?_, by rw [hcur'], by rw [hcur']; simp only; omega, by rw [hcur']; exact hbits, by rw [hcur']; exact hout⟩
  intro g hg u ha hst
  by_cases hgf : g = f
  · subst hgf
    have := arrayOf_unique W.names ha Ins.array
    subst this
    rw [hcur']
    simp only
    have hw := Ins.width
    have hb1 := Ins.bits.1
    have hwn : n0.v.toNat = E.size := by omega
    refine ⟨(List.range k).map fun i : Nat => bitsAt bs (s.first + i * n0.v) n0.v.toNat, n0, Ins.size, ?_, fun i hi => ?_⟩
    · rw [List.length_map, List.length_range, ← hw]
      omega
    · rw [List.length_map, List.length_range] at hi
      simp only [List.getElem_map, List.getElem_range]
      have hv := F.valid (need_run hsv) i hi
      refine ⟨?_, ?_⟩
      · have h5 : (0 : Int) ≤ i * n0.v := Int.mul_nonneg (by omega) (by omega)
        have h6 : ((i : Int) + 1) * n0.v ≤ k * n0.v := Int.mul_le_mul_of_nonneg_right (by omega) (by omega)
        rw [Int.add_mul] at h6
        rw [← hw] at h5 h6 ⊢
        have : ∀ (x y : Int) (m : Nat), (∀ j : Nat, j < m → bitAt b2 (x + j) = bitAt bs (y + j)) → bitsAt b2 x m = bitsAt bs y m := by
          intro x y m
          induction m with
          | zero => intro _; rfl
          | succ m ih => intro hj; rw [bitsAt, bitsAt, ih fun j hm => hj j (by omega), hj m (by omega)]
        refine this _ _ _ fun j hj => ?_
        have := hbits (i * E.size + j) (by omega) (by omega)
        rw [← Int.add_assoc, ← Int.add_assoc] at this
        exact this
      · rw [hwn, ← hw]
        exact (Ins.valid _ (bitsAt_lt _ _ _)).mp hv
  · have hc := arrayOf_composite W.names ha
    have hold : Old P f c c1' := (reset_old r1).1.trans (finish_old r2)
    have hcc : c'.cursors = c1'.cursors := by rw [← h]
    rw [hcc] at hst ⊢
    have e5 := hold g hgf hc hst
    obtain ⟨e, he, hef, h3, h4⟩ := V1.item hg (sv_valid hst)
    have he : e ∈ ys := (List.mem_cons.mp he).resolve_left fun h => hgf (by rw [← hef, h])
    have h5 := follows_last_lt W I.order C.ready.follows e he
    have h6 := (follows_bounds W I.order C.ready.follows).2.2 e he
    rw [h3, h4]
    rw [e5] at hst
    obtain ⟨vs, hvs⟩ := S g hg u ha hst
    rw [← e5, h3, h4] at hvs
    exact ⟨vs, hvs.congr T ha fun i h7 h8 => A.bits i (by omega) (by omega)⟩

/-- The state of a message and a sequence. -/
structure WInv (P : Pkg) (lo hi : Int) (w : World) (b : Bytes) (es : List Item) (p : Field) (pos : Int) : Prop where
  inv : Inv P lo hi w.ctx b es p pos
  index : Indexed P b
  sound : Sound P w.ctx b
  seq : ∀ f s, w.seq = some (f, s) → s.buffer = none ∨ ∃ E k, Lent P w.ctx b f E s k

variable {w w' : World}

/-- A sequence that has the buffer is that of a message that does not. -/
theorem WInv.lent (V : WInv P lo hi w b es p pos) (h : w.seq = some (f, s)) (hb : s.hasBuffer = true) : ∃ E k, Lent P w.ctx b f E s k := by
  rcases V.seq f s h with h | h
  · simp [ScalarSeq.Ctx.hasBuffer, h] at hb
  · exact h

theorem WInv.free (V : WInv P lo hi w b es p pos) (hb : w.ctx.hasBuffer = true) (h : w.seq = some (f, s)) : s.buffer = none := by
  rcases V.seq f s h with h | ⟨E, k, L⟩
  · exact h
  · simp [Context.hasBuffer, L.buffer] at hb

/-- Every call leads to a state again. -/
theorem WInv.step (W : WellFormed P) (U : Verified P lo hi) (N : Unread P) (T : ElementTypes P) (V : WInv P lo hi w b es p pos) {op : WOp}
    (h : P.wstep w op = .ok w') : ∃ b' es' p' pos', WInv P lo hi w' b' es' p' pos' ∧ b'.first = b.first ∧ b'.data.length = b.data.length := by
  have I := V.inv.inside
  cases op with
  | msg op =>
    obtain ⟨c', h1, h⟩ := bind_run h
    cases h
    cases hb : w.ctx.buffer with
    | none =>
      cases step_none hb h1
      exact ⟨b, es, p, pos, V, rfl, rfl⟩
    | some b0 =>
      obtain ⟨b', es', p', pos', V', hf, hl, K⟩ := V.inv.keep W U h1
      refine ⟨b', es', p', pos', ⟨V', V.index.congr hf hl, V.sound.keep W T K, fun f s hs => .inl (V.free ?_ hs)⟩, hf, hl⟩
      simp [Context.hasBuffer, hb]
  | switchTo f =>
    obtain ⟨_, h1, h⟩ := bind_run h
    obtain ⟨⟨c', s⟩, h2, h⟩ := bind_run h
    cases h
    obtain ⟨⟨E, hE⟩, hpre⟩ := switch_pre h2
    obtain ⟨c1, s1, es', p', pos', h3, V', hb, K, F, _, hsv, g1, g2, _⟩ := V.inv.switch W U N T V.index (needField_run h1) hE hpre
    rw [h3] at h2
    cases h2
    refine ⟨b, es', p', pos', ⟨V', V.index, V.sound.keep W T K, fun g s' hs => ?_⟩, rfl, rfl⟩
    cases hs
    exact .inr ⟨E, 0, hb, needField_run h1, hE, hsv, F, g1, g2⟩
  | seq op =>
    unfold Pkg.wstep at h
    cases hs : w.seq with
    | none => simp only [hs] at h; cases h
    | some fs =>
      obtain ⟨f, s⟩ := fs
      simp only [hs] at h
      obtain ⟨E, hE, h⟩ := bind_run h
      obtain ⟨s', h1, h⟩ := bind_run h
      cases h
      rcases V.seq f s hs with hb | ⟨E', k, L⟩
      · refine ⟨b, es, p, pos, ⟨V.inv, V.index, V.sound, fun g s1 hs1 => .inl ?_⟩, rfl, rfl⟩
        cases hs1
        exact run_none hb h1
      · cases L.element.symm.trans hE
        obtain ⟨b', k', V', X', S', L', _⟩ := L.run W U N T V.inv V.index V.sound h1
        have hb1 := L.filling.bounds
        have hb2 := L'.filling.bounds
        refine ⟨b', es, p, pos, ⟨V', X', S', fun g s1 hs1 => .inr ?_⟩, ?_, ?_⟩
        · cases hs1
          exact ⟨E, k', L'⟩
        · have := V.inv.bounds.1
          have := V'.bounds.1
          omega
        · have h3 := V.inv.bounds
          have h4 := V'.bounds
          simp only [Bytes.last] at h3 h4
          omega
  | takeBuffer =>
    unfold Pkg.wstep at h
    cases hs : w.seq with
    | none => simp only [hs] at h; cases h
    | some fs =>
      obtain ⟨f, s⟩ := fs
      simp only [hs] at h
      obtain ⟨E, hE, h⟩ := bind_run h
      obtain ⟨⟨s', x⟩, h1, h⟩ := bind_run h
      cases h
      refine ⟨b, es, p, pos, ⟨V.inv, V.index, V.sound, fun g s1 hs1 => .inl ?_⟩, rfl, rfl⟩
      cases hs1
      cases ht : ScalarSeq.takeBuffer E s with
      | error e => rw [ht] at h1; cases h1
      | ok r =>
        rw [ht] at h1
        cases h1
        obtain ⟨_, _, h3⟩ := Spark.bind_ok (ht : (pre _).bind _ = _)
        obtain ⟨s1, h4, h3⟩ := Spark.bind_ok (h3 : (ScalarSeq.checked _ _).bind _ = _)
        cases h3
        unfold ScalarSeq.checked at h4
        split at h4
        · cases h4
          rfl
        · cases h4
  | update f =>
    unfold Pkg.wstep at h
    cases hs : w.seq with
    | none => simp only [hs] at h; cases h
    | some fs =>
      obtain ⟨g, s⟩ := fs
      simp only [hs] at h
      obtain ⟨_, h1, h⟩ := bind_run h
      obtain ⟨⟨c', s'⟩, h2, h⟩ := bind_run h
      cases h
      obtain ⟨E, k, L⟩ := V.lent hs (update_pre h2).2.2.2.2.2.1
      obtain ⟨_, _, _, _, hs', V', S'⟩ := V.inv.update W U N T V.sound L (needField_run h1) h2
      refine ⟨b, es, p, pos, ⟨V', V.index, S', fun g s1 hs1 => .inl ?_⟩, rfl, rfl⟩
      cases hs1
      exact hs'
  | setSequence f b0 bf bl first last ops =>
    obtain ⟨_, h1, h⟩ := bind_run h
    obtain ⟨E, hE, h⟩ := bind_run h
    obtain ⟨_, h2, h⟩ := bind_run h
    obtain ⟨_, h3, h⟩ := bind_run h
    obtain ⟨s0, h4, h⟩ := bind_run h
    obtain ⟨s, h5, h⟩ := bind_run h
    obtain ⟨c', h6, h⟩ := bind_run h
    cases h
    have hob : ScalarSeq.OkBytes E b0 := by
      have h2 := need_run h2
      have h3 := need_run h3
      simp only [Bool.and_eq_true, decide_eq_true_eq] at h3
      refine ⟨h3.1, h3.2, fun x hx => ?_⟩
      rw [List.all_eq_true] at h2
      exact of_decide_eq_true (h2 x hx)
    cases hi : ScalarSeq.init E b0 bf bl first last with
    | error e => rw [hi] at h4; cases h4
    | ok s1 =>
      rw [hi] at h4
      cases h4
      obtain ⟨t, n, Ins⟩ := element_instance T I.range.2 hE
      obtain ⟨F, _⟩ := Filling.init hob hi
      obtain ⟨bs, k, F⟩ := F.history Ins.ok h5
      obtain ⟨b', es', p', pos', V', hb, _, g1, g2, S', _⟩ := V.inv.setSequence W U T V.sound (needField_run h1) hE F h6
      refine ⟨b', es', p', pos', ⟨V', V.index.congr g1 g2, S', fun g s' hs => .inl (V.free ?_ hs)⟩, g1, g2⟩
      simp [Context.hasBuffer, hb]

/-- Every history leads to a state. -/
theorem WInv.history (W : WellFormed P) (U : Verified P lo hi) (N : Unread P) (T : ElementTypes P) (I : InBuffer P b lo hi) (X : Indexed P b) {ops : List WOp}
    (h : P.whistory b lo hi ops = .ok w) : ∃ b' es p pos, WInv P lo hi w b' es p pos ∧ b'.first = b.first ∧ b'.data.length = b.data.length := by
  unfold Pkg.whistory at h
  rw [initialize_ok I] at h
  simp only [bind, Except.bind] at h
  have : ∀ (ops : List WOp) {w0 b0 es p pos}, WInv P lo hi w0 b0 es p pos → ops.foldlM P.wstep w0 = .ok w →
      ∃ b' es p pos, WInv P lo hi w b' es p pos ∧ b'.first = b0.first ∧ b'.data.length = b0.data.length := by
    intro ops
    induction ops with
    | nil =>
      intro w0 b0 es p pos V h
      cases h
      exact ⟨_, _, _, _, V, rfl, rfl⟩
    | cons op ops ih =>
      intro w0 b0 es p pos V h
      rw [List.foldlM_cons] at h
      obtain ⟨w1, h1, h2⟩ := bind_run h
      obtain ⟨_, _, _, _, V', g1, g2⟩ := V.step W U N T h1
      obtain ⟨b', es, p, pos, V2, g3, g4⟩ := ih V' h2
      exact ⟨b', es, p, pos, V2, g3.trans g1, g4.trans g2⟩
  refine this ops ⟨Inv.init W I, X, ?_, fun _ _ h => by cases h⟩ h
  intro f _ t _ hst
  simp only at hst
  split at hst <;> cases hst

end

end Verif.Ctx
