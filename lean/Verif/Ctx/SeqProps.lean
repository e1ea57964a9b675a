import Verif.Ctx.SeqUse

/-! # C65: fields that are sequences of scalars are written and read element by element

Histories are those of `Verif/Ctx/Sequences.lean`: `Initialize` of a message, followed by any calls whose preconditions hold, for the
message (as in C30) and for a sequence that has been switched to. The specification is `Verif/Ctx/SeqSpec.lean`: `Elements` says which
elements the bits of a field are. All theorems are for messages whose conditions do not use the content of a sequence, which is what is
missing, see `Unread` and `C65_overwrite_counterexample`. -/

namespace Verif.Ctx
open Verif Verif.Graph Verif.Verify Verif.Types Verif.Gen
open Verif.Spark hiding byteIndex

section
variable {P : Pkg} {b : Bytes} {lo hi : Int} {w w' w1 : World} {f : Field} {t : FTy} {ops : List WOp}

/-- After every history, a sequence whose state is `S_Valid` consists of valid elements. They are in the buffer of the message, or in
that of the sequence that was switched to; there are never two of these with a buffer. -/
theorem C65_elements_partial (W : WellFormed P) (U : Verified P lo hi) (N : Unread P) (T : ElementTypes P) (I : InBuffer P b lo hi) (X : Indexed P b)
    (h : P.whistory b lo hi ops = .ok w) :
    ∃ b', b'.first = b.first ∧ b'.data.length = b.data.length ∧ (w.ctx.buffer = some b' ∨ w.ctx.buffer = none) ∧
      (∀ f s, w.seq = some (f, s) → s.buffer = none ∨ s.buffer = some b' ∧ w.ctx.buffer = none) ∧
      ∀ f ∈ P.m.msg.fields, ∀ t, ArrayOf P.m.msg f t → (w.ctx.cursors f).state = .valid →
        ∃ vs, Elements b' t (w.ctx.cursors f).first (w.ctx.cursors f).last vs := by
  obtain ⟨b', es, p, pos, V, h1, h2⟩ := WInv.history W U N T I X h
  refine ⟨b', h1, h2, V.inv.buffer, fun f s hs => ?_, V.sound⟩
  rcases V.seq f s hs with h | ⟨E, k, L⟩
  · exact .inl h
  · exact .inr ⟨L.filling.buffer, L.buffer⟩

/-- After every history, `Valid_Message` implies that the buffer contains a message, and that all sequences of this message consist of
one or more valid elements. -/
theorem C65_valid_message_partial (W : WellFormed P) (U : Verified P lo hi) (N : Unread P) (T : ElementTypes P) (I : InBuffer P b lo hi) (X : Indexed P b)
    (h : P.whistory b lo hi ops = .ok w) (hv : P.validMessage w.ctx = .ok true) :
    ∃ b' es, w.ctx.buffer = some b' ∧ IsMessage P.m.msg b' lo hi es ∧
      ∀ e ∈ es, ∀ t, ArrayOf P.m.msg e.f t → ∃ vs, vs ≠ [] ∧ Elements b' t e.first e.last vs := by
  obtain ⟨b', es, p, pos, V, _, _⟩ := WInv.history W U N T I X h
  have hb : w.ctx.buffer = some b' := by
    rcases V.inv.buffer with hb | hb
    · exact hb
    · simp [Pkg.validMessage, Pkg.messageValid, Context.hasBuffer, hb, need, bind, Except.bind] at hv
  have H := V.inv.contains hb
  have I1 := V.inv.inside
  obtain ⟨x, hx, hiff⟩ := messageValid_ok (st := false) W I1 (U.deterministic _ I1) H V.inv.others
  obtain rfl : x = true := Except.ok.inj (hx.symm.trans hv)
  obtain ⟨hacc, l, hl, hs, ht, hc⟩ := hiff.mp rfl
  refine ⟨b', es, hb, ⟨p, pos, l, H.follows, hl, hs, ht, hc⟩, fun e he t ha => ?_⟩
  have ha1 := hacc e he
  simp only [accepted, Bool.false_and, Bool.false_eq_true, if_false, Bool.and_eq_true, decide_eq_true_eq, Cursor.ok] at ha1
  obtain ⟨id, hm⟩ := ha.2
  have hf : e.f ∈ P.m.msg.fields := W.names.typed _ hm
  obtain ⟨vs, hvs⟩ := V.sound e.f hf t ha ha1.1
  have h1 := H.cursors.first e he
  have h2 := H.cursors.last e he
  rw [h1, h2] at hvs
  refine ⟨vs, fun h => ?_, hvs⟩
  subst h
  obtain ⟨n, _, h3, _⟩ := hvs
  simp at h3
  omega

/-- After every history, the body of `Switch_To_X` does not fail if its precondition holds. Afterwards only the sequence has the buffer,
it is empty and valid, and has the bounds that the field has in the message. The bits of the buffer are those from before. -/
theorem C65_switch_partial (W : WellFormed P) (U : Verified P lo hi) (N : Unread P) (T : ElementTypes P) (I : InBuffer P b lo hi) (X : Indexed P b)
    (h : P.whistory b lo hi ops = .ok w) (hf : f ∈ P.m.msg.fields) (ha : ArrayOf P.m.msg f t) (hb : w.ctx.hasBuffer = true)
    (hn : P.needNext w.ctx f = .ok ()) {n i : Int} (hs : P.fieldSize w.ctx f = .ok n) (hpos : 0 < n) (hi' : P.fieldFirst w.ctx f = .ok i) (hal : i % 8 = 1)
    (hc : P.fieldCondition w.ctx f 0 n = .ok true) (hsp : P.sufficientSpace w.ctx f = .ok true) :
    ∃ c s, P.switchTo w.ctx f = .ok (c, s) ∧ c.buffer = none ∧ s.buffer = w.ctx.buffer ∧ s.valid = true ∧ s.size = 0 ∧
      (s.first : Int) = i ∧ P.fieldLast w.ctx f = .ok s.last ∧ (c.cursors f).first = s.first ∧ (c.cursors f).last = s.last ∧
      c.present f = true ∧ c.bufFirst = s.bufferFirst ∧ c.bufLast = s.bufferLast := by
  obtain ⟨b', es, p, pos, V, _, _⟩ := WInv.history W U N T I X h
  obtain ⟨m, hm, _⟩ := T.sized f t ha
  obtain ⟨E, hE⟩ := element_ok W.names ha hm
  obtain ⟨c, s, es', p', pos', h1, _, h2, _, F, h3, h4, h5, h6, h7, h8, h9, h10⟩ := V.inv.switch W U N T V.index hf hE ⟨hb, hn, ⟨n, hs, hpos, hc⟩, ⟨i, hi', hal⟩, hsp⟩
  have hbuf : w.ctx.buffer = some b' := by
    rcases V.inv.buffer with h | h
    · exact h
    · simp [Context.hasBuffer, h] at hb
  have hB := F.bounds
  have hg := F.grid
  have hfi := Except.ok.inj (h7.symm.trans hi')
  refine ⟨c, s, h1, h2, F.buffer.trans hbuf.symm, h3, ?_, by omega, by rw [h6]; exact h8, h5.symm, h6.symm, ?_, h9, h10⟩
  · simp only [ScalarSeq.Ctx.size]
    omega
  · simp only [Context.present, h4, Bool.true_and, decide_eq_true_eq]
    omega

/-- Writing: after every history, if a sequence can be switched to, then elements of its type that fill the field are appended without
any failure, and `Update_X` does not fail either. The sequence is `S_Valid` then, its bits are exactly these elements in this order, and
all other bits of the buffer are those from before. -/
theorem C65_write_partial (W : WellFormed P) (U : Verified P lo hi) (N : Unread P) (T : ElementTypes P) (I : InBuffer P b lo hi) (X : Indexed P b)
    (h : P.whistory b lo hi ops = .ok w) (hs : P.wstep w (.switchTo f) = .ok w1) (ha : ArrayOf P.m.msg f t) {n : Num} (hn : t.size = .ok n) {vs : List Nat}
    (hvs : ∀ v ∈ vs, v < 2 ^ n.v.toNat ∧ InType t v) (hlen : (w1.ctx.cursors f).last = (w1.ctx.cursors f).first + vs.length * n.v - 1) :
    ∃ w2 b1 b2, P.whistory b lo hi (ops ++ .switchTo f :: vs.map (fun v => .seq (.append v)) ++ [.update f]) = .ok w2 ∧
      w.ctx.buffer = some b1 ∧ w2.ctx.buffer = some b2 ∧ b2.first = b1.first ∧ b2.data.length = b1.data.length ∧
      w2.ctx.cursors f = { w1.ctx.cursors f with state := .valid } ∧ (∀ g, g ≠ f → w2.ctx.cursors g = w1.ctx.cursors g) ∧
      Elements b2 t (w2.ctx.cursors f).first (w2.ctx.cursors f).last vs ∧
      ∀ i, lo ≤ i → i < (w2.ctx.cursors f).first ∨ (w2.ctx.cursors f).last < i → bitAt b2 i = bitAt b1 i := by
  obtain ⟨b1, es, p, pos, V, _, _⟩ := WInv.history W U N T I X h
  have hs0 := hs
  obtain ⟨_, hf, hs⟩ := bind_run hs
  have hf := needField_run hf
  obtain ⟨⟨c1, s1⟩, h1, hs⟩ := bind_run hs
  have hw1 : (⟨c1, some (f, s1)⟩ : World) = w1 := Except.ok.inj hs
  subst hw1
  obtain ⟨⟨E, hE⟩, hpre⟩ := switch_pre h1
  obtain ⟨c, s, es', p', pos', h2, V1, hb1, K, F, hv, hsv, g1, g2, _, _, _⟩ := V.inv.switch W U N T V.index hf hE hpre
  have he := Except.ok.inj (h2.symm.trans h1)
  rw [Prod.mk.injEq] at he
  obtain ⟨rfl, rfl⟩ := he
  have hbuf : w.ctx.buffer = some b1 := by
    rcases V.inv.buffer with h | h
    · exact h
    · have := hpre.buffer
      simp [Context.hasBuffer, h] at this
  have S1 := V.sound.keep W T K
  obtain ⟨t', n', Ins⟩ := element_instance T V.inv.inside.range.2 hE
  have := arrayOf_unique W.names Ins.array ha
  subst this
  have hnn : n' = n := Except.ok.inj (Ins.size.symm.trans hn)
  subst hnn
  have hw := Ins.width
  have hwn : n'.v.toNat = E.size := by omega
  have L : Lent P c b1 f E s 0 := ⟨hb1, hf, hE, hsv, F, g1, g2⟩
  have hgrid := F.grid
  have hlen' : (c.cursors f).last = (c.cursors f).first + vs.length * n'.v - 1 := hlen
  rw [← g1, ← g2, ← hw] at hlen'
  have hfull : s.sequenceLast + vs.length * E.size = s.last := by
    have : ((vs.length * E.size : Nat) : Int) = vs.length * (E.size : Int) := by push_cast; rfl
    omega
  obtain ⟨s', b2, hr, V2, X2, S2, L2, hv2, hsame, hfi, hle, hsl, hin, hout⟩ := Lent.appendAll W U N T vs V1 V.index S1 L hv
    (fun v hv => by
      obtain ⟨h3, h4⟩ := hvs v hv
      rw [hwn] at h3
      exact ⟨h3, (Ins.valid v h3).mpr h4⟩) (by omega)
  obtain ⟨s2, hu, _⟩ := V2.update_ok W U N T L2 hv2 (by rw [hsl, hfull, hsame.last])
  have hcf : (({ c with buffer := some b2 } : Context).set f { c.cursors f with state := .valid }).cursors f = { c.cursors f with state := .valid } := by
    rw [set_cursor, if_pos rfl]
  refine ⟨⟨_, some (f, s2)⟩, b1, b2, ?_, hbuf, rfl, hfi, hle, hcf, fun g hg => ?_, ?_, ?_⟩
  · unfold Pkg.whistory at h ⊢
    obtain ⟨c0, h3, h4⟩ := bind_run h
    rw [h3]
    show List.foldlM _ _ _ = _
    rw [List.foldlM_append, List.foldlM_append, h4]
    show (List.foldlM _ w (_ :: _) >>= _) = _
    rw [List.foldlM_cons, hs0]
    show (List.foldlM _ (⟨c, some (f, s)⟩ : World) _ >>= _) = _
    rw [wstep_appendAll hE vs hr]
    show List.foldlM _ (⟨c, some (f, s')⟩ : World) _ = _
    rw [List.foldlM_cons]
    have : P.wstep ⟨c, some (f, s')⟩ (.update f) = .ok ⟨({ c with buffer := some b2 } : Context).set f { c.cursors f with state := .valid }, some (f, s2)⟩ := by
      simp only [Pkg.wstep, Pkg.needField, List.contains_iff_mem.mpr hf, need, if_true, hu, bind, Except.bind]
      rfl
    rw [this]
    rfl
  · show (({ c with buffer := some b2 } : Context).set f { c.cursors f with state := .valid }).cursors g = c.cursors g
    rw [set_cursor, if_neg hg]
  · show Elements b2 t' ((({ c with buffer := some b2 } : Context).set f { c.cursors f with state := .valid }).cursors f).first
      ((({ c with buffer := some b2 } : Context).set f { c.cursors f with state := .valid }).cursors f).last vs
    rw [hcf]
    refine ⟨n', Ins.size, hlen, fun i hi => ?_⟩
    have h3 := hin i hi
    rw [Nat.zero_add, hw, g1, ← hwn] at h3
    exact ⟨h3, (hvs _ (List.getElem_mem hi)).2⟩
  · show ∀ i, lo ≤ i → i < ((({ c with buffer := some b2 } : Context).set f { c.cursors f with state := .valid }).cursors f).first ∨
      ((({ c with buffer := some b2 } : Context).set f { c.cursors f with state := .valid }).cursors f).last < i → bitAt b2 i = bitAt b1 i
    rw [hcf]
    intro i h3 h4
    simp only at h4
    exact hout i h3 (by simp only [Int.natCast_zero, Int.zero_mul, Int.add_zero]; omega)

/-- Reading: after every history, if a sequence can be switched to, and the bits of the field are elements of its type, then reading
gives exactly these elements in this order, without any failure, and there is no further one. `Update_X` does not fail then, gives the
buffer back as it was, and the sequence is `S_Valid`. -/
theorem C65_read_partial (W : WellFormed P) (U : Verified P lo hi) (N : Unread P) (T : ElementTypes P) (I : InBuffer P b lo hi) (X : Indexed P b)
    (h : P.whistory b lo hi ops = .ok w) (hs : P.wstep w (.switchTo f) = .ok w1) (ha : ArrayOf P.m.msg f t) {b1 : Bytes} (hb : w.ctx.buffer = some b1)
    {vs : List Nat} (hvs : Elements b1 t (w1.ctx.cursors f).first (w1.ctx.cursors f).last vs) :
    ∃ E s s' w2, P.element f = .ok E ∧ w1.seq = some (f, s) ∧ ScalarSeq.readAll E vs.length s = .ok (vs, s') ∧ s'.hasElement E = false ∧
      P.wstep ⟨w1.ctx, some (f, s')⟩ (.update f) = .ok w2 ∧ w2.ctx.buffer = some b1 ∧
      w2.ctx.cursors f = { w1.ctx.cursors f with state := .valid } ∧ ∀ g, g ≠ f → w2.ctx.cursors g = w1.ctx.cursors g := by
  obtain ⟨b1', es, p, pos, V, _, _⟩ := WInv.history W U N T I X h
  obtain ⟨_, hf, hs⟩ := bind_run hs
  have hf := needField_run hf
  obtain ⟨⟨c1, s1⟩, h1, hs⟩ := bind_run hs
  have hw1 : (⟨c1, some (f, s1)⟩ : World) = w1 := Except.ok.inj hs
  subst hw1
  obtain ⟨⟨E, hE⟩, hpre⟩ := switch_pre h1
  have hbb : b1' = b1 := by
    rcases V.inv.buffer with h | h
    · exact Option.some.inj (h.symm.trans hb)
    · rw [hb] at h; cases h
  subst hbb
  obtain ⟨c, s, es', p', pos', h2, V1, hb1, K, F, hv, hsv, g1, g2, _, _, _⟩ := V.inv.switch W U N T V.index hf hE hpre
  have he := Except.ok.inj (h2.symm.trans h1)
  rw [Prod.mk.injEq] at he
  obtain ⟨rfl, rfl⟩ := he
  obtain ⟨t', n, Ins⟩ := element_instance T V.inv.inside.range.2 hE
  have := arrayOf_unique W.names Ins.array ha
  subst this
  obtain ⟨n', hn', hlast, hel⟩ := hvs
  have hnn : n = n' := Except.ok.inj (Ins.size.symm.trans hn')
  subst hnn
  have hw := Ins.width
  have hwn : n.v.toNat = E.size := by omega
  have hgrid := F.grid
  have hlast' : (c.cursors f).last = (c.cursors f).first + vs.length * n.v - 1 := hlast
  rw [← g1, ← g2, ← hw] at hlast'
  have hfull : s.sequenceLast + vs.length * E.size = s.last := by
    have : ((vs.length * E.size : Nat) : Int) = vs.length * (E.size : Int) := by push_cast; rfl
    omega
  obtain ⟨s', hr, F', hv', hsame, hsl⟩ := F.readAll Ins.ok Ins.actual vs hv (by omega) (fun i hi => by
    obtain ⟨h3, h4⟩ := hel i hi
    have h3 : bitsAt b1' ((c.cursors f).first + i * n.v) n.v.toNat = vs[i] := h3
    rw [hwn, ← hw, ← g1] at h3
    rw [Nat.zero_add]
    refine ⟨h3, (Ins.valid _ ?_).mpr h4⟩
    rw [← h3]
    exact bitsAt_lt _ _ _)
  have L : Lent P c b1' f E s' (0 + vs.length) := ⟨hb1, hf, hE, hsv, F', by rw [hsame.first]; exact g1, by rw [hsame.last]; exact g2⟩
  obtain ⟨s2, hu, _⟩ := V1.update_ok W U N T L hv' (by rw [hsl, hfull, hsame.last])
  refine ⟨E, s, s', ⟨({ c with buffer := some b1' } : Context).set f { c.cursors f with state := .valid }, some (f, s2)⟩, hE, rfl, hr, ?_, ?_, rfl, ?_, fun g hg => ?_⟩
  · have := Ins.ok.pos
    have := hsame.last
    simp only [ScalarSeq.Ctx.hasElement, Bool.and_eq_false_iff, decide_eq_false_iff_not]
    omega
  · simp only [Pkg.wstep, Pkg.needField, List.contains_iff_mem.mpr hf, need, if_true, hu, bind, Except.bind]
    rfl
  · show (({ c with buffer := some b1' } : Context).set f { c.cursors f with state := .valid }).cursors f = _
    rw [set_cursor, if_pos rfl]
  · show (({ c with buffer := some b1' } : Context).set f { c.cursors f with state := .valid }).cursors g = c.cursors g
    rw [set_cursor, if_neg hg]

/-- `Set_X` for a sequence: after every history, the field is `S_Valid` and has the bits of the sequence `s` that was passed, which may
have been filled in any way in a buffer `bs` of its own. All other bits of the buffer are those from before. -/
theorem C65_set_partial (W : WellFormed P) (U : Verified P lo hi) (N : Unread P) (T : ElementTypes P) (I : InBuffer P b lo hi) (X : Indexed P b)
    (h : P.whistory b lo hi ops = .ok w) (ha : ArrayOf P.m.msg f t) {b0 : Bytes} {bf bl first last : Nat} {sops : List SeqOp}
    (hs : P.wstep w (.setSequence f b0 bf bl first last sops) = .ok w') :
    ∃ E s0 s bs b1 b2 vs, P.element f = .ok E ∧ ScalarSeq.init E b0 bf bl first last = .ok s0 ∧ sops.foldlM (SeqOp.run E) s0 = .ok s ∧ s.valid = true ∧
      s.buffer = some bs ∧ w.ctx.buffer = some b1 ∧ w'.ctx.buffer = some b2 ∧ w'.seq = w.seq ∧ b2.first = b1.first ∧ b2.data.length = b1.data.length ∧
      (w'.ctx.cursors f).state = .valid ∧ (w'.ctx.cursors f).last - (w'.ctx.cursors f).first + 1 = s.size ∧
      (∀ j : Int, 0 ≤ j → j < s.size → bitAt b2 ((w'.ctx.cursors f).first + j) = bitAt bs (s.first + j)) ∧
      Elements b2 t (w'.ctx.cursors f).first (w'.ctx.cursors f).last vs ∧
      ∀ i, lo ≤ i → i < (w'.ctx.cursors f).first ∨ (w'.ctx.cursors f).last < i → bitAt b2 i = bitAt b1 i := by
  obtain ⟨b1, es, p, pos, V, _, _⟩ := WInv.history W U N T I X h
  obtain ⟨_, h1, hs⟩ := bind_run hs
  obtain ⟨E, hE, hs⟩ := bind_run hs
  obtain ⟨_, h2, hs⟩ := bind_run hs
  obtain ⟨_, h3, hs⟩ := bind_run hs
  obtain ⟨s0, h4, hs⟩ := bind_run hs
  obtain ⟨s, h5, hs⟩ := bind_run hs
  obtain ⟨c', h6, hs⟩ := bind_run hs
  cases hs
  have hob : ScalarSeq.OkBytes E b0 := by
    have h2 := need_run h2
    have h3 := need_run h3
    simp only [Bool.and_eq_true, decide_eq_true_eq] at h3
    refine ⟨h3.1, h3.2, fun x hx => ?_⟩
    rw [List.all_eq_true] at h2
    exact of_decide_eq_true (h2 x hx)
  cases hi' : ScalarSeq.init E b0 bf bl first last with
  | error e => rw [hi'] at h4; cases h4
  | ok s1 =>
    rw [hi'] at h4
    cases h4
    obtain ⟨u, n, Ins⟩ := element_instance T V.inv.inside.range.2 hE
    obtain ⟨F, _⟩ := Filling.init hob hi'
    obtain ⟨bs, k, F⟩ := F.history Ins.ok h5
    obtain ⟨b2, _, _, _, V', hb, hb', g1, g2, S', g3, g4, g5, g6⟩ := V.inv.setSequence W U T V.sound (needField_run h1) hE F h6
    obtain ⟨vs, hvs⟩ := S' f (needField_run h1) t ha g3
    have hval : s.valid = true := by
      unfold Pkg.setSequence at h6
      obtain ⟨_, _, h6⟩ := bind_run h6
      obtain ⟨_, _, h6⟩ := bind_run h6
      obtain ⟨_, _, h6⟩ := bind_run h6
      obtain ⟨_, _, h6⟩ := bind_run h6
      obtain ⟨_, _, h6⟩ := bind_run h6
      obtain ⟨_, hsv, _⟩ := bind_run h6
      exact need_run hsv
    exact ⟨E, _, s, bs, b1, b2, vs, hE, hi', h5, hval, F.buffer, hb, hb', rfl, g1, g2, g3, g4, g5, hvs, g6⟩

end

end Verif.Ctx
