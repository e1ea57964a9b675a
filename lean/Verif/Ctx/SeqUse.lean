import Verif.Ctx.SeqHistory

/-! # Writing and reading a sequence as a whole -/

namespace Verif.Ctx
open Verif Verif.Graph Verif.Verify Verif.Types Verif.Gen
open Verif.Spark hiding byteIndex

section
variable {P : Pkg} {b b' : Bytes} {lo hi : Int} {c c' c'' : Context} {es : List Item} {p : Field} {pos : Int} {f g : Field} {l : Link} {t : FTy}
  {E : ScalarSeq.Params Nat} {s s' : ScalarSeq.Ctx} {k : Nat}

/-- `Update_X` succeeds if the sequence is valid and fills the field. -/
theorem Inv.update_ok (W : WellFormed P) (U : Verified P lo hi) (N : Unread P) (T : ElementTypes P) (V : Inv P lo hi c b es p pos)
    (L : Lent P c b f E s k) (hv : s.valid = true) (hfull : s.sequenceLast = s.last) :
    ∃ s', P.update c f s = .ok (({ c with buffer := some b } : Context).set f { c.cursors f with state := .valid }, s') ∧ s'.buffer = none := by
  have I := V.inside
  obtain ⟨t, n, Ins⟩ := element_instance T I.range.2 L.element
  obtain ⟨e, he, hef, he1, he2⟩ := V.item L.field L.sv
  obtain ⟨p1, p2, p3, p4⟩ := V.place W U N he (hef ▸ Ins.array)
  rw [hef] at p1 p2 p3 p4
  have h1 := L.first
  have h2 := L.last
  have hB := L.filling.bounds
  have hbd := V.bounds
  have hpres : c.present f = true := by
    simp only [Context.present, L.sv, Bool.true_and, decide_eq_true_eq]
    omega
  have hcomp : P.complete c f s = .ok true := by
    unfold Pkg.complete
    simp only [p1, p2, bind, Except.bind, hv, Bool.true_and]
    show Except.ok _ = _
    congr 1
    rw [decide_eq_true_eq]
    simp only [ScalarSeq.Ctx.size]
    omega
  have hpred : ScalarSeq.Ctx.Pred E { s with buffer := none } := by
    obtain ⟨q1, q2, q3, q4, q5, q6, q7, q8⟩ := L.filling.inv.pred
    exact ⟨fun _ h => (nomatch h), q2, q3, q4, q5, q6, q7, q8⟩
  have htake : ScalarSeq.takeBuffer E s = .ok ({ s with buffer := none }, some b) := by
    unfold ScalarSeq.takeBuffer
    rw [pre_ok L.filling.congr]
    show (ScalarSeq.checked E { s with buffer := none }).bind _ = _
    rw [ScalarSeq.checked_ok hpred, L.filling.buffer]
    rfl
  have hnb : (!c.hasBuffer) = true := by simp [Context.hasBuffer, L.buffer]
  have hbb : (decide (c.bufFirst = s.bufferFirst) && decide (c.bufLast = s.bufferLast)) = true := by
    rw [Bool.and_eq_true, decide_eq_true_eq, decide_eq_true_eq]
    omega
  have hi1 : decide ((s.first : Int) = e.first) = true := decide_eq_true (by omega)
  have hi2 : decide ((s.last : Int) = e.last) = true := decide_eq_true (by omega)
  refine ⟨{ s with buffer := none }, ?_, rfl⟩
  unfold Pkg.update
  simp only [L.element, hpres, hcomp, hnb, L.filling.congr, hbb, p3, p4, hi1, hi2, htake, hv, need, ofAda, if_true, bind, Except.bind]
  rfl

/-- Elements are appended. -/
theorem Lent.appendAll (W : WellFormed P) (U : Verified P lo hi) (N : Unread P) (T : ElementTypes P) : ∀ (vs : List Nat) {b : Bytes} {s : ScalarSeq.Ctx} {k : Nat},
    Inv P lo hi c b es p pos → Indexed P b → Sound P c b → Lent P c b f E s k → s.valid = true →
    (∀ v ∈ vs, v < 2 ^ E.size ∧ E.valid v = true) → s.sequenceLast + vs.length * E.size ≤ s.last →
    ∃ s' b', vs.foldlM (fun s v => SeqOp.run E s (.append v)) s = .ok s' ∧ Inv P lo hi c b' es p pos ∧ Indexed P b' ∧ Sound P c b' ∧
      Lent P c b' f E s' (k + vs.length) ∧ s'.valid = true ∧ ScalarSeq.Same s s' ∧ b'.first = b.first ∧ b'.data.length = b.data.length ∧
      s'.sequenceLast = s.sequenceLast + vs.length * E.size ∧
      (∀ i (h : i < vs.length), bitsAt b' (s.first + (k + i : Nat) * E.size) E.size = vs[i]) ∧
      ∀ x, lo ≤ x → x < s.first + k * E.size ∨ (s.last : Int) < x → bitAt b' x = bitAt b x := by
  intro vs
  induction vs with
  | nil =>
    intro b s k V X S L hv _ _
    exact ⟨s, b, rfl, V, X, S, L, hv, ⟨rfl, rfl, rfl, rfl⟩, rfl, rfl, by simp, fun i h => absurd h (Nat.not_lt_zero _), fun _ _ _ => rfl⟩
  | cons v vs ih =>
    intro b s k V X S L hv hval hsp
    have I := V.inside
    obtain ⟨t, n, Ins⟩ := element_instance T I.range.2 L.element
    obtain ⟨hlt, hev⟩ := hval v List.mem_cons_self
    have hbase := Ins.base v hlt
    have hpos := Ins.ok.pos
    rw [List.length_cons, Nat.add_mul, Nat.one_mul] at hsp
    obtain ⟨s1, b1, ha, F1, hsame, hv1, Wr⟩ := L.filling.append Ins.ok hv (by rw [hbase]; exact hev) (show E.size ≤ s.last - s.sequenceLast by omega)
    have hrun : SeqOp.run E s (.append v) = .ok s1 := by
      simp only [SeqOp.run, need, hlt, decide_true, if_true, ha, ofAda, bind, Except.bind]
    obtain ⟨b2, k2, V1, X1, S1, L1, _, _⟩ := L.run W U N T V X S hrun
    have hb2 : b2 = b1 := Option.some.inj (L1.filling.buffer.symm.trans F1.buffer)
    subst hb2
    have L1' : Lent P c b2 f E s1 (k + 1) := ⟨L1.buffer, L1.field, L1.element, L1.sv, F1, L1.first, L1.last⟩
    have g0 := L.filling.grid
    have g1 := F1.grid
    rw [hsame.first, Nat.add_mul, Nat.one_mul] at g1
    obtain ⟨s', b', hr, V', X', S', L', hv', hsame', hf', hl', hsl', hin, hout⟩ := ih V1 X1 S1 L1' hv1 (fun x hx => hval x (List.mem_cons_of_mem _ hx))
      (by rw [hsame.last]; omega)
    refine ⟨s', b', ?_, V', X', S', ?_, hv', ⟨?_, ?_, ?_, ?_⟩, hf'.trans Wr.first, hl'.trans Wr.length, ?_, ?_, ?_⟩
    · rw [List.foldlM_cons, hrun]
      exact hr
    · rw [List.length_cons, show k + (vs.length + 1) = k + 1 + vs.length by omega]
      exact L'
    · exact hsame'.bufferFirst.trans hsame.bufferFirst
    · exact hsame'.bufferLast.trans hsame.bufferLast
    · exact hsame'.first.trans hsame.first
    · exact hsame'.last.trans hsame.last
    · rw [hsl', List.length_cons, Nat.add_mul, Nat.one_mul]
      omega
    · have hlow : lo ≤ s.first + (k : Int) * E.size := by
        obtain ⟨e, he, hef, he1, he2⟩ := V.item L.field L.sv
        have := (follows_bounds W I.order V.holds.follows).2.2 e he
        have := L.first
        have : (0 : Int) ≤ k * E.size := Int.mul_nonneg (by omega) (by omega)
        omega
      intro i hi
      cases i with
      | zero =>
        have hv0 := Wr.value
        rw [hbase] at hv0
        simp only [List.getElem_cons_zero, Nat.add_zero]
        refine Eq.trans (bitsAt_congr fun j hj => ?_) hv0
        refine hout _ (by omega) (.inl ?_)
        rw [hsame.first]
        push_cast
        rw [Int.add_mul]
        omega
      | succ i =>
        have := hin i (by simpa using hi)
        rw [hsame.first, show k + 1 + i = k + (i + 1) by omega] at this
        simpa using this
    · intro x hx hx'
      have hk : (s1.first : Int) + ((k + 1 : Nat) : Int) * E.size = s.first + k * E.size + E.size := by
        rw [hsame.first]
        push_cast
        rw [Int.add_mul]
        omega
      rw [hout x hx (by rw [hk, hsame.last]; omega)]
      refine Wr.others x (I.low hx) ?_
      rcases hx' with h | h
      · exact .inl h
      · right
        have : (s.sequenceLast : Int) + 1 = s.first + k * E.size := by exact_mod_cast g0
        omega

/-- The calls of `Append_Element` in a world. -/
theorem wstep_appendAll (hE : P.element f = .ok E) : ∀ (vs : List Nat) {s s' : ScalarSeq.Ctx}, vs.foldlM (fun s v => SeqOp.run E s (.append v)) s = .ok s' →
    (vs.map fun v => WOp.seq (.append v)).foldlM P.wstep ⟨c, some (f, s)⟩ = .ok ⟨c, some (f, s')⟩ := by
  intro vs
  induction vs with
  | nil => intro s s' h; cases h; rfl
  | cons v vs ih =>
    intro s s' h
    rw [List.foldlM_cons] at h
    obtain ⟨s1, h1, h2⟩ := bind_run h
    rw [List.map_cons, List.foldlM_cons]
    have : P.wstep ⟨c, some (f, s)⟩ (.seq (.append v)) = .ok ⟨c, some (f, s1)⟩ := by
      simp only [Pkg.wstep, hE, h1, bind, Except.bind]
      rfl
    rw [this]
    exact ih h2

/-- Elements are read. -/
theorem Filling.readAll (hE : E.Ok) (hA : E.toActual = id) : ∀ (vs : List Nat) {s : ScalarSeq.Ctx} {k : Nat}, Filling E s b k → s.valid = true →
    s.sequenceLast + vs.length * E.size ≤ s.last →
    (∀ i (h : i < vs.length), bitsAt b (s.first + (k + i : Nat) * E.size) E.size = vs[i] ∧ E.valid vs[i] = true) →
    ∃ s', ScalarSeq.readAll E vs.length s = .ok (vs, s') ∧ Filling E s' b (k + vs.length) ∧ s'.valid = true ∧ ScalarSeq.Same s s' ∧
      s'.sequenceLast = s.sequenceLast + vs.length * E.size := by
  intro vs
  induction vs with
  | nil =>
    intro s k F hv _ _
    exact ⟨s, rfl, F, hv, ⟨rfl, rfl, rfl, rfl⟩, by simp⟩
  | cons v vs ih =>
    intro s k F hv hsp hin
    have hpos := hE.pos
    rw [List.length_cons, Nat.add_mul, Nat.one_mul] at hsp
    obtain ⟨x, _, hn, _⟩ := ScalarSeq.next_ok hE F.inv F.buffer (by
      unfold ScalarSeq.Ctx.hasElement
      rw [hv, Bool.true_and, decide_eq_true_eq]
      omega)
    obtain ⟨F1, hsame, hne⟩ := F.next hE hn
    obtain ⟨h0, h0v⟩ := hin 0 (by simp)
    simp only [Nat.add_zero, List.getElem_cons_zero] at h0 h0v
    have hxv : x = v := hne.trans h0
    subst hxv
    have hvx : (s.valid && E.valid x) = true := by rw [hv, h0v]; rfl
    rw [hvx] at hn F1 hsame
    obtain ⟨s', hr, F', hv', hsame', hsl'⟩ := ih F1 rfl (by simp only; omega) (fun i hi => by
      have := hin (i + 1) (by simpa using hi)
      rw [show k + 1 + i = k + (i + 1) by omega]
      simpa using this)
    refine ⟨s', ?_, ?_, hv', ⟨?_, ?_, ?_, ?_⟩, ?_⟩
    · rw [List.length_cons, ScalarSeq.readAll, hn]
      show (ScalarSeq.getElement E _).bind _ = _
      unfold ScalarSeq.getElement
      rw [pre_ok (by simp [ScalarSeq.Ctx.validElement, h0v])]
      show (ScalarSeq.readAll E vs.length _).bind _ = _
      simp only
      rw [hr, hA]
      rfl
    · rw [List.length_cons, show k + (vs.length + 1) = k + 1 + vs.length by omega]
      exact F'
    · exact hsame'.bufferFirst.trans hsame.bufferFirst
    · exact hsame'.bufferLast.trans hsame.bufferLast
    · exact hsame'.first.trans hsame.first
    · exact hsame'.last.trans hsame.last
    · rw [hsl', List.length_cons, Nat.add_mul, Nat.one_mul]
      simp only
      omega

end

end Verif.Ctx
