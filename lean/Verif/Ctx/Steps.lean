import Verif.Ctx.SetComposite

/-! # Histories of calls -/

namespace Verif.Ctx
open Verif Verif.Graph Verif.Verify Verif.Types Verif.Gen Verif.Spark

section
variable {P : Pkg} {b b' : Bytes} {lo hi : Int} {c c' : Context} {es : List Item} {p : Field} {pos : Int} {f : Field} {l : Link}

/-- `Initialize_X`. -/
theorem Inv.initializeField (W : WellFormed P) (U : Verified P lo hi) (V : Inv P lo hi c b es p pos) (hf : f ∈ P.m.msg.fields) (hpre : P.compositePre c f = .ok ()) :
    ∃ c' xs ys q qpos l n l', P.initializeField c f = .ok c' ∧ es = xs ++ ys ∧ CompositePre P b lo hi c f xs ys q qpos l n ∧ P.fieldFirst c f = .ok qpos ∧
      P.fieldLast c f = .ok (qpos + n - 1) ∧ c'.buffer = some b ∧ c'.cursors f = ⟨.structuralValid, q, qpos, qpos + n - 1, 0⟩ ∧
      l' ∈ P.m.msg.links ∧ l'.source = f ∧ IsTrue P.m.msg b lo hi (⟨f, qpos, qpos + n - 1, 0⟩ :: ys) l'.condition ∧
      (c'.cursors l'.target).pred = f ∧ Inv P lo hi c' b (⟨f, qpos, qpos + n - 1, 0⟩ :: ys) f (qpos + n) := by
  obtain ⟨c1, c', xs, ys, q, qpos, l, n, l', h1, h2, h3, h4, h5, h6, h7, h8, h9, h10, h11, h12, h13⟩ := V.setComposite W U hf hpre (st := .structuralValid) (.inr rfl)
  refine ⟨c', xs, ys, q, qpos, l, n, l', ?_, h3, h4, h5, h6, h7, h8, h9, h10, h11, h12, h13⟩
  simp only [Pkg.initializeField, hpre, h5, h6, h1, h2, bind, Except.bind]

/-- `Set_X_Empty`. -/
theorem Inv.setEmpty (W : WellFormed P) (U : Verified P lo hi) (V : Inv P lo hi c b es p pos) (hf : f ∈ P.m.msg.fields) (hpre : P.compositePre c f = .ok ())
    (hz : P.fieldSize c f = .ok 0) :
    ∃ c' xs ys q qpos l l', P.setEmpty c f = .ok c' ∧ es = xs ++ ys ∧ CompositePre P b lo hi c f xs ys q qpos l 0 ∧ P.fieldFirst c f = .ok qpos ∧
      P.fieldLast c f = .ok (qpos - 1) ∧ c'.buffer = some b ∧ c'.cursors f = ⟨.valid, q, qpos, qpos - 1, 0⟩ ∧
      l' ∈ P.m.msg.links ∧ l'.source = f ∧ IsTrue P.m.msg b lo hi (⟨f, qpos, qpos - 1, 0⟩ :: ys) l'.condition ∧
      (c'.cursors l'.target).pred = f ∧ Inv P lo hi c' b (⟨f, qpos, qpos - 1, 0⟩ :: ys) f qpos := by
  obtain ⟨c1, c', xs, ys, q, qpos, l, n, l', h1, h2, h3, h4, h5, h6, h7, h8, h9, h10, h11, h12, h13⟩ := V.setComposite W U hf hpre (st := .valid) (.inl rfl)
  have hn : n = 0 := Except.ok.inj (h4.size.symm.trans hz)
  subst hn
  simp only [Int.add_zero] at *
  refine ⟨c', xs, ys, q, qpos, l, l', ?_, h3, h4, h5, h6, h7, h8, h9, h10, h11, h12, h13⟩
  simp only [Pkg.setEmpty, hpre, hz, h5, h6, h1, h2, bind, Except.bind, need, decide_true, if_true]

/-- `Set_X` for an opaque field. -/
theorem Inv.setOpaque (W : WellFormed P) (U : Verified P lo hi) (V : Inv P lo hi c b es p pos) (hf : f ∈ P.m.msg.fields) (hpre : P.compositePre c f = .ok ())
    {ds : List Nat} (hd : AreBytes ds) (hlen : ∃ n, P.fieldSize c f = .ok n ∧ (8 * ds.length : Int) = n) :
    ∃ c' b' xs ys q qpos l l', P.setOpaque c f ds = .ok c' ∧ es = xs ++ ys ∧ CompositePre P b lo hi c f xs ys q qpos l (8 * ds.length) ∧ c'.buffer = some b' ∧
      c'.cursors f = ⟨.structuralValid, q, qpos, qpos + 8 * ds.length - 1, 0⟩ ∧ Agree b b' lo qpos ∧ SameAfter b b' (qpos + 8 * ds.length) ∧
      bytesAt b' qpos (qpos + 8 * ds.length - 1) = ds.map (fun (x : Nat) => (x : Int)) ∧
      l' ∈ P.m.msg.links ∧ l'.source = f ∧ IsTrue P.m.msg b lo hi (⟨f, qpos, qpos + 8 * ds.length - 1, 0⟩ :: ys) l'.condition ∧
      (c'.cursors l'.target).pred = f ∧ Inv P lo hi c' b' (⟨f, qpos, qpos + 8 * ds.length - 1, 0⟩ :: ys) f (qpos + 8 * ds.length) := by
  obtain ⟨c1, xs, ys, q, qpos, l, n, l', h1, h3, C, h5, h6, h7, h8, h9, h10, h11, h12, V1⟩ := V.initializeField W U hf hpre
  have hn : n = 8 * ds.length := by
    obtain ⟨n', hn', e⟩ := hlen
    have := Except.ok.inj (C.size.symm.trans hn')
    omega
  subst hn
  obtain ⟨a1, a2⟩ := C.aligned
  have hl : (ds.length : Int) = byteIndex (qpos + 8 * ds.length - 1) - byteIndex qpos + 1 := by simp only [byteIndex]; omega
  obtain ⟨b', has, A, hafter, hbytes, hfo⟩ := C.write W V.inside (U.aligned b V.inside) hd hl
  refine ⟨{ c1 with buffer := some b' }, b', xs, ys, q, qpos, l, l', ?_, h3, C, rfl, h8, A, hafter, hbytes, h9, h10, h11, h12, ?_⟩
  · simp only [Pkg.setOpaque, hpre, h5, h6, decide_eq_true hl, need, if_true, h1, h7, ofAda, has, bind, Except.bind]
    rfl
  · exact V1.rewrite (A.inBuffer V.inside) A.first A.length hfo

theorem needField_run {u : Unit} (h : P.needField f = .ok u) : f ∈ P.m.msg.fields := by
  have := need_run h
  simpa using this

theorem setOpaque_pre {ds : List Nat} (h : P.setOpaque c f ds = .ok c') : P.compositePre c f = .ok () ∧
    ∃ first last, P.fieldFirst c f = .ok first ∧ P.fieldLast c f = .ok last ∧ (ds.length : Int) = byteIndex last - byteIndex first + 1 := by
  unfold Pkg.setOpaque at h
  obtain ⟨_, h1, h⟩ := bind_run h
  obtain ⟨first, h2, h⟩ := bind_run h
  obtain ⟨last, h3, h⟩ := bind_run h
  obtain ⟨_, h4, h⟩ := bind_run h
  exact ⟨h1, first, last, h2, h3, of_decide_eq_true (need_run h4)⟩

/-- Every call leads to a state again. -/
theorem Inv.step (W : WellFormed P) (U : Verified P lo hi) (V : Inv P lo hi c b es p pos) {op : Op} (h : P.step c op = .ok c') :
    ∃ b' es' p' pos', Inv P lo hi c' b' es' p' pos' := by
  cases op with
  | verify f =>
    obtain ⟨_, h1, h⟩ := bind_run h
    obtain ⟨c2, es', p', pos', h2, V'⟩ := V.verify W U (needField_run h1)
    rw [h2] at h
    cases h
    exact ⟨_, _, _, _, V'⟩
  | verifyMessage =>
    obtain ⟨c2, es', p', pos', h2, V'⟩ := V.verifyMessage W U
    have h : P.verifyMessage c = .ok c' := h
    rw [h2] at h
    cases h
    exact ⟨_, _, _, _, V'⟩
  | reset f =>
    obtain ⟨_, h1, h⟩ := bind_run h
    obtain ⟨_, h2, h⟩ := bind_run h
    have hb : c.buffer = some b := by
      rcases V.buffer with hb | hb
      · exact hb
      · have := need_run h2
        simp [Context.hasBuffer, hb] at this
    have hn : P.needNext c f = .ok () := by
      unfold Pkg.reset at h
      obtain ⟨_, h3, _⟩ := bind_run h
      exact h3
    obtain ⟨c2, _, ys, q, qpos, _, h3, _, V', _⟩ := V.reset W hb (needField_run h1) hn
    rw [h3] at h
    cases h
    exact ⟨_, _, _, _, V'⟩
  | setScalar f v =>
    obtain ⟨_, h1, h⟩ := bind_run h
    obtain ⟨hb, hpre⟩ := V.scalarPre W U (needField_run h1) h
    obtain ⟨c2, b', xs, ys, q, qpos, l, t, n, s, h2, _, _, _, _, _, _, _, _, _, _, _, _, _, _, V'⟩ := V.setScalar W U hb hpre
    rw [h2] at h
    cases h
    exact ⟨_, _, _, _, V'⟩
  | setEmpty f =>
    obtain ⟨_, h1, h⟩ := bind_run h
    have hpre : P.compositePre c f = .ok () ∧ P.fieldSize c f = .ok 0 := by
      unfold Pkg.setEmpty at h
      obtain ⟨_, h2, h⟩ := bind_run h
      obtain ⟨n, h3, h⟩ := bind_run h
      obtain ⟨_, h4, h⟩ := bind_run h
      have := of_decide_eq_true (need_run h4)
      exact ⟨h2, this ▸ h3⟩
    obtain ⟨c2, _, ys, q, qpos, l, l', h2, _, _, _, _, _, _, _, _, _, _, V'⟩ := V.setEmpty W U (needField_run h1) hpre.1 hpre.2
    rw [h2] at h
    cases h
    exact ⟨_, _, _, _, V'⟩
  | initializeField f =>
    obtain ⟨_, h1, h⟩ := bind_run h
    have hpre : P.compositePre c f = .ok () := by
      unfold Pkg.initializeField at h
      obtain ⟨_, h2, h⟩ := bind_run h
      exact h2
    obtain ⟨c2, _, ys, q, qpos, l, n, l', h2, _, _, _, _, _, _, _, _, _, _, V'⟩ := V.initializeField W U (needField_run h1) hpre
    rw [h2] at h
    cases h
    exact ⟨_, _, _, _, V'⟩
  | setOpaque f ds =>
    obtain ⟨_, h1, h⟩ := bind_run h
    obtain ⟨_, h2, h⟩ := bind_run h
    have hd : AreBytes ds := by
      have := need_run h2
      rw [List.all_eq_true] at this
      intro x hx
      exact of_decide_eq_true (this x hx)
    obtain ⟨hpre, first, last, h3, h4, h5⟩ := setOpaque_pre h
    obtain ⟨hb, hn, xs, ys, q, qpos, l, n, hes, C⟩ := V.compositePre W U (needField_run h1) hpre
    have R := C.ready
    have e1 := Except.ok.inj (h3.symm.trans (R.fieldFirst W V.inside))
    have e2 := Except.ok.inj (h4.symm.trans (R.fieldLast W V.inside C.size C.natural C.start C.space))
    have hlen : (8 * ds.length : Int) = n := by
      obtain ⟨a1, a2⟩ := C.aligned
      have := C.natural
      simp only [byteIndex] at h5
      omega
    obtain ⟨c2, b', _, ys, q, qpos, l, l', h6, _, _, _, _, _, _, _, _, _, _, _, V'⟩ := V.setOpaque W U (needField_run h1) hpre hd ⟨n, C.size, hlen⟩
    rw [h6] at h
    cases h
    exact ⟨_, _, _, _, V'⟩
  | takeBuffer =>
    obtain ⟨⟨c2, b2⟩, h1, h⟩ := bind_run h
    cases h
    unfold Pkg.takeBuffer at h1
    cases hb : c.buffer with
    | none => rw [hb] at h1; cases h1
    | some b1 =>
      rw [hb] at h1
      cases h1
      exact ⟨b, es, p, pos, ⟨V.inside, .inr rfl, V.bounds, V.holds, V.chained, V.others, V.pending, V.unique, V.messageLast, V.covers⟩⟩

/-- Every history leads to a state. -/
theorem Inv.history (W : WellFormed P) (U : Verified P lo hi) (I : InBuffer P b lo hi) {ops : List Op} (h : P.history b lo hi ops = .ok c) :
    ∃ b' es p pos, Inv P lo hi c b' es p pos := by
  unfold Pkg.history at h
  rw [initialize_ok I] at h
  simp only [bind, Except.bind] at h
  have : ∀ (ops : List Op) {c0 b0 es p pos}, Inv P lo hi c0 b0 es p pos → ops.foldlM P.step c0 = .ok c → ∃ b' es p pos, Inv P lo hi c b' es p pos := by
    intro ops
    induction ops with
    | nil =>
      intro c0 b0 es p pos V h
      cases h
      exact ⟨_, _, _, _, V⟩
    | cons op ops ih =>
      intro c0 b0 es p pos V h
      rw [List.foldlM_cons] at h
      obtain ⟨c1, h1, h2⟩ := bind_run h
      obtain ⟨_, _, _, _, V'⟩ := V.step W U h1
      exact ih V' h2
  exact this ops (Inv.init W I) h

end

end Verif.Ctx
