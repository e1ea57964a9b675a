import Verif.Post.Lemmas

/-! # C67: generated subprograms keep their contracts

A call is one of `Verify`, `Verify_Message`, `Set_X` for scalar and opaque fields, `Set_X_Empty`, `Initialize_X`,
`Reset_Dependent_Fields` and `Take_Buffer` (`Verif/Ctx/History.lean`). Its body is `Pkg.step`, its precondition `Pkg.pre`, its
postcondition `Pkg.post` with the contexts before and after the call. A body that calls a subprogram whose precondition does not
hold, or that has a value out of range, fails; a postcondition that calls a function whose precondition does not hold fails
as well. -/

namespace Verif.Ctx
open Verif Verif.Graph Verif.Verify Verif.Types Verif.Gen Verif.Spark

/-- What is required of the arguments of a call beyond the precondition: a value of an enumeration that is always valid is a literal,
and the conditions of links from an opaque field to other fields are not about its content. -/
def Op.Fits (P : Pkg) : Op → Prop
  | .setScalar f v => ∀ t, (f, FTy.enum t) ∈ P.m.msg.types → (v : Int) ∈ t.literals.map (·.2)
  | .setOpaque f _ => ∀ l ∈ P.m.msg.links, l.source = f → l.target ≠ FINAL → ContentFree f l.condition
  | _ => True

section
variable {P : Pkg} {b b' : Bytes} {lo hi : Int} {c c' c1 : Context} {f : Field} {l : Link} {ops : List Op} {op : Op}

theorem Inv.post {es : List Item} {p : Field} {pos : Int} (W : WellFormed P) (U : Verified P lo hi) (V : Inv P lo hi c b es p pos)
    (h : P.step c op = .ok c') (hf : op.Fits P) : P.post c c' op = .ok true := by
  cases op with
  | verify f =>
    obtain ⟨_, _, h⟩ := bind_run h
    exact (verify_bounds h).post
  | verifyMessage => exact (verifyMessage_bounds h).post
  | reset f =>
    obtain ⟨_, h1, h⟩ := bind_run h
    obtain ⟨_, h2, h⟩ := bind_run h
    have hb : c.buffer = some b := by
      rcases V.buffer with hb | hb
      · exact hb
      · have := need_run h2
        simp [Context.hasBuffer, hb] at this
    exact V.resetPost W U hb (needField_run h1) h
  | setScalar f v =>
    obtain ⟨_, h1, h⟩ := bind_run h
    exact V.setScalarPost W U (needField_run h1) h hf
  | setEmpty f =>
    obtain ⟨_, h1, h⟩ := bind_run h
    exact V.setEmptyPost W U (needField_run h1) h
  | initializeField f =>
    obtain ⟨_, h1, h⟩ := bind_run h
    exact V.initializeFieldPost W U (needField_run h1) h
  | setOpaque f ds => exact V.setOpaquePost W U h hf
  | takeBuffer =>
    obtain ⟨⟨c2, b2⟩, h1, h⟩ := bind_run h
    cases h
    have hb : c.buffer = some b := by
      rcases V.buffer with hb | hb
      · exact hb
      · unfold Pkg.takeBuffer at h1
        rw [hb] at h1
        cases h1
    obtain ⟨rfl, h2⟩ := V.takeBufferPost hb h1
    show (match c.buffer with | some b => P.takeBufferPost b c c2 | none => .error (.ada .access)) = _
    rw [hb]
    exact h2

theorem Inv.runs {es : List Item} {p : Field} {pos : Int} (W : WellFormed P) (U : Verified P lo hi) (V : Inv P lo hi c b es p pos)
    (h : P.pre c op = .ok ()) : ∃ c', P.step c op = .ok c' := by
  have buf : c.hasBuffer = true → c.buffer = some b := by
    intro h
    rcases V.buffer with hb | hb
    · exact hb
    · simp [Context.hasBuffer, hb] at h
  cases op with
  | verify f =>
    have h : P.needField f = .ok () := h
    obtain ⟨c', _, _, _, h', _⟩ := V.verify W U (needField_run h)
    exact ⟨c', by simp only [Pkg.step, h, h', bind, Except.bind]⟩
  | verifyMessage =>
    obtain ⟨c', _, _, _, h', _⟩ := V.verifyMessage W U
    exact ⟨c', h'⟩
  | reset f =>
    obtain ⟨_, h1, h⟩ := bind_run h
    obtain ⟨_, h2, h⟩ := bind_run h
    obtain ⟨c', _, _, _, _, _, h', _⟩ := V.reset W (buf (need_run h2)) (needField_run h1) h
    exact ⟨c', by simp only [Pkg.step, h1, h2, h', bind, Except.bind]⟩
  | setScalar f v =>
    obtain ⟨_, h1, h⟩ := bind_run h
    obtain ⟨_, h2, h⟩ := bind_run h
    obtain ⟨_, h3, h⟩ := bind_run h
    obtain ⟨_, h4, h⟩ := bind_run h
    obtain ⟨x, h5, h⟩ := bind_run h
    obtain ⟨_, h6, h⟩ := bind_run h
    obtain ⟨y, h7, h⟩ := bind_run h
    obtain ⟨_, h8, h⟩ := bind_run h
    obtain ⟨z, h9, h⟩ := bind_run h
    have e1 := need_run h6
    have e2 := need_run h8
    have e3 := need_run h
    obtain ⟨_, h10, h11⟩ := bind_run h3
    have hpre : ScalarPre P c f v := by
      refine ⟨needField_run h1, h11, need_run h4, e1 ▸ h5, e2 ▸ h7, e3 ▸ h9, ?_⟩
      intro t n ht hn
      have := need_run h2
      rw [type?_some W.names ht] at this
      simp only [hn] at this
      exact of_decide_eq_true this
    obtain ⟨c', _, _, _, _, _, _, _, _, _, h', _⟩ := V.setScalar W U (buf (need_run h10)) hpre
    exact ⟨c', by simp only [Pkg.step, h1, h', bind, Except.bind]⟩
  | setEmpty f =>
    obtain ⟨_, h1, h⟩ := bind_run h
    obtain ⟨_, h2, h⟩ := bind_run h
    obtain ⟨n, h3, h⟩ := bind_run h
    have hn := of_decide_eq_true (need_run h)
    subst hn
    obtain ⟨c', _, _, _, _, _, _, h', _⟩ := V.setEmpty W U (needField_run h1) h2 h3
    exact ⟨c', by simp only [Pkg.step, h1, h', bind, Except.bind]⟩
  | initializeField f =>
    obtain ⟨_, h1, h⟩ := bind_run h
    obtain ⟨c', _, _, _, _, _, _, _, h', _⟩ := V.initializeField W U (needField_run h1) h
    exact ⟨c', by simp only [Pkg.step, h1, h', bind, Except.bind]⟩
  | setOpaque f ds =>
    obtain ⟨_, h1, h⟩ := bind_run h
    obtain ⟨_, h2, h⟩ := bind_run h
    obtain ⟨_, hpre, h⟩ := bind_run h
    obtain ⟨last, h3, h⟩ := bind_run h
    obtain ⟨first, h4, h⟩ := bind_run h
    have h5 := of_decide_eq_true (need_run h)
    have hd : AreBytes ds := by
      have := need_run h2
      rw [List.all_eq_true] at this
      intro x hx
      exact of_decide_eq_true (this x hx)
    obtain ⟨hb, hn, xs, ys, q, qpos, l, n, hes, C⟩ := V.compositePre W U (needField_run h1) hpre
    have R := C.ready
    have e1 := Except.ok.inj (h4.symm.trans (R.fieldFirst W V.inside))
    have e2 := Except.ok.inj (h3.symm.trans (R.fieldLast W V.inside C.size C.natural C.start C.space))
    have hlen : (8 * ds.length : Int) = n := by
      obtain ⟨a1, a2⟩ := C.aligned
      have := C.natural
      simp only [byteIndex] at h5
      omega
    obtain ⟨c', _, _, _, _, _, _, _, h', _⟩ := V.setOpaque W U (needField_run h1) hpre hd ⟨n, C.size, hlen⟩
    exact ⟨c', by simp only [Pkg.step, h1, h2, h', bind, Except.bind]⟩
  | takeBuffer =>
    have hb := buf (need_run h)
    exact ⟨{ c with buffer := none }, by simp only [Pkg.step, Pkg.takeBuffer, hb, bind, Except.bind]; rfl⟩

/-- A call whose precondition holds, after any history, does not fail, and its postcondition holds. Missing: links from an opaque
field to another field with a condition about the content (`C67_content_counterexample`), sequences and refinements, and what
`WellFormed` and `Verified` exclude. -/
theorem C67_contract_partial (W : WellFormed P) (U : Verified P lo hi) (I : InBuffer P b lo hi) (h : P.history b lo hi ops = .ok c)
    (hp : P.pre c op = .ok ()) (hf : op.Fits P) : ∃ c', P.step c op = .ok c' ∧ P.post c c' op = .ok true := by
  obtain ⟨b', es, p, pos, V⟩ := Inv.history W U I h
  obtain ⟨c', h'⟩ := V.runs W U hp
  exact ⟨c', h', V.post W U h' hf⟩

/-- The postcondition of every call that succeeds holds. Missing: as for `C67_contract_partial`. -/
theorem C67_postcondition_partial (W : WellFormed P) (U : Verified P lo hi) (I : InBuffer P b lo hi) (h : P.history b lo hi ops = .ok c)
    (hs : P.step c op = .ok c') (hf : op.Fits P) : P.post c c' op = .ok true := by
  obtain ⟨b', es, p, pos, V⟩ := Inv.history W U I h
  exact V.post W U hs hf

theorem initialize_post (W : WellFormed P) (I : InBuffer P b lo hi) (h : P.initialize b lo hi = .ok c) :
    c.hasBuffer = true ∧ c.bufFirst = b.first ∧ c.bufLast = b.last ∧ c.first = lo ∧ c.last = hi ∧ c.messageLast = lo ∧
    ∃ x, P.initialized c = .ok x ∧ (x = true ↔ ∀ l ∈ P.m.msg.links, l.source = INITIAL → IsTrue P.m.msg b lo hi [] l.condition) := by
  rw [initialize_ok I] at h
  obtain rfl := Except.ok.inj h
  refine ⟨rfl, rfl, rfl, rfl, rfl, rfl, ?_⟩
  obtain ⟨l, hl, hhd⟩ := W.start
  have hout : ∀ k, k ∈ P.m.msg.links ∧ k.source = INITIAL ↔ k = l := by
    intro k
    have : k ∈ outgoing P.m.msg.links INITIAL ↔ k = l := by rw [hl]; simp
    simpa [outgoing] using this
  obtain ⟨hlm, hls⟩ := (hout l).mpr rfl
  have V := Inv.init W I
  cases hfs : P.m.msg.fields with
  | nil => rw [hfs] at hhd; cases hhd
  | cons f fs =>
    have hf : l.target = f := by
      rw [hfs] at hhd
      exact (Option.some.inj hhd).symm
    have N : Next P b lo hi _ [] INITIAL lo f := ⟨V.contains rfl, by rw [hfs]; exact List.mem_cons_self,
      by simp only [hfs, List.head?_cons, if_true, invalidFrom], List.ne_nil_of_mem (mem_between.mpr ⟨hlm, hls, hf⟩)⟩
    obtain ⟨x, hx, hiff⟩ := N.pathCondition W I
    have hiff : x = true ↔ IsTrue P.m.msg b lo hi [] l.condition := by
      rw [hiff]
      constructor
      · rintro ⟨k, hk, ht⟩
        obtain ⟨h1, h2, _⟩ := mem_between.mp hk
        obtain rfl := (hout k).mp ⟨h1, h2⟩
        exact ht
      · intro ht
        exact ⟨l, mem_between.mpr ⟨hlm, hls, hf⟩, ht⟩
    have hall : x = true ↔ ∀ l ∈ P.m.msg.links, l.source = INITIAL → IsTrue P.m.msg b lo hi [] l.condition := by
      rw [hiff]
      constructor
      · intro ht k hk hs
        obtain rfl := (hout k).mp ⟨hk, hs⟩
        exact ht
      · intro h
        exact h l hlm hls
    have hvn := N.validPredecessor
    refine ⟨x, ?_, hall⟩
    unfold Pkg.initialized
    simp only [hfs] at hvn hx ⊢
    simp only [Pkg.validNext, hvn, if_true, hx, bind, Except.bind]
    cases x with
    | false => rfl
    | true =>
      have R : Ready P b lo hi _ [] INITIAL lo f l := ⟨N, hlm, hls, hf, hiff.mp rfl⟩
      have := R.availableSpace W I
      simp only [hfs] at this
      simp only [if_true, this]
      show Except.ok _ = _
      congr 1
      simp only [Bool.and_eq_true, decide_true, true_and, List.all_eq_true]
      intro g _
      split <;> rfl

/-- The postcondition of `Initialize` with bounds holds exactly if the condition of the link to the first field does: code that
is generated for a message with a condition there does not keep its contract (`C67_initial_counterexample`). -/
theorem C67_initialize (W : WellFormed P) (I : InBuffer P b lo hi) : ∃ c x, P.initialize b lo hi = .ok c ∧
    P.initializePost b lo hi c = .ok x ∧ (x = true ↔ ∀ l ∈ P.m.msg.links, l.source = INITIAL → IsTrue P.m.msg b lo hi [] l.condition) := by
  have h := initialize_ok I
  obtain ⟨h1, h2, h3, h4, h5, h6, x, hx, hiff⟩ := initialize_post W I h
  refine ⟨_, x, h, ?_, hiff⟩
  unfold Pkg.initializePost
  simp only [h1, h2, h3, h4, h5, h6, hx, allOf, decide_true, bind, Except.bind, pure, Except.pure, Bool.true_and, Bool.and_true]

/-- The same for `Initialize` without bounds: the precondition is that the buffer is not empty and does not end with the last index
there is, and the message covers the buffer. -/
theorem C67_initialize_all (W : WellFormed P) (hb : AreBytes b.data) (hf : 1 ≤ b.first) (hlen : b.data ≠ []) (hlast : (b.last : Int) < P.bitLast / 8)
    (hbit : 64 ≤ P.bitLast) : ∃ c x lo hi, P.initializeAll b = .ok c ∧ lo = 8 * (b.first : Int) - 7 ∧ hi = 8 * (b.last : Int) ∧ c.first = lo ∧ c.last = hi ∧
    P.initializeAllPost b c = .ok x ∧ (x = true ↔ ∀ l ∈ P.m.msg.links, l.source = INITIAL → IsTrue P.m.msg b lo hi [] l.condition) := by
  have hpos : 0 < b.data.length := List.length_pos_iff.mpr hlen
  have e1 : firstBitIndex b.first = 8 * (b.first : Int) - 7 := by simp only [firstBitIndex]; omega
  have e2 : lastBitIndex b.last = 8 * (b.last : Int) := by simp only [lastBitIndex]; omega
  have hle : b.first ≤ b.last := by simp only [Bytes.last]; omega
  have I : InBuffer P b (8 * (b.first : Int) - 7) (8 * (b.last : Int)) := ⟨hb, ⟨by omega, by omega⟩, by omega, by omega, by omega, hbit⟩
  have h := initialize_ok I
  obtain ⟨h1, h2, h3, h4, h5, h6, x, hx, hiff⟩ := initialize_post W I h
  refine ⟨_, x, _, _, ?_, rfl, rfl, h4, h5, ?_, hiff⟩
  · have : 0 < b.length := hpos
    simp only [Pkg.initializeAll, decide_eq_true this, decide_eq_true hlast, need, Bool.and_self, if_true, e1, e2, bind, Except.bind]
    exact h
  · unfold Pkg.initializeAllPost
    simp only [h1, h2, h3, h4, h5, h6, e1, e2, hx, allOf, decide_true, bind, Except.bind, pure, Except.pure, Bool.true_and, Bool.and_true]

/-- `Valid` keeps its postcondition. -/
theorem C67_valid (c : Context) (f : Field) : validPost c f (c.valid f) = .ok true := by
  unfold validPost Context.valid Context.present Cursor.sv Cursor.ok
  congr 1
  cases (c.cursors f).state <;> simp <;> omega

/-- `Set_Field_Value` is called by `Set_X` after `Reset_Dependent_Fields`: with a number of as many bits as the field has it does not
fail if the field fits, and its postcondition holds. -/
theorem C67_set_field_value_partial (W : WellFormed P) (U : Verified P lo hi) (I : InBuffer P b lo hi) (h : P.history b lo hi ops = .ok c)
    (hs : P.step c (.reset f) = .ok c1) (hsp : P.sufficientSpace c1 f = .ok true) {t : FTy} (ht : (f, t) ∈ P.m.msg.types) (hsc : Scalar t)
    {n : Num} (hn : t.size = .ok n) {v : Nat} (hv : v < 2 ^ n.v.toNat) :
    ∃ b' first last, P.setFieldValue c1 f v = .ok (b', first, last) ∧ last = first + n.v - 1 ∧
      P.setFieldValuePost c1 { c1 with buffer := some b' } f first last = .ok true := by
  obtain ⟨b0, es, p, pos, V⟩ := Inv.history W U I h
  obtain ⟨_, h1, hs⟩ := bind_run hs
  obtain ⟨_, h2, hs⟩ := bind_run hs
  have hb : c.buffer = some b0 := by
    rcases V.buffer with hb | hb
    · exact hb
    · have := need_run h2
      simp [Context.hasBuffer, hb] at this
  have hnx : P.needNext c f = .ok () := by
    unfold Pkg.reset at hs
    obtain ⟨_, h3, _⟩ := bind_run hs
    exact h3
  obtain ⟨c2, xs, ys, q, qpos, l, h3, hes, V1, R0, R, hb1, _⟩ := V.reset W hb (needField_run h1) hnx
  obtain rfl := Except.ok.inj (h3.symm.trans hs)
  have hD := U.deterministic b0 V.inside
  have hS := U.sizes b0 V.inside
  obtain ⟨k, hz, hk, h0, hbl, hst⟩ := R.fieldSize W V.inside hD hS
  have hkn : k = n.v := by
    obtain ⟨t', ht', hz⟩ := hz
    have := nodup_pair W.names.once ht ht'; subst this
    rcases hz with ⟨_, j, hj, rfl, _⟩ | ⟨hs', _⟩
    · rw [hn] at hj; cases hj; rfl
    · exact absurd hsc hs'
  subst hkn
  have hle : qpos + n.v - 1 ≤ hi := by
    rw [R.sufficientSpace W V.inside hk] at hsp
    have := of_decide_eq_true (Except.ok.inj hsp)
    omega
  obtain ⟨b', hset, A, _, _⟩ := R.setFieldValue W V.inside hD hS V1.others ht hsc hn hle hv
  have R' := R.write W V.inside (U.aligned b0 V.inside) A
  have I' := A.inBuffer V.inside
  obtain ⟨k', hz', hk', h0', _, hst'⟩ := R'.fieldSize W I' (U.deterministic b' I') (U.sizes b' I')
  have hkn : k' = n.v := by
    obtain ⟨t', ht', hz⟩ := hz'
    have := nodup_pair W.names.once ht ht'; subst this
    rcases hz with ⟨_, j, hj, rfl, _⟩ | ⟨hs', _⟩
    · rw [hn] at hj; cases hj; rfl
    · exact absurd hsc hs'
  subst hkn
  refine ⟨b', _, _, hset, rfl, ?_⟩
  obtain ⟨h4, h5, _⟩ := follows_bounds W V.inside.order R.follows
  unfold Pkg.setFieldValuePost
  rw [allOf_true]
  intro x hx
  simp only [List.mem_cons, List.not_mem_nil, or_false] at hx
  rcases hx with rfl | rfl | rfl | rfl | rfl | rfl | rfl | rfl | rfl
  · rfl
  · rw [R'.fieldFirst W I']
    show Except.ok _ = _
    simp
  · rw [R'.fieldLast W I' hk' h0' hst' hle]
    show Except.ok _ = _
    simp
  · simp only [R.first]
    congr 1
    exact decide_eq_true h4
  · congr 1
    exact decide_eq_true (by omega)
  · simp only [R.last]
    congr 1
    exact decide_eq_true hle
  · congr 1
    rw [List.all_eq_true]
    intro g hg
    cases hgs : (c2.cursors g).sv with
    | false => simp
    | true =>
      simp only [Bool.not_true, Bool.false_or, decide_eq_true_eq]
      by_cases hm : g ∈ ys.map (·.f)
      · obtain ⟨e, he, rfl⟩ := List.mem_map.mp hm
        rw [R.cursors.last e he]
        have := follows_last_lt W V.inside.order R.follows e he
        omega
      · have := V1.others g hg hm
        rw [inv_of_not_sv hgs] at this
        cases this
  · simp [contextInvariant]
  · exact congrArg _ (sameCursors_of rfl)

end

end Verif.Ctx
