import Verif.Ctx.Setters

/-! # Setters of scalar fields -/

namespace Verif.Ctx
open Verif Verif.Graph Verif.Verify Verif.Types Verif.Gen Verif.Spark

section
variable {P : Pkg} {b b' : Bytes} {lo hi : Int} {c : Context} {es : List Item} {p : Field} {pos : Int} {f : Field} {l : Link}

theorem bind_run {α β : Type} {x : Run α} {g : α → Run β} {r : β} (h : (x >>= g) = .ok r) : ∃ a, x = .ok a ∧ g a = .ok r := by
  cases x with
  | error e => cases h
  | ok a => exact ⟨a, rfl, h⟩

theorem need_run {x : Bool} {u : Unit} (h : need x = .ok u) : x = true := by
  cases x with
  | true => rfl
  | false => cases h

/-- The buffer changes after the fields only. -/
theorem Contains.write (W : WellFormed P) (I : InBuffer P b lo hi) (hal : Aligned P b lo hi) (A : Agree b b' lo pos) (H : Contains P b lo hi c es p pos) :
    Contains P b' lo hi { c with buffer := some b' } es p pos :=
  ⟨A.follows W I hal H.follows, rfl, H.first, H.last, H.cursors.sv, H.cursors.ok, H.cursors.first, H.cursors.last, H.cursors.value⟩

theorem Inv.write (W : WellFormed P) (U : Verified P lo hi) (V : Inv P lo hi c b es p pos) (A : Agree b b' lo pos) (hb : c.buffer = some b) :
    Inv P lo hi { c with buffer := some b' } b' es p pos where
  inside := A.inBuffer V.inside
  buffer := .inl rfl
  bounds := by
    obtain ⟨h1, h2⟩ := V.bounds
    refine ⟨?_, ?_⟩
    · show c.bufFirst = _; rw [h1, A.first]
    · show c.bufLast = _
      rw [h2]
      simp only [Bytes.last, A.first, A.length]
  holds := by
    have := (V.contains hb).write W V.inside (U.aligned b V.inside) A
    exact this
  chained := V.chained
  others := V.others
  pending := V.pending
  unique := V.unique
  messageLast := V.messageLast
  covers := V.covers

theorem Ready.write (W : WellFormed P) (I : InBuffer P b lo hi) (hal : Aligned P b lo hi) (A : Agree b b' lo pos) (R : Ready P b lo hi c es p pos f l) :
    Ready P b' lo hi { c with buffer := some b' } es p pos f l :=
  ⟨⟨R.toContains.write W I hal A, R.field, R.pred, R.link⟩, R.mem, R.source, R.target, by
    rw [IsTrue, A.itemEnv W I hal R.follows]; exact R.holds⟩

/-- Bits after the position do not change. -/
def SameAfter (b b' : Bytes) (pos : Int) : Prop := ∀ i, pos ≤ i → bitAt b' i = bitAt b i

theorem Ready.setFieldValue (W : WellFormed P) (I : InBuffer P b lo hi) (hD : Deterministic P.m.msg b lo hi) (hS : Sizes P b lo hi)
    (R : Ready P b lo hi c es p pos f l) (ho : Others P c es) {t : FTy} (ht : (f, t) ∈ P.m.msg.types) (hs : Scalar t) {n : Num} (hn : t.size = .ok n)
    (hle : pos + n.v - 1 ≤ hi) {v : Nat} (hv : v < 2 ^ n.v.toNat) :
    ∃ b', P.setFieldValue c f v = .ok (b', pos, pos + n.v - 1) ∧ Agree b b' lo pos ∧ bitsAt b' pos n.v.toNat = v ∧ SameAfter b b' (pos + n.v) := by
  obtain ⟨k, hz, hk, h0, hbl, h1⟩ := R.fieldSize W I hD hS
  have hkn : k = n.v := by
    obtain ⟨t', ht', hz⟩ := hz
    have := nodup_pair W.names.once ht ht'; subst this
    rcases hz with ⟨_, k', hk', rfl, _⟩ | ⟨hs', _⟩
    · rw [hn] at hk'; cases hk'; rfl
    · exact absurd hs hs'
  subst hkn
  obtain ⟨n', hn', hn1, hn64⟩ := scalar_size W ht hs
  rw [hn] at hn'
  cases hn'
  obtain ⟨h2, h3, h4⟩ := follows_bounds W I.order R.follows
  have hlo := I.lower.1
  have hcast : pos + n.v - 1 = pos + ((n.v.toNat : Nat) : Int) - 1 := by omega
  obtain ⟨s, s', b', hsl, hins, has, hf, hlen, hby, hbits, hrest⟩ := insert_ok (b := b) I.bytes (i := pos) (n := n.v.toNat) (v := v) (by omega) (by omega) (by omega) hv
    (I.low h2) (I.high (by omega))
  rw [← hcast] at hsl hins has hrest
  have hb : c.hasBuffer = true := by simp [Context.hasBuffer, R.buffer]
  have hall : (P.m.msg.fields.all fun g => !(c.cursors g).sv || decide ((c.cursors g).last ≤ pos + n.v - 1)) = true := by
    rw [List.all_eq_true]
    intro g hg
    cases hgs : (c.cursors g).sv with
    | false => rfl
    | true =>
      simp only [Bool.not_true, Bool.false_or, decide_eq_true_eq]
      by_cases hm : g ∈ es.map (·.f)
      · obtain ⟨e, he, rfl⟩ := List.mem_map.mp hm
        rw [R.cursors.last e he]
        have := follows_last_lt W I.order R.follows e he
        omega
      · have := ho g hg hm
        rw [inv_of_not_sv hgs] at this
        cases this
  refine ⟨b', ?_, ⟨hf, hlen, hby, fun i hi1 hi2 => hrest i (I.low hi1) (.inl hi2)⟩, hbits, fun i hi1 => hrest i (I.low (by omega)) (.inr (by omega))⟩
  simp only [Pkg.setFieldValue, hb, need, if_true, R.needNext W I, R.sufficientSpace W I hk, decide_eq_true (show hi - pos + 1 ≥ n.v by omega), R.fieldFirst W I,
    R.fieldLast W I hk h0 h1 hle, hall, type?_some W.names ht, R.buffer, hn, ofPy, ofAda, hsl, Int.toNat_natCast, hins, has, bind, Except.bind]
  rfl

theorem scalar_type (hN : Names P.m opts) (h : P.isScalar f = true) : ∃ t, (f, t) ∈ P.m.msg.types ∧ Scalar t := by
  unfold Pkg.isScalar at h
  split at h
  · rename_i t ht
    exact ⟨t, type?_mem ht, (scalar_iff t).mp h⟩
  · cases h

theorem composite_type (hN : Names P.m opts) (h : P.isComposite f = true) : ∃ t, (f, t) ∈ P.m.msg.types ∧ ¬ Scalar t := by
  unfold Pkg.isComposite at h
  split at h
  · rename_i t ht
    refine ⟨t, type?_mem ht, fun hs => ?_⟩
    rw [(scalar_iff t).mpr hs] at h
    cases h
  · cases h

/-- What the call of a setter of a scalar field requires of its environment: the precondition, and a parameter in the range of its
type. -/
structure ScalarPre (P : Pkg) (c : Context) (f : Field) (v : Nat) : Prop where
  field : f ∈ P.m.msg.fields
  next : P.needNext c f = .ok ()
  scalar : P.isScalar f = true
  condition : P.fieldCondition c f v 0 = .ok true
  value : P.validValue f v = .ok true
  space : P.sufficientSpace c f = .ok true
  range : ∀ t n, (f, t) ∈ P.m.msg.types → t.size = .ok n → v < 2 ^ n.v.toNat

/-- Setting a scalar field. -/
theorem Inv.setScalar (W : WellFormed P) (U : Verified P lo hi) (V : Inv P lo hi c b es p pos) (hb : c.buffer = some b) {v : Nat} (h : ScalarPre P c f v) :
    ∃ c' b' xs ys q qpos l t n s, P.setScalar c f v = .ok c' ∧ es = xs ++ ys ∧ Ready P b lo hi c ys q qpos f l ∧ (f, t) ∈ P.m.msg.types ∧ Scalar t ∧
      t.size = .ok n ∧ 1 ≤ n.v ∧ qpos + n.v - 1 ≤ hi ∧
      Agree b b' lo qpos ∧ SameAfter b b' (qpos + n.v) ∧ bitsAt b' qpos n.v.toNat = v ∧ c'.buffer = some b' ∧
      c'.cursors f = ⟨.valid, q, qpos, qpos + n.v - 1, v⟩ ∧ (c'.cursors s).pred = f ∧
      ((s = INITIAL ∧ ∀ l' ∈ P.m.msg.links, l'.source = f → ¬ IsTrue P.m.msg b' lo hi (⟨f, qpos, qpos + n.v - 1, v⟩ :: ys) l'.condition) ∨
        ∃ l' ∈ P.m.msg.links, l'.source = f ∧ l'.target = s ∧ IsTrue P.m.msg b' lo hi (⟨f, qpos, qpos + n.v - 1, v⟩ :: ys) l'.condition) ∧
      Inv P lo hi c' b' (⟨f, qpos, qpos + n.v - 1, v⟩ :: ys) f (qpos + n.v) := by
  obtain ⟨t, ht, hs⟩ := scalar_type W.names h.scalar
  obtain ⟨n, hn, hn1, hn64⟩ := scalar_size W ht hs
  have hv := h.range t n ht hn
  obtain ⟨c1, xs, ys, q, qpos, l, hr, hes, V1, R, R1, hb1, hfin⟩ := V.reset W hb h.field h.next
  have I := V.inside
  obtain ⟨k, hz, hk, h0, hbl, h1⟩ := R.fieldSize W I (U.deterministic b I) (U.sizes b I)
  have hkn : k = n.v := by
    obtain ⟨t', ht', hz⟩ := hz
    have := nodup_pair W.names.once ht ht'; subst this
    rcases hz with ⟨_, k', hk', rfl, _⟩ | ⟨hs', _⟩
    · rw [hn] at hk'; cases hk'; rfl
    · exact absurd hs hs'
  subst hkn
  have hle : qpos + n.v - 1 ≤ hi := by
    have := h.space
    rw [R.sufficientSpace W I hk, Except.ok.injEq, decide_eq_true_eq] at this
    omega
  obtain ⟨b', hset, A, hbits, hafter⟩ := R1.setFieldValue W I (U.deterministic b I) (U.sizes b I) V1.others ht hs hn hle hv
  have V2 := V1.write W U A hb1
  have R2 := R1.write W I (U.aligned b I) A
  have hin : InType t v := by
    obtain ⟨x, hx, hiff⟩ := validValue_ok (v := (v : Int)) W ht hs hn (by omega) (by exact_mod_cast hv)
    rw [h.value] at hx
    cases hx
    exact hiff.mp rfl
  have hstep : Step P.m.msg b' lo hi ys q qpos l ⟨f, qpos, qpos + n.v - 1, v⟩ :=
    ⟨R2.mem, R2.source, R2.target ▸ R2.ne_final W, R2.holds, t, R2.target ▸ ht, .inl ⟨hs, n, hn, hle, by rw [hbits]; exact hin, by rw [hbits, R2.target]⟩⟩
  obtain ⟨c', s, hf, hc', hsucc, V3⟩ := V2.finish W U rfl R2 hfin hstep (st := .valid) (.inl rfl) (fun _ => rfl)
  have hcomp : P.isComposite f = false := by rw [isComposite_iff W.names ht, (scalar_iff t).mpr hs]; rfl
  have hsf : f ≠ s := by
    rcases hsucc with ⟨rfl, _⟩ | ⟨l', h4, h5, rfl, _⟩
    · exact fun h' => W.initial (h' ▸ h.field)
    · intro h'
      by_cases hfin' : l'.target = FINAL
      · exact W.final (hfin' ▸ h' ▸ h.field)
      · have hp := follows_path V3.holds.follows
        exact path_next W hp h4 h5 hfin' (h' ▸ List.mem_cons_self)
  refine ⟨c', b', xs, ys, q, qpos, l, t, n, s, ?_, hes, R, ht, hs, hn, hn1, hle, A, hafter, hbits, by rw [hc']; rfl, ?_, ?_, hsucc, ?_⟩
  · have hbuf : c.hasBuffer = true := by simp [Context.hasBuffer, hb]
    simp only [Pkg.setScalar, Pkg.setterPre, hbuf, need, if_true, h.next, h.scalar, h.condition, h.value, h.space, hr, hset, bind, Except.bind]
    exact hf
  · rw [hc', set_cursor, if_neg hsf, set_cursor, if_pos rfl]
  · rw [hc', set_cursor, if_pos rfl]; rfl
  · have e : qpos + n.v - 1 + 1 = qpos + n.v := by omega
    have := V3
    simp only [e] at this
    exact this

/-- The call of a setter succeeds only if its precondition holds. -/
theorem Inv.scalarPre (W : WellFormed P) (U : Verified P lo hi) (V : Inv P lo hi c b es p pos) {v : Nat} {c' : Context} (hf : f ∈ P.m.msg.fields)
    (h : P.setScalar c f v = .ok c') : c.buffer = some b ∧ ScalarPre P c f v := by
  unfold Pkg.setScalar at h
  obtain ⟨_, h1, h⟩ := bind_run h
  obtain ⟨_, h2, h⟩ := bind_run h
  obtain ⟨x, h3, h⟩ := bind_run h
  obtain ⟨_, h4, h⟩ := bind_run h
  obtain ⟨y, h5, h⟩ := bind_run h
  obtain ⟨_, h6, h⟩ := bind_run h
  obtain ⟨z, h7, h⟩ := bind_run h
  obtain ⟨_, h8, h⟩ := bind_run h
  obtain ⟨c1, h9, h⟩ := bind_run h
  obtain ⟨⟨b1, first, last⟩, h10, h⟩ := bind_run h
  unfold Pkg.setterPre at h1
  obtain ⟨_, h11, h12⟩ := bind_run h1
  have hb : c.buffer = some b := by
    rcases V.buffer with hb | hb
    · exact hb
    · have := need_run h11
      simp [Context.hasBuffer, hb] at this
  cases need_run h4
  cases need_run h6
  cases need_run h8
  refine ⟨hb, hf, h12, need_run h2, h3, h5, h7, ?_⟩
  intro t n ht hn
  unfold Pkg.setFieldValue at h10
  obtain ⟨_, _, h10⟩ := bind_run h10
  obtain ⟨_, _, h10⟩ := bind_run h10
  obtain ⟨_, _, h10⟩ := bind_run h10
  obtain ⟨_, _, h10⟩ := bind_run h10
  obtain ⟨_, _, h10⟩ := bind_run h10
  obtain ⟨_, _, h10⟩ := bind_run h10
  obtain ⟨_, _, h10⟩ := bind_run h10
  rw [type?_some W.names ht] at h10
  cases hb1 : c1.buffer with
  | none => rw [hb1] at h10; cases h10
  | some b1 =>
    rw [hb1] at h10
    simp only at h10
    obtain ⟨n', h13, h10⟩ := bind_run h10
    obtain ⟨_, _, h10⟩ := bind_run h10
    obtain ⟨_, h14, h10⟩ := bind_run h10
    rw [hn] at h13
    cases h13
    unfold Spark.insert at h14
    by_cases hr : v < 2 ^ n.v.toNat
    · exact hr
    · exfalso
      simp only [Int.toNat_natCast] at h14
      have : ∀ q : Nat, inRange (q < 8 ∧ v < 2 ^ n.v.toNat) = .error .range := by
        intro q
        simp [inRange, hr]
      rw [this] at h14
      cases h14

end

end Verif.Ctx
