import Verif.Ctx.SetScalar

/-! # Setters of composite fields -/

namespace Verif.Ctx
open Verif Verif.Graph Verif.Verify Verif.Types Verif.Gen Verif.Spark

section
variable {P : Pkg} {b b' : Bytes} {lo hi : Int} {c : Context} {es : List Item} {p : Field} {pos : Int} {f : Field} {l : Link}

/-- The buffer changes, but still contains the same fields. -/
theorem Inv.rewrite (V : Inv P lo hi c b es p pos) (I : InBuffer P b' lo hi) (h1 : b'.first = b.first) (h2 : b'.data.length = b.data.length)
    (h : Follows P.m.msg b' lo hi es p pos) : Inv P lo hi { c with buffer := some b' } b' es p pos where
  inside := I
  buffer := .inl rfl
  bounds := by
    obtain ⟨h3, h4⟩ := V.bounds
    refine ⟨?_, ?_⟩
    · show c.bufFirst = _; rw [h3, h1]
    · show c.bufLast = _
      rw [h4]
      simp only [Bytes.last, h1, h2]
  holds := ⟨h, rfl, V.holds.first, V.holds.last, V.holds.cursors.sv, V.holds.cursors.ok, V.holds.cursors.first, V.holds.cursors.last, V.holds.cursors.value⟩
  chained := V.chained
  others := V.others
  pending := V.pending
  unique := V.unique
  messageLast := V.messageLast
  covers := V.covers

/-- What the precondition of a setter of a composite field says. -/
structure CompositePre (P : Pkg) (b : Bytes) (lo hi : Int) (c : Context) (f : Field) (xs ys : List Item) (q : Field) (qpos : Int) (l : Link) (n : Int) : Prop where
  ready : Ready P b lo hi c ys q qpos f l
  composite : P.isComposite f = true
  size : P.fieldSize c f = .ok n
  eval : eval .ada (itemEnv P.m.msg b lo hi ys) l.size = some (.int n)
  natural : 0 ≤ n
  start : qpos = 1 → 1 ≤ n
  space : qpos + n - 1 ≤ hi
  aligned : qpos % 8 = 1 ∧ n % 8 = 0
  goes : Goes P.m.msg b lo hi (⟨f, qpos, qpos + n - 1, 0⟩ :: ys) f

theorem Inv.compositePre (W : WellFormed P) (U : Verified P lo hi) (V : Inv P lo hi c b es p pos) (hf : f ∈ P.m.msg.fields) (h : P.compositePre c f = .ok ()) :
    c.buffer = some b ∧ P.needNext c f = .ok () ∧ ∃ xs ys q qpos l n, es = xs ++ ys ∧ CompositePre P b lo hi c f xs ys q qpos l n := by
  unfold Pkg.compositePre at h
  obtain ⟨_, h1, h⟩ := bind_run h
  obtain ⟨_, h2, h⟩ := bind_run h
  obtain ⟨k, h3, h⟩ := bind_run h
  obtain ⟨x, h4, h⟩ := bind_run h
  obtain ⟨_, h5, h⟩ := bind_run h
  obtain ⟨z, h6, h⟩ := bind_run h
  obtain ⟨_, h7, h⟩ := bind_run h
  obtain ⟨k1, h8, h⟩ := bind_run h
  obtain ⟨_, h9, h⟩ := bind_run h
  obtain ⟨k2, h10, h11⟩ := bind_run h
  unfold Pkg.setterPre at h1
  obtain ⟨_, h12, h13⟩ := bind_run h1
  have hb : c.buffer = some b := by
    rcases V.buffer with hb | hb
    · exact hb
    · have := need_run h12
      simp [Context.hasBuffer, hb] at this
  cases need_run h5
  cases need_run h7
  have h9 := of_decide_eq_true (need_run h9)
  have h11 := of_decide_eq_true (need_run h11)
  obtain ⟨xs, ys, q, qpos, l, hes, R, _⟩ := V.ready W hb hf h13
  have I := V.inside
  obtain ⟨n, hz, hn, h0, hbl, hst⟩ := R.fieldSize W I (U.deterministic b I) (U.sizes b I)
  have hcomp := need_run h2
  have e1 : k = n := Except.ok.inj (h3.symm.trans hn)
  have e2 : k2 = k := Except.ok.inj (h10.symm.trans h3)
  have e3 : k1 = qpos := Except.ok.inj (h8.symm.trans (R.fieldFirst W I))
  rw [e1] at h3 h4 e2
  rw [e2] at h11
  rw [e3] at h9
  rw [R.sufficientSpace W I h3, Except.ok.injEq, decide_eq_true_eq] at h6
  have hle : qpos + n - 1 ≤ hi := by omega
  obtain ⟨x, hx, hiff⟩ := R.fieldCondition W I h3 h0 hst hle (v := 0)
  rw [h4] at hx
  cases hx
  refine ⟨hb, h13, xs, ys, q, qpos, l, n, hes, R, hcomp, h3, ?_, h0, hst, hle, ⟨h9, h11⟩, hiff.mp rfl⟩
  obtain ⟨t, ht, hz⟩ := hz
  rcases hz with ⟨hs, _⟩ | ⟨_, hev⟩
  · rw [isComposite_iff W.names ht, (scalar_iff t).mpr hs] at hcomp
    cases hcomp
  · exact hev

variable {xs ys : List Item} {q : Field} {qpos n : Int}

/-- A composite field of the given size follows. -/
theorem CompositePre.step (W : WellFormed P) (C : CompositePre P b lo hi c f xs ys q qpos l n) : Step P.m.msg b lo hi ys q qpos l ⟨f, qpos, qpos + n - 1, 0⟩ := by
  obtain ⟨t, ht, hs⟩ := composite_type W.names C.composite
  have R := C.ready
  exact ⟨R.mem, R.source, R.target ▸ R.ne_final W, R.holds, t, R.target ▸ ht, .inr ⟨hs, n, C.eval, C.natural, C.space, by rw [R.target]⟩⟩

/-- The end of a setter of a composite field. -/
theorem Inv.setComposite (W : WellFormed P) (U : Verified P lo hi) (V : Inv P lo hi c b es p pos) (hf : f ∈ P.m.msg.fields) (hpre : P.compositePre c f = .ok ())
    {st : State} (hst : st = .valid ∨ st = .structuralValid) :
    ∃ c1 c' xs ys q qpos l n l', P.reset c f = .ok c1 ∧ P.finish c1 f st qpos (qpos + n - 1) 0 = .ok c' ∧ es = xs ++ ys ∧
      CompositePre P b lo hi c f xs ys q qpos l n ∧ P.fieldFirst c f = .ok qpos ∧ P.fieldLast c f = .ok (qpos + n - 1) ∧ c'.buffer = some b ∧
      c'.cursors f = ⟨st, q, qpos, qpos + n - 1, 0⟩ ∧ l' ∈ P.m.msg.links ∧ l'.source = f ∧ IsTrue P.m.msg b lo hi (⟨f, qpos, qpos + n - 1, 0⟩ :: ys) l'.condition ∧
      (c'.cursors l'.target).pred = f ∧ Inv P lo hi c' b (⟨f, qpos, qpos + n - 1, 0⟩ :: ys) f (qpos + n) := by
  obtain ⟨hb, hnext, xs, ys, q, qpos, l, n, hes, C⟩ := V.compositePre W U hf hpre
  have I := V.inside
  obtain ⟨c1, xs', ys', q', qpos', l1, hr, hes', V1, R', R1, hb1, hfin⟩ := V.reset W hb hf hnext
  -- the same fields are in front
  have R := C.ready
  have hq : q = q' := R.pred.symm.trans R'.pred
  have hys : ys = ys' := by
    subst hq
    have key : ∀ {ys ys' : List Item} {q qpos qpos'}, Follows P.m.msg b lo hi ys q qpos → Follows P.m.msg b lo hi ys' q qpos' → (∃ zs, ys' = zs ++ ys) → ys = ys' := by
      rintro ys ys' q qpos qpos' h h' ⟨zs, rfl⟩
      rcases List.eq_nil_or_concat zs with rfl | ⟨zs, z, rfl⟩
      · rfl
      · exfalso
        have h1 := follows_last h
        have h2 := follows_last h'
        have hnd := (path_order W (follows_path h')).2
        have hlast : lastField (zs.concat z ++ ys) ∈ (zs.concat z).map (·.f) := by
          rw [List.concat_eq_append]
          cases zs <;> simp [lastField]
        rw [← h2] at hlast
        rw [List.map_append, List.nodup_append] at hnd
        cases ys with
        | nil =>
          rw [h1] at hlast
          simp only [lastField] at hlast
          have := (path_mem W (follows_path h')).1 INITIAL (by rw [List.map_append]; exact List.mem_append_left _ hlast)
          exact W.initial this
        | cons e ys => exact hnd.2.2 q hlast q (by rw [h1]; simp [lastField]) rfl
    rcases follows_compare W (U.deterministic b I) R.follows R'.follows with h | h
    · exact key R.follows R'.follows h
    · exact (key R'.follows R.follows h).symm
  subst hq
  subst hys
  obtain ⟨_, rfl⟩ := follows_fun R.follows R'.follows
  have hll : l1 = l := U.deterministic b I _ _ _ R.follows l1 R'.mem l R.mem R'.source R.source R'.holds R.holds
  subst hll
  have hcomp := C.composite
  obtain ⟨c', s, hf', hc', hsucc, V3⟩ := V1.finish W U hb1 R1 hfin (C.step W) (st := st) hst (fun h => by rw [hcomp] at h; cases h)
  have e : qpos + n - 1 + 1 = qpos + n := by omega
  rcases hsucc with ⟨_, hno⟩ | ⟨l', h4, h5, h6, h7⟩
  · obtain ⟨l', h4, h5, h6⟩ := C.goes
    exact absurd h6 (hno l' h4 h5)
  · subst h6
    have hsf : f ≠ l'.target := by
      intro h'
      by_cases hfin' : l'.target = FINAL
      · exact W.final (hfin' ▸ h' ▸ hf)
      · exact path_next W (follows_path V3.holds.follows) h4 h5 hfin' (h' ▸ List.mem_cons_self)
    refine ⟨c1, c', xs, ys, q, qpos, l1, n, l', hr, hf', hes, C, R.fieldFirst W I, R.fieldLast W I C.size C.natural C.start C.space, by rw [hc']; exact hb1, ?_, h4,
      h5, h7, by rw [hc', set_cursor, if_pos rfl]; rfl, ?_⟩
    · rw [hc', set_cursor, if_neg hsf, set_cursor, if_pos rfl]
    · have := V3
      simp only [e] at this
      exact this

/-- Writing the bytes of a composite field. -/
theorem CompositePre.write (W : WellFormed P) (I : InBuffer P b lo hi) (hal : Aligned P b lo hi) (C : CompositePre P b lo hi c f xs ys q qpos l n)
    {ds : List Nat} (hd : AreBytes ds) (hlen : (ds.length : Int) = byteIndex (qpos + n - 1) - byteIndex qpos + 1) :
    ∃ b', assign b (byteIndex qpos) (byteIndex (qpos + n - 1)) ds = .ok b' ∧ Agree b b' lo qpos ∧ SameAfter b b' (qpos + n) ∧
      bytesAt b' qpos (qpos + n - 1) = ds.map (fun (x : Nat) => (x : Int)) ∧
      Follows P.m.msg b' lo hi (⟨f, qpos, qpos + n - 1, 0⟩ :: ys) f (qpos + n) := by
  have R := C.ready
  have hB := follows_bounds W I.order R.follows
  have h0 := C.natural
  obtain ⟨a1, a2⟩ := C.aligned
  have hlow := I.low hB.1
  have hhigh := I.high C.space
  have hle : byteIndex qpos ≤ byteIndex (qpos + n - 1) + 1 := by simp only [byteIndex]; omega
  obtain ⟨b', has, hf, hl, hbits⟩ := assign_bits (b := b) hle hlow hhigh hlen hd
  obtain ⟨b'', has', _, _, hbytes⟩ := assign_ok (b := b) hle hlow hhigh hlen
  rw [has] at has'
  cases has'
  have A : Agree b b' lo qpos := by
    refine ⟨hf, hl, assign_bytes I.bytes hd has, fun i h1 h2 => ?_⟩
    rw [hbits i (I.low h1), if_neg]
    simp only [byteIndex]
    omega
  refine ⟨b', has, A, ?_, ?_, ?_⟩
  · intro i hi
    rw [hbits i (I.low (by omega)), if_neg]
    simp only [byteIndex]
    omega
  · unfold bytesAt
    apply List.ext_getElem?
    intro k
    simp only [List.getElem?_map]
    simp only [byteIndex] at hlen hlow hhigh
    have hrange : ((qpos + n - 1 - 1) / 8 - (qpos - 1) / 8 + 1).toNat = ds.length := by omega
    rw [hrange]
    by_cases hk : k < ds.length
    · rw [List.getElem?_range hk, List.getElem?_eq_getElem hk]
      simp only [Option.map_some, Option.some.injEq]
      rw [hbytes, hf, if_pos (by simp only [byteIndex]; omega)]
      have e : (((qpos - 1) / 8 + 1 - (b.first : Int)).toNat + k - (byteIndex qpos - (b.first : Int)).toNat) = k := by simp only [byteIndex]; omega
      rw [e, List.getD_eq_getElem?_getD, List.getElem?_eq_getElem hk]
      rfl
    · rw [List.getElem?_eq_none (by simpa using hk), List.getElem?_eq_none (by simpa using hk)]
      rfl
  · have hfo := A.follows W I hal R.follows
    have hs := C.step W
    have henv := A.itemEnv W I hal R.follows
    obtain ⟨t, ht, hsc⟩ := composite_type W.names C.composite
    have := Follows.composite hfo R.mem R.source (R.target ▸ R.ne_final W) (by rw [IsTrue, henv]; exact R.holds) (R.target ▸ ht) hsc
      (by rw [henv]; exact C.eval) h0 C.space
    rw [R.target] at this
    exact this

end

end Verif.Ctx
