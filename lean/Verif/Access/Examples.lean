import Verif.Access.Props
import Verif.Access.Short
import Verif.Ctx.HistoryExample

/-! # Examples for C68 and C69

The message has a tag, a length and data; see `Verif/Ctx/Example.lean`. -/

namespace Verif.Ctx
open Verif Verif.Graph Verif.Verify Verif.Types Verif.Gen Verif.Spark

theorem exMem (f : Field) (h : f = exTag ∨ f = exLen ∨ f = exData) : f ∈ exP.m.msg.fields := by
  rcases h with rfl | rfl | rfl <;> simp [exP, Gen.exMsg]

/-- All fields are set; the length is present, the data is. -/
example : ∃ c, exP.history exZeros 33 64 exOps = .ok c ∧ c.valid exLen = c.structuralValid exLen ∧ c.present exData = true ∧
    c.structuralValid exData = true := by
  obtain ⟨c, h1, h2⟩ : ∃ c, exP.history exZeros 33 64 exOps = .ok c ∧ c.present exData = true :=
    ⟨_, by with_unfolding_all rfl, by with_unfolding_all rfl⟩
  have := C68_status exWellFormed exVerified exZeros_inBuffer h1
  exact ⟨c, h1, (this.2.2.2.2.1 exLen (by decide) (exMem _ (by simp))).1, h2, this.2.2.2.1 exData h2⟩

/-- The length is read. -/
example : ∃ c n, exP.history exZeros 33 64 exOps = .ok c ∧ exP.get c exLen = .ok ((bitsAt exBytes (c.cursors exLen).first n : Nat) : Int) := by
  obtain ⟨c, h1, h2, h3⟩ : ∃ c, exP.history exZeros 33 64 exOps = .ok c ∧ c.buffer = some exBytes ∧ c.valid exLen = true :=
    ⟨_, by with_unfolding_all rfl, by with_unfolding_all rfl, by with_unfolding_all rfl⟩
  obtain ⟨t, n, _, _, _, h4, _⟩ := C68_get_scalar exWellFormed exVerified exZeros_inBuffer h1 h2 (exMem _ (by simp)) (by decide) h3
  exact ⟨c, _, h1, h4⟩

/-- The data is read. -/
example : ∃ c s, exP.history exZeros 33 64 exOps = .ok c ∧ exP.getComposite c exData = .ok s ∧
    s.data.map (fun (x : Nat) => (x : Int)) = bytesAt exBytes (c.cursors exData).first (c.cursors exData).last := by
  obtain ⟨c, h1, h2, h3⟩ : ∃ c, exP.history exZeros 33 64 exOps = .ok c ∧ c.buffer = some exBytes ∧ c.present exData = true :=
    ⟨_, by with_unfolding_all rfl, by with_unfolding_all rfl, by with_unfolding_all rfl⟩
  obtain ⟨s, h4, h5, _⟩ := C68_get_composite exWellFormed exVerified exZeros_inBuffer h1 h2 (exMem _ (by simp)) (by decide) h3
  exact ⟨c, s, h1, h4, h5⟩

/-- The data is compared. -/
example : ∃ c, exP.history exZeros 33 64 exOps = .ok c ∧ exP.equal c exData [1, 3] = .ok true ∧ exP.equal c exData [1, 4] = .ok false ∧
    exP.equal c exLen [2] = .ok false :=
  ⟨_, by with_unfolding_all rfl, by with_unfolding_all rfl, by with_unfolding_all rfl, by with_unfolding_all rfl⟩

example : ∃ c x, exP.history exZeros 33 64 exOps = .ok c ∧ exP.equal c exData [1, 3] = .ok x := by
  obtain ⟨c, h1, h2, h3⟩ : ∃ c, exP.history exZeros 33 64 exOps = .ok c ∧ c.buffer = some exBytes ∧ c.structuralValid exData = true :=
    ⟨_, by with_unfolding_all rfl, by with_unfolding_all rfl, by with_unfolding_all rfl⟩
  obtain ⟨x, h4, _⟩ := C68_equal exWellFormed exVerified exZeros_inBuffer h1 h2 (exMem _ (by simp)) h3 [1, 3]
  exact ⟨c, x, h1, h4⟩

/-- The length is set, and read after the data has been set and the message has been verified. -/
example : ∃ c c' c'', exP.history exZeros 33 64 [.setScalar exTag 1] = .ok c ∧ exP.step c (.setScalar exLen 2) = .ok c' ∧
    [Op.setOpaque exData [7, 8], .verifyMessage].foldlM exP.step c' = .ok c'' ∧ exP.get c'' exLen = .ok 2 := by
  obtain ⟨c, c', c'', h1, h2, h3⟩ : ∃ c c' c'', exP.history exZeros 33 64 [.setScalar exTag 1] = .ok c ∧ exP.step c (.setScalar exLen 2) = .ok c' ∧
      [Op.setOpaque exData [7, 8], .verifyMessage].foldlM exP.step c' = .ok c'' :=
    ⟨_, _, _, by with_unfolding_all rfl, by with_unfolding_all rfl, by with_unfolding_all rfl⟩
  refine ⟨c, c', c'', h1, h2, h3, (C68_set_get_scalar exWellFormed exVerified exZeros_inBuffer h1 h2 h3 ?_).2⟩
  intro op hop
  simp only [List.mem_cons, List.not_mem_nil, or_false] at hop
  rcases hop with rfl | rfl
  · show exP.m.msg.fields.idxOf exLen < exP.m.msg.fields.idxOf exData
    decide
  · trivial

/-- The data is set and read after verification. -/
example : ∃ c c' c'' s, exP.history exZeros 33 64 [.setScalar exTag 1, .setScalar exLen 2] = .ok c ∧ exP.step c (.setOpaque exData [7, 8]) = .ok c' ∧
    [Op.verifyMessage].foldlM exP.step c' = .ok c'' ∧ exP.getComposite c'' exData = .ok s ∧ s.data = [7, 8] := by
  obtain ⟨c, c', c'', h1, h2, h3⟩ : ∃ c c' c'', exP.history exZeros 33 64 [.setScalar exTag 1, .setScalar exLen 2] = .ok c ∧
      exP.step c (.setOpaque exData [7, 8]) = .ok c' ∧ [Op.verifyMessage].foldlM exP.step c' = .ok c'' :=
    ⟨_, _, _, by with_unfolding_all rfl, by with_unfolding_all rfl, by with_unfolding_all rfl⟩
  obtain ⟨_, _, h4, _⟩ := C68_set_get_opaque exWellFormed exVerified exZeros_inBuffer h1 h2 h3 (by
    intro op hop
    simp only [List.mem_cons, List.not_mem_nil, or_false] at hop
    subst hop
    trivial)
  obtain ⟨s, h5, h6⟩ := h4 (by simp)
  exact ⟨c, c', c'', s, h1, h2, h3, h5, h6⟩

/-- The tag stays the same when the length is changed. -/
example : ∃ c c', exP.history exZeros 33 64 exOps = .ok c ∧ [Op.setScalar exLen 1].foldlM exP.step c = .ok c' ∧ exP.get c' exTag = exP.get c exTag := by
  obtain ⟨c, c', h1, h2, h3, h4⟩ : ∃ c c', exP.history exZeros 33 64 exOps = .ok c ∧ c.buffer = some exBytes ∧ c.structuralValid exTag = true ∧
      [Op.setScalar exLen 1].foldlM exP.step c = .ok c' :=
    ⟨_, _, by with_unfolding_all rfl, by with_unfolding_all rfl, by with_unfolding_all rfl, by with_unfolding_all rfl⟩
  obtain ⟨_, _, _, _, _, h5, _⟩ := C68_later exWellFormed exVerified exZeros_inBuffer h1 h2 (exMem exTag (by simp)) h3 h4 (by
    intro op hop
    simp only [List.mem_cons, List.not_mem_nil, or_false] at hop
    subst hop
    show exP.m.msg.fields.idxOf exTag < exP.m.msg.fields.idxOf exLen
    decide)
  exact ⟨c, c', h1, h4, h5⟩

/-- The data is filled with sevens by a procedure. -/
example : ∃ c c', exP.history exZeros 33 64 [.setScalar exTag 1, .setScalar exLen 2] = .ok c ∧
    exP.genericSet (· == 2) (fun s => s.data.map fun _ => 7) c exData = .ok c' ∧ exP.step c (.setOpaque exData [7, 7]) = .ok c' := by
  obtain ⟨c, c', h1, h2⟩ : ∃ c c', exP.history exZeros 33 64 [.setScalar exTag 1, .setScalar exLen 2] = .ok c ∧
      exP.step c (.setOpaque exData [7, 7]) = .ok c' := ⟨_, _, by with_unfolding_all rfl, by with_unfolding_all rfl⟩
  refine ⟨c, c', h1, ?_, h2⟩
  rw [C68_generic_set exWellFormed exVerified exZeros_inBuffer h1 (exMem _ (by simp)) (by intro s; simp) (by
    intro s x hx
    obtain ⟨_, _, rfl⟩ := List.mem_map.mp hx
    decide)]
  obtain ⟨b0, s, h3, h4, h5, h6, h7⟩ : ∃ b0 s, c.buffer = some b0 ∧ exP.fieldFirst c exData = .ok 49 ∧ exP.fieldLast c exData = .ok 64 ∧
      slice b0 7 8 = .ok s ∧ s.data = [0, 0] := by
    have : exP.history exZeros 33 64 [.setScalar exTag 1, .setScalar exLen 2] = .ok c := h1
    obtain ⟨c1, b0, s, e1, e2⟩ : ∃ c1 b0 s, exP.history exZeros 33 64 [.setScalar exTag 1, .setScalar exLen 2] = .ok c1 ∧
        c1.buffer = some b0 ∧ exP.fieldFirst c1 exData = .ok 49 ∧ exP.fieldLast c1 exData = .ok 64 ∧ slice b0 7 8 = .ok s ∧ s.data = [0, 0] :=
      ⟨_, _, _, by with_unfolding_all rfl, by with_unfolding_all rfl, by with_unfolding_all rfl, by with_unfolding_all rfl, by with_unfolding_all rfl,
        by with_unfolding_all rfl⟩
    cases e1.symm.trans this
    exact ⟨b0, s, e2⟩
  refine ⟨b0, s, 49, 64, h3, h4, h5, h6, by simp [h7], ?_⟩
  rw [h7]
  exact h2

/-- The length says two bytes, but there is only one. -/
def exCut : Bytes := ⟨5, [1, 2, 9]⟩

theorem exCut_inBuffer : InBuffer exP exCut 33 56 := ⟨by decide, by decide, by decide, by decide, by decide⟩

example : ∃ c, exP.parse exCut 33 56 = .ok c ∧ exP.incompleteMessage c = true ∧ TooShort exP.m.msg exCut 33 56 exData ∧
    exP.structuralValidMessage c = .ok false := by
  obtain ⟨c, h1, h2, h3⟩ : ∃ c, exP.parse exCut 33 56 = .ok c ∧ c.incomplete exData = true ∧ exP.incompleteMessage c = true :=
    ⟨_, by with_unfolding_all rfl, by with_unfolding_all rfl, by with_unfolding_all rfl⟩
  obtain ⟨h4, _, h5⟩ := C69_incomplete exWellFormed exCut_inBuffer (exDeterministic _ _ _) (exSizes exCut_inBuffer) h1
  exact ⟨c, h1, h3, (h4 exData (exMem _ (by simp))).mp h2, (h5 h3).2⟩

/-- All of it is there. -/
example : ∃ c, exP.parse exBytes 33 64 = .ok c ∧ exP.incompleteMessage c = false ∧ ¬ ∃ f, TooShort exP.m.msg exBytes 33 64 f := by
  have I : InBuffer exP exBytes 33 64 := ⟨by decide, by decide, by decide, by decide, by decide⟩
  obtain ⟨c, h1, h3⟩ : ∃ c, exP.parse exBytes 33 64 = .ok c ∧ exP.incompleteMessage c = false :=
    ⟨_, by with_unfolding_all rfl, by with_unfolding_all rfl⟩
  obtain ⟨_, h4, _⟩ := C69_incomplete exWellFormed I (exDeterministic _ _ _) (exSizes I) h1
  exact ⟨c, h1, h3, fun h => by rw [h4.mpr h] at h3; cases h3⟩

end Verif.Ctx
