import Verif.Post.Meaning
import Verif.Ctx.HistoryExample

/-! # Examples for C67 -/

namespace Verif.Ctx
open Verif Verif.Graph Verif.Verify Verif.Types Verif.Gen Verif.Spark

/-- The length is changed after all fields have been set. -/
example : ∃ c c', exP.history exZeros 33 64 exOps = .ok c ∧ exP.step c (.setScalar exLen 1) = .ok c' ∧
    exP.post c c' (.setScalar exLen 1) = .ok true := by
  obtain ⟨c, h1, h2⟩ : ∃ c, exP.history exZeros 33 64 exOps = .ok c ∧ exP.pre c (.setScalar exLen 1) = .ok () :=
    ⟨_, by with_unfolding_all rfl, by with_unfolding_all rfl⟩
  obtain ⟨c', h3, h4⟩ := C67_contract_partial exWellFormed exVerified exZeros_inBuffer h1 h2 (by
    intro t ht
    rcases exTypes_iff.mp ht with ⟨h, _⟩ | ⟨_, h⟩ | ⟨h, _⟩
    · exact absurd h (by decide)
    · cases h
    · exact absurd h (by decide))
  exact ⟨c, c', h1, h3, h4⟩

/-- The data is set: the condition about the data is that of the link to the end of the message. -/
example : ∃ c c', exP.history exZeros 33 64 [.setScalar exTag 1, .setScalar exLen 2] = .ok c ∧ exP.step c (.setOpaque exData [7, 8]) = .ok c' ∧
    exP.post c c' (.setOpaque exData [7, 8]) = .ok true := by
  obtain ⟨c, c', h1, h2⟩ : ∃ c c', exP.history exZeros 33 64 [.setScalar exTag 1, .setScalar exLen 2] = .ok c ∧
      exP.step c (.setOpaque exData [7, 8]) = .ok c' := ⟨_, _, by with_unfolding_all rfl, by with_unfolding_all rfl⟩
  refine ⟨c, c', h1, h2, C67_postcondition_partial exWellFormed exVerified exZeros_inBuffer h1 h2 ?_⟩
  intro l hl hs ht
  rcases exLinks_iff.mp hl with rfl | rfl | rfl | rfl | rfl
  case inr.inr.inr.inr => exact absurd rfl ht
  all_goals exact absurd hs (by decide)

/-- The buffer is taken. -/
example : ∃ c c', exP.history exZeros 33 64 exOps = .ok c ∧ exP.step c .takeBuffer = .ok c' ∧ exP.post c c' .takeBuffer = .ok true := by
  obtain ⟨c, c', h1, h2⟩ : ∃ c c', exP.history exZeros 33 64 exOps = .ok c ∧ exP.step c .takeBuffer = .ok c' :=
    ⟨_, _, by with_unfolding_all rfl, by with_unfolding_all rfl⟩
  exact ⟨c, c', h1, h2, C67_postcondition_partial exWellFormed exVerified exZeros_inBuffer h1 h2 trivial⟩

theorem exInitial {b : Bytes} {lo hi : Int} (l : Link) (hl : l ∈ exP.m.msg.links) (hs : l.source = INITIAL) : IsTrue exP.m.msg b lo hi [] l.condition := by
  rcases exLinks_iff.mp hl with rfl | rfl | rfl | rfl | rfl
  case inl => rfl
  all_goals exact absurd hs (by decide)

example : ∃ c, exP.initialize exZeros 33 64 = .ok c ∧ exP.initializePost exZeros 33 64 c = .ok true := by
  obtain ⟨c, x, h1, h2, h3⟩ := C67_initialize exWellFormed exZeros_inBuffer
  rw [h3.mpr exInitial] at h2
  exact ⟨c, h1, h2⟩

example : ∃ c, exP.initializeAll exZeros = .ok c ∧ c.first = 33 ∧ c.last = 64 ∧ exP.initializeAllPost exZeros c = .ok true := by
  obtain ⟨c, x, lo, hi, h1, rfl, rfl, h2, h3, h4, h5⟩ := C67_initialize_all (P := exP) (b := exZeros) exWellFormed (by decide) (by decide) (by decide) (by decide) (by decide)
  rw [h5.mpr exInitial] at h4
  exact ⟨c, h1, h2, h3, h4⟩

example : ∃ c, exP.history exZeros 33 64 exOps = .ok c ∧ c.valid exLen = true ∧ validPost c exLen (c.valid exLen) = .ok true := by
  obtain ⟨c, h1, h2⟩ : ∃ c, exP.history exZeros 33 64 exOps = .ok c ∧ c.valid exLen = true :=
    ⟨_, by with_unfolding_all rfl, by with_unfolding_all rfl⟩
  exact ⟨c, h1, h2, C67_valid c exLen⟩

/-- A number is written in the place of the length. -/
example : ∃ c c1 b' first last, exP.history exZeros 33 64 exOps = .ok c ∧ exP.step c (.reset exLen) = .ok c1 ∧ exP.setFieldValue c1 exLen (7 : Nat) = .ok (b', first, last) ∧
    exP.setFieldValuePost c1 { c1 with buffer := some b' } exLen first last = .ok true := by
  obtain ⟨c, c1, h1, h2, h3⟩ : ∃ c c1, exP.history exZeros 33 64 exOps = .ok c ∧ exP.step c (.reset exLen) = .ok c1 ∧ exP.sufficientSpace c1 exLen = .ok true :=
    ⟨_, _, by with_unfolding_all rfl, by with_unfolding_all rfl, by with_unfolding_all rfl⟩
  obtain ⟨n, hn, h4⟩ : ∃ n, exU8.size = .ok n ∧ 7 < 2 ^ n.v.toNat := ⟨_, by with_unfolding_all rfl, by with_unfolding_all decide⟩
  obtain ⟨b', first, last, h5, _, h6⟩ := C67_set_field_value_partial exWellFormed exVerified exZeros_inBuffer h1 h2 h3 (t := exU8)
    (exTypes_iff.mpr (.inr (.inl ⟨rfl, rfl⟩))) trivial hn h4
  exact ⟨c, c1, b', first, last, h1, h2, h5, h6⟩

/-- What is known after the length has been changed. -/
example : ∃ c c', exP.history exZeros 33 64 exOps = .ok c ∧ exP.step c (.setScalar exLen 1) = .ok c' ∧ exP.get c' exLen = .ok 1 ∧ Unset c' exData ∧
    SameCursor (c.cursors exTag) (c'.cursors exTag) := by
  obtain ⟨c, h1, h2⟩ : ∃ c, exP.history exZeros 33 64 exOps = .ok c ∧ exP.pre c (.setScalar exLen 1) = .ok () :=
    ⟨_, by with_unfolding_all rfl, by with_unfolding_all rfl⟩
  obtain ⟨c', h3, h4, _, _, h5, _, h6⟩ := C67_effect_partial exWellFormed exVerified exZeros_inBuffer h1 h2 (by
    intro t ht
    rcases exTypes_iff.mp ht with ⟨h, _⟩ | ⟨_, h⟩ | ⟨h, _⟩
    · exact absurd h (by decide)
    · cases h
    · exact absurd h (by decide))
  exact ⟨c, c', h1, h3, h5, h4.later [exTag] [exData] rfl _ (by simp), h6 [exTag] [exData] rfl _ (by simp)⟩

/-- A postcondition that holds, and what it says. -/
example : ∃ c c', exP.post c c' (.setScalar exLen 1) = .ok true ∧ Promise exP c c' (.setScalar exLen 1) := by
  obtain ⟨c, c', h⟩ : ∃ c c', exP.history exZeros 33 64 exOps = .ok c ∧ exP.step c (.setScalar exLen 1) = .ok c' ∧
      exP.post c c' (.setScalar exLen 1) = .ok true := ⟨_, _, by with_unfolding_all rfl, by with_unfolding_all rfl, by with_unfolding_all rfl⟩
  exact ⟨c, c', h.2.2, C67_meaning exWellFormed (fun f hf => by cases hf; decide) h.2.2⟩

/-- The tag and the length are set. -/
example : ∃ c b' es p pos, exP.history exZeros 33 64 [.setScalar exTag 1, .setScalar exLen 2] = .ok c ∧ Follows exP.m.msg b' 33 64 es p pos ∧
    exLen ∈ es.map (·.f) ∧ exData ∉ es.map (·.f) := by
  obtain ⟨c, b', h1, h2, h3, h4⟩ : ∃ c b', exP.history exZeros 33 64 [.setScalar exTag 1, .setScalar exLen 2] = .ok c ∧ c.buffer = some b' ∧
      (c.cursors exLen).state = .valid ∧ (c.cursors exData).state = .invalid :=
    ⟨_, _, by with_unfolding_all rfl, by with_unfolding_all rfl, by with_unfolding_all rfl, by with_unfolding_all rfl⟩
  obtain ⟨es, p, pos, h5, h6, _⟩ := C67_public_condition exWellFormed exVerified exZeros_inBuffer h1 h2
  refine ⟨c, b', es, p, pos, h1, h5, (h6 exLen (by decide)).mpr (.inl h3), fun h => ?_⟩
  have := (h6 exData (by decide)).mp h
  simp [h4] at this

example : ∃ c, exP.initialize exZeros 33 64 = .ok c ∧ Fresh exP exZeros 33 64 c := by
  obtain ⟨c, x, h1, h2, h3⟩ := C67_initialize exWellFormed exZeros_inBuffer
  rw [h3.mpr exInitial] at h2
  exact ⟨c, h1, C67_initialize_meaning h2⟩

example : ∃ c, exP.initializeAll exZeros = .ok c ∧ Fresh exP exZeros 33 64 c := by
  obtain ⟨c, x, lo, hi, h1, rfl, rfl, h2, h3, h4, h5⟩ := C67_initialize_all (P := exP) (b := exZeros) exWellFormed (by decide) (by decide) (by decide) (by decide) (by decide)
  rw [h5.mpr exInitial] at h4
  exact ⟨c, h1, C67_initialize_all_meaning h4⟩

/-! ## Counterexamples -/

/-- `Data : Opaque with Size => 8 then Len if Data = [1] then Tag if Data /= [1]`. -/
def exBranch : Pkg := exPkg [exData, exLen, exTag] [⟨INITIAL, exData, .tru, .n 8, .undefined⟩,
  ⟨exData, exLen, .rel .eq exDataV (.agg [.n 1]), .undefined, .undefined⟩, ⟨exData, exTag, .rel .ne exDataV (.agg [.n 1]), .undefined, .undefined⟩,
  ⟨exLen, FINAL, .tru, .undefined, .undefined⟩, ⟨exTag, FINAL, .tru, .undefined, .undefined⟩]

/-- `Set_Data` determines the next field by the content that the buffer had before: its postcondition, that the next field is the one
for the new content, is false. -/
theorem C67_content_counterexample : ∃ c c', exBranch.history ⟨5, [1, 1]⟩ 33 48 [] = .ok c ∧ exBranch.pre c (.setOpaque exData [2]) = .ok () ∧
    exBranch.step c (.setOpaque exData [2]) = .ok c' ∧ c'.buffer = some ⟨5, [2, 1]⟩ ∧ (c'.cursors exLen).pred = exData ∧ (c'.cursors exTag).pred = FINAL ∧
    exBranch.post c c' (.setOpaque exData [2]) = .ok false :=
  ⟨_, _, by with_unfolding_all rfl, by with_unfolding_all rfl, by with_unfolding_all rfl, by with_unfolding_all rfl, by with_unfolding_all rfl,
    by with_unfolding_all rfl, by with_unfolding_all rfl⟩

/-- `null then Len if Message'Size > 8`. -/
def exFirst : Pkg := exPkg [exLen] [⟨INITIAL, exLen, .rel .gt (.attr false .size (.v MESSAGE)) (.n 8), .undefined, .undefined⟩,
  ⟨exLen, FINAL, .tru, .undefined, .undefined⟩]

/-- The postcondition of `Initialize` is false if the condition of the link to the first field is. -/
theorem C67_initial_counterexample : ∃ c, exFirst.initialize ⟨5, [1, 1]⟩ 33 40 = .ok c ∧ exFirst.initializePost ⟨5, [1, 1]⟩ 33 40 c = .ok false :=
  ⟨_, by with_unfolding_all rfl, by with_unfolding_all rfl⟩

end Verif.Ctx
