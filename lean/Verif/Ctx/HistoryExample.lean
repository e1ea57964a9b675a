import Verif.Ctx.HistoryProps
import Verif.Ctx.Example

/-! # C30 and C31: examples and counterexamples

The message is that of `Verif/Ctx/Example.lean`. -/

namespace Verif.Ctx
open Verif Verif.Graph Verif.Verify Verif.Types Verif.Gen Verif.Spark

theorem exAligned {b : Bytes} {lo hi : Int} (hlo : lo % 8 = 1) {es : List Item} {p : Field} {pos : Int} (h : Follows exP.m.msg b lo hi es p pos) :
    pos % 8 = 1 ∧ ∀ e ∈ es, e.first % 8 = 1 ∧ e.last % 8 = 0 := by
  induction h with
  | start => exact ⟨hlo, by simp⟩
  | @scalar es p pos l t n _ _ _ _ _ htt hs hn _ _ ih =>
    have : n.v = 8 := by
      rcases exTypes_iff.mp htt with ⟨_, rfl⟩ | ⟨_, rfl⟩ | ⟨_, rfl⟩
      · rw [exT_size] at hn; cases hn; rfl
      · rw [exU8_size] at hn; cases hn; rfl
      · simp [Scalar] at hs
    refine ⟨by omega, ?_⟩
    intro e he
    rcases List.mem_cons.mp he with rfl | he
    · exact ⟨ih.1, by simp only; omega⟩
    · exact ih.2 e he
  | @composite es p pos l t n _ hl _ _ _ htt hs hn _ _ ih =>
    have : l = exL4 := by
      rcases exTypes_iff.mp htt with ⟨_, rfl⟩ | ⟨_, rfl⟩ | ⟨h, _⟩
      · exact absurd trivial hs
      · exact absurd trivial hs
      · rcases exLinks_iff.mp hl with rfl | rfl | rfl | rfl | rfl
        all_goals first
          | rfl
          | exact absurd h (by decide)
    subst this
    obtain ⟨i, hi'⟩ := (itemEnv_typed (b := b) (lo := lo) (hi := hi) (es := es) exWellFormed).scalar exLen exU8 (by simp [exP, Gen.exMsg]) trivial
    have hvar : (itemEnv exP.m.msg b lo hi es).var (ID.key ⟨[['L', 'e', 'n']]⟩) = .int i := hi'
    simp only [exL4, exLenV, Expr.v, Expr.n, eval, evalL, hvar] at hn
    simp [Val.negIf, allSome, Val.int?, intProd] at hn
    refine ⟨by omega, ?_⟩
    intro e he
    rcases List.mem_cons.mp he with rfl | he
    · exact ⟨ih.1, by simp only; omega⟩
    · exact ih.2 e he

theorem exVerified : Verified exP 33 64 where
  deterministic b _ := exDeterministic b _ _
  sizes _ I := exSizes I
  aligned _ _ _ _ _ h e he _ _ _ := (exAligned (by decide) h).2 e he
  nonempty b I y p pos h := by
    obtain ⟨t, ht, _, h2⟩ := follows_type h List.mem_cons_self
    rcases exPath (follows_path h) with ⟨_, h'⟩ | ⟨_, h'⟩ | ⟨_, h'⟩ | ⟨_, h'⟩
    case inr.inl =>
      have hy : y.f = exTag := by simpa using h'
      have : t = .enum exT := nodup_pair (exPNames opts).once ht (by rw [hy]; simp [exP, Gen.exMsg])
      subst this
      obtain ⟨k, hk, _, hlast, _⟩ := h2 trivial
      rw [exT_size] at hk
      cases hk
      have hl : y.last = y.first + 8 - 1 := hlast
      omega
    all_goals simp at h'

theorem exEmbeddable : Embeddable exP where
  names := exPNames _
  scope := by
    intro l hl ht fs hp
    rcases exLinks_iff.mp hl with rfl | rfl | rfl | rfl | rfl
    · trivial
    · have litA : LitName exP.m ⟨[['A']]⟩ := ⟨exT, by simp [exP, Gen.exMsg, enums], _, List.mem_cons_self, .inl (by decide)⟩
      have : exTag ∈ fs := by
        rcases exPath hp with ⟨h', _⟩ | ⟨_, rfl⟩ | ⟨h', _⟩ | ⟨h', _⟩
        case inr.inl => simp
        all_goals exact absurd h' (by decide)
      exact ⟨⟨rfl, .inl (exTag_scalar this)⟩, rfl, .inr litA⟩
    · exact absurd rfl ht
    · trivial
    · exact absurd rfl ht
  sizeScope := by
    intro l hl t ht hs fs hp
    rcases exLinks_iff.mp hl with rfl | rfl | rfl | rfl | rfl
    · rcases exTypes_iff.mp ht with ⟨_, rfl⟩ | ⟨h, _⟩ | ⟨h, _⟩
      · exact absurd trivial hs
      all_goals exact absurd h (by decide)
    · rcases exTypes_iff.mp ht with ⟨h, _⟩ | ⟨_, rfl⟩ | ⟨h, _⟩
      case inr.inl => exact absurd trivial hs
      all_goals exact absurd h (by decide)
    · rcases exTypes_iff.mp ht with ⟨h, _⟩ | ⟨h, _⟩ | ⟨h, _⟩ <;> exact absurd h (by decide)
    · refine ⟨⟨rfl, .inl (exLen_scalar ?_)⟩, trivial, trivial⟩
      rcases exPath hp with ⟨h', _⟩ | ⟨h', _⟩ | ⟨_, rfl⟩ | ⟨h', _⟩
      case inr.inr.inl => simp
      all_goals exact absurd h' (by decide)
    · rcases exTypes_iff.mp ht with ⟨h, _⟩ | ⟨h, _⟩ | ⟨h, _⟩ <;> exact absurd h (by decide)

/-- A buffer of zeros. -/
def exZeros : Bytes := ⟨5, [0, 0, 0, 0]⟩

theorem exZeros_inBuffer : InBuffer exP exZeros 33 64 := ⟨by decide, by decide, by decide, by decide, by decide⟩

/-- All fields are set, with one change of mind. -/
def exOps : List Op := [.verify exLen, .setScalar exTag 1, .setScalar exLen 1, .setScalar exTag 1, .setScalar exLen 2, .setOpaque exData [1, 3]]

theorem exOps_run : ∃ c, exP.history exZeros 33 64 exOps = .ok c ∧ c.buffer = some exBytes ∧ c.hasBuffer = true ∧
    c.cursors exData = ⟨.structuralValid, exLen, 49, 64, 0⟩ ∧ exP.structuralValidMessage c = .ok true ∧
    ∃ c', exP.step c (.setScalar exLen 1) = .ok c' :=
  ⟨_, by with_unfolding_all rfl, by with_unfolding_all rfl, by with_unfolding_all rfl, by with_unfolding_all rfl, by with_unfolding_all rfl,
    _, by with_unfolding_all rfl⟩

example : ∃ c, exP.history exZeros 33 64 exOps = .ok c ∧ exP.validContext c = .ok true ∧ exP.validCursors c = .ok true := by
  obtain ⟨c, h1, _, h2, _⟩ := exOps_run
  exact ⟨c, h1, C30_predicate_partial exWellFormed exVerified exEmbeddable exZeros_inBuffer h1 (.inl h2)⟩

/-- Without a buffer. -/
example : ∃ c, exP.history exZeros 33 64 (exOps ++ [.takeBuffer]) = .ok c ∧ c.hasBuffer = false ∧
    exP.validContext c = .ok true ∧ exP.validCursors c = .ok true := by
  obtain ⟨c, h1, h2⟩ : ∃ c, exP.history exZeros 33 64 (exOps ++ [.takeBuffer]) = .ok c ∧ c.hasBuffer = false :=
    ⟨_, by with_unfolding_all rfl, by with_unfolding_all rfl⟩
  refine ⟨c, h1, h2, C30_predicate_partial exWellFormed exVerified exEmbeddable exZeros_inBuffer h1 (.inr ?_)⟩
  intro l hl ht
  rcases exLinks_iff.mp hl with rfl | rfl | rfl | rfl | rfl
  case inr.inr.inl => exact absurd rfl ht
  case inr.inr.inr.inr => exact absurd rfl ht
  all_goals decide

example : ∃ c b' es p pos, exP.history exZeros 33 64 exOps = .ok c ∧ Follows exP.m.msg b' 33 64 es p pos ∧ 33 ≤ c.messageLast ∧ c.messageLast ≤ 64 := by
  obtain ⟨c, h1, _⟩ := exOps_run
  obtain ⟨b', es, p, pos, _, _, _, _, h, _, _, _, h2, h3⟩ := C30_fields_partial exWellFormed exVerified exZeros_inBuffer h1
  exact ⟨c, b', es, p, pos, h1, h, h2, h3⟩

example : ∃ c, exP.history exZeros 33 64 exOps = .ok c ∧ (c.cursors exData).last ≤ c.messageLast := by
  obtain ⟨c, h1, _, _, h2, _⟩ := exOps_run
  obtain ⟨_, _, h3, _⟩ := C30_field_partial (f := exData) exWellFormed exVerified exZeros_inBuffer h1 (by simp [exP, Gen.exMsg]) (.inr (by rw [h2]))
  exact ⟨c, h1, h3⟩

/-- A tag without a value. -/
example : ∃ c, exP.history exZeros 33 64 [.verify exTag] = .ok c ∧ (c.cursors exTag).state = .invalid ∧
    ((c.cursors exLen).state = .invalid ∨ (c.cursors exLen).state = .incomplete) := by
  obtain ⟨c, h1, h2⟩ : ∃ c, exP.history exZeros 33 64 [.verify exTag] = .ok c ∧ (c.cursors exTag).state = .invalid :=
    ⟨_, by with_unfolding_all rfl, by with_unfolding_all rfl⟩
  refine ⟨c, h1, h2, C30_invalid_partial exWellFormed exVerified exZeros_inBuffer h1 (by simp [exP, Gen.exMsg]) ?_⟩
  intro l hl ht
  rcases exLinks_iff.mp hl with rfl | rfl | rfl | rfl | rfl
  case inr.inl => exact ⟨by decide, .inl h2⟩
  all_goals exact absurd ht (by decide)

/-- The length is changed after the data has been set. -/
example : ∃ c c', exP.history exZeros 33 64 exOps = .ok c ∧ exP.step c (.setScalar exLen 1) = .ok c' ∧
    (c'.cursors exLen).value = 1 ∧ c'.cursors exTag = c.cursors exTag := by
  obtain ⟨c, h1, _, _, _, _, c', h2⟩ := exOps_run
  obtain ⟨_, _, _, _, _, _, _, _, _, _, _, _, h3, _, _, _, _, _, h4⟩ := C31_scalar exWellFormed exVerified exZeros_inBuffer h1 h2
  exact ⟨c, c', h1, h2, h3, h4 exTag (by simp [exP, Gen.exMsg]) (by decide)⟩

example : ∃ c c' b2, exP.history exZeros 33 64 [.setScalar exTag 1, .setScalar exLen 2] = .ok c ∧ exP.step c (.setOpaque exData [7, 8]) = .ok c' ∧
    c'.buffer = some b2 ∧ bytesAt b2 (c'.cursors exData).first (c'.cursors exData).last = [7, 8] := by
  obtain ⟨c, c', h1, h2⟩ : ∃ c c', exP.history exZeros 33 64 [.setScalar exTag 1, .setScalar exLen 2] = .ok c ∧
      exP.step c (.setOpaque exData [7, 8]) = .ok c' := ⟨_, _, by with_unfolding_all rfl, by with_unfolding_all rfl⟩
  obtain ⟨_, b2, _, h3, _, _, _, _, _, _, h4, _⟩ := C31_opaque exWellFormed exVerified exZeros_inBuffer h1 h2
  exact ⟨c, c', b2, h1, h2, h3, h4⟩

example : ∃ c b1 c1, exP.history exZeros 33 64 exOps = .ok c ∧ c.buffer = some b1 ∧ exP.parse b1 33 64 = .ok c1 ∧
    exP.structuralValidMessage c1 = .ok true := by
  obtain ⟨c, h1, _, _, _, h2, _⟩ := exOps_run
  obtain ⟨b1, c1, h3, _, h4, h5, _⟩ := C31_roundtrip exWellFormed exVerified exZeros_inBuffer h1 h2
  exact ⟨c, b1, c1, h1, h3, h4, h5⟩

theorem exSizeFree (l : Link) (hl : l ∈ exP.m.msg.links) (hs : exP.isScalar l.source = true) : SizeFree l.source l.condition := by
  intro σ v
  rcases exLinks_iff.mp hl with rfl | rfl | rfl | rfl | rfl
  case inr.inr.inr.inr => exact absurd hs (by decide)
  all_goals simp [exL1, exL2, exL3, exL4, exTagV, Expr.v, eval]

/-- `Data` has two bytes, hence is not equal to `[1]`. -/
theorem exTolerates : Tolerates exP exZeros exBytes 33 64 [⟨exData, 49, 64, 0⟩, ⟨exLen, 41, 48, 2⟩, ⟨exTag, 33, 40, 1⟩] := by
  intro xs e ys hes hc b1 _ _ _ _ _ l hl hs h
  obtain ⟨rfl, rfl⟩ : e = ⟨exData, 49, 64, 0⟩ ∧ ys = [⟨exLen, 41, 48, 2⟩, ⟨exTag, 33, 40, 1⟩] := by
    rcases xs with _ | ⟨x, _ | ⟨y, _ | ⟨z, xs⟩⟩⟩ <;> simp at hes
    · exact ⟨hes.1.symm, hes.2.symm⟩
    · obtain ⟨_, rfl, _⟩ := hes; exact absurd hc (by decide)
    · obtain ⟨_, _, rfl, _⟩ := hes; exact absurd hc (by decide)
  rcases exLinks_iff.mp hl with rfl | rfl | rfl | rfl | rfl
  case inr.inr.inr.inr =>
    have hv : (itemEnv exP.m.msg b1 33 64 [⟨exData, 49, 64, 0⟩, ⟨exLen, 41, 48, 2⟩, ⟨exTag, 33, 40, 1⟩]).var (ID.key ⟨[['D', 'a', 't', 'a']]⟩) =
        .seq (bytesAt b1 49 64) := rfl
    have ha : (itemEnv exP.m.msg b1 33 64 [⟨exData, 49, 64, 0⟩, ⟨exLen, 41, 48, 2⟩, ⟨exTag, 33, 40, 1⟩]).attr .size (ID.key ⟨[['D', 'a', 't', 'a']]⟩) =
        .int 16 := rfl
    have hne : bytesAt b1 49 64 ≠ [1] := fun h => by simpa [bytesAt] using congrArg List.length h
    simp [IsTrue, exL5, exDataSize, exDataV, Expr.v, Expr.n, eval, evalL, hv, ha, allSome, Val.negIf, Val.int?, Val.bool?, RelOp.eval, RelOp.intOp, BoolOp.isAnd, hne]
  all_goals exact absurd hs (by decide)

example : ∃ c, exP.history exZeros 33 64 [.setScalar exTag 1, .setScalar exLen 2, .setOpaque exData [1, 3]] = .ok c ∧ exP.structuralValidMessage c = .ok true := by
  obtain ⟨c, _, h1, _, h2, _⟩ := C31_complete_partial exWellFormed exVerified exZeros_inBuffer exInBuffer rfl rfl exSizeFree exTolerates exIsMessage
  exact ⟨c, h1, h2⟩

/-! ## Counterexamples -/

/-- Messages with fields of `exP`. -/
def exPkg (fs : List Field) (ls : List Link) : Pkg :=
  ⟨{ Gen.exMsg with msg := { Gen.exMsg.msg with fields := fs, links := ls, types := Gen.exMsg.msg.types.filter fun t => t.1 ∈ fs } }, 17179869176⟩

/-- `Data : Opaque with Size => 0`, at the beginning of a message. -/
def exEmpty : Pkg := exPkg [exData] [⟨INITIAL, exData, .tru, .n 0, .undefined⟩, ⟨exData, FINAL, .tru, .undefined, .undefined⟩]

/-- The predicate does not hold if the first field is empty: `Message_Last` is in front of the first bit then. -/
theorem C30_empty_counterexample : ∃ c, exEmpty.history exZeros 41 64 [.verify exData] = .ok c ∧
    c.first = 41 ∧ c.messageLast = 40 ∧ exEmpty.validContext c = .ok false :=
  ⟨_, by with_unfolding_all rfl, by with_unfolding_all rfl, by with_unfolding_all rfl, by with_unfolding_all rfl⟩

/-- `Data : Opaque with First => Tag'First, Size => 8`, after `Tag` and `Len`. -/
def exOverlay : Pkg := exPkg [exTag, exLen, exData] [⟨INITIAL, exTag, .tru, .undefined, .undefined⟩, ⟨exTag, exLen, .tru, .undefined, .undefined⟩,
  ⟨exLen, exData, .tru, .n 8, .attr false .first exTagV⟩, ⟨exData, FINAL, .tru, .undefined, .undefined⟩]

/-- The predicate does not hold after a field with a `First` aspect: `Message_Last` goes back to the end of that field, in front of
fields that are valid. -/
theorem C30_first_counterexample : ∃ c, exOverlay.history exBytes 33 64 [.verify exTag, .verify exLen, .verify exData] = .ok c ∧
    (c.cursors exLen).state = .valid ∧ (c.cursors exLen).last = 48 ∧ c.messageLast = 40 ∧ exOverlay.validContext c = .ok false :=
  ⟨_, by with_unfolding_all rfl, by with_unfolding_all rfl, by with_unfolding_all rfl, by with_unfolding_all rfl, by with_unfolding_all rfl⟩

/-- `Data : Opaque with Size => 8 then Len if Data = [1]`. -/
def exCompare : Pkg := exPkg [exData, exLen] [⟨INITIAL, exData, .tru, .n 8, .undefined⟩, ⟨exData, exLen, .rel .eq exDataV (.agg [.n 1]), .undefined, .undefined⟩,
  ⟨exLen, FINAL, .tru, .undefined, .undefined⟩]

/-- The predicate reads the buffer even if there is none, when a condition compares a composite field. -/
theorem C30_null_counterexample : ∃ c, exCompare.history exBytes 33 64 [.verify exData, .verify exLen] = .ok c ∧ exCompare.validContext c = .ok true ∧
    ∃ c', exCompare.step c .takeBuffer = .ok c' ∧ exCompare.validContext c' = .error (.ada .access) :=
  ⟨_, by with_unfolding_all rfl, by with_unfolding_all rfl, _, by with_unfolding_all rfl, by with_unfolding_all rfl⟩

/-- A message whose fields have all been set along a path need not be valid: the precondition of `Set_Data` is about the content that
the buffer had before. The condition is `Data'Size >= 8 and Data /= [1]`. -/
theorem C31_content_counterexample : ∃ c b' c', exP.history ⟨5, [0, 0, 3]⟩ 33 56 [.setScalar exTag 1, .setScalar exLen 1, .setOpaque exData [1]] = .ok c ∧
    (c.cursors exTag).sv = true ∧ (c.cursors exLen).sv = true ∧ (c.cursors exData).sv = true ∧ (c.cursors FINAL).pred = exData ∧
    exP.structuralValidMessage c = .ok false ∧ c.buffer = some b' ∧ exP.parse b' 33 56 = .ok c' ∧ exP.structuralValidMessage c' = .ok false :=
  ⟨_, _, _, by with_unfolding_all rfl, by with_unfolding_all rfl, by with_unfolding_all rfl, by with_unfolding_all rfl, by with_unfolding_all rfl,
    by with_unfolding_all rfl, by with_unfolding_all rfl, by with_unfolding_all rfl, by with_unfolding_all rfl⟩

/-- `Len : U8 then null if Len'Size = 8`. -/
def exOwn : Pkg := exPkg [exLen] [⟨INITIAL, exLen, .tru, .undefined, .undefined⟩,
  ⟨exLen, FINAL, .rel .eq (.attr false .size exLenV) (.n 8), .undefined, .undefined⟩]

/-- A scalar field cannot be set if a condition requires its size, though there are messages: the precondition of `Set_Len` calls
`Field_Condition` with the size 0. -/
theorem C31_size_counterexample : (∃ c, exOwn.parse exBytes 33 64 = .ok c ∧ exOwn.structuralValidMessage c = .ok true) ∧
    ∃ c, exOwn.initialize exBytes 33 64 = .ok c ∧ exOwn.validNext c exLen = .ok true ∧ exOwn.sufficientSpace c exLen = .ok true ∧
      ∀ v : Nat, v < 256 → exOwn.setScalar c exLen v = .error (.ada .precondition) := by
  refine ⟨⟨_, by with_unfolding_all rfl, by with_unfolding_all rfl⟩, _, by with_unfolding_all rfl, by with_unfolding_all rfl, by with_unfolding_all rfl, ?_⟩
  intro v _
  with_unfolding_all rfl

end Verif.Ctx
