import Verif.Ctx.Props
import Verif.Gen.Example

/-! # C29: an example

```
type T is (A => 1, B => 2) with Size => 8;
type M is
   message
      Tag : T
         then Len
            if Tag = A,
         then null
            if Tag = P.B;
      Len : U8
         then Data
            with Size => Len * 8;
      Data : Opaque
         then null
            if Data'Size >= 8 and Data /= [1];
   end message;
``` -/

namespace Verif.Ctx
open Verif Verif.Graph Verif.Verify Verif.Types Verif.Gen Verif.Spark

def exL1 : Link := ⟨INITIAL, exTag, .tru, .undefined, .undefined⟩
def exL2 : Link := ⟨exTag, exLen, .rel .eq exTagV (.v ⟨[['A']]⟩), .undefined, .undefined⟩
def exL3 : Link := ⟨exTag, FINAL, .rel .eq exTagV (.v ⟨[['P'], ['B']]⟩), .undefined, .undefined⟩
def exL4 : Link := ⟨exLen, exData, .tru, .mul [exLenV, .n 8], .undefined⟩
def exL5 : Link := ⟨exData, FINAL, .bool .and [.rel .ge exDataSize (.n 8), .rel .ne exDataV (.agg [.n 1])], .undefined, .undefined⟩

def exP : Pkg := ⟨{ Gen.exMsg with msg := { Gen.exMsg.msg with links := [exL1, exL2, exL3, exL4, exL5] } }, 17179869176⟩

theorem exLinks_iff {l : Link} : l ∈ exP.m.msg.links ↔ l = exL1 ∨ l = exL2 ∨ l = exL3 ∨ l = exL4 ∨ l = exL5 := by
  simp [exP]

theorem exTypes_iff {f : Field} {t : FTy} : (f, t) ∈ exP.m.msg.types ↔ (f = exTag ∧ t = .enum exT) ∨ (f = exLen ∧ t = exU8) ∨ (f = exData ∧ t = .opaque) := by
  simp [exP, Gen.exMsg]

theorem exPNames (o : Opts) : Names exP.m o :=
  { exNames o with literal := (exNames o).literal }

theorem exPath {fs : List Field} {p : Field} (h : Path exP.m.msg fs p) :
    (p = INITIAL ∧ fs = []) ∨ (p = exTag ∧ fs = [exTag]) ∨ (p = exLen ∧ fs = [exLen, exTag]) ∨ (p = exData ∧ fs = [exData, exLen, exTag]) := by
  induction h with
  | start => exact .inl ⟨rfl, rfl⟩
  | @step fs p l _ h1 h2 h3 ih =>
    rcases exLinks_iff.mp h1 with rfl | rfl | rfl | rfl | rfl
    · rcases ih with ⟨_, rfl⟩ | ⟨h, _⟩ | ⟨h, _⟩ | ⟨h, _⟩
      · exact .inr (.inl ⟨rfl, rfl⟩)
      all_goals exact absurd (h2.trans h) (by decide)
    · rcases ih with ⟨h, _⟩ | ⟨_, rfl⟩ | ⟨h, _⟩ | ⟨h, _⟩
      case inr.inl => exact .inr (.inr (.inl ⟨rfl, rfl⟩))
      all_goals exact absurd (h2.trans h) (by decide)
    · exact absurd rfl h3
    · rcases ih with ⟨h, _⟩ | ⟨h, _⟩ | ⟨_, rfl⟩ | ⟨h, _⟩
      case inr.inr.inl => exact .inr (.inr (.inr ⟨rfl, rfl⟩))
      all_goals exact absurd (h2.trans h) (by decide)
    · exact absurd rfl h3

theorem exTag_scalar {fs : List Field} (h : exTag ∈ fs) : ScalarField exP.m (· ∈ fs) ⟨[['T', 'a', 'g']]⟩ := by
  refine ⟨?_, .enum exT, List.mem_cons_self, trivial⟩
  have : (⟨ID.key ⟨[['T', 'a', 'g']]⟩⟩ : Field) = exTag := by decide
  rw [this]
  exact h

theorem exLen_scalar {fs : List Field} (h : exLen ∈ fs) : ScalarField exP.m (· ∈ fs) ⟨[['L', 'e', 'n']]⟩ := by
  refine ⟨?_, exU8, List.mem_cons_of_mem _ List.mem_cons_self, trivial⟩
  have : (⟨ID.key ⟨[['L', 'e', 'n']]⟩⟩ : Field) = exLen := by decide
  rw [this]
  exact h

theorem exData_composite {fs : List Field} (h : exData ∈ fs) :
    ⟨ID.key ⟨[['D', 'a', 't', 'a']]⟩⟩ ∈ fs ∧ ∃ t, (⟨ID.key ⟨[['D', 'a', 't', 'a']]⟩⟩, t) ∈ exP.m.msg.types ∧ ¬ Scalar t := by
  refine ⟨?_, .opaque, List.mem_cons_of_mem _ (List.mem_cons_of_mem _ List.mem_cons_self), by simp [Scalar]⟩
  have : (⟨ID.key ⟨[['D', 'a', 't', 'a']]⟩⟩ : Field) = exData := by decide
  rw [this]
  exact h

theorem exScope {l : Link} (hl : l ∈ exP.m.msg.links) {fs : List Field} (hp : Path exP.m.msg fs l.source) : Cond exP.m opts (· ∈ fs) l.condition := by
  have litA : LitName exP.m ⟨[['A']]⟩ := ⟨exT, by simp [exP, Gen.exMsg, enums], _, List.mem_cons_self, .inl (by decide)⟩
  have litB : LitName exP.m ⟨[['P'], ['B']]⟩ :=
    ⟨exT, by simp [exP, Gen.exMsg, enums], (⟨[['B']]⟩, 2), by simp [exT], .inr (by decide)⟩
  have tag : l.source = exTag → exTag ∈ fs := by
    intro h
    rcases exPath hp with ⟨h', _⟩ | ⟨_, rfl⟩ | ⟨h', _⟩ | ⟨h', _⟩
    case inr.inl => simp
    all_goals exact absurd (h.symm.trans h') (by decide)
  have data : l.source = exData → exData ∈ fs := by
    intro h
    rcases exPath hp with ⟨h', _⟩ | ⟨h', _⟩ | ⟨h', _⟩ | ⟨_, rfl⟩
    case inr.inr.inr => simp
    all_goals exact absurd (h.symm.trans h') (by decide)
  rcases exLinks_iff.mp hl with rfl | rfl | rfl | rfl | rfl
  · trivial
  · exact ⟨⟨rfl, .inl (exTag_scalar (tag rfl))⟩, rfl, .inr litA⟩
  · exact ⟨⟨rfl, .inl (exTag_scalar (tag rfl))⟩, rfl, .inr litB⟩
  · trivial
  · exact ⟨⟨⟨rfl, rfl, by simp, .inr ⟨exData, by simp [exP, Gen.exMsg], data rfl, by decide, by simp⟩⟩, trivial⟩,
      ⟨rfl, exData_composite (data rfl), by simp, .inr ⟨rfl, rfl⟩⟩, trivial⟩

theorem exBool {l : Link} (hl : l ∈ exP.m.msg.links) {σ : Env} (hσ : Typed exP.m σ) : ∃ x, eval .ada σ l.condition = some (.bool x) := by
  obtain ⟨i, hi⟩ := hσ.scalar exTag (.enum exT) (by simp [exP, Gen.exMsg]) trivial
  obtain ⟨ds, hds⟩ := hσ.composite exData .opaque (by simp [exP, Gen.exMsg]) (by simp [Scalar])
  obtain ⟨a, ha⟩ := hσ.literal ⟨[['A']]⟩ ⟨exT, by simp [exP, Gen.exMsg, enums], _, List.mem_cons_self, .inl (by decide)⟩
  obtain ⟨bb, hb⟩ := hσ.literal ⟨[['P'], ['B']]⟩ ⟨exT, by simp [exP, Gen.exMsg, enums], (⟨[['B']]⟩, 2), by simp [exT], .inr (by decide)⟩
  obtain ⟨s, hs⟩ := hσ.attr .size (ID.key ⟨[['D', 'a', 't', 'a']]⟩)
  have hi' : σ.var (ID.key ⟨[['T', 'a', 'g']]⟩) = .int i := hi
  have hd' : σ.var (ID.key ⟨[['D', 'a', 't', 'a']]⟩) = .seq ds := hds
  rcases exLinks_iff.mp hl with rfl | rfl | rfl | rfl | rfl
  · exact ⟨true, rfl⟩
  · simp only [exL2, exTagV, Expr.v, eval, hi', ha]
    exact ⟨_, rfl⟩
  · simp only [exL3, exTagV, Expr.v, eval, hi', hb]
    exact ⟨_, rfl⟩
  · exact ⟨true, rfl⟩
  · simp only [exL5, exDataSize, exDataV, Expr.v, Expr.n, eval, evalL, hs, hd']
    exact ⟨_, rfl⟩

theorem exU8_size : exU8.size = .ok (Num.n 8) := rfl
theorem exT_size : FTy.size (.enum exT) = .ok (Num.n 8) := rfl

theorem exWellFormed : WellFormed exP where
  names := exPNames _
  size := by simp [exP, Gen.exMsg]; decide
  affix := by
    intro f hf n hn
    have : f = exTag ∨ f = exLen ∨ f = exData := by simpa [exP, Gen.exMsg] using hf
    rcases this with rfl | rfl | rfl <;> cases hn <;> rfl
  nodup := by
    have : exP.m.msg.fields = [exTag, exLen, exData] := rfl
    rw [this]; decide
  initial := by simp [exP, Gen.exMsg]; decide
  final := by simp [exP, Gen.exMsg]; decide
  typed := by
    intro f hf
    have : f = exTag ∨ f = exLen ∨ f = exData := by simpa [exP, Gen.exMsg] using hf
    rcases this with rfl | rfl | rfl
    · exact ⟨_, exTypes_iff.mpr (.inl ⟨rfl, rfl⟩)⟩
    · exact ⟨_, exTypes_iff.mpr (.inr (.inl ⟨rfl, rfl⟩))⟩
    · exact ⟨_, exTypes_iff.mpr (.inr (.inr ⟨rfl, rfl⟩))⟩
  int := by
    intro f t h
    rcases exTypes_iff.mp h with ⟨_, h⟩ | ⟨_, h⟩ | ⟨_, h⟩
    · cases h
    · cases h
      exact ⟨⟨[['M'], ['U', '8']]⟩, .n 256, rfl⟩
    · cases h
  enum := by
    intro f t h
    rcases exTypes_iff.mp h with ⟨_, h⟩ | ⟨_, h⟩ | ⟨_, h⟩
    · cases h
      exact ⟨⟨exT.id, [(.id ⟨[['A']]⟩, 1), (.id ⟨[['B']]⟩, 2)], .n 8, false, by with_unfolding_all rfl⟩, by simp [exT]⟩
    · cases h
    · cases h
  sized := by
    intro f t h hs
    rcases exTypes_iff.mp h with ⟨_, rfl⟩ | ⟨_, rfl⟩ | ⟨_, rfl⟩
    · exact ⟨_, exT_size, by decide⟩
    · exact ⟨_, exU8_size, by decide⟩
    · simp [Scalar] at hs
  start := ⟨exL1, by rfl, rfl⟩
  links := by
    intro l hl
    have m1 : exTag ∈ exP.m.msg.fields := by simp [exP, Gen.exMsg]
    have m2 : exLen ∈ exP.m.msg.fields := by simp [exP, Gen.exMsg]
    have m3 : exData ∈ exP.m.msg.fields := by simp [exP, Gen.exMsg]
    rcases exLinks_iff.mp hl with rfl | rfl | rfl | rfl | rfl
    · exact ⟨.inl rfl, .inr m1⟩
    · exact ⟨.inr m1, .inr m2⟩
    · exact ⟨.inr m1, .inl rfl⟩
    · exact ⟨.inr m2, .inr m3⟩
    · exact ⟨.inr m3, .inl rfl⟩
  order := by
    have hfs : exP.m.msg.fields = [exTag, exLen, exData] := rfl
    intro l hl h1 h2
    rw [hfs] at h1 h2 ⊢
    rcases exLinks_iff.mp hl with rfl | rfl | rfl | rfl | rfl
    · revert h1; decide
    · decide
    · revert h2; decide
    · decide
    · revert h2; decide
  reached := by
    intro f hf
    have : f = exTag ∨ f = exLen ∨ f = exData := by simpa [exP, Gen.exMsg] using hf
    rcases this with rfl | rfl | rfl
    · exact ⟨exL1, by simp [exP], rfl⟩
    · exact ⟨exL2, by simp [exP], rfl⟩
    · exact ⟨exL4, by simp [exP], rfl⟩
  left := by
    intro f hf
    have : f = exTag ∨ f = exLen ∨ f = exData := by simpa [exP, Gen.exMsg] using hf
    have h : ∀ l ∈ exP.m.msg.links, l.source = f → outgoing exP.m.msg.links f ≠ [] :=
      fun l hl hs => List.ne_nil_of_mem (a := l) (by simp [outgoing, hl, hs])
    rcases this with rfl | rfl | rfl
    · exact h exL2 (by simp [exP]) rfl
    · exact h exL4 (by simp [exP]) rfl
    · exact h exL5 (by simp [exP]) rfl
  grouped := by
    intro f x y z hs
    exfalso
    have hlen : (outgoing exP.m.msg.links f).length ≤ 2 := by
      by_cases h : f = exTag
      · subst h; decide
      · by_cases h2 : f = INITIAL
        · subst h2; decide
        · by_cases h3 : f = exLen
          · subst h3; decide
          · by_cases h4 : f = exData
            · subst h4; decide
            · have : outgoing exP.m.msg.links f = [] := by
                simp only [outgoing, List.filter_eq_nil_iff, beq_iff_eq]
                intro l hl
                rcases exLinks_iff.mp hl with rfl | rfl | rfl | rfl | rfl
                · exact Ne.symm h2
                · exact Ne.symm h
                · exact Ne.symm h
                · exact Ne.symm h3
                · exact Ne.symm h4
              simp [this]
    have := hs.length_le
    simp at this
    omega
  noFirst := by
    intro l hl
    rcases exLinks_iff.mp hl with rfl | rfl | rfl | rfl | rfl <;> rfl
  scope := fun l hl fs hp => exScope hl hp
  wf := by
    intro l hl
    rcases exLinks_iff.mp hl with rfl | rfl | rfl | rfl | rfl
    all_goals
      refine ⟨?_, ?_⟩
      · first
          | trivial
          | (simp only [exL2, exL3, exL5, exTagV, exDataV, exDataSize, Expr.WF, Expr.WFL]; decide)
      · simp [exL1, exL2, exL3, exL4, exL5, exTagV, exLenV, exDataV, exDataSize, Expr.Good, Expr.GoodL]
  bool := fun l hl σ hσ => exBool hl hσ
  own := by
    intro l hl hs
    rcases exLinks_iff.mp hl with rfl | rfl | rfl | rfl | rfl
    · exact absurd hs (by simp [exP, Gen.exMsg, exL1]; decide)
    all_goals simp [exL2, exL3, exL4, exL5, exTagV, exDataV, exDataSize, Cov, CovL, NotFirst]
  sizeScope := by
    intro l hl t ht hs fs hp
    rcases exLinks_iff.mp hl with rfl | rfl | rfl | rfl | rfl
    · rcases exTypes_iff.mp ht with ⟨_, rfl⟩ | ⟨h, _⟩ | ⟨h, _⟩
      · exact absurd trivial hs
      all_goals exact absurd h (by decide)
    · rcases exTypes_iff.mp ht with ⟨h, _⟩ | ⟨_, rfl⟩ | ⟨h, _⟩
      case inr.inl => exact absurd trivial hs
      all_goals exact absurd h (by decide)
    · rcases exTypes_iff.mp ht with ⟨h, _⟩ | ⟨h, _⟩ | ⟨h, _⟩ <;> exact absurd h (by decide)
    · refine ⟨⟨rfl, .inl (exLen_scalar ?_)⟩, trivial, trivial⟩
      rcases exPath hp with ⟨h', _⟩ | ⟨h', _⟩ | ⟨_, rfl⟩ | ⟨h', _⟩
      case inr.inr.inl => simp
      all_goals exact absurd h' (by decide)
    · rcases exTypes_iff.mp ht with ⟨h, _⟩ | ⟨h, _⟩ | ⟨h, _⟩ <;> exact absurd h (by decide)
  sizeWF := by
    intro l hl t ht hs
    rcases exLinks_iff.mp hl with rfl | rfl | rfl | rfl | rfl
    · rcases exTypes_iff.mp ht with ⟨_, rfl⟩ | ⟨h, _⟩ | ⟨h, _⟩
      · exact absurd trivial hs
      all_goals exact absurd h (by decide)
    · rcases exTypes_iff.mp ht with ⟨h, _⟩ | ⟨_, rfl⟩ | ⟨h, _⟩
      case inr.inl => exact absurd trivial hs
      all_goals exact absurd h (by decide)
    · rcases exTypes_iff.mp ht with ⟨h, _⟩ | ⟨h, _⟩ | ⟨h, _⟩ <;> exact absurd h (by decide)
    · refine ⟨?_, ?_⟩
      · simp only [exL4, exLenV, Expr.WF, Expr.WFL, Expr.headOK]; decide
      · simp [exL4, exLenV, Expr.Good, Expr.GoodL]
    · rcases exTypes_iff.mp ht with ⟨h, _⟩ | ⟨h, _⟩ | ⟨h, _⟩ <;> exact absurd h (by decide)
  sizeInt := by
    intro l hl t ht hs σ hσ
    rcases exLinks_iff.mp hl with rfl | rfl | rfl | rfl | rfl
    · rcases exTypes_iff.mp ht with ⟨_, rfl⟩ | ⟨h, _⟩ | ⟨h, _⟩
      · exact absurd trivial hs
      all_goals exact absurd h (by decide)
    · rcases exTypes_iff.mp ht with ⟨h, _⟩ | ⟨_, rfl⟩ | ⟨h, _⟩
      case inr.inl => exact absurd trivial hs
      all_goals exact absurd h (by decide)
    · rcases exTypes_iff.mp ht with ⟨h, _⟩ | ⟨h, _⟩ | ⟨h, _⟩ <;> exact absurd h (by decide)
    · obtain ⟨i, hi⟩ := hσ.scalar exLen exU8 (by simp [exP, Gen.exMsg]) trivial
      have hi' : σ.var (ID.key ⟨[['L', 'e', 'n']]⟩) = .int i := hi
      simp only [exL4, exLenV, Expr.v, Expr.n, eval, evalL, hi']
      exact ⟨_, rfl⟩
    · rcases exTypes_iff.mp ht with ⟨h, _⟩ | ⟨h, _⟩ | ⟨h, _⟩ <;> exact absurd h (by decide)

theorem exDeterministic (b : Bytes) (lo hi : Int) : Deterministic exP.m.msg b lo hi := by
  intro es p pos _ l hl l' hl' hs hs' ht ht'
  have no : ∀ es, IsTrue exP.m.msg b lo hi es exL2.condition → IsTrue exP.m.msg b lo hi es exL3.condition → False := by
    intro es h2 h3
    obtain ⟨i, hi'⟩ := (itemEnv_typed (b := b) (lo := lo) (hi := hi) (es := es) exWellFormed).scalar exTag (.enum exT) (by simp [exP, Gen.exMsg]) trivial
    have hv : (itemEnv exP.m.msg b lo hi es).var (ID.key ⟨[['T', 'a', 'g']]⟩) = .int i := hi'
    have ha : (itemEnv exP.m.msg b lo hi es).var (ID.key ⟨[['A']]⟩) = .int 1 := rfl
    have hb : (itemEnv exP.m.msg b lo hi es).var (ID.key ⟨[['P'], ['B']]⟩) = .int 2 := rfl
    simp only [IsTrue, exL2, exL3, exTagV, Expr.v, eval, hv, ha, hb] at h2 h3
    simp [Val.negIf, RelOp.eval] at h2 h3
    omega
  have hne : ∀ {x y : Link}, x.source = p → y.source = p → x.source ≠ y.source → False := fun h1 h2 h => h (h1.trans h2.symm)
  rcases exLinks_iff.mp hl with rfl | rfl | rfl | rfl | rfl <;> rcases exLinks_iff.mp hl' with rfl | rfl | rfl | rfl | rfl
  all_goals first
    | rfl
    | exact (no es ht ht').elim
    | exact (no es ht' ht).elim
    | exact (hne hs hs' (by decide)).elim

theorem exSizes {b : Bytes} {lo hi : Int} (I : InBuffer exP b lo hi) : Sizes exP b lo hi := by
  intro es p pos h l hl hs hf ht t htt hsc n hn
  have : l = exL4 := by
    rcases exTypes_iff.mp htt with ⟨_, rfl⟩ | ⟨_, rfl⟩ | ⟨h, _⟩
    · exact absurd trivial hsc
    · exact absurd trivial hsc
    · rcases exLinks_iff.mp hl with rfl | rfl | rfl | rfl | rfl
      all_goals first
        | rfl
        | exact absurd h (by decide)
  subst this
  cases es with
  | nil => exact absurd ((follows_nil h).1.symm.trans hs.symm) (by decide)
  | cons y es =>
    have hy : exLen = y.f := hs.trans (follows_last h)
    obtain ⟨t', ht', _, h2⟩ := follows_type h List.mem_cons_self
    have : t' = exU8 := nodup_pair (exPNames opts).once ht' (by rw [← hy]; simp [exP, Gen.exMsg])
    subst this
    obtain ⟨k, hk, hv, hlast, _⟩ := h2 trivial
    rw [exU8_size] at hk
    cases hk
    obtain ⟨_, _, _, _, _, _, hpos⟩ := follows_cons h
    obtain ⟨hb1, _⟩ := (follows_bounds exWellFormed I.order h).2.2 y List.mem_cons_self
    have hlo := I.lower.1
    have hlt := bitsAt_lt b y.first 8
    have hvar : (itemEnv exP.m.msg b lo hi (y :: es)).var (ID.key ⟨[['L', 'e', 'n']]⟩) = .int y.value := by
      show (match exP.m.msg.type? exLen, (y :: es).find? (fun e => e.f == exLen) with | none, _ => _ | some t, some e => _ | some t, none => _) = Val.int y.value
      rw [show exP.m.msg.type? exLen = some exU8 from rfl, List.find?_cons_of_pos (by simp [hy])]
      rfl
    simp only [exL4, exLenV, Expr.v, Expr.n, eval, evalL, hvar] at hn
    simp [Val.negIf, allSome, Val.int?, intProd] at hn
    have hv' : y.value = ((bitsAt b y.first 8 : Nat) : Int) := hv
    have hl' : y.last = y.first + 8 - 1 := hlast
    simp only [exP]
    omega

/-- The bytes of a message: the tag `A`, the length 2, the data `[1, 3]`. -/
def exBytes : Bytes := ⟨5, [1, 2, 1, 3]⟩

theorem exInBuffer : InBuffer exP exBytes 33 64 :=
  ⟨by decide, by decide, by decide, by decide, by decide⟩

theorem exIsMessage : IsMessage exP.m.msg exBytes 33 64
    [⟨exData, 49, 64, 0⟩, ⟨exLen, 41, 48, 2⟩, ⟨exTag, 33, 40, 1⟩] := by
  have h1 : Follows exP.m.msg exBytes 33 64 [⟨exTag, 33, 40, 1⟩] exTag 41 :=
    Follows.scalar .start (l := exL1) (t := .enum exT) (n := Num.n 8) (by simp [exP]) rfl (by decide) rfl (by simp [exP, Gen.exMsg, exL1]) trivial exT_size
      (by decide) (.inr (by decide))
  have h2 : Follows exP.m.msg exBytes 33 64 [⟨exLen, 41, 48, 2⟩, ⟨exTag, 33, 40, 1⟩] exLen 49 :=
    Follows.scalar h1 (l := exL2) (t := exU8) (n := Num.n 8) (by simp [exP]) rfl (by decide) rfl (by simp [exP, Gen.exMsg, exL2]) trivial exU8_size
      (by decide) ⟨Num.n 0, Num.n 255, rfl, rfl, by decide, by decide⟩
  have h3 : Follows exP.m.msg exBytes 33 64 [⟨exData, 49, 64, 0⟩, ⟨exLen, 41, 48, 2⟩, ⟨exTag, 33, 40, 1⟩] exData 65 :=
    Follows.composite h2 (l := exL4) (t := .opaque) (n := 16) (by simp [exP]) rfl (by decide) rfl (by simp [exP, Gen.exMsg, exL4]) (by simp [Scalar]) rfl
      (by decide) (by decide)
  exact ⟨_, _, exL5, h3, by simp [exP], rfl, rfl, rfl⟩

example : ∃ c, exP.parse exBytes 33 64 = .ok c ∧ exP.structuralValidMessage c = .ok true := by
  obtain ⟨c, r, h1, h2, h3⟩ := C29_accepts exWellFormed exInBuffer (exDeterministic _ _ _) (exSizes exInBuffer)
  exact ⟨c, h1, h3.mpr ⟨_, exIsMessage⟩ ▸ h2⟩

example : ∃ c, exP.parse exBytes 33 64 = .ok c ∧ Reflects exP c [⟨exData, 49, 64, 0⟩, ⟨exLen, 41, 48, 2⟩, ⟨exTag, 33, 40, 1⟩] :=
  C29_fields exWellFormed exInBuffer (exDeterministic _ _ _) (exSizes exInBuffer) exIsMessage

example : ∃ c, exP.parse exBytes 33 64 = .ok c ∧ ∀ e ∈ [(⟨exData, 49, 64, 0⟩ : Item), ⟨exLen, 41, 48, 2⟩, ⟨exTag, 33, 40, 1⟩],
    exP.fieldFirst c e.f = .ok e.first ∧ exP.fieldLast c e.f = .ok e.last ∧ exP.fieldSize c e.f = .ok (e.last - e.first + 1) :=
  C29_field_first exWellFormed exInBuffer (exDeterministic _ _ _) (exSizes exInBuffer) exIsMessage

example : ∃ c es p pos, exP.parse ⟨5, [1, 2, 1]⟩ 33 56 = .ok c ∧ Follows exP.m.msg ⟨5, [1, 2, 1]⟩ 33 56 es p pos ∧ Reflects exP c es :=
  have I : InBuffer exP ⟨5, [1, 2, 1]⟩ 33 56 := ⟨by decide, by decide, by decide, by decide, by decide⟩
  C29_prefix exWellFormed I (exDeterministic _ _ _) (exSizes I)

/-- The bytes of a message of scalars: the tag `B`. -/
example : ∃ c, exP.parse ⟨1, [2]⟩ 1 8 = .ok c ∧ exP.validMessage c = .ok true := by
  have I : InBuffer exP ⟨1, [2]⟩ 1 8 := ⟨by decide, by decide, by decide, by decide, by decide⟩
  obtain ⟨c, r, h1, h2, h3⟩ := C29_valid_message_partial exWellFormed I (exDeterministic _ _ _) (exSizes I)
  refine ⟨c, h1, h3.mpr ⟨[⟨exTag, 1, 8, 2⟩], ⟨exTag, 9, exL3, ?_, by simp [exP], rfl, rfl, rfl⟩, ?_⟩ ▸ h2⟩
  · exact Follows.scalar .start (l := exL1) (t := .enum exT) (n := Num.n 8) (by simp [exP]) rfl (by decide) rfl (by simp [exP, Gen.exMsg, exL1]) trivial exT_size
      (by decide) (.inr (by decide))
  · intro e he
    cases List.mem_singleton.mp he
    exact ⟨.enum exT, by simp [exP, Gen.exMsg], trivial⟩

/-- `Valid_Message` is false after `Verify_Message` though there is a message in the buffer, because `Verify` leaves composite
fields in the state `S_Structural_Valid`. -/
theorem C29_valid_message_counterexample : ∃ P b lo hi c es, WellFormed P ∧ InBuffer P b lo hi ∧ Deterministic P.m.msg b lo hi ∧ Sizes P b lo hi ∧
    IsMessage P.m.msg b lo hi es ∧ P.parse b lo hi = .ok c ∧ P.validMessage c = .ok false := by
  obtain ⟨c, r, h1, h2, h3⟩ := C29_valid_message_partial exWellFormed exInBuffer (exDeterministic _ _ _) (exSizes exInBuffer)
  refine ⟨exP, exBytes, 33, 64, c, _, exWellFormed, exInBuffer, exDeterministic _ _ _, exSizes exInBuffer, exIsMessage, h1, ?_⟩
  cases r with
  | false => exact h2
  | true =>
    obtain ⟨es, hm, hs⟩ := h3.mp rfl
    exfalso
    obtain ⟨c1, hc1, R1⟩ := C29_fields exWellFormed exInBuffer (exDeterministic _ _ _) (exSizes exInBuffer) exIsMessage
    obtain ⟨c2, hc2, R2⟩ := C29_fields exWellFormed exInBuffer (exDeterministic _ _ _) (exSizes exInBuffer) hm
    rw [hc1] at hc2
    cases hc2
    have h4 := (R1.valid ⟨exData, 49, 64, 0⟩ (by simp)).1
    by_cases hd : exData ∈ es.map (·.f)
    · obtain ⟨e, he, hef⟩ := List.mem_map.mp hd
      obtain ⟨t, ht, hsc⟩ := hs e he
      rw [hef] at ht
      have := nodup_pair (exPNames opts).once ht (show (exData, FTy.opaque) ∈ exP.m.msg.types by simp [exP, Gen.exMsg])
      subst this
      simp [Scalar] at hsc
    · have := R2.invalid exData (by simp [exP, Gen.exMsg]) hd
      simp only at h4
      rw [h4] at this
      split at this <;> rcases this with this | this <;> cases this

end Verif.Ctx
