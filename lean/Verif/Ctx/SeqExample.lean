import Verif.Ctx.SeqProps
import Verif.Ctx.HistoryExample

/-! # C65: an example, and counterexamples

```
type N is range 2 .. 11 with Size => 4;
type S is sequence of N;
type M is
   message
      Len : U8
         then Data
            with Size => Len * 8;
      Data : S
         then Tag
            if Data'Size >= 8;
      Tag : T;
   end message;
``` -/

namespace Verif.Ctx
open Verif Verif.Graph Verif.Verify Verif.Types Verif.Gen
open Verif.Spark hiding byteIndex

def seqN : IntType := .range ⟨⟨[['P'], ['N']]⟩, .n 2, ⟨2, .b0⟩, .n 11, ⟨11, .b0⟩, .n 4⟩

def seqL1 : Link := ⟨INITIAL, exLen, .tru, .undefined, .undefined⟩
def seqL2 : Link := ⟨exLen, exData, .tru, .mul [exLenV, .n 8], .undefined⟩
def seqL3 : Link := ⟨exData, exTag, .rel .ge exDataSize (.n 8), .undefined, .undefined⟩
def seqL4 : Link := ⟨exTag, FINAL, .tru, .undefined, .undefined⟩

/-- A message with a sequence. -/
def seqPkg (ls : List Link) : Pkg :=
  ⟨⟨⟨⟨[['P'], ['M']]⟩, ls, [exLen, exData, exTag], [(exLen, exU8), (exData, .array ⟨[['P'], ['S']]⟩ (.int seqN)), (exTag, .enum exT)], []⟩, exSpell⟩, 17179869176⟩

def seqP : Pkg := seqPkg [seqL1, seqL2, seqL3, seqL4]

theorem seqLinks_iff {l : Link} : l ∈ seqP.m.msg.links ↔ l = seqL1 ∨ l = seqL2 ∨ l = seqL3 ∨ l = seqL4 := by
  simp [seqP, seqPkg]

theorem seqTypes_iff {f : Field} {t : FTy} : (f, t) ∈ seqP.m.msg.types ↔
    (f = exLen ∧ t = exU8) ∨ (f = exData ∧ t = .array ⟨[['P'], ['S']]⟩ (.int seqN)) ∨ (f = exTag ∧ t = .enum exT) := by
  simp [seqP, seqPkg]

theorem seqFields_iff {f : Field} : f ∈ seqP.m.msg.fields ↔ f = exLen ∨ f = exData ∨ f = exTag := by
  simp [seqP, seqPkg]

theorem seqArray_iff {f : Field} {t : FTy} : ArrayOf seqP.m.msg f t ↔ f = exData ∧ t = .int seqN := by
  constructor
  · rintro ⟨_, id, h⟩
    rcases seqTypes_iff.mp h with ⟨_, h⟩ | ⟨h1, h⟩ | ⟨_, h⟩
    · cases h
    · cases h
      exact ⟨h1, rfl⟩
    · cases h
  · rintro ⟨rfl, rfl⟩
    exact ⟨trivial, _, seqTypes_iff.mpr (.inr (.inl ⟨rfl, rfl⟩))⟩

theorem seqLits {id : ID} (h : LitName seqP.m id) : LitName Gen.exMsg id := by
  obtain ⟨t, ht, h⟩ := h
  refine ⟨t, ?_, h⟩
  have : t = exT := by simpa [seqP, seqPkg, enums, exU8] using ht
  subst this
  simp [Gen.exMsg, enums]

theorem seqNames (o : Opts) : Names seqP.m o where
  field := by
    intro f hf
    rcases seqFields_iff.mp hf with rfl | rfl | rfl <;> exact ⟨by decide, by decide⟩
  typed := by
    rintro ⟨f, t⟩ he
    rcases seqTypes_iff.mp he with ⟨rfl, _⟩ | ⟨rfl, _⟩ | ⟨rfl, _⟩ <;> simp [seqP, seqPkg]
  once := by
    have : seqP.m.msg.types.map (·.1) = [exLen, exData, exTag] := rfl
    rw [this]; decide
  enum := by
    intro t ht
    have : t = exT := by simpa [seqP, seqPkg, enums, exU8] using ht
    subst this
    decide
  literal := by
    intro id h
    obtain ⟨h1, h2⟩ := (exNames o).literal id (seqLits h)
    refine ⟨fun hf => h1 ?_, h2⟩
    rcases seqFields_iff.mp hf with h | h | h <;> rw [h] <;> simp [Gen.exMsg]
  checksum := by simp [seqP, seqPkg]
  message := by simp [seqP, seqPkg]; decide
  ctx := by simp [seqP, seqPkg]; decide

theorem seqPath {fs : List Field} {p : Field} (h : Path seqP.m.msg fs p) :
    (p = INITIAL ∧ fs = []) ∨ (p = exLen ∧ fs = [exLen]) ∨ (p = exData ∧ fs = [exData, exLen]) ∨ (p = exTag ∧ fs = [exTag, exData, exLen]) := by
  induction h with
  | start => exact .inl ⟨rfl, rfl⟩
  | @step fs p l _ h1 h2 h3 ih =>
    rcases seqLinks_iff.mp h1 with rfl | rfl | rfl | rfl
    · rcases ih with ⟨_, rfl⟩ | ⟨h, _⟩ | ⟨h, _⟩ | ⟨h, _⟩
      · exact .inr (.inl ⟨rfl, rfl⟩)
      all_goals exact absurd (h2.trans h) (by decide)
    · rcases ih with ⟨h, _⟩ | ⟨_, rfl⟩ | ⟨h, _⟩ | ⟨h, _⟩
      case inr.inl => exact .inr (.inr (.inl ⟨rfl, rfl⟩))
      all_goals exact absurd (h2.trans h) (by decide)
    · rcases ih with ⟨h, _⟩ | ⟨h, _⟩ | ⟨_, rfl⟩ | ⟨h, _⟩
      case inr.inr.inl => exact .inr (.inr (.inr ⟨rfl, rfl⟩))
      all_goals exact absurd (h2.trans h) (by decide)
    · exact absurd rfl h3

/-- Only `Data` is composite. -/
theorem seqComposite {l : Link} (hl : l ∈ seqP.m.msg.links) {t : FTy} (ht : (l.target, t) ∈ seqP.m.msg.types) (hs : ¬ Scalar t) : l = seqL2 := by
  have hd : l.target = exData := by
    rcases seqTypes_iff.mp ht with ⟨_, rfl⟩ | ⟨h, _⟩ | ⟨_, rfl⟩
    · exact absurd trivial hs
    · exact h
    · exact absurd trivial hs
  rcases seqLinks_iff.mp hl with rfl | rfl | rfl | rfl
  case inr.inl => rfl
  all_goals exact absurd hd (by decide)

theorem seqN_accepted : seqN.Accepted := ⟨⟨[['P'], ['N']]⟩, .n 2, .n 11, .n 4, by
  rw [C05_range_iff]
  exact ⟨rfl, ⟨2, .b0⟩, ⟨11, .b0⟩, ⟨4, .b0⟩, rfl, rfl, rfl, by decide, by decide, by decide, by decide, by decide, by decide, rfl⟩⟩

theorem seqN_size : FTy.size (.int seqN) = .ok (Num.n 4) := rfl

theorem seqWellFormed : WellFormed seqP where
  names := seqNames _
  size := by simp [seqP, seqPkg]; decide
  affix := by
    intro f hf n hn
    rcases seqFields_iff.mp hf with rfl | rfl | rfl <;> cases hn <;> rfl
  nodup := by
    have : seqP.m.msg.fields = [exLen, exData, exTag] := rfl
    rw [this]; decide
  initial := by simp [seqP, seqPkg]; decide
  final := by simp [seqP, seqPkg]; decide
  typed := by
    intro f hf
    rcases seqFields_iff.mp hf with rfl | rfl | rfl
    · exact ⟨_, seqTypes_iff.mpr (.inl ⟨rfl, rfl⟩)⟩
    · exact ⟨_, seqTypes_iff.mpr (.inr (.inl ⟨rfl, rfl⟩))⟩
    · exact ⟨_, seqTypes_iff.mpr (.inr (.inr ⟨rfl, rfl⟩))⟩
  int := by
    intro f t h
    rcases seqTypes_iff.mp h with ⟨_, h⟩ | ⟨_, h⟩ | ⟨_, h⟩
    · cases h
      exact ⟨⟨[['M'], ['U', '8']]⟩, .n 256, rfl⟩
    · cases h
    · cases h
  enum := by
    intro f t h
    rcases seqTypes_iff.mp h with ⟨_, h⟩ | ⟨_, h⟩ | ⟨_, h⟩
    · cases h
    · cases h
    · cases h
      exact ⟨⟨exT.id, [(.id ⟨[['A']]⟩, 1), (.id ⟨[['B']]⟩, 2)], .n 8, false, by with_unfolding_all rfl⟩, by simp [exT]⟩
  sized := by
    intro f t h hs
    rcases seqTypes_iff.mp h with ⟨_, rfl⟩ | ⟨_, rfl⟩ | ⟨_, rfl⟩
    · exact ⟨_, exU8_size, by decide⟩
    · simp [Scalar] at hs
    · exact ⟨_, exT_size, by decide⟩
  start := ⟨seqL1, by rfl, rfl⟩
  links := by
    intro l hl
    rcases seqLinks_iff.mp hl with rfl | rfl | rfl | rfl
    · exact ⟨.inl rfl, .inr (seqFields_iff.mpr (.inl rfl))⟩
    · exact ⟨.inr (seqFields_iff.mpr (.inl rfl)), .inr (seqFields_iff.mpr (.inr (.inl rfl)))⟩
    · exact ⟨.inr (seqFields_iff.mpr (.inr (.inl rfl))), .inr (seqFields_iff.mpr (.inr (.inr rfl)))⟩
    · exact ⟨.inr (seqFields_iff.mpr (.inr (.inr rfl))), .inl rfl⟩
  order := by
    have hfs : seqP.m.msg.fields = [exLen, exData, exTag] := rfl
    intro l hl h1 h2
    rw [hfs] at h1 h2 ⊢
    rcases seqLinks_iff.mp hl with rfl | rfl | rfl | rfl
    · revert h1; decide
    · decide
    · decide
    · revert h2; decide
  reached := by
    intro f hf
    rcases seqFields_iff.mp hf with rfl | rfl | rfl
    · exact ⟨seqL1, by simp [seqP, seqPkg], rfl⟩
    · exact ⟨seqL2, by simp [seqP, seqPkg], rfl⟩
    · exact ⟨seqL3, by simp [seqP, seqPkg], rfl⟩
  left := by
    intro f hf
    have h : ∀ l ∈ seqP.m.msg.links, l.source = f → outgoing seqP.m.msg.links f ≠ [] :=
      fun l hl hs => List.ne_nil_of_mem (a := l) (by simp [outgoing, hl, hs])
    rcases seqFields_iff.mp hf with rfl | rfl | rfl
    · exact h seqL2 (by simp [seqP, seqPkg]) rfl
    · exact h seqL3 (by simp [seqP, seqPkg]) rfl
    · exact h seqL4 (by simp [seqP, seqPkg]) rfl
  grouped := by
    intro f x y z hs
    exfalso
    have hlen : (outgoing seqP.m.msg.links f).length ≤ 2 := by
      by_cases h : f = exTag
      · subst h; decide
      · by_cases h2 : f = INITIAL
        · subst h2; decide
        · by_cases h3 : f = exLen
          · subst h3; decide
          · by_cases h4 : f = exData
            · subst h4; decide
            · have : outgoing seqP.m.msg.links f = [] := by
                simp only [outgoing, List.filter_eq_nil_iff, beq_iff_eq]
                intro l hl
                rcases seqLinks_iff.mp hl with rfl | rfl | rfl | rfl
                · exact Ne.symm h2
                · exact Ne.symm h3
                · exact Ne.symm h4
                · exact Ne.symm h
              simp [this]
    have := hs.length_le
    simp at this
    omega
  noFirst := by
    intro l hl
    rcases seqLinks_iff.mp hl with rfl | rfl | rfl | rfl <;> rfl
  scope := by
    intro l hl fs hp
    rcases seqLinks_iff.mp hl with rfl | rfl | rfl | rfl
    · trivial
    · trivial
    · have : exData ∈ fs := by
        rcases seqPath hp with ⟨h', _⟩ | ⟨h', _⟩ | ⟨_, rfl⟩ | ⟨h', _⟩
        case inr.inr.inl => simp
        all_goals exact absurd h' (by decide)
      exact ⟨⟨rfl, rfl, by simp, .inr ⟨exData, by simp [seqP, seqPkg], this, by decide, by simp⟩⟩, trivial⟩
    · trivial
  wf := by
    intro l hl
    rcases seqLinks_iff.mp hl with rfl | rfl | rfl | rfl
    all_goals
      refine ⟨?_, ?_⟩
      · first
          | trivial
          | (simp only [seqL3, exDataV, exDataSize, Expr.WF, Expr.WFL]; decide)
      · simp [seqL1, seqL2, seqL3, seqL4, exDataV, exDataSize, Expr.Good, Expr.GoodL]
  bool := by
    intro l hl σ hσ
    obtain ⟨s, hs⟩ := hσ.attr .size (ID.key ⟨[['D', 'a', 't', 'a']]⟩)
    rcases seqLinks_iff.mp hl with rfl | rfl | rfl | rfl
    · exact ⟨true, rfl⟩
    · exact ⟨true, rfl⟩
    · simp only [seqL3, exDataSize, exDataV, Expr.v, Expr.n, eval, evalL, hs]
      exact ⟨_, rfl⟩
    · exact ⟨true, rfl⟩
  own := by
    intro l hl hs
    rcases seqLinks_iff.mp hl with rfl | rfl | rfl | rfl
    · exact absurd hs (by simp [seqP, seqPkg, seqL1]; decide)
    all_goals simp [seqL2, seqL3, seqL4, exDataV, exDataSize, Cov, CovL, NotFirst]
  sizeScope := by
    intro l hl t ht hs fs hp
    have := seqComposite hl ht hs
    subst this
    have hm : exLen ∈ fs := by
      rcases seqPath hp with ⟨h', _⟩ | ⟨_, rfl⟩ | ⟨h', _⟩ | ⟨h', _⟩
      case inr.inl => simp
      all_goals exact absurd h' (by decide)
    refine ⟨⟨rfl, .inl ⟨?_, exU8, seqTypes_iff.mpr (.inl ⟨by decide, rfl⟩), trivial⟩⟩, trivial, trivial⟩
    have : (⟨ID.key ⟨[['L', 'e', 'n']]⟩⟩ : Field) = exLen := by decide
    rw [this]
    exact hm
  sizeWF := by
    intro l hl t ht hs
    have := seqComposite hl ht hs
    subst this
    refine ⟨?_, ?_⟩
    · simp only [seqL2, exLenV, Expr.WF, Expr.WFL, Expr.headOK]; decide
    · simp [seqL2, exLenV, Expr.Good, Expr.GoodL]
  sizeInt := by
    intro l hl t ht hs σ hσ
    have := seqComposite hl ht hs
    subst this
    obtain ⟨i, hi⟩ := hσ.scalar exLen exU8 (seqTypes_iff.mpr (.inl ⟨rfl, rfl⟩)) trivial
    have hi' : σ.var (ID.key ⟨[['L', 'e', 'n']]⟩) = .int i := hi
    simp only [seqL2, exLenV, Expr.v, Expr.n, eval, evalL, hi']
    exact ⟨_, rfl⟩

theorem seqDeterministic (b : Bytes) (lo hi : Int) : Deterministic seqP.m.msg b lo hi := by
  intro es p pos _ l hl l' hl' hs hs' _ _
  have hne : l.source = l'.source := hs.trans hs'.symm
  rcases seqLinks_iff.mp hl with rfl | rfl | rfl | rfl <;> rcases seqLinks_iff.mp hl' with rfl | rfl | rfl | rfl
  all_goals first
    | rfl
    | exact absurd hne (by decide)

theorem seqSizes {b : Bytes} {lo hi : Int} (I : InBuffer seqP b lo hi) : Sizes seqP b lo hi := by
  intro es p pos h l hl hs hf ht t htt hsc n hn
  have := seqComposite hl htt hsc
  subst this
  cases es with
  | nil => exact absurd ((follows_nil h).1.symm.trans hs.symm) (by decide)
  | cons y es =>
    have hy : exLen = y.f := hs.trans (follows_last h)
    obtain ⟨t', ht', _, h2⟩ := follows_type h List.mem_cons_self
    have : t' = exU8 := nodup_pair (seqNames opts).once ht' (by rw [← hy]; simp [seqP, seqPkg])
    subst this
    obtain ⟨k, hk, hv, hlast, _⟩ := h2 trivial
    rw [exU8_size] at hk
    cases hk
    obtain ⟨_, _, _, _, _, _, hpos⟩ := follows_cons h
    obtain ⟨hb1, _⟩ := (follows_bounds seqWellFormed I.order h).2.2 y List.mem_cons_self
    have hlo := I.lower.1
    have hlt := bitsAt_lt b y.first 8
    have hvar : (itemEnv seqP.m.msg b lo hi (y :: es)).var (ID.key ⟨[['L', 'e', 'n']]⟩) = .int y.value := by
      show (match seqP.m.msg.type? exLen, (y :: es).find? (fun e => e.f == exLen) with | none, _ => _ | some t, some e => _ | some t, none => _) = Val.int y.value
      rw [show seqP.m.msg.type? exLen = some exU8 from rfl, List.find?_cons_of_pos (by simp [hy])]
      rfl
    simp only [seqL2, exLenV, Expr.v, Expr.n, eval, evalL, hvar] at hn
    simp [Val.negIf, allSome, Val.int?, intProd] at hn
    have hv' : y.value = ((bitsAt b y.first 8 : Nat) : Int) := hv
    have hl' : y.last = y.first + 8 - 1 := hlast
    simp only [seqP, seqPkg]
    omega

theorem seqAligned {b : Bytes} {lo hi : Int} (hlo : lo % 8 = 1) {es : List Item} {p : Field} {pos : Int} (h : Follows seqP.m.msg b lo hi es p pos) :
    pos % 8 = 1 ∧ ∀ e ∈ es, e.first % 8 = 1 ∧ e.last % 8 = 0 := by
  induction h with
  | start => exact ⟨hlo, by simp⟩
  | @scalar es p pos l t n _ _ _ _ _ htt hs hn _ _ ih =>
    have : n.v = 8 := by
      rcases seqTypes_iff.mp htt with ⟨_, rfl⟩ | ⟨_, rfl⟩ | ⟨_, rfl⟩
      · rw [exU8_size] at hn; cases hn; rfl
      · simp [Scalar] at hs
      · rw [exT_size] at hn; cases hn; rfl
    refine ⟨by omega, ?_⟩
    intro e he
    rcases List.mem_cons.mp he with rfl | he
    · exact ⟨ih.1, by simp only; omega⟩
    · exact ih.2 e he
  | @composite es p pos l t n _ hl _ _ _ htt hs hn _ _ ih =>
    have := seqComposite hl htt hs
    subst this
    obtain ⟨i, hi'⟩ := (itemEnv_typed (b := b) (lo := lo) (hi := hi) (es := es) seqWellFormed).scalar exLen exU8 (seqTypes_iff.mpr (.inl ⟨rfl, rfl⟩)) trivial
    have hvar : (itemEnv seqP.m.msg b lo hi es).var (ID.key ⟨[['L', 'e', 'n']]⟩) = .int i := hi'
    simp only [seqL2, exLenV, Expr.v, Expr.n, eval, evalL, hvar] at hn
    simp [Val.negIf, allSome, Val.int?, intProd] at hn
    refine ⟨by omega, ?_⟩
    intro e he
    rcases List.mem_cons.mp he with rfl | he
    · exact ⟨ih.1, by simp only; omega⟩
    · exact ih.2 e he

theorem seqVerified : Verified seqP 33 64 where
  deterministic b _ := seqDeterministic b _ _
  sizes _ I := seqSizes I
  aligned _ _ _ _ _ h e he _ _ _ := (seqAligned (by decide) h).2 e he
  nonempty b I y p pos h := by
    obtain ⟨t, ht, _, h2⟩ := follows_type h List.mem_cons_self
    rcases seqPath (follows_path h) with ⟨_, h'⟩ | ⟨_, h'⟩ | ⟨_, h'⟩ | ⟨_, h'⟩
    case inr.inl =>
      have hy : y.f = exLen := by simpa using h'
      have : t = exU8 := nodup_pair (seqNames opts).once ht (by rw [hy]; simp [seqP, seqPkg])
      subst this
      obtain ⟨k, hk, _, hlast, _⟩ := h2 trivial
      rw [exU8_size] at hk
      cases hk
      have hl : y.last = y.first + 8 - 1 := hlast
      omega
    all_goals simp at h'

theorem seqUnread : Unread seqP where
  condition := by
    intro l hl σ σ' ha _
    rcases seqLinks_iff.mp hl with rfl | rfl | rfl | rfl
    case inr.inr.inl => simp only [seqL3, exDataSize, exDataV, Expr.v, Expr.n, eval, ha]
    all_goals rfl
  size := by
    intro l hl hc σ σ' _ hv
    rcases seqLinks_iff.mp hl with rfl | rfl | rfl | rfl
    case inr.inl =>
      have : σ.var (ID.key ⟨[['L', 'e', 'n']]⟩) = σ'.var (ID.key ⟨[['L', 'e', 'n']]⟩) := by
        refine hv _ ?_
        rintro ⟨t, h⟩
        exact absurd (seqArray_iff.mp h).1 (by decide)
      simp only [seqL2, exLenV, Expr.v, Expr.n, eval, evalL, this]
    all_goals exact absurd hc (by decide)
  place := by
    intro l hl t ha
    have := seqComposite (t := .array ⟨[['P'], ['S']]⟩ (.int seqN)) hl (seqTypes_iff.mpr (.inr (.inl ⟨(seqArray_iff.mp ha).1, rfl⟩))) (by simp [Scalar])
    subst this
    refine ⟨fun _ _ _ _ => rfl, fun σ σ' _ hv => ?_⟩
    have : σ.var (ID.key ⟨[['L', 'e', 'n']]⟩) = σ'.var (ID.key ⟨[['L', 'e', 'n']]⟩) := hv _ (by decide)
    simp only [seqL2, exLenV, Expr.v, Expr.n, eval, evalL, this]

theorem seqElementTypes : ElementTypes seqP where
  int f t h := by
    have := (seqArray_iff.mp h).2
    cases this
    exact seqN_accepted
  enum f t h := by
    have := (seqArray_iff.mp h).2
    cases this
  sized f t h := by
    rw [(seqArray_iff.mp h).2]
    exact ⟨_, seqN_size, by decide⟩

theorem seqZeros_inBuffer : InBuffer seqP exZeros 33 64 := ⟨by decide, by decide, by decide, by decide, by decide⟩

theorem seqIndexed : Indexed seqP exZeros := ⟨by decide, by decide, by decide⟩

/-- `Data` is written, and `Tag` after it. -/
def seqOps : List WOp := [.msg (.setScalar exLen 2), .switchTo exData, .seq (.append 3), .seq (.append 4), .seq (.append 11), .seq (.append 2), .update exData,
  .msg (.setScalar exTag 1)]

theorem seqOps_run : ∃ w, seqP.whistory exZeros 33 64 seqOps = .ok w ∧ w.ctx.buffer = some ⟨5, [2, 0x34, 0xB2, 1]⟩ ∧
    w.ctx.cursors exData = ⟨.valid, exLen, 41, 56, 0⟩ ∧ seqP.validMessage w.ctx = .ok true ∧ ∃ w1, seqP.wstep w (.switchTo exData) = .ok w1 ∧
      (w1.ctx.cursors exData).first = 41 ∧ (w1.ctx.cursors exData).last = 56 :=
  ⟨_, by with_unfolding_all rfl, by with_unfolding_all rfl, by with_unfolding_all rfl, by with_unfolding_all rfl, _, by with_unfolding_all rfl,
    by with_unfolding_all rfl, by with_unfolding_all rfl⟩

theorem seqData : ArrayOf seqP.m.msg exData (.int seqN) := seqArray_iff.mpr ⟨rfl, rfl⟩

example : ∃ w b', seqP.whistory exZeros 33 64 seqOps = .ok w ∧ w.ctx.buffer = some b' ∧ ∃ vs, Elements b' (.int seqN) 41 56 vs := by
  obtain ⟨w, h1, h2, h3, _⟩ := seqOps_run
  obtain ⟨b', _, _, h4, _, h5⟩ := C65_elements_partial seqWellFormed seqVerified seqUnread seqElementTypes seqZeros_inBuffer seqIndexed h1
  have h6 := h5 exData (by simp [seqP, seqPkg]) _ seqData (by rw [h3])
  rw [h3] at h6
  refine ⟨w, b', h1, ?_, h6⟩
  rcases h4 with h4 | h4
  · exact h4
  · rw [h2] at h4; cases h4

example : ∃ w b' es, seqP.whistory exZeros 33 64 seqOps = .ok w ∧ w.ctx.buffer = some b' ∧ IsMessage seqP.m.msg b' 33 64 es := by
  obtain ⟨w, h1, _, _, h2, _⟩ := seqOps_run
  obtain ⟨b', es, h3, h4, _⟩ := C65_valid_message_partial seqWellFormed seqVerified seqUnread seqElementTypes seqZeros_inBuffer seqIndexed h1 h2
  exact ⟨w, b', es, h1, h3, h4⟩

/-- Before `Data` has been written. -/
theorem seqLen_run : ∃ w, seqP.whistory exZeros 33 64 [.msg (.setScalar exLen 2)] = .ok w ∧ w.ctx.hasBuffer = true ∧ seqP.needNext w.ctx exData = .ok () ∧
    seqP.fieldSize w.ctx exData = .ok 16 ∧ seqP.fieldFirst w.ctx exData = .ok 41 ∧ seqP.fieldCondition w.ctx exData 0 16 = .ok true ∧
    seqP.sufficientSpace w.ctx exData = .ok true ∧ ∃ w1, seqP.wstep w (.switchTo exData) = .ok w1 ∧
      (w1.ctx.cursors exData).first = 41 ∧ (w1.ctx.cursors exData).last = 56 :=
  ⟨_, by with_unfolding_all rfl, by with_unfolding_all rfl, by with_unfolding_all rfl, by with_unfolding_all rfl, by with_unfolding_all rfl,
    by with_unfolding_all rfl, by with_unfolding_all rfl, _, by with_unfolding_all rfl, by with_unfolding_all rfl, by with_unfolding_all rfl⟩

example : ∃ w c s, seqP.whistory exZeros 33 64 [.msg (.setScalar exLen 2)] = .ok w ∧ seqP.switchTo w.ctx exData = .ok (c, s) ∧ (s.first : Int) = 41 := by
  obtain ⟨w, h1, h2, h3, h4, h5, h6, h7, _⟩ := seqLen_run
  obtain ⟨c, s, h8, _, _, _, _, h9, _⟩ := C65_switch_partial seqWellFormed seqVerified seqUnread seqElementTypes seqZeros_inBuffer seqIndexed h1
    (by simp [seqP, seqPkg]) seqData h2 h3 h4 (by decide) h5 (by decide) h6 h7
  exact ⟨w, c, s, h1, h8, h9⟩

theorem seqN_values : ∀ v ∈ [5, 7, 2, 11], v < 2 ^ (Num.n 4).v.toNat ∧ InType (.int seqN) ((v : Nat) : Int) := by
  intro v hv
  have : v < 16 ∧ 2 ≤ v ∧ v ≤ 11 := by
    simp only [List.mem_cons, List.not_mem_nil, or_false] at hv
    omega
  exact ⟨this.1, ⟨2, .b0⟩, ⟨11, .b0⟩, rfl, rfl, by simp only; omega, by simp only; omega⟩

example : ∃ w2 b2, seqP.whistory exZeros 33 64 ([.msg (.setScalar exLen 2)] ++ .switchTo exData :: [5, 7, 2, 11].map (fun v => .seq (.append v)) ++
    [.update exData]) = .ok w2 ∧ w2.ctx.buffer = some b2 ∧
    Elements b2 (.int seqN) (w2.ctx.cursors exData).first (w2.ctx.cursors exData).last [5, 7, 2, 11] := by
  obtain ⟨w, h1, _, _, _, _, _, _, w1, h2, h3, h4⟩ := seqLen_run
  obtain ⟨w2, b1, b2, h5, _, h6, _, _, _, _, h7, _⟩ := C65_write_partial (vs := [5, 7, 2, 11]) seqWellFormed seqVerified seqUnread seqElementTypes
    seqZeros_inBuffer seqIndexed h1 h2 seqData seqN_size seqN_values (by rw [h3, h4]; rfl)
  exact ⟨w2, b2, h5, h6, h7⟩

example : ∃ w w1 E s s', seqP.whistory exZeros 33 64 seqOps = .ok w ∧ seqP.wstep w (.switchTo exData) = .ok w1 ∧ w1.seq = some (exData, s) ∧
    ScalarSeq.readAll E 4 s = .ok ([3, 4, 11, 2], s') := by
  obtain ⟨w, h1, h2, _, _, w1, h3, h4, h5⟩ := seqOps_run
  have hvs : Elements ⟨5, [2, 0x34, 0xB2, 1]⟩ (.int seqN) (w1.ctx.cursors exData).first (w1.ctx.cursors exData).last [3, 4, 11, 2] := by
    rw [h4, h5]
    refine ⟨_, seqN_size, rfl, fun i hi => ?_⟩
    have : i = 0 ∨ i = 1 ∨ i = 2 ∨ i = 3 := by simp at hi; omega
    rcases this with rfl | rfl | rfl | rfl <;> simp only [List.getElem_cons_zero, List.getElem_cons_succ] <;>
      exact ⟨by decide, ⟨2, .b0⟩, ⟨11, .b0⟩, rfl, rfl, by decide, by decide⟩
  obtain ⟨E, s, s', w2, _, h6, h7, _⟩ := C65_read_partial seqWellFormed seqVerified seqUnread seqElementTypes seqZeros_inBuffer seqIndexed h1 h3 seqData h2 hvs
  exact ⟨w, w1, E, s, s', h1, h3, h6, h7⟩

/-- A sequence in a buffer of its own, at other bits. -/
example : ∃ w w' b2 vs, seqP.whistory exZeros 33 64 [.msg (.setScalar exLen 2)] = .ok w ∧
    seqP.wstep w (.setSequence exData ⟨1, [0, 0, 0, 0]⟩ 1 4 9 32 [.append 3, .append 4, .append 5, .append 6]) = .ok w' ∧ w'.ctx.buffer = some b2 ∧
    Elements b2 (.int seqN) (w'.ctx.cursors exData).first (w'.ctx.cursors exData).last vs := by
  obtain ⟨w, w', h1, h2⟩ : ∃ w w', seqP.whistory exZeros 33 64 [.msg (.setScalar exLen 2)] = .ok w ∧
      seqP.wstep w (.setSequence exData ⟨1, [0, 0, 0, 0]⟩ 1 4 9 32 [.append 3, .append 4, .append 5, .append 6]) = .ok w' :=
    ⟨_, _, by with_unfolding_all rfl, by with_unfolding_all rfl⟩
  obtain ⟨_, _, _, _, _, b2, vs, _, _, _, _, _, _, h3, _, _, _, _, _, _, h4, _⟩ := C65_set_partial seqWellFormed seqVerified seqUnread seqElementTypes
    seqZeros_inBuffer seqIndexed h1 seqData h2
  exact ⟨w, w', b2, vs, h1, h2, h3, h4⟩

/-! ## Counterexamples -/

/-- `Update_X` accepts the sequence of another context with the same bounds: the message gets the buffer of the other one. `Tag` has the
value 1 in the cursor, and 2 in the buffer then. -/
theorem C65_foreign_counterexample : ∃ w v w1 v1 s c s', seqP.whistory exZeros 33 64 seqOps = .ok w ∧
    seqP.whistory exZeros 33 64 (seqOps ++ [.msg (.setScalar exTag 2)]) = .ok v ∧
    seqP.wstep w (.switchTo exData) = .ok w1 ∧
    seqP.wstep v (.switchTo exData) = .ok v1 ∧
    [WOp.seq .next, .seq .next, .seq .next, .seq .next].foldlM seqP.wstep v1 = .ok ⟨v1.ctx, some (exData, s)⟩ ∧
    seqP.update w1.ctx exData s = .ok (c, s') ∧ c.cursors exTag = ⟨.valid, exData, 57, 64, 1⟩ ∧ c.buffer = some ⟨5, [2, 0x34, 0xB2, 2]⟩ ∧
    seqP.validMessage c = .ok true :=
  ⟨_, _, _, _, _, _, _, by with_unfolding_all rfl, by with_unfolding_all rfl, by with_unfolding_all rfl, by with_unfolding_all rfl, by with_unfolding_all rfl,
    by with_unfolding_all rfl, by with_unfolding_all rfl, by with_unfolding_all rfl, by with_unfolding_all rfl⟩

/-- `Data : S then Tag if Data = [0x34, 0xB2]`. -/
def seqCompare : Pkg := seqPkg [seqL1, seqL2, ⟨exData, exTag, .rel .eq exDataV (.agg [.n 0x34, .n 0xB2]), .undefined, .undefined⟩, seqL4]

/-- If a condition uses the content of a sequence, then the sequence can be overwritten after the condition has been checked: `Tag`
is valid, though it is not a field that may follow `Data`. The predicate of the context is false then. -/
theorem C65_overwrite_counterexample : ∃ w, seqCompare.whistory ⟨5, [2, 0x34, 0xB2, 1]⟩ 33 64 [.msg (.verify exLen), .msg (.verify exData), .msg (.verify exTag),
      .switchTo exData, .seq (.append 2), .seq (.append 2), .seq (.append 2), .seq (.append 2), .update exData] = .ok w ∧
    (w.ctx.cursors exData).state = .valid ∧ (w.ctx.cursors exTag).state = .valid ∧ w.ctx.buffer = some ⟨5, [2, 0x22, 0x22, 1]⟩ ∧
    seqCompare.validContext w.ctx = .ok false ∧
    ∃ c, seqCompare.parse ⟨5, [2, 0x22, 0x22, 1]⟩ 33 64 = .ok c ∧ (c.cursors exTag).sv = false :=
  ⟨_, by with_unfolding_all rfl, by with_unfolding_all rfl, by with_unfolding_all rfl, by with_unfolding_all rfl, by with_unfolding_all rfl, _,
    by with_unfolding_all rfl, by with_unfolding_all rfl⟩

/-- A sequence with an invalid element does not give the buffer back by `Update_X`, whose precondition `Complete_X` demands that the
sequence is valid; `Take_Buffer` of the sequence remains. -/
theorem C65_invalid_counterexample : ∃ w s, seqP.whistory ⟨5, [1, 0x31, 1, 0]⟩ 33 64 [.msg (.verify exLen), .msg (.verify exData), .switchTo exData,
      .seq .next, .seq .next] = .ok w ∧ w.seq = some (exData, s) ∧ s.valid = false ∧ w.ctx.buffer = none ∧
    (∃ e, seqP.update w.ctx exData s = .error e) ∧ ∃ w', seqP.wstep w .takeBuffer = .ok w' :=
  ⟨_, _, by with_unfolding_all rfl, by with_unfolding_all rfl, by with_unfolding_all rfl, by with_unfolding_all rfl, ⟨_, by with_unfolding_all rfl⟩, _,
    by with_unfolding_all rfl⟩

end Verif.Ctx
