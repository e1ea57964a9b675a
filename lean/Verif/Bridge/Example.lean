import Verif.Bridge.Props
import Verif.Verify.Example

/-! # C71: an example

The message is that of `Verif/Verify/Example.lean`. -/

namespace Verif.Bridge
open Verif Verif.Graph Verif.Verify Verif.Types Verif.Gen Verif.Spark Verif.Ctx

def bL : Field := fld 'l'
def bV : Field := fld 'v'
def bLv : Expr := .v ⟨[['L']]⟩
def b1 : Link := lnk INITIAL bL
def b2 : Link := ⟨bL, bV, .rel .gt bLv (.n 0), .mul [bLv, .n 8], .undefined⟩
def b3 : Link := lnk bL FINAL (.rel .eq bLv (.n 0))
def b4 : Link := lnk bV FINAL

def bP : Pkg := ⟨⟨Verify.exMsg, fun f => if f = bL then ['L'] else ['V']⟩, 17179869176⟩

theorem bLinks {l : Link} : l ∈ bP.m.msg.links ↔ l = b1 ∨ l = b2 ∨ l = b3 ∨ l = b4 := by
  show l ∈ [b1, b2, b3, b4] ↔ _
  simp

theorem bTypes {f : Field} {t : FTy} : (f, t) ∈ bP.m.msg.types ↔ (f = bL ∧ t = Verify.exU8) ∨ (f = bV ∧ t = .opaque) := by
  show (f, t) ∈ [(bL, Verify.exU8), (bV, FTy.opaque)] ↔ _
  simp

theorem bFields {f : Field} : f ∈ bP.m.msg.fields ↔ f = bL ∨ f = bV := by
  show f ∈ [bL, bV] ↔ _
  simp

theorem bEnums : enums bP.m.msg.types = [] := rfl

theorem bLit {id : ID} : ¬ LitName bP.m id := by
  rintro ⟨t, ht, _⟩
  rw [bEnums] at ht
  cases ht

theorem bNames : Names bP.m opts where
  field f hf := by
    rcases bFields.mp hf with rfl | rfl <;> exact ⟨by decide, by decide⟩
  typed e he := by
    obtain ⟨f, t⟩ := e
    rcases bTypes.mp he with ⟨rfl, rfl⟩ | ⟨rfl, rfl⟩ <;> simp [bFields]
  once := by
    have : bP.m.msg.types.map (·.1) = [bL, bV] := rfl
    rw [this]; decide
  enum t ht := by rw [bEnums] at ht; cases ht
  literal id h := (bLit h).elim
  checksum c hc := by cases hc
  message := by rw [bFields]; decide
  ctx := by rw [bFields]; decide

theorem bPath {fs : List Field} {p : Field} (h : Path bP.m.msg fs p) :
    (p = INITIAL ∧ fs = []) ∨ (p = bL ∧ fs = [bL]) ∨ (p = bV ∧ fs = [bV, bL]) := by
  induction h with
  | start => exact .inl ⟨rfl, rfl⟩
  | @step fs p l _ h1 h2 h3 ih =>
    rcases bLinks.mp h1 with rfl | rfl | rfl | rfl
    · rcases ih with ⟨_, rfl⟩ | ⟨h, _⟩ | ⟨h, _⟩
      · exact .inr (.inl ⟨rfl, rfl⟩)
      all_goals exact absurd (h2.trans h) (by decide)
    · rcases ih with ⟨h, _⟩ | ⟨_, rfl⟩ | ⟨h, _⟩
      case inr.inl => exact .inr (.inr ⟨rfl, rfl⟩)
      all_goals exact absurd (h2.trans h) (by decide)
    · exact absurd rfl h3
    · exact absurd rfl h3

theorem bScalar {fs : List Field} (hp : Path bP.m.msg fs bL) : ScalarField bP.m (· ∈ fs) ⟨[['L']]⟩ := by
  refine ⟨?_, Verify.exU8, List.mem_cons_self, trivial⟩
  have : (⟨ID.key ⟨[['L']]⟩⟩ : Field) = bL := by decide
  rw [this]
  rcases bPath hp with ⟨h, _⟩ | ⟨_, rfl⟩ | ⟨h, _⟩
  case inr.inl => simp
  all_goals exact absurd h (by decide)

theorem bComposite {l : Link} (hl : l ∈ bP.m.msg.links) {t : FTy} (ht : (l.target, t) ∈ bP.m.msg.types) (hs : ¬ Scalar t) : l = b2 := by
  rcases bTypes.mp ht with ⟨_, rfl⟩ | ⟨h, _⟩
  · exact absurd trivial hs
  · rcases bLinks.mp hl with rfl | rfl | rfl | rfl
    all_goals first
      | rfl
      | exact absurd h (by decide)

theorem bU8_size : Verify.exU8.size = .ok (Num.n 8) := rfl

theorem bWellFormed : WellFormed bP where
  names := bNames
  size := by rw [bFields]; decide
  affix f hf n hn := by rcases bFields.mp hf with rfl | rfl <;> cases hn <;> rfl
  nodup := by
    have : bP.m.msg.fields = [bL, bV] := rfl
    rw [this]; decide
  initial := by rw [bFields]; decide
  final := by rw [bFields]; decide
  typed f hf := by
    rcases bFields.mp hf with rfl | rfl
    · exact ⟨_, bTypes.mpr (.inl ⟨rfl, rfl⟩)⟩
    · exact ⟨_, bTypes.mpr (.inr ⟨rfl, rfl⟩)⟩
  int f t h := by
    rcases bTypes.mp h with ⟨_, h⟩ | ⟨_, h⟩
    · cases h
      exact ⟨⟨[['M'], ['U', '8']]⟩, .n 256, rfl⟩
    · cases h
  enum f t h := by rcases bTypes.mp h with ⟨_, h⟩ | ⟨_, h⟩ <;> cases h
  sized f t h hs := by
    rcases bTypes.mp h with ⟨_, rfl⟩ | ⟨_, rfl⟩
    · exact ⟨_, bU8_size, by decide⟩
    · simp [Scalar] at hs
  start := ⟨b1, by rfl, rfl⟩
  links l hl := by
    have m1 : bL ∈ bP.m.msg.fields := bFields.mpr (.inl rfl)
    have m2 : bV ∈ bP.m.msg.fields := bFields.mpr (.inr rfl)
    rcases bLinks.mp hl with rfl | rfl | rfl | rfl
    · exact ⟨.inl rfl, .inr m1⟩
    · exact ⟨.inr m1, .inr m2⟩
    · exact ⟨.inr m1, .inl rfl⟩
    · exact ⟨.inr m2, .inl rfl⟩
  order := by
    have hfs : bP.m.msg.fields = [bL, bV] := rfl
    intro l hl h1 h2
    rw [hfs] at h1 h2 ⊢
    rcases bLinks.mp hl with rfl | rfl | rfl | rfl
    · revert h1; decide
    · decide
    · revert h2; decide
    · revert h2; decide
  reached f hf := by
    rcases bFields.mp hf with rfl | rfl
    · exact ⟨b1, bLinks.mpr (.inl rfl), rfl⟩
    · exact ⟨b2, bLinks.mpr (.inr (.inl rfl)), rfl⟩
  left f hf := by
    have h : ∀ l ∈ bP.m.msg.links, l.source = f → outgoing bP.m.msg.links f ≠ [] :=
      fun l hl hs => List.ne_nil_of_mem (a := l) (by simp [outgoing, hl, hs])
    rcases bFields.mp hf with rfl | rfl
    · exact h b2 (bLinks.mpr (.inr (.inl rfl))) rfl
    · exact h b4 (bLinks.mpr (.inr (.inr (.inr rfl)))) rfl
  grouped f x y z hs := by
    exfalso
    have hlen : (outgoing bP.m.msg.links f).length ≤ 2 := by
      by_cases h : f = bL
      · subst h; decide
      · by_cases h2 : f = INITIAL
        · subst h2; decide
        · by_cases h3 : f = bV
          · subst h3; decide
          · have : outgoing bP.m.msg.links f = [] := by
              simp only [outgoing, List.filter_eq_nil_iff, beq_iff_eq]
              intro l hl
              rcases bLinks.mp hl with rfl | rfl | rfl | rfl
              · exact Ne.symm h2
              · exact Ne.symm h
              · exact Ne.symm h
              · exact Ne.symm h3
            simp [this]
    have := hs.length_le
    simp at this
    omega
  noFirst l hl := by rcases bLinks.mp hl with rfl | rfl | rfl | rfl <;> rfl
  scope l hl fs hp := by
    rcases bLinks.mp hl with rfl | rfl | rfl | rfl
    · trivial
    · exact ⟨rfl, .inl ⟨rfl, bScalar hp⟩⟩
    · exact ⟨rfl, .inl ⟨rfl, bScalar hp⟩⟩
    · trivial
  wf l hl := by
    rcases bLinks.mp hl with rfl | rfl | rfl | rfl
    all_goals
      refine ⟨?_, ?_⟩
      · first
          | trivial
          | (simp only [b2, b3, bLv, lnk, Expr.WF]; decide)
      · simp [b1, b2, b3, b4, bLv, lnk, Expr.Good]
  bool l hl σ hσ := by
    obtain ⟨i, hi⟩ := hσ.scalar bL Verify.exU8 (bTypes.mpr (.inl ⟨rfl, rfl⟩)) trivial
    have hi' : σ.var (ID.key ⟨[['L']]⟩) = .int i := hi
    rcases bLinks.mp hl with rfl | rfl | rfl | rfl
    · exact ⟨true, rfl⟩
    · simp only [b2, bLv, Expr.v, Expr.n, eval, hi']
      exact ⟨_, rfl⟩
    · simp only [b3, lnk, bLv, Expr.v, Expr.n, eval, hi']
      exact ⟨_, rfl⟩
    · exact ⟨true, rfl⟩
  own l hl hs := by
    rcases bLinks.mp hl with rfl | rfl | rfl | rfl
    · exact absurd hs (by rw [bFields]; decide)
    all_goals simp [b2, b3, b4, lnk, bLv, Cov, NotFirst]
  sizeScope l hl t ht hs fs hp := by
    cases bComposite hl ht hs
    exact ⟨⟨rfl, .inl (bScalar hp)⟩, trivial, trivial⟩
  sizeWF l hl t ht hs := by
    cases bComposite hl ht hs
    refine ⟨?_, ?_⟩
    · simp only [b2, bLv, Expr.WF, Expr.WFL]; decide
    · simp [b2, bLv, Expr.Good, Expr.GoodL]
  sizeInt l hl t ht hs σ hσ := by
    cases bComposite hl ht hs
    obtain ⟨i, hi⟩ := hσ.scalar bL Verify.exU8 (bTypes.mpr (.inl ⟨rfl, rfl⟩)) trivial
    have hi' : σ.var (ID.key ⟨[['L']]⟩) = .int i := hi
    simp only [b2, bLv, Expr.v, Expr.n, eval, evalL, hi']
    exact ⟨_, rfl⟩

theorem bChecked : Checked exSolver bP.m.msg where
  decides := tableSolver_decides
  accepted := exMsg_accepted
  regular := exMsg_regular
  ok := exMsg_types
  distinct :=
    { types := by
        rintro ⟨f, t⟩ he s hs
        rcases bTypes.mp he with ⟨rfl, rfl⟩ | ⟨rfl, rfl⟩
        · exact ⟨by rw [bFields]; decide, by decide⟩
        · cases hs
      same := by
        rintro ⟨f, t⟩ he ⟨f', t'⟩ he' _ s s' hs hs'
        rcases bTypes.mp he with ⟨rfl, rfl⟩ | ⟨rfl, rfl⟩ <;> rcases bTypes.mp he' with ⟨rfl, rfl⟩ | ⟨rfl, rfl⟩
        · cases hs.symm.trans hs'; rfl
        · cases hs'
        · cases hs
        · cases hs
      literals := by intro t ht; rw [bEnums] at ht; cases ht
      closed := by intro f t h; rcases bTypes.mp h with ⟨_, h⟩ | ⟨_, h⟩ <;> cases h }
  understood :=
    { condition := by
        intro l hl
        rcases bLinks.mp hl with rfl | rfl | rfl | rfl <;> simp [b1, b2, b3, b4, lnk, bLv, Linear]
      size := by
        intro l hl hne
        rcases bLinks.mp hl with rfl | rfl | rfl | rfl
        case inr.inl => simp [b2, bLv, Linear, LinearL]
        all_goals exact absurd rfl hne }

theorem bLeft : Left bP.m.msg := by
  intro f t h hs
  rcases bTypes.mp h with ⟨_, rfl⟩ | ⟨rfl, _⟩
  · exact absurd trivial hs
  · exact ⟨b4, bLinks.mpr (.inr (.inr (.inr rfl))), rfl, rfl⟩

theorem bStarts : StartsScalar bP.m.msg := by
  intro l hl hs t ht
  rcases bLinks.mp hl with rfl | rfl | rfl | rfl
  · rcases bTypes.mp ht with ⟨_, rfl⟩ | ⟨h, _⟩
    · trivial
    · exact absurd h (by decide)
  all_goals exact absurd hs (by decide)

theorem bSmall {b : Bytes} {lo hi : Int} : Small bP b lo hi := by
  intro es p pos h l hl hs _ _ t htt hct n hn
  cases bComposite hl htt hct
  cases es with
  | nil => exact absurd ((follows_nil h).1.symm.trans hs.symm) (by decide)
  | cons y es =>
    have hy : bL = y.f := hs.trans (follows_last h)
    obtain ⟨t', ht', _, h2⟩ := follows_type h List.mem_cons_self
    have : t' = Verify.exU8 := nodup_pair bNames.once ht' (by rw [← hy]; exact bTypes.mpr (.inl ⟨rfl, rfl⟩))
    subst this
    obtain ⟨k, hk, hv, _, _⟩ := h2 trivial
    cases bU8_size.symm.trans hk
    have hlt := bitsAt_lt b y.first 8
    have hvar : (itemEnv bP.m.msg b lo hi (y :: es)).var (ID.key ⟨[['L']]⟩) = .int y.value := by
      show (match bP.m.msg.type? bL, (y :: es).find? (fun e => e.f == bL) with | none, _ => _ | some t, some e => _ | some t, none => _) = Val.int y.value
      rw [show bP.m.msg.type? bL = some Verify.exU8 from rfl, List.find?_cons_of_pos (by simp [hy])]
      rfl
    simp only [b2, bLv, Expr.v, Expr.n, eval, evalL, hvar] at hn
    simp [Val.negIf, allSome, Val.int?, intProd] at hn
    have hv' : y.value = ((bitsAt b y.first 8 : Nat) : Int) := hv
    simp only [bP]
    omega

/-- The hypotheses of `C71_verified_partial` are met. -/
theorem bVerified : Ctx.Verified bP 33 64 :=
  C71_verified_partial bWellFormed bChecked bLeft (by decide) (by decide) bStarts
    (fun f t h => (bTypes.mp h).elim (fun h => .inl (by rw [h.2]; trivial)) fun h => .inr h.2) fun _ _ => bSmall

/-- The length 2 and the bytes 7 and 9, followed by one more byte. -/
def bBytes : Bytes := ⟨5, [2, 7, 9, 0]⟩

theorem bInBuffer : InBuffer bP bBytes 33 64 := ⟨by decide, by decide, by decide, by decide, by decide⟩

/-- A message in a buffer. -/
example : ∃ es, IsMessage bP.m.msg bBytes 33 64 es ∧ es.map (fun e => (e.first, e.last, e.value)) = [(41, 56, 0), (33, 40, 2)] := by
  have f0 := Follows.start (m := bP.m.msg) (b := bBytes) (lo := 33) (hi := 64)
  have f1 := Follows.scalar (l := b1) (t := Verify.exU8) (n := Num.n 8) f0 (bLinks.mpr (.inl rfl)) rfl (by decide) rfl (bTypes.mpr (.inl ⟨rfl, rfl⟩)) trivial rfl
    (by decide) ⟨⟨0, .b0⟩, ⟨255, .b0⟩, rfl, rfl, by decide, by decide⟩
  have f2 := Follows.composite (l := b2) (t := .opaque) (n := 16) f1 (bLinks.mpr (.inr (.inl rfl))) rfl (by decide) rfl
    (bTypes.mpr (.inr ⟨rfl, rfl⟩)) (by simp [Scalar]) rfl (by decide) (by decide)
  exact ⟨_, ⟨_, _, b4, f2, bLinks.mpr (.inr (.inr (.inr rfl))), rfl, rfl, rfl⟩, rfl⟩

/-- The parser accepts it. -/
example : ∃ c r, bP.parse bBytes 33 64 = .ok c ∧ bP.structuralValidMessage c = .ok r ∧ (r = true ↔ ∃ es, IsMessage bP.m.msg bBytes 33 64 es) :=
  C71_parser_partial bWellFormed bChecked bLeft bInBuffer (by decide) (by decide) bStarts bSmall

end Verif.Bridge
