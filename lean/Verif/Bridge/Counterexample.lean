import Verif.Bridge.Example

/-! # C71: a message with negative sizes that is accepted

```
type T is
   message
      L : U8
         then V
            with Size => L * 8 - 8;
      V : Opaque
         then null
            if L > 0;
   end message;
``` -/

namespace Verif.Bridge
open Verif Verif.Graph Verif.Verify Verif.Types Verif.Gen Verif.Spark Verif.Ctx

def nSize : Expr := .bin .sub (.mul [bLv, .n 8]) (.n 8)
def n2 : Link := ⟨bL, bV, .tru, nSize, .undefined⟩
def n3 : Link := lnk bV FINAL (.rel .gt bLv (.n 0))

def nMsg : Msg := ⟨⟨[['M'], ['T']]⟩, [b1, n2, n3], [bL, bV], [(bL, Verify.exU8), (bV, .opaque)], []⟩

/-- The message with the length `x` at the bits 1 to `last`. -/
def nModel (x last : Int) : ZModel :=
  ⟨fun
    | .var k => if k = [['l']] then x else 0
    | .attr .first _ k => if k = [['v']] then 9 else if k = FINAL.key then last + 1 else 1
    | .attr .size _ k => if k = [['v']] then 8 * x - 8 else if k = MESSAGE.key then last else if k = FINAL.key then 0 else 8
    | .attr .last _ k => if k = [['l']] then 8 else if k = [['v']] then 8 * x else last
    | _ => 0, fun _ => 0, fun _ => 0, fun _ _ => 0⟩

/-- Sets of formulas that cannot be satisfied. -/
def nUnsat : List (List Expr) :=
  let first := at' .first MESSAGE
  let last := at' .last MESSAGE
  let lastL := at' .last (fld 'l')
  let endL := Expr.bin .sub (.add [first, .n 8]) (.n 1)
  let beginV := Expr.add [lastL, .n 1]
  let endV := Expr.bin .sub (.add [beginV, nSize]) (.n 1)
  let lastFact := Expr.rel .eq lastL endL
  [[.rel .ge bitVar first, .rel .le bitVar last, .not (.bool .and [.rel .ge bitVar first, .rel .le bitVar endL]),
    .not (.bool .and [.rel .ge bitVar beginV, .rel .le bitVar endV]), .rel .eq endV last, lastFact],
   [.rel .lt (.n 8) (.n 0)],
   [.rel .lt (.n 0) (.n 0)],
   [.rel .lt nSize (.n 0), .bool .or [.rel .gt bLv (.n 0)]],
   [.not (.rel .eq (.bin .mod beginV (.n 8)) (.n 1)), lastFact, .rel .eq (.bin .mod first (.n 8)) (.n 1)],
   [.not (.rel .eq (.bin .mod nSize (.n 8)) (.n 0))],
   [.rel .ne (.bin .mod (.add [at' .size (fld 'l'), at' .size (fld 'v')]) (.n 8)) (.n 0),
    .rel .eq (at' .size (fld 'l')) (.n 8), .rel .eq (at' .size (fld 'v')) nSize]]

theorem nUnsat_unsat : ∀ u ∈ nUnsat, ¬ ∃ M, Verify.Holds M u := by
  intro u hu
  simp only [nUnsat, List.mem_cons, List.not_mem_nil, or_false] at hu
  rcases hu with rfl | rfl | rfl | rfl | rfl | rfl | rfl <;>
  · rintro ⟨M, h⟩
    simp [Verify.Holds, zeval, zevalL, at', bitVar, nSize, bLv, Expr.v, Expr.n, Bind.bind, Except.bind, pure, Except.pure, ZVal.int?,
      ZVal.bool?, zRel, zArith, zEqual, ZVal.cast, intSum, intProd, BoolOp.isAnd] at h
    try omega

def nSolver : Solver := tableSolver (nModel 2 16) [nModel 2 16, nModel 1 8] nUnsat nUnsat_unsat

theorem nMsg_accepted : nMsg.Accepted nSolver := ⟨fun _ => .ok false, 20, rfl⟩

def nP : Pkg := ⟨⟨nMsg, fun f => if f = bL then ['L'] else ['V']⟩, 17179869176⟩

theorem nLinks {l : Link} : l ∈ nP.m.msg.links ↔ l = b1 ∨ l = n2 ∨ l = n3 := by
  show l ∈ [b1, n2, n3] ↔ _
  simp

theorem nTypes {f : Field} {t : FTy} : (f, t) ∈ nP.m.msg.types ↔ (f = bL ∧ t = Verify.exU8) ∨ (f = bV ∧ t = .opaque) := by
  show (f, t) ∈ [(bL, Verify.exU8), (bV, FTy.opaque)] ↔ _
  simp

theorem nFields {f : Field} : f ∈ nP.m.msg.fields ↔ f = bL ∨ f = bV := by
  show f ∈ [bL, bV] ↔ _
  simp

theorem nEnums : enums nP.m.msg.types = [] := rfl

theorem nLit {id : ID} : ¬ LitName nP.m id := by
  rintro ⟨t, ht, _⟩
  rw [nEnums] at ht
  cases ht

theorem nNames : Names nP.m opts where
  field f hf := by
    rcases nFields.mp hf with rfl | rfl <;> exact ⟨by decide, by decide⟩
  typed e he := by
    obtain ⟨f, t⟩ := e
    rcases nTypes.mp he with ⟨rfl, rfl⟩ | ⟨rfl, rfl⟩ <;> simp [nFields]
  once := by
    have : nP.m.msg.types.map (·.1) = [bL, bV] := rfl
    rw [this]; decide
  enum t ht := by rw [nEnums] at ht; cases ht
  literal id h := (nLit h).elim
  checksum c hc := by cases hc
  message := by rw [nFields]; decide
  ctx := by rw [nFields]; decide

theorem nPath {fs : List Field} {p : Field} (h : Path nP.m.msg fs p) :
    (p = INITIAL ∧ fs = []) ∨ (p = bL ∧ fs = [bL]) ∨ (p = bV ∧ fs = [bV, bL]) := by
  induction h with
  | start => exact .inl ⟨rfl, rfl⟩
  | @step fs p l _ h1 h2 h3 ih =>
    rcases nLinks.mp h1 with rfl | rfl | rfl
    · rcases ih with ⟨_, rfl⟩ | ⟨h, _⟩ | ⟨h, _⟩
      · exact .inr (.inl ⟨rfl, rfl⟩)
      all_goals exact absurd (h2.trans h) (by decide)
    · rcases ih with ⟨h, _⟩ | ⟨_, rfl⟩ | ⟨h, _⟩
      case inr.inl => exact .inr (.inr ⟨rfl, rfl⟩)
      all_goals exact absurd (h2.trans h) (by decide)
    · exact absurd rfl h3

theorem nScalar {fs : List Field} (hp : Path nP.m.msg fs bL) : ScalarField nP.m (· ∈ fs) ⟨[['L']]⟩ := by
  refine ⟨?_, Verify.exU8, List.mem_cons_self, trivial⟩
  have : (⟨ID.key ⟨[['L']]⟩⟩ : Field) = bL := by decide
  rw [this]
  rcases nPath hp with ⟨h, _⟩ | ⟨_, rfl⟩ | ⟨h, _⟩
  case inr.inl => simp
  all_goals exact absurd h (by decide)

theorem nScalar' {fs : List Field} (hp : Path nP.m.msg fs bV) : ScalarField nP.m (· ∈ fs) ⟨[['L']]⟩ := by
  refine ⟨?_, Verify.exU8, List.mem_cons_self, trivial⟩
  have : (⟨ID.key ⟨[['L']]⟩⟩ : Field) = bL := by decide
  rw [this]
  rcases nPath hp with ⟨h, _⟩ | ⟨h, _⟩ | ⟨_, rfl⟩
  case inr.inr => simp
  all_goals exact absurd h (by decide)

theorem nComposite {l : Link} (hl : l ∈ nP.m.msg.links) {t : FTy} (ht : (l.target, t) ∈ nP.m.msg.types) (hs : ¬ Scalar t) : l = n2 := by
  rcases nTypes.mp ht with ⟨_, rfl⟩ | ⟨h, _⟩
  · exact absurd trivial hs
  · rcases nLinks.mp hl with rfl | rfl | rfl
    all_goals first
      | rfl
      | exact absurd h (by decide)

theorem nWellFormed : WellFormed nP where
  names := nNames
  size := by rw [nFields]; decide
  affix f hf n hn := by rcases nFields.mp hf with rfl | rfl <;> cases hn <;> rfl
  nodup := by
    have : nP.m.msg.fields = [bL, bV] := rfl
    rw [this]; decide
  initial := by rw [nFields]; decide
  final := by rw [nFields]; decide
  typed f hf := by
    rcases nFields.mp hf with rfl | rfl
    · exact ⟨_, nTypes.mpr (.inl ⟨rfl, rfl⟩)⟩
    · exact ⟨_, nTypes.mpr (.inr ⟨rfl, rfl⟩)⟩
  int f t h := by
    rcases nTypes.mp h with ⟨_, h⟩ | ⟨_, h⟩
    · cases h
      exact ⟨⟨[['M'], ['U', '8']]⟩, .n 256, rfl⟩
    · cases h
  enum f t h := by rcases nTypes.mp h with ⟨_, h⟩ | ⟨_, h⟩ <;> cases h
  sized f t h hs := by
    rcases nTypes.mp h with ⟨_, rfl⟩ | ⟨_, rfl⟩
    · exact ⟨_, bU8_size, by decide⟩
    · simp [Scalar] at hs
  start := ⟨b1, by rfl, rfl⟩
  links l hl := by
    have m1 : bL ∈ nP.m.msg.fields := nFields.mpr (.inl rfl)
    have m2 : bV ∈ nP.m.msg.fields := nFields.mpr (.inr rfl)
    rcases nLinks.mp hl with rfl | rfl | rfl
    · exact ⟨.inl rfl, .inr m1⟩
    · exact ⟨.inr m1, .inr m2⟩
    · exact ⟨.inr m2, .inl rfl⟩
  order := by
    have hfs : nP.m.msg.fields = [bL, bV] := rfl
    intro l hl h1 h2
    rw [hfs] at h1 h2 ⊢
    rcases nLinks.mp hl with rfl | rfl | rfl
    · revert h1; decide
    · decide
    · revert h2; decide
  reached f hf := by
    rcases nFields.mp hf with rfl | rfl
    · exact ⟨b1, nLinks.mpr (.inl rfl), rfl⟩
    · exact ⟨n2, nLinks.mpr (.inr (.inl rfl)), rfl⟩
  left f hf := by
    have h : ∀ l ∈ nP.m.msg.links, l.source = f → outgoing nP.m.msg.links f ≠ [] :=
      fun l hl hs => List.ne_nil_of_mem (a := l) (by simp [outgoing, hl, hs])
    rcases nFields.mp hf with rfl | rfl
    · exact h n2 (nLinks.mpr (.inr (.inl rfl))) rfl
    · exact h n3 (nLinks.mpr (.inr (.inr rfl))) rfl
  grouped f x y z hs := by
    exfalso
    have hlen : (outgoing nP.m.msg.links f).length ≤ 2 := by
      by_cases h : f = bL
      · subst h; decide
      · by_cases h2 : f = INITIAL
        · subst h2; decide
        · by_cases h3 : f = bV
          · subst h3; decide
          · have : outgoing nP.m.msg.links f = [] := by
              simp only [outgoing, List.filter_eq_nil_iff, beq_iff_eq]
              intro l hl
              rcases nLinks.mp hl with rfl | rfl | rfl
              · exact Ne.symm h2
              · exact Ne.symm h
              · exact Ne.symm h3
            simp [this]
    have := hs.length_le
    simp at this
    omega
  noFirst l hl := by rcases nLinks.mp hl with rfl | rfl | rfl <;> rfl
  scope l hl fs hp := by
    rcases nLinks.mp hl with rfl | rfl | rfl
    · trivial
    · trivial
    · exact ⟨rfl, .inl ⟨rfl, nScalar' hp⟩⟩
  wf l hl := by
    rcases nLinks.mp hl with rfl | rfl | rfl
    all_goals
      refine ⟨?_, ?_⟩
      · first
          | trivial
          | (simp only [n3, bLv, lnk, Expr.WF]; decide)
      · simp [b1, n2, n3, bLv, lnk, Expr.Good]
  bool l hl σ hσ := by
    obtain ⟨i, hi⟩ := hσ.scalar bL Verify.exU8 (nTypes.mpr (.inl ⟨rfl, rfl⟩)) trivial
    have hi' : σ.var (ID.key ⟨[['L']]⟩) = .int i := hi
    rcases nLinks.mp hl with rfl | rfl | rfl
    · exact ⟨true, rfl⟩
    · exact ⟨true, rfl⟩
    · simp only [n3, lnk, bLv, Expr.v, Expr.n, eval, hi']
      exact ⟨_, rfl⟩
  own l hl hs := by
    rcases nLinks.mp hl with rfl | rfl | rfl
    · exact absurd hs (by rw [nFields]; decide)
    all_goals simp [n2, n3, lnk, bLv, Cov, NotFirst]
  sizeScope l hl t ht hs fs hp := by
    cases nComposite hl ht hs
    exact ⟨⟨⟨rfl, .inl (nScalar hp)⟩, trivial, trivial⟩, trivial⟩
  sizeWF l hl t ht hs := by
    cases nComposite hl ht hs
    refine ⟨?_, ?_⟩
    · simp only [n2, nSize, bLv, Expr.WF, Expr.WFL]; decide
    · simp [n2, nSize, bLv, Expr.Good, Expr.GoodL]
  sizeInt l hl t ht hs σ hσ := by
    cases nComposite hl ht hs
    obtain ⟨i, hi⟩ := hσ.scalar bL Verify.exU8 (nTypes.mpr (.inl ⟨rfl, rfl⟩)) trivial
    have hi' : σ.var (ID.key ⟨[['L']]⟩) = .int i := hi
    simp only [n2, nSize, bLv, Expr.v, Expr.n, eval, evalL, hi']
    exact ⟨_, rfl⟩

theorem nChecked : Checked nSolver nP.m.msg where
  decides := tableSolver_decides
  accepted := nMsg_accepted
  regular := by simp only [Msg.Regular]; decide
  ok := exMsg_types
  distinct :=
    { types := by
        rintro ⟨f, t⟩ he s hs
        rcases nTypes.mp he with ⟨rfl, rfl⟩ | ⟨rfl, rfl⟩
        · exact ⟨by rw [nFields]; decide, by decide⟩
        · cases hs
      same := by
        rintro ⟨f, t⟩ he ⟨f', t'⟩ he' _ s s' hs hs'
        rcases nTypes.mp he with ⟨rfl, rfl⟩ | ⟨rfl, rfl⟩ <;> rcases nTypes.mp he' with ⟨rfl, rfl⟩ | ⟨rfl, rfl⟩
        · cases hs.symm.trans hs'; rfl
        · cases hs'
        · cases hs
        · cases hs
      literals := by intro t ht; rw [nEnums] at ht; cases ht
      closed := by intro f t h; rcases nTypes.mp h with ⟨_, h⟩ | ⟨_, h⟩ <;> cases h }
  understood :=
    { condition := by
        intro l hl
        rcases nLinks.mp hl with rfl | rfl | rfl <;> simp [b1, n2, n3, lnk, bLv, Linear]
      size := by
        intro l hl hne
        rcases nLinks.mp hl with rfl | rfl | rfl
        case inr.inl => simp [n2, nSize, bLv, Linear, LinearL]
        all_goals exact absurd rfl hne }


theorem nInBuffer : InBuffer nP ⟨5, [0, 7, 9, 0]⟩ 33 64 := ⟨by decide, by decide, by decide, by decide, by decide⟩

theorem nStarts : StartsScalar nP.m.msg := by
  intro l hl hs t ht
  rcases nLinks.mp hl with rfl | rfl | rfl
  · rcases nTypes.mp ht with ⟨_, rfl⟩ | ⟨h, _⟩
    · trivial
    · exact absurd h (by decide)
  all_goals exact absurd hs (by decide)

/-- **C71, without `Left`.** The verification checks the size of a field only together with the condition that the field can be left
(`rflx/model/message.py:1088-1122`): the message is accepted, but for the length 0 the generated parser computes the size -8 and raises an
exception. -/
theorem C71_leave_counterexample : ∃ (s : Solver) (P : Pkg) (b : Bytes) (lo hi : Int), WellFormed P ∧ Checked s P.m.msg ∧ StartsScalar P.m.msg ∧
    (∀ f t, (f, t) ∈ P.m.msg.types → Scalar t ∨ t = .opaque) ∧ InBuffer P b lo hi ∧ lo % 8 = 1 ∧ hi % 8 = 0 ∧
    P.parse b lo hi = .error (.ada .range) :=
  ⟨nSolver, nP, ⟨5, [0, 7, 9, 0]⟩, 33, 64, nWellFormed, nChecked, nStarts,
    fun _ _ h => (nTypes.mp h).elim (fun h => .inl (by rw [h.2]; trivial)) fun h => .inr h.2, nInBuffer, by decide, by decide, rfl⟩

end Verif.Bridge
