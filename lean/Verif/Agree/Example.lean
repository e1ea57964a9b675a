import Verif.Agree.Props

/-! # C60: an example

```
type B is mod 256;
type M is
   message
      t : B
         then l
            if t = 1,
         then r
            with Size => Message'Last - t'Last
            if t = 2,
         then null
            if t = 3;
      l : B
         then v
            with Size => l * 8;
      v : Opaque;
      r : Opaque;
   end message;
``` -/

namespace Verif.Agree
open Verif Verif.Graph Verif.Types Verif.Bits Verif.Ctx Verif.Verify Verif.Gen Verif.Spark
open Verif.PyRFLX (exByte exTlv exTlvRank exTlv_well)

/-- The field `t` of the example. -/
abbrev xt : Field := PyRFLX.exTag
/-- The field `l` of the example. -/
abbrev xl : Field := PyRFLX.exLen
/-- The field `v` of the example. -/
abbrev xv : Field := PyRFLX.exVal
/-- The field `r` of the example. -/
abbrev xr : Field := PyRFLX.exRest

def xSpell (f : Field) : PyStr := if f = xt then ['t'] else if f = xl then ['l'] else if f = xv then ['v'] else ['r']

def xL1 : Link := ⟨INITIAL, xt, .tru, .undefined, .undefined⟩
def xL2 : Link := ⟨xt, xl, .rel .eq (.var false false xt) (.n 1), .undefined, .undefined⟩
def xL3 : Link := ⟨xt, xr, .rel .eq (.var false false xt) (.n 2),
  .bin .sub (.attr false .last PyRFLX.messageVar) (.attr false .last (.var false false xt)), .undefined⟩
def xL4 : Link := ⟨xt, FINAL, .rel .eq (.var false false xt) (.n 3), .undefined, .undefined⟩
def xL5 : Link := ⟨xl, xv, .tru, .mul [.var false false xl, .n 8], .undefined⟩
def xL6 : Link := ⟨xv, FINAL, .tru, .undefined, .undefined⟩
def xL7 : Link := ⟨xr, FINAL, .tru, .undefined, .undefined⟩

/-- The package that is generated for the message. -/
def xP : Pkg :=
  ⟨⟨⟨⟨[['P'], ['M']]⟩, [xL1, xL2, xL3, xL4, xL5, xL6, xL7], [xt, xl, xv, xr],
    [(xt, .int exByte), (xl, .int exByte), (xv, .opaque), (xr, .opaque)], []⟩, xSpell⟩, 17179869176⟩

theorem xLinks {l : Link} (h : l ∈ xP.m.msg.links) : l = xL1 ∨ l = xL2 ∨ l = xL3 ∨ l = xL4 ∨ l = xL5 ∨ l = xL6 ∨ l = xL7 := by
  simpa [xP] using h

theorem xFields {f : Field} (h : f ∈ xP.m.msg.fields) : f = xt ∨ f = xl ∨ f = xv ∨ f = xr := by
  simpa [xP] using h

theorem xTypes {f : Field} {t : FTy} (h : (f, t) ∈ xP.m.msg.types) :
    ((f = xt ∨ f = xl) ∧ t = .int exByte) ∨ ((f = xv ∨ f = xr) ∧ t = .opaque) := by
  have : (f = xt ∧ t = .int exByte) ∨ (f = xl ∧ t = .int exByte) ∨ (f = xv ∧ t = .opaque) ∨ (f = xr ∧ t = .opaque) := by
    simpa [xP] using h
  rcases this with ⟨h, h'⟩ | ⟨h, h'⟩ | ⟨h, h'⟩ | ⟨h, h'⟩
  · exact .inl ⟨.inl h, h'⟩
  · exact .inl ⟨.inr h, h'⟩
  · exact .inr ⟨.inl h, h'⟩
  · exact .inr ⟨.inr h, h'⟩

theorem xNames (o : Opts) : Names xP.m o where
  field := by
    intro f hf
    rcases xFields hf with rfl | rfl | rfl | rfl <;> exact ⟨by decide, by decide⟩
  typed := by
    intro e he
    have : e = (xt, .int exByte) ∨ e = (xl, .int exByte) ∨ e = (xv, .opaque) ∨ e = (xr, .opaque) := by simpa [xP] using he
    rcases this with rfl | rfl | rfl | rfl <;> simp [xP]
  once := by
    have : xP.m.msg.types.map (·.1) = [xt, xl, xv, xr] := rfl
    rw [this]; decide
  enum := by
    intro t ht
    simp [xP, enums] at ht
  literal := by
    rintro id ⟨t, ht, _⟩
    simp [xP, enums] at ht
  checksum := by simp [xP]
  message := by simp [xP]; decide
  ctx := by simp [xP]; decide

theorem xPath {fs : List Field} {p : Field} (h : Path xP.m.msg fs p) :
    (p = INITIAL ∧ fs = []) ∨ (p = xt ∧ fs = [xt]) ∨ (p = xl ∧ fs = [xl, xt]) ∨ (p = xv ∧ fs = [xv, xl, xt]) ∨ (p = xr ∧ fs = [xr, xt]) := by
  induction h with
  | start => exact .inl ⟨rfl, rfl⟩
  | @step fs p l _ h1 h2 h3 ih =>
    rcases xLinks h1 with rfl | rfl | rfl | rfl | rfl | rfl | rfl <;>
      rcases ih with ⟨h, rfl⟩ | ⟨h, rfl⟩ | ⟨h, rfl⟩ | ⟨h, rfl⟩ | ⟨h, rfl⟩ <;>
      first
      | exact absurd rfl h3
      | exact absurd (h2.trans h) (by decide)
      | simp [xL1, xL2, xL3, xL5]

theorem xt_scalar {fs : List Field} (h : xt ∈ fs) : ScalarField xP.m (· ∈ fs) xt :=
  ⟨h, .int exByte, by simp only [show (⟨ID.key xt⟩ : Field) = xt by decide]; simp [xP], trivial⟩

theorem xl_scalar {fs : List Field} (h : xl ∈ fs) : ScalarField xP.m (· ∈ fs) xl :=
  ⟨h, .int exByte, by simp only [show (⟨ID.key xl⟩ : Field) = xl by decide]; simp [xP], trivial⟩

theorem xt_in {fs : List Field} (h : Path xP.m.msg fs xt) : xt ∈ fs := by
  rcases xPath h with ⟨h, _⟩ | ⟨_, rfl⟩ | ⟨h, _⟩ | ⟨h, _⟩ | ⟨h, _⟩
  case inr.inl => simp
  all_goals exact absurd h (by decide)

theorem xl_in {fs : List Field} (h : Path xP.m.msg fs xl) : xl ∈ fs := by
  rcases xPath h with ⟨h, _⟩ | ⟨h, _⟩ | ⟨_, rfl⟩ | ⟨h, _⟩ | ⟨h, _⟩
  case inr.inr.inl => simp
  all_goals exact absurd h (by decide)

/-- The links to composite fields. -/
theorem xComposite {l : Link} (hl : l ∈ xP.m.msg.links) {t : FTy} (ht : (l.target, t) ∈ xP.m.msg.types) (hs : ¬ Scalar t) :
    l = xL3 ∨ l = xL5 := by
  rcases xTypes ht with ⟨_, rfl⟩ | ⟨h, rfl⟩
  · exact absurd trivial hs
  · rcases xLinks hl with rfl | rfl | rfl | rfl | rfl | rfl | rfl
    all_goals first
      | exact .inl rfl
      | exact .inr rfl
      | (rcases h with h | h <;> exact absurd h (by decide))

theorem xSize : FTy.size (.int exByte) = .ok (Num.n 8) := rfl

theorem xWellFormed : WellFormed xP where
  names := xNames _
  size := by simp [xP]; decide
  affix := by
    intro f hf n hn
    rcases xFields hf with rfl | rfl | rfl | rfl <;> cases hn <;> rfl
  nodup := by
    have : xP.m.msg.fields = [xt, xl, xv, xr] := rfl
    rw [this]; decide
  initial := by simp [xP]; decide
  final := by simp [xP]; decide
  typed := by
    intro f hf
    rcases xFields hf with rfl | rfl | rfl | rfl
    · exact ⟨.int exByte, by simp [xP]⟩
    · exact ⟨.int exByte, by simp [xP]⟩
    · exact ⟨.opaque, by simp [xP]⟩
    · exact ⟨.opaque, by simp [xP]⟩
  int := by
    intro f t h
    rcases xTypes h with ⟨_, h⟩ | ⟨_, h⟩ <;> cases h
    exact PyRFLX.exByte_fine.1
  enum := by
    intro f t h
    rcases xTypes h with ⟨_, h⟩ | ⟨_, h⟩ <;> cases h
  sized := by
    intro f t h hs
    rcases xTypes h with ⟨_, rfl⟩ | ⟨_, rfl⟩
    · exact ⟨_, xSize, by decide⟩
    · simp [Scalar] at hs
  start := ⟨xL1, by rfl, rfl⟩
  links := by
    intro l hl
    have m1 : xt ∈ xP.m.msg.fields := by simp [xP]
    have m2 : xl ∈ xP.m.msg.fields := by simp [xP]
    have m3 : xv ∈ xP.m.msg.fields := by simp [xP]
    have m4 : xr ∈ xP.m.msg.fields := by simp [xP]
    rcases xLinks hl with rfl | rfl | rfl | rfl | rfl | rfl | rfl
    · exact ⟨.inl rfl, .inr m1⟩
    · exact ⟨.inr m1, .inr m2⟩
    · exact ⟨.inr m1, .inr m4⟩
    · exact ⟨.inr m1, .inl rfl⟩
    · exact ⟨.inr m2, .inr m3⟩
    · exact ⟨.inr m3, .inl rfl⟩
    · exact ⟨.inr m4, .inl rfl⟩
  order := by
    have hfs : xP.m.msg.fields = [xt, xl, xv, xr] := rfl
    intro l hl h1 h2
    rw [hfs] at h1 h2 ⊢
    rcases xLinks hl with rfl | rfl | rfl | rfl | rfl | rfl | rfl <;> first | decide | (revert h1; decide) | (revert h2; decide)
  reached := by
    intro f hf
    rcases xFields hf with rfl | rfl | rfl | rfl
    · exact ⟨xL1, by simp [xP], rfl⟩
    · exact ⟨xL2, by simp [xP], rfl⟩
    · exact ⟨xL5, by simp [xP], rfl⟩
    · exact ⟨xL3, by simp [xP], rfl⟩
  left := by
    intro f hf
    have h : ∀ l ∈ xP.m.msg.links, l.source = f → outgoing xP.m.msg.links f ≠ [] :=
      fun l hl hs => List.ne_nil_of_mem (a := l) (by simp [outgoing, hl, hs])
    rcases xFields hf with rfl | rfl | rfl | rfl
    · exact h xL2 (by simp [xP]) rfl
    · exact h xL5 (by simp [xP]) rfl
    · exact h xL6 (by simp [xP]) rfl
    · exact h xL7 (by simp [xP]) rfl
  grouped := by
    intro f x y z hs hxz
    exfalso
    have hx : x ∈ outgoing xP.m.msg.links f := hs.subset (by simp)
    have hz : z ∈ outgoing xP.m.msg.links f := hs.subset (by simp)
    have hnd : (outgoing xP.m.msg.links f).Nodup := by
      have h : (xP.m.msg.links.map fun l => (l.source, l.target)).Nodup := by
        have : (xP.m.msg.links.map fun l => (l.source, l.target)) =
            [(INITIAL, xt), (xt, xl), (xt, xr), (xt, FINAL), (xl, xv), (xv, FINAL), (xr, FINAL)] := rfl
        rw [this]; decide
      refine List.Nodup.sublist List.filter_sublist ?_
      exact List.Pairwise.of_map _ (fun a b hne he => hne (by rw [he])) h
    have hxz' : x ≠ z := by
      have := hs.nodup hnd
      simp at this
      exact this.1.2
    simp only [outgoing, List.mem_filter, beq_iff_eq] at hx hz
    obtain ⟨hx, rfl⟩ := hx
    obtain ⟨hz, hzs⟩ := hz
    rcases xLinks hx with rfl | rfl | rfl | rfl | rfl | rfl | rfl <;> rcases xLinks hz with rfl | rfl | rfl | rfl | rfl | rfl | rfl <;>
      first
      | exact hxz' rfl
      | exact absurd hzs (by decide)
      | exact absurd hxz (by decide)
  noFirst := by
    intro l hl
    rcases xLinks hl with rfl | rfl | rfl | rfl | rfl | rfl | rfl <;> rfl
  scope := by
    intro l hl fs hp
    rcases xLinks hl with rfl | rfl | rfl | rfl | rfl | rfl | rfl
    case inr.inl => exact ⟨rfl, .inl ⟨rfl, xt_scalar (xt_in hp)⟩⟩
    case inr.inr.inl => exact ⟨rfl, .inl ⟨rfl, xt_scalar (xt_in hp)⟩⟩
    case inr.inr.inr.inl => exact ⟨rfl, .inl ⟨rfl, xt_scalar (xt_in hp)⟩⟩
    all_goals trivial
  wf := by
    intro l hl
    rcases xLinks hl with rfl | rfl | rfl | rfl | rfl | rfl | rfl
    all_goals
      refine ⟨?_, ?_⟩
      · first
          | trivial
          | (simp only [xL2, xL3, xL4, Expr.WF]; decide)
      · simp [xL1, xL2, xL3, xL4, xL5, xL6, xL7, Expr.Good]
  bool := by
    intro l hl σ hσ
    obtain ⟨i, hi⟩ := hσ.scalar xt (.int exByte) (by simp [xP]) trivial
    have hi' : σ.var (ID.key xt) = .int i := hi
    rcases xLinks hl with rfl | rfl | rfl | rfl | rfl | rfl | rfl
    case inr.inl => simp only [xL2, Expr.n, eval, hi']; exact ⟨_, rfl⟩
    case inr.inr.inl => simp only [xL3, Expr.n, eval, hi']; exact ⟨_, rfl⟩
    case inr.inr.inr.inl => simp only [xL4, Expr.n, eval, hi']; exact ⟨_, rfl⟩
    all_goals exact ⟨true, rfl⟩
  own := by
    intro l hl hs
    rcases xLinks hl with rfl | rfl | rfl | rfl | rfl | rfl | rfl <;>
      simp [xL1, xL2, xL3, xL4, xL5, xL6, xL7, Cov, NotFirst]
  sizeScope := by
    intro l hl t ht hs fs hp
    rcases xComposite hl ht hs with rfl | rfl
    · exact ⟨⟨rfl, rfl, by simp, .inl rfl⟩, rfl, rfl, by simp, .inr ⟨xt, by simp [xP], xt_in hp, by decide, by simp⟩⟩
    · exact ⟨⟨rfl, .inl (xl_scalar (xl_in hp))⟩, trivial, trivial⟩
  sizeWF := by
    intro l hl t ht hs
    rcases xComposite hl ht hs with rfl | rfl
    · refine ⟨?_, ?_⟩
      · simp only [xL3, PyRFLX.messageVar, Expr.v, Expr.WF]; decide
      · simp [xL3, Expr.Good]
    · refine ⟨?_, ?_⟩
      · simp only [xL5, Expr.WF, Expr.WFL, Expr.headOK]; decide
      · simp [xL5, Expr.Good, Expr.GoodL]
  sizeInt := by
    intro l hl t ht hs σ hσ
    rcases xComposite hl ht hs with rfl | rfl
    · obtain ⟨i, hi⟩ := hσ.attr .last (ID.key ⟨[['M', 'e', 's', 's', 'a', 'g', 'e']]⟩)
      obtain ⟨j, hj⟩ := hσ.attr .last (ID.key xt)
      simp only [xL3, PyRFLX.messageVar, Expr.v, eval, hi, hj]
      exact ⟨_, rfl⟩
    · obtain ⟨i, hi⟩ := hσ.scalar xl (.int exByte) (by simp [xP]) trivial
      have hi' : σ.var (ID.key xl) = .int i := hi
      simp only [xL5, Expr.v, Expr.n, eval, evalL, hi']
      exact ⟨_, rfl⟩

theorem xItem {b : Bytes} {lo hi pos : Int} {es : List Item} {f : Field} (hf : f = xt ∨ f = xl) (h : Follows xP.m.msg b lo hi es f pos) :
    ∃ y es', es = y :: es' ∧ y.f = f ∧ pos = y.last + 1 ∧ y.last = y.first + 7 ∧ 0 ≤ y.value ∧ y.value < 256 := by
  cases es with
  | nil => exact absurd (follows_nil h).1 (by rcases hf with rfl | rfl <;> decide)
  | cons y es =>
    have hy : f = y.f := follows_last h
    obtain ⟨t', ht', _, h2⟩ := follows_type h List.mem_cons_self
    have : t' = .int exByte := nodup_pair (xNames opts).once ht' (by rw [← hy]; rcases hf with rfl | rfl <;> simp [xP])
    subst this
    obtain ⟨k, hk, hv, hlast, _⟩ := h2 trivial
    rw [xSize] at hk
    cases hk
    obtain ⟨_, _, _, _, _, _, hpos⟩ := follows_cons h
    have hlt := bitsAt_lt b y.first 8
    have hv' : y.value = ((bitsAt b y.first 8 : Nat) : Int) := hv
    have hl' : y.last = y.first + 8 - 1 := hlast
    exact ⟨y, es, rfl, hy.symm, hpos, by omega, by omega, by omega⟩

theorem xDeterministic (b : Bytes) (lo hi : Int) : Deterministic xP.m.msg b lo hi := by
  intro es p pos _ l hl l' hl' hs hs' ht ht'
  obtain ⟨i, hi'⟩ := (itemEnv_typed (b := b) (lo := lo) (hi := hi) (es := es) xWellFormed).scalar xt (.int exByte) (by simp [xP]) trivial
  have hv : (itemEnv xP.m.msg b lo hi es).var (ID.key xt) = .int i := hi'
  have h2 : IsTrue xP.m.msg b lo hi es xL2.condition → i = 1 := by
    intro h; simp only [IsTrue, xL2, Expr.n, eval, hv] at h; simpa [Val.negIf, RelOp.eval] using h
  have h3 : IsTrue xP.m.msg b lo hi es xL3.condition → i = 2 := by
    intro h; simp only [IsTrue, xL3, Expr.n, eval, hv] at h; simpa [Val.negIf, RelOp.eval] using h
  have h4 : IsTrue xP.m.msg b lo hi es xL4.condition → i = 3 := by
    intro h; simp only [IsTrue, xL4, Expr.n, eval, hv] at h; simpa [Val.negIf, RelOp.eval] using h
  have hss := hs.trans hs'.symm
  rcases xLinks hl with rfl | rfl | rfl | rfl | rfl | rfl | rfl <;> rcases xLinks hl' with rfl | rfl | rfl | rfl | rfl | rfl | rfl <;>
    first
    | rfl
    | exact absurd hss (by decide)
    | (first | have e1 := h2 ht | have e1 := h3 ht | have e1 := h4 ht
       first | have e2 := h2 ht' | have e2 := h3 ht' | have e2 := h4 ht'
       omega)

theorem xSize3 {b : Bytes} {lo hi : Int} {y : Item} {es : List Item} (hy : y.f = xt) :
    eval .ada (itemEnv xP.m.msg b lo hi (y :: es)) xL3.size = some (.int (hi - y.last)) := by
  have h1 : (itemEnv xP.m.msg b lo hi (y :: es)).attr .last (ID.key ⟨[['M', 'e', 's', 's', 'a', 'g', 'e']]⟩) = .int hi := rfl
  have h2 : (itemEnv xP.m.msg b lo hi (y :: es)).attr .last (ID.key xt) = .int y.last := by
    simp only [itemEnv]
    rw [if_neg (by decide), List.find?_cons_of_pos (by simp [hy]; decide)]
  simp only [xL3, PyRFLX.messageVar, Expr.v, eval, h1, h2]
  rfl

theorem xSize5 {b : Bytes} {lo hi : Int} {y : Item} {es : List Item} (hy : y.f = xl) :
    eval .ada (itemEnv xP.m.msg b lo hi (y :: es)) xL5.size = some (.int (y.value * 8)) := by
  have h2 : (itemEnv xP.m.msg b lo hi (y :: es)).var (ID.key xl) = .int y.value := by
    show (match xP.m.msg.type? xl, (y :: es).find? (fun e => e.f == xl) with | none, _ => _ | some t, some e => _ | some t, none => _) = Val.int y.value
    rw [show xP.m.msg.type? xl = some (.int exByte) from rfl, List.find?_cons_of_pos (by simp [hy])]
    rfl
  simp only [xL5, Expr.n, eval, evalL, h2]
  simp [Val.negIf, allSome, Val.int?, intProd]

theorem xSizes {b : Bytes} {lo hi : Int} (I : InBuffer xP b lo hi) : Sizes xP b lo hi := by
  intro es p pos h l hl hs hf ht t htt hsc n hn
  obtain ⟨b1, b2, b3⟩ := follows_bounds xWellFormed I.order h
  have hlo := I.lower.1
  have hr := I.range.1
  rcases xComposite hl htt hsc with rfl | rfl
  · obtain ⟨y, es', rfl, hy, h1, h2, h3, h4⟩ := xItem (.inl rfl) (by subst hs; exact h : Follows xP.m.msg b lo hi es xt pos)
    rw [xSize3 hy] at hn
    simp only [Option.some.injEq, Val.int.injEq] at hn
    obtain ⟨c1, c2, c3⟩ := b3 y List.mem_cons_self
    omega
  · obtain ⟨y, es', rfl, hy, h1, h2, h3, h4⟩ := xItem (.inr rfl) (by subst hs; exact h : Follows xP.m.msg b lo hi es xl pos)
    rw [xSize5 hy] at hn
    simp only [Option.some.injEq, Val.int.injEq] at hn
    obtain ⟨c1, c2, c3⟩ := b3 y List.mem_cons_self
    have : xP.bitLast = 17179869176 := rfl
    omega

theorem xWay {fs : List Field} {p : Field} (h : Way exTlv.links fs p) : Path xP.m.msg fs p := by
  induction h with
  | start => exact .start
  | step _ h1 h2 h3 ih => exact .step ih h1 h2 h3

theorem xSame : SameMessage exTlv xP (fun f => f == xr) where
  fields := rfl
  spelled := by
    intro f hf
    rcases xFields hf with rfl | rfl | rfl | rfl <;> decide
  links := by rfl
  types := by
    intro f hf t ht
    have hlow : low f = f := by rcases xFields hf with rfl | rfl | rfl | rfl <;> decide
    rw [hlow] at ht
    rcases xTypes ht with ⟨rfl | rfl, rfl⟩ | ⟨rfl | rfl, rfl⟩
    · exact (rfl : exByte = exByte)
    · exact (rfl : exByte = exByte)
    · exact trivial
    · exact trivial
  literal := by
    intro f hf t imp ht
    rcases xFields hf with rfl | rfl | rfl | rfl <;> cases ht
  literals := by intro kv hkv; cases hkv
  conditions := by
    intro l hl fs hp
    have hp := xWay hp
    rcases xLinks hl with rfl | rfl | rfl | rfl | rfl | rfl | rfl
    case inr.inl => exact .inr ⟨trivial, ⟨rfl, rfl, fun _ => List.mem_map_of_mem (xt_in hp)⟩, trivial⟩
    case inr.inr.inl => exact .inr ⟨trivial, ⟨rfl, rfl, fun _ => List.mem_map_of_mem (xt_in hp)⟩, trivial⟩
    case inr.inr.inr.inl => exact .inr ⟨trivial, ⟨rfl, rfl, fun _ => List.mem_map_of_mem (xt_in hp)⟩, trivial⟩
    all_goals trivial
  sizes := by
    intro l hl hf hc hr fs hp
    have hp := xWay hp
    rcases xLinks hl with rfl | rfl | rfl | rfl | rfl | rfl | rfl
    case inr.inr.inr.inr.inl => exact ⟨⟨rfl, rfl, fun _ => List.mem_map_of_mem (xl_in hp)⟩, trivial, trivial⟩
    all_goals first
      | exact absurd hr (by decide)
      | exact absurd hc (by decide)
      | exact absurd hf (by decide)

theorem xRest {b : Bytes} {lo hi : Int} {input : List Byte} (hH : Holds b lo hi input) : RestOfBuffer exTlv xP (fun f => f == xr) b lo hi := by
  intro l hl hr es pos h
  have hl : l = xL3 := by
    rcases xLinks hl with rfl | rfl | rfl | rfl | rfl | rfl | rfl <;> first | rfl | exact absurd hr (by decide)
  subst hl
  obtain ⟨y, es', rfl, hy, h1, h2, h3, h4⟩ := xItem (.inl rfl) (h : Follows xP.m.msg b lo hi es xt pos)
  rw [show (xL3.size) = xL3.size from rfl, xSize3 hy]
  refine ⟨by rw [h1]; congr 2; omega, ?_⟩
  have : y.first = lo := by
    obtain ⟨q, qpos, l', g1, g2, g3, _⟩ := follows_cons h
    have hl' : l' = xL1 := by
      have g3 : xt = l'.target := g3
      rcases xLinks g2.1 with rfl | rfl | rfl | rfl | rfl | rfl | rfl <;> first | rfl | exact absurd g3 (by decide)
    subst hl'
    cases es' with
    | nil => rw [g2.field.2, (follows_nil g1).2]
    | cons z zs =>
      obtain ⟨q', _, l'', _, k2, k3, _⟩ := follows_cons g1
      have hq : INITIAL = l''.target := g2.2.1.trans k3
      rcases xLinks k2.1 with rfl | rfl | rfl | rfl | rfl | rfl | rfl <;> exact absurd hq (by decide)
  have := hH.1
  omega

/-- Whatever the bytes are: what PyRFLX accepts is accepted by generated code. -/
theorem exTlv_agree {b : Bytes} {lo hi : Int} {input : List Byte} (I : InBuffer xP b lo hi) (hH : Holds b lo hi input) (hne : input ≠ [])
    {σ0 σ : PyRFLX.State} (h0 : exTlv.new = .ok σ0) (h : exTlv.parseBytes σ0 input = .ok σ) :
    ∃ c p e, xP.parse b lo hi = .ok c ∧ xP.structuralValidMessage c = .ok true ∧
      PyRFLX.Walk exTlv σ.mapping INITIAL p e ∧ exTlv.nextField σ.mapping e = .ok (some FINAL) ∧
      (∀ f ∈ p, Agrees exTlv xP b lo σ c f) ∧
      ∀ f ∈ exTlv.fields, f ∉ p → (c.cursors (low f)).state = .invalid ∨ (c.cursors (low f)).state = .incomplete :=
  C60_agree_partial exTlv_well xWellFormed xSame I (xDeterministic b lo hi) (xSizes I) (xRest hH) hH hne h0 h

/-- A message with a length, in the middle of a buffer. -/
example : ∃ c σ, xP.parse ⟨5, [0, 1, 2, 7, 8, 9]⟩ 41 80 = .ok c ∧ xP.structuralValidMessage c = .ok true ∧
    (∃ σ0, exTlv.new = .ok σ0 ∧ exTlv.parseBytes σ0 [1, 2, 7, 8, 9] = .ok σ) ∧
    Agrees exTlv xP ⟨5, [0, 1, 2, 7, 8, 9]⟩ 41 σ c xt := by
  obtain ⟨σ0, σ, h0, h, _⟩ := PyRFLX.reencode_some (m := exTlv) (input := [1, 2, 7, 8, 9]) (out := [1, 2, 7, 8]) (by with_unfolding_all rfl)
  have I : InBuffer xP ⟨5, [0, 1, 2, 7, 8, 9]⟩ 41 80 := ⟨by decide, by decide, by decide, by decide, by decide⟩
  have hH : Holds ⟨5, [0, 1, 2, 7, 8, 9]⟩ 41 80 [1, 2, 7, 8, 9] := ⟨by decide, by decide⟩
  obtain ⟨c, p, e, h1, h2, h3, h4, h5, h6⟩ := exTlv_agree I hH (by simp) h0 h
  refine ⟨c, σ, h1, h2, ⟨σ0, h0, h⟩, h5 xt ?_⟩
  have hn : exTlv.nextField σ.mapping INITIAL = .ok (some xt) := by
    obtain ⟨l0, k1, _, _, _, k5⟩ := exTlv_well.initial_next
    have : outgoing exTlv.links INITIAL = [xL1] := rfl
    rw [this] at k1
    cases k1
    exact k5 _
  cases h3 with
  | nil =>
    rw [hn] at h4
    exact absurd (Option.some.inj (Except.ok.inj h4)) (by decide)
  | cons g1 _ _ =>
    rw [hn] at g1
    cases g1
    simp

/-! ## Messages for which the property fails -/

/-- The outcome of parsing by PyRFLX. -/
def pyAccepts (m : PyRFLX.Msg) (input : List Byte) : Bool := (m.new.bind fun σ => m.parseBytes σ input) matches .ok _

/-- The outcome of parsing by generated code. -/
def genAccepts (P : Pkg) (b : Bytes) (lo hi : Int) : Option Bool :=
  match P.parse b lo hi with
  | .ok c => match P.structuralValidMessage c with | .ok r => some r | _ => none
  | _ => none

/-- `type T is (One => 1, ...) with Size => 8, Always_Valid`. -/
def xEnum : Enum := ⟨⟨[['P'], ['T']]⟩, [(⟨[['O', 'n', 'e']]⟩, 1)], .n 8, true⟩

/-- Links of a message of two fields `t` and `l`, with a condition at the end. -/
def xTwo (c : Expr) : List Link :=
  [⟨INITIAL, xt, .tru, .undefined, .undefined⟩, ⟨xt, xl, .tru, .undefined, .undefined⟩, ⟨xl, FINAL, c, .undefined, .undefined⟩]

/-- A message of two values of `T` in PyRFLX. -/
def xEnums (c : Expr) : PyRFLX.Msg :=
  ⟨xTwo c, [xt, xl], fun _ => .scalar (.enum xEnum) false,
    [(.var false false ⟨[['O', 'n', 'e']]⟩, .n 1), (.var false false ⟨[['P'], ['O', 'n', 'e']]⟩, .n 1)], 10⟩

/-- A message of two values of `T` in generated code. -/
def xEnumsP (c : Expr) : Pkg :=
  ⟨⟨⟨⟨[['P'], ['M']]⟩, xTwo c, [xt, xl], [(xt, .enum xEnum), (xl, .enum xEnum)], []⟩, xSpell⟩, 17179869176⟩

/-- Links of a message of a byte `t` and a byte string `v` of one byte, with a condition at the end. -/
def xData (c : Expr) : List Link :=
  [⟨INITIAL, xt, .tru, .undefined, .undefined⟩, ⟨xt, xv, .tru, .n 8, .undefined⟩, ⟨xv, FINAL, c, .undefined, .undefined⟩]

/-- This message in PyRFLX. -/
def xDataM (c : Expr) : PyRFLX.Msg :=
  ⟨xData c, [xt, xv], fun f => if f = xt then .scalar (.int exByte) false else .opaque, [], 10⟩

/-- This message in generated code. -/
def xDataP (c : Expr) : Pkg :=
  ⟨⟨⟨⟨[['P'], ['M']]⟩, xData c, [xt, xv], [(xt, .int exByte), (xv, .opaque)], []⟩, xSpell⟩, 17179869176⟩

/-- C60 is false for enumerations that are always valid: all values that are not named are the same to PyRFLX, so it takes the bytes
5 and 6 for equal values, and accepts a message generated code rejects. -/
theorem C60_unknown_values_counterexample :
    (xEnumsP (.rel .eq (.var false false xt) (.var false false xl))).m.msg.links =
      (xEnums (.rel .eq (.var false false xt) (.var false false xl))).links.map lowLink ∧ Holds ⟨1, [5, 6]⟩ 1 16 [5, 6] ∧
    pyAccepts (xEnums (.rel .eq (.var false false xt) (.var false false xl))) [5, 6] = true ∧
    genAccepts (xEnumsP (.rel .eq (.var false false xt) (.var false false xl))) ⟨1, [5, 6]⟩ 1 16 = some false :=
  ⟨rfl, ⟨by decide, by decide⟩, by decide +kernel, by decide +kernel⟩

/-- The converse is false for such enumerations: that the byte 5 is not the literal `One` is not known to PyRFLX. -/
theorem C60_unknown_literal_counterexample :
    Holds ⟨1, [5, 6]⟩ 1 16 [5, 6] ∧
    pyAccepts (xEnums (.rel .ne (.var false false xt) (.var false false ⟨[['O', 'n', 'e']]⟩))) [5, 6] = false ∧
    genAccepts (xEnumsP (.rel .ne (.var false false xt) (.var false false ⟨[['O', 'n', 'e']]⟩))) ⟨1, [5, 6]⟩ 1 16 = some true :=
  ⟨⟨by decide, by decide⟩, by decide +kernel, by decide +kernel⟩

/-- C60 is false for conditions about positions, as PyRFLX counts from 0 and generated code from the first bit of the buffer: with the
condition `t'Last = 7` PyRFLX accepts a message generated code rejects. -/
theorem C60_positions_counterexample :
    Holds ⟨1, [5, 7]⟩ 1 16 [5, 7] ∧
    pyAccepts (xDataM (.rel .eq (.attr false .last (.var false false xt)) (.n 7))) [5, 7] = true ∧
    genAccepts (xDataP (.rel .eq (.attr false .last (.var false false xt)) (.n 7))) ⟨1, [5, 7]⟩ 1 16 = some false :=
  ⟨⟨by decide, by decide⟩, by decide +kernel, by decide +kernel⟩

/-- The converse is false for comparisons with aggregates, which PyRFLX does not carry out: neither of the conditions `v = [7]` and
`v /= [7]` holds. -/
theorem C60_aggregate_counterexample :
    Holds ⟨1, [5, 7]⟩ 1 16 [5, 7] ∧ Holds ⟨1, [5, 6]⟩ 1 16 [5, 6] ∧
    pyAccepts (xDataM (.rel .eq (.var false false xv) (.agg [.n 7]))) [5, 7] = false ∧
    genAccepts (xDataP (.rel .eq (.var false false xv) (.agg [.n 7]))) ⟨1, [5, 7]⟩ 1 16 = some true ∧
    pyAccepts (xDataM (.rel .ne (.var false false xv) (.agg [.n 7]))) [5, 6] = false ∧
    genAccepts (xDataP (.rel .ne (.var false false xv) (.agg [.n 7]))) ⟨1, [5, 6]⟩ 1 16 = some true :=
  ⟨⟨by decide, by decide⟩, ⟨by decide, by decide⟩, by decide +kernel, by decide +kernel, by decide +kernel, by decide +kernel⟩

end Verif.Agree
