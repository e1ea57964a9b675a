import Verif.Verify.DeadLink

/-! # C74: overlays of accepted messages -/

namespace Verif.Verify
open Verif Verif.Graph Verif.Types Verif.Typing

/-! ## Specification -/

/-- The link says that its target starts where the field `x` starts. -/
def Overlays (l : Link) (x : ID) : Prop := l.source ≠ INITIAL ∧ ∃ im, l.first = .attr false .first (.var false im x)

/-- The target of the link and the field `x` occupy the same bits. -/
def SameBits (ρ : Env) (l : Link) (x : ID) : Prop :=
  ∃ a b, ρ.attr .first l.target.key = .int a ∧ ρ.attr .first x.key = .int a ∧ ρ.attr .last l.target.key = .int b ∧ ρ.attr .last x.key = .int b

variable {D : Division} {m : Msg} {ρ : Env} {F L : Int}

/-! ## Lemmas -/

theorem overlay_starts {l : Link} {x : ID} {a n : Int} (ho : Overlays l x) (ha : At D m ρ F l a n) : ρ.attr .first x.key = .int a := by
  obtain ⟨hi, im, hf⟩ := ho
  rcases ha.starts with ⟨h1, _⟩ | ⟨_, h2, _⟩ | ⟨_, _, h3⟩
  · exact absurd h1 hi
  · rw [hf] at h2; cases h2
  · rw [hf] at h3
    simpa [eval, Val.negIf] using h3

/-! ## C74 -/

/-- C74 (possible): if an accepted message contains a field that overlays another field, then for each sequence of links to the field
there are values of names for which both fields occupy the same bits. The values do not have to be values of the types. -/
theorem C74_possible_partial {s : Solver} (h : m.Accepted s) (hr : m.Regular) (hs : m.Simple) (hD : Floors D) {q : List Link} {l : Link}
    (hp : Path m.links INITIAL (q ++ [l]) l.target) (hf : l.target ∈ m.fields) {x : ID} (ho : Overlays l x) :
    ∃ ρ F L, Layout D m ρ F L (q ++ [l]) ∧ SameBits ρ l x := by
  have hlm : l ∈ m.links := path_mem hp l (by simp)
  have hne : m.links ≠ [] := List.ne_nil_of_mem hlm
  obtain ⟨k, hv⟩ := (accepted_verified h).2 hne
  have hc := anyM_false hv.overlays l.target (List.mem_cons_of_mem _ hf)
  obtain ⟨ps, hps, hc⟩ := bind_ok (hc : Except.bind _ _ = _)
  have hin := (mem_paths h hr hps (q ++ [l])).mpr ⟨by simp, hp⟩
  have h1 := anyM_false hc _ hin
  obtain ⟨hi, im, hfirst⟩ := ho
  unfold Msg.overlay1 at h1
  rw [List.getLast?_append] at h1
  simp only [List.getLast?_singleton, Option.some_or, hfirst] at h1
  obtain ⟨facts, hfacts, h1⟩ := bind_ok (h1 : Except.bind _ _ = _)
  obtain ⟨tl, htl, h1⟩ := bind_ok (h1 : Except.bind _ _ = _)
  obtain ⟨r, hchk, h1⟩ := bind_ok (h1 : Except.bind _ _ = _)
  obtain ⟨b, hsat, h1⟩ := bind_ok (h1 : Except.bind _ _ = _)
  have hb : b = true := by
    have h1 : (!b) = false := Except.ok.inj h1
    simpa using h1
  rw [hb] at hsat
  obtain ⟨M, hM⟩ := satOrCore_true hchk hsat
  have hsl : ∀ y ∈ q ++ [l], SimpleLink y ∧ Sized m y := fun y hy =>
    ⟨hs.link y (path_mem hp y hy), (path_source hp y hy).elim fun _ hq => sized h hr (path_mem hp y hy) hq⟩
  have hlay := layout_back (D := D) hD (by simp) hsl hfacts (fun e he => hM e (List.mem_cons_of_mem _ he))
  refine ⟨_, _, _, hlay, ?_⟩
  obtain ⟨a, n, hat, _⟩ := hlay.field l (by simp)
  refine ⟨a, a + n - 1, hat.first, overlay_starts ⟨hi, im, hfirst⟩ hat, hat.last, ?_⟩
  obtain ⟨gs, hgs⟩ := concatM_ok hfacts l (by simp)
  obtain ⟨size, last, g1, g2, hm⟩ := linkExpression_mem hgs
  obtain ⟨hnum, hundef⟩ := simple_targetSize (hsl l (by simp)).1 (hsl l (by simp)).2 g1
  have hlast : tl = .bin .sub (.add [targetFirst l, size]) (.n 1) := by
    unfold Msg.targetLast at htl
    rw [g1] at htl
    cases htl; rfl
  have hlast' : last = tl := by
    rw [htl] at g2
    exact (Except.ok.inj g2).symm
  have hln : Numeric tl := by
    rw [hlast]; simp [Numeric, NumericL, simple_targetFirst (hsl l (by simp)).1, hnum, Expr.n]
  have e1 := hM (.rel .eq (at' .last l.target) tl)
    (List.mem_cons_of_mem _ ((concatM_mem hfacts _).mpr ⟨l, by simp, gs, hgs, (hm _).mpr (.inr (.inl ⟨hundef, .inr (by rw [hlast'])⟩))⟩))
  obtain ⟨i, hi1, hi2⟩ := eq_back (D := D) hD (numeric_at (by simp) _) hln e1
  obtain ⟨j, hj1, hj2⟩ := eq_back (D := D) hD hln (by simp [Numeric]) (hM _ (List.mem_cons_self ..))
  rw [hi2] at hj1
  cases hj1
  rw [eval_at] at hi1
  have hl := hat.last
  rw [Option.some.inj hi1] at hl
  cases hl
  simpa [eval, Val.negIf] using hj2

/-- C74 (fixed sizes): if the sizes of a field and of the field that it overlays are given by their types then both occupy the same bits
in all messages. -/
theorem C74_congruent_partial {s : Solver} (h : m.Accepted s) (hr : m.Regular) (hs : m.Simple) {q : List Link} {l o : Link}
    (hp : Path m.links INITIAL (q ++ [l]) l.target) (hf : l.target ∈ m.fields) (hl : l.size = .undefined) (hoq : o ∈ q)
    {x : ID} (ho : Overlays l x) (hx : x.key = o.target.key) (hof : o.target ∈ m.fields) (hos : o.size = .undefined) {D : Division} {ρ : Env} {F L : Int}
    (hlay : Layout D m ρ F L (q ++ [l])) : SameBits ρ l x := by
  have fin : ∀ f ∈ m.fields, f ≠ FINAL := by
    intro f hf'
    obtain ⟨⟨lits, hacc⟩, _⟩ := accepted_verified h
    obtain ⟨_, hfield, _⟩ := C14_order_partial ⟨m.links, m.types.map (·.1), lits⟩ hr m.fields hacc
    exact ((hfield f).mp hf').2.2
  have spans : ∀ {k : Link}, k.size = .undefined → k.target ≠ FINAL → ∀ {D D' : Division} {ρ ρ' : Env} {n n' : Int},
      Spans D m ρ k n → Spans D' m ρ' k n' → n = n' := by
    intro k hk ht D D' ρ ρ' n n' h1 h2
    rcases h1 with ⟨h, _⟩ | ⟨_, h, _⟩ | ⟨_, _, t, s, h1, h3, rfl⟩
    · exact absurd hk h
    · exact absurd h ht
    rcases h2 with ⟨h, _⟩ | ⟨_, h, _⟩ | ⟨_, _, t', s', h2, h4, rfl⟩
    · exact absurd hk h
    · exact absurd h ht
    rw [h1] at h2
    cases h2
    rw [h3] at h4
    cases h4
    rfl
  obtain ⟨ρ', F', L', hlay', a', b', g1, g2, g3, g4⟩ := C74_possible_partial h hr hs floors_floor hp hf ho
  obtain ⟨a1, n1, hat1, _⟩ := hlay'.field l (by simp)
  obtain ⟨a2, n2, hat2, _⟩ := hlay'.field o (by simp [hoq])
  obtain ⟨c1, k1, hct1, _⟩ := hlay.field l (by simp)
  obtain ⟨c2, k2, hct2, _⟩ := hlay.field o (by simp [hoq])
  have e1 := spans hl (fin _ hf) hat1.spans hct1.spans
  have e2 := spans hos (fin _ hof) hat2.spans hct2.spans
  have e3 := overlay_starts ho hct1
  rw [hx] at e3 g2 g4
  unfold SameBits
  rw [hx]
  rw [hct2.first] at e3
  cases e3
  rw [hat1.first] at g1
  rw [hat2.first] at g2
  rw [hat1.last] at g3
  rw [hat2.last] at g4
  cases g1; cases g2
  have g3 := Val.int.inj g3
  have g4 := Val.int.inj g4
  refine ⟨_, _, hct1.first, hct2.first, hct1.last, ?_⟩
  rw [hct2.last]
  congr 1
  omega

/-! ## An example, and an overlay that does not match

```
type O is
   message
      L : U8;
      C : U8
         with First => L'First;
      A : Opaque
         with Size => L * 8;
      B : Opaque
         with First => A'First, Size => 16
         then null
            if L'Size = 8;
   end message;
``` -/

set_option linter.unusedSimpArgs false

def oSize : Expr := .mul [exL, .n 8]
def oFirst (c : Char) : Expr := .attr false .first (.v ⟨[[c]]⟩)

def oCond : Expr := .rel .eq (.attr false .size (.v ⟨[['L']]⟩)) (.n 8)

def o1 : Link := lnk INITIAL (fld 'l')
def o2 : Link := ⟨fld 'l', fld 'c', .tru, .undefined, oFirst 'L'⟩
def o3 : Link := ⟨fld 'c', fld 'a', .tru, oSize, .undefined⟩
def o4 : Link := ⟨fld 'a', fld 'b', .tru, .n 16, oFirst 'A'⟩
def o5 : Link := lnk (fld 'b') FINAL oCond

def oMsgWith (fields : List Field) : Msg :=
  ⟨⟨[['M'], ['O']]⟩, [o1, o2, o3, o4, o5], fields, [(fld 'l', exU8), (fld 'c', exU8), (fld 'a', .opaque), (fld 'b', .opaque)], []⟩

def oMsg : Msg := oMsgWith [fld 'l', fld 'c', fld 'a', fld 'b']

/-- A message with two bytes in the field `A`. -/
def oModel : ZModel :=
  ⟨fun
    | .var k => if k = [['l']] then 2 else 0
    | .attr .first _ k => if k = [['a']] ∨ k = [['b']] then 9 else if k = FINAL.key then 25 else 1
    | .attr .size _ k => if k = MESSAGE.key then 24 else if k = FINAL.key then 0 else if k = [['a']] ∨ k = [['b']] then 16 else 8
    | .attr .last _ k => if k = [['l']] ∨ k = [['c']] then 8 else 24
    | _ => 0, fun _ => 0, fun _ => 0, fun _ _ => 0⟩

/-- Sets of formulas that cannot be satisfied. -/
def oUnsat : List (List Expr) :=
  let first := at' .first MESSAGE
  let last := at' .last MESSAGE
  let lastC := at' .last (fld 'c')
  let endL := Expr.bin .sub (.add [first, .n 8]) (.n 1)
  let endC := Expr.bin .sub (.add [oFirst 'L', .n 8]) (.n 1)
  let nextC := Expr.add [lastC, .n 1]
  let endB := Expr.bin .sub (.add [oFirst 'A', .n 16]) (.n 1)
  let out := fun a b => Expr.not (.bool .and [.rel .ge bitVar a, .rel .le bitVar b])
  let size := fun c => at' .size (fld c)
  let aligned := fun e => Expr.not (.rel .eq (.bin .mod e (.n 8)) (.n 1))
  let lastFact := Expr.rel .eq lastC endC
  let start := Expr.rel .eq (.bin .mod first (.n 8)) (.n 1)
  let firstL := Expr.rel .eq (at' .first (fld 'l')) first
  let firstA := Expr.rel .eq (at' .first (fld 'a')) nextC
  [[.rel .lt (.n 8) (.n 0)], [.rel .lt (.n 0) (.n 0)], [.rel .lt (.n 16) (.n 0)],
   [.rel .lt oSize (.n 0), .rel .ge (.v (fld 'l')) (.n 0)],
   [.rel .ge bitVar first, .rel .le bitVar last, out first endL, out (oFirst 'A') endB, .rel .eq endB last, firstL, lastFact, firstA],
   [aligned nextC, lastFact, firstL, start],
   [aligned (oFirst 'A'), firstA, lastFact, firstL, start],
   [.not (.rel .eq (.bin .mod oSize (.n 8)) (.n 0))],
   [.not (.rel .eq (.bin .mod (.n 16) (.n 8)) (.n 0))],
   [.rel .ne (.bin .mod (.add [size 'l', size 'a']) (.n 8)) (.n 0), .rel .eq (size 'l') (.n 8), .rel .eq (size 'a') oSize]]

theorem oUnsat_unsat : ∀ u ∈ oUnsat, ¬ ∃ M, Holds M u := by
  intro u hu
  simp only [oUnsat, List.mem_cons, List.not_mem_nil, or_false] at hu
  have hk : ID.key ⟨[['A']]⟩ = ID.key (fld 'a') := by decide
  have hl : ID.key ⟨[['L']]⟩ = ID.key (fld 'l') := by decide
  rcases hu with rfl | rfl | rfl | rfl | rfl | rfl | rfl | rfl | rfl | rfl <;>
  · rintro ⟨M, h⟩
    simp [Holds, zeval, zevalL, at', bitVar, oSize, oFirst, exL, Expr.v, Expr.n, Bind.bind, Except.bind, pure, Except.pure,
      ZVal.int?, ZVal.bool?, zRel, zArith, zEqual, ZVal.cast, intSum, intProd, BoolOp.isAnd, hk, hl] at h
    try omega

def oSolver : Solver := tableSolver oModel [oModel] oUnsat oUnsat_unsat

theorem oMsg_accepted : Msg.new oSolver (fun _ => .ok false) oMsg.id oMsg.links oMsg.types oMsg.checksums 20 = .ok oMsg := by
  with_unfolding_all rfl

theorem o_typeErrors {Γ : Ctx Unit} : (Γ.var (ID.key ⟨[['L']]⟩) = .integer "M::U8" ⟨some 0, some 255⟩ →
      typeErrorIn Γ oSize = .ok false ∧ typeErrorIn Γ (oFirst 'L') = .ok false ∧ typeErrorIn Γ oCond = .ok false) ∧
    (Γ.var (ID.key ⟨[['A']]⟩) = OPAQUE → typeErrorIn Γ (oFirst 'A') = .ok false) ∧ typeErrorIn Γ (.n 16) = .ok false := by
  refine ⟨fun hl => ?_, fun ha => ?_, ?_⟩
  · have h1 : check Γ oSize (.ty .any) = .ok true := by
      simp only [check, oSize, exL, Expr.v, Expr.n, subOk, allOk, afterTy, ctorTy, ctorTyL, meets, leftWant, rightWant, hl]
      simp [commonType, Ty.common, mathTy, checkInstance, checkType, Ty.isInstance, Ty.isInteger, Ty.isCompatible, BOOLEAN,
        Bounds.contains, Bounds.defined]
      rfl
    have h2 : check Γ (oFirst 'L') (.ty .any) = .ok true := by
      simp only [check, oFirst, Expr.v, Expr.n, subOk, allOk, afterTy, ctorTy, ctorTyL, meets, leftWant, rightWant, prefixWant, hl]
      simp [commonType, Ty.common, mathTy, checkInstance, checkType, Ty.isInstance, Ty.isInteger, Ty.isCompatible, BOOLEAN,
        Bounds.contains, Bounds.defined]
      rfl
    have h3 : check Γ oCond (.ty .any) = .ok true := by
      simp only [check, oCond, Expr.v, Expr.n, subOk, allOk, afterTy, ctorTy, ctorTyL, meets, leftWant, rightWant, prefixWant, hl]
      simp [commonType, Ty.common, mathTy, checkInstance, checkType, Ty.isInstance, Ty.isInteger, Ty.isCompatible, BOOLEAN,
        Bounds.contains, Bounds.defined]
      rfl
    exact ⟨by rw [typeErrorIn, if_neg (fun h => by cases (undef_eq _).mp h), h1]; rfl,
      by rw [typeErrorIn, if_neg (fun h => by cases (undef_eq _).mp h), h2]; rfl,
      by rw [typeErrorIn, if_neg (fun h => by cases (undef_eq _).mp h), h3]; rfl⟩
  · have h2 : check Γ (oFirst 'A') (.ty .any) = .ok true := by
      simp only [check, oFirst, Expr.v, Expr.n, subOk, allOk, afterTy, ctorTy, ctorTyL, meets, leftWant, rightWant, prefixWant, ha]
      simp [commonType, Ty.common, mathTy, checkInstance, checkType, Ty.isInstance, Ty.isInteger, Ty.isCompatible, BOOLEAN,
        Bounds.contains, Bounds.defined, OPAQUE]
      rfl
    rw [typeErrorIn, if_neg (fun h => by cases (undef_eq _).mp h), h2]; rfl
  · have h2 : check Γ (.n 16) (.ty .any) = .ok true := by
      simp only [check, Expr.n, subOk, allOk, afterTy, ctorTy, ctorTyL, meets, leftWant, rightWant]
      simp [commonType, Ty.common, mathTy, checkInstance, checkType, Ty.isInstance, Ty.isInteger, Ty.isCompatible, BOOLEAN,
        Bounds.contains, Bounds.defined]
      rfl
    rw [typeErrorIn, if_neg (fun h => by cases (undef_eq _).mp h), h2]; rfl

def oL : Field × FTy := (fld 'l', exU8)
def oC : Field × FTy := (fld 'c', exU8)
def oA : Field × FTy := (fld 'a', .opaque)
def oB : Field × FTy := (fld 'b', .opaque)

/-- The context after some fields has their types. -/
theorem o_ctx (fields : List Field) :
    (∃ Γ, (oMsgWith fields).ctx [] = .ok Γ) ∧
    (∃ Γ, (oMsgWith fields).ctx [oL] = .ok Γ ∧ Γ.var (ID.key ⟨[['L']]⟩) = .integer "M::U8" ⟨some 0, some 255⟩) ∧
    (∃ Γ, (oMsgWith fields).ctx [oC, oL] = .ok Γ ∧ Γ.var (ID.key ⟨[['L']]⟩) = .integer "M::U8" ⟨some 0, some 255⟩) ∧
    (∃ Γ, (oMsgWith fields).ctx [oA, oC, oL] = .ok Γ ∧ Γ.var (ID.key ⟨[['A']]⟩) = OPAQUE) ∧
    ∃ Γ, (oMsgWith fields).ctx [oB, oA, oC, oL] = .ok Γ ∧ Γ.var (ID.key ⟨[['L']]⟩) = .integer "M::U8" ⟨some 0, some 255⟩ := by
  with_unfolding_all exact ⟨⟨_, rfl⟩, ⟨_, rfl, rfl⟩, ⟨_, rfl, rfl⟩, ⟨_, rfl, rfl⟩, ⟨_, rfl, rfl⟩⟩

theorem o_pathTypes (fields : List Field) : (oMsgWith fields).pathTypes [] [o1, o2, o3, o4, o5] = .ok false := by
  obtain ⟨⟨Γ0, c0⟩, ⟨Γ1, c1, a1⟩, ⟨Γ2, c2, a2⟩, ⟨Γ3, c3, a3⟩, ⟨Γ4, c4, a4⟩⟩ := o_ctx fields
  have s1 : (oMsgWith fields).see [] o1 = [] := rfl
  have s2 : (oMsgWith fields).see [] o2 = [oL] := rfl
  have s3 : (oMsgWith fields).see [oL] o3 = [oC, oL] := rfl
  have s4 : (oMsgWith fields).see [oC, oL] o4 = [oA, oC, oL] := rfl
  have s5 : (oMsgWith fields).see [oA, oC, oL] o5 = [oB, oA, oC, oL] := rfl
  rw [Msg.pathTypes, s1, c0, Msg.pathTypes, s2, c1, Msg.pathTypes, s3, c2, Msg.pathTypes, s4, c3, Msg.pathTypes, s5, c4, Msg.pathTypes]
  have hn := fun Γ => (o_typeErrors (Γ := Γ)).2.2
  simp [o1, o2, o3, o4, o5, lnk, (o_typeErrors.1 a1).2.1, (o_typeErrors.1 a4).2.2, (o_typeErrors.1 a2).1, o_typeErrors.2.1 a3, hn, typeErrorIn_tru,
    typeErrorIn_undefined, Bind.bind, Except.bind]
  rfl

theorem oMsg_types_ok (fields : List Field) : (oMsgWith fields).verifyExpressionTypes oSolver 20 = .ok false := by
  have hp : paths (oMsgWith fields).links 20 FINAL = .ok [[o1, o2, o3, o4, o5]] := by
    with_unfolding_all rfl
  have h1 := o_pathTypes fields
  have c1 : (oMsgWith fields).contradictory oSolver [o1, o2, o3, o4, o5] = .ok false := by with_unfolding_all rfl
  rw [Msg.verifyExpressionTypes, hp]
  show anyM' _ _ = _
  simp only [anyM', Msg.pathTypeError, c1]
  simp [h1]; rfl

theorem oMsg_acceptedTyped : oMsg.AcceptedTyped oSolver := by
  refine ⟨20, ?_⟩
  rw [new_congr (g := fun _ => .ok false) oMsg_types_ok]
  exact oMsg_accepted

theorem oMsg_regular : oMsg.Regular := by simp only [Msg.Regular]; decide

theorem oMsg_simple : oMsg.Simple where
  link := by
    intro l hl
    have hl : l ∈ [o1, o2, o3, o4, o5] := hl
    simp only [List.mem_cons, List.not_mem_nil, or_false] at hl
    have hu : (Expr.undefined : Expr) ≠ .undefined → False := fun h => h rfl
    rcases hl with rfl | rfl | rfl | rfl | rfl
    · exact ⟨trivial, fun h => absurd rfl h, fun h => absurd rfl h⟩
    · exact ⟨trivial, fun h => absurd rfl h, fun _ => by simp [o2, oFirst, Numeric, Expr.v]⟩
    · exact ⟨trivial, fun _ => by simp [o3, oSize, exL, Numeric, NumericL, Expr.v, Expr.n], fun h => absurd rfl h⟩
    · exact ⟨trivial, fun _ => by simp [o4, Numeric, Expr.n], fun _ => by simp [o4, oFirst, Numeric, Expr.v]⟩
    · exact ⟨by simp [o5, oCond, lnk, Condition, Numeric, Expr.v, Expr.n], fun h => absurd rfl h, fun h => absurd rfl h⟩
  modulus := by
    intro e he t ht
    have he : e ∈ [oL, oC, oA, oB] := he
    simp only [List.mem_cons, List.not_mem_nil, or_false] at he
    rcases he with rfl | rfl | rfl | rfl <;> (cases ht; try simp [Numeric, Expr.n])

theorem oMsg_path : Path oMsg.links INITIAL [o1, o2, o3, o4] (fld 'b') ∧ Path oMsg.links INITIAL [o1, o2] (fld 'c') := by
  have h1 : Path oMsg.links INITIAL [o1] (fld 'l') := Path.snoc (p := []) Path.nil (by simp [oMsg, oMsgWith])
  have h2 : Path oMsg.links INITIAL [o1, o2] (fld 'c') := Path.snoc (p := [o1]) h1 (by simp [oMsg, oMsgWith])
  have h3 : Path oMsg.links INITIAL [o1, o2, o3] (fld 'a') := Path.snoc (p := [o1, o2]) h2 (by simp [oMsg, oMsgWith])
  exact ⟨Path.snoc (p := [o1, o2, o3]) h3 (by simp [oMsg, oMsgWith]), h2⟩

/-- The message with the length 1: `A` occupies the bits 9 to 16, `B` the bits 9 to 24. -/
def oEnv : Env :=
  ⟨fun k => if k = [['l']] then .int 1 else .int 0,
   fun a k => match a with
    | .first => if k = [['a']] ∨ k = [['b']] then .int 9 else .int 1
    | .size => if k = [['a']] then .int 8 else if k = [['b']] then .int 16 else if k = MESSAGE.key then .int 24 else .int 8
    | .last => if k = [['l']] ∨ k = [['c']] then .int 8 else if k = [['a']] then .int 16 else .int 24
    | _ => .int 0, fun _ _ => .int 0, fun _ _ => .int 0⟩

theorem oEnv_layout (D : Division) : Layout D oMsg oEnv 1 24 [o1, o2, o3, o4] where
  first := rfl
  last := rfl
  size := rfl
  nonneg := by decide
  nonempty := by decide
  field := by
    intro l hl
    simp only [List.mem_cons, List.not_mem_nil, or_false] at hl
    rcases hl with rfl | rfl | rfl | rfl
    · exact ⟨1, 8, ⟨.inl ⟨rfl, rfl⟩, .inr (.inr ⟨rfl, by decide, exU8, _, rfl, rfl, rfl⟩), rfl, rfl, rfl⟩, by decide⟩
    · exact ⟨1, 8, ⟨.inr (.inr ⟨by decide, (fun h => nomatch h), rfl⟩), .inr (.inr ⟨rfl, by decide, exU8, _, rfl, rfl, rfl⟩), rfl, rfl, rfl⟩, by decide⟩
    · exact ⟨9, 8, ⟨.inr (.inl ⟨by decide, rfl, 8, rfl, rfl⟩), .inl ⟨(fun h => nomatch h), rfl⟩, rfl, rfl, rfl⟩, by decide⟩
    · exact ⟨9, 16, ⟨.inr (.inr ⟨by decide, fun h => (by cases h), rfl⟩), .inl ⟨fun h => (by cases h), rfl⟩, rfl, rfl, rfl⟩, by decide⟩
  condition := by
    intro l hl
    simp only [List.mem_cons, List.not_mem_nil, or_false] at hl
    rcases hl with rfl | rfl | rfl | rfl <;> rfl

/-- The hypotheses of the theorems are satisfiable: `C` occupies the bits of `L`. -/
example : SameBits oEnv o2 ⟨[['L']]⟩ :=
  C74_congruent_partial (q := [o1]) (o := o1) (acceptedTyped oMsg_acceptedTyped).1 oMsg_regular oMsg_simple oMsg_path.2
    (by simp [oMsg, oMsgWith, o2]) rfl (by simp) ⟨by decide, false, rfl⟩ (by decide) (by simp [oMsg, oMsgWith, o1, lnk]) rfl
    ((oEnv_layout .floor).prefix (by
      intro x hx
      simp only [List.cons_append, List.nil_append, List.mem_cons, List.not_mem_nil, or_false] at hx ⊢
      rcases hx with h | h <;> simp [h]))

/-- C74: an overlay does not always occupy the bits of the field that it overlays. That it does for some values suffices for the
verification. -/
theorem C74_overlay_counterexample : ∃ (s : Solver) (m : Msg) (q : List Link) (l : Link) (x : ID) (ρ : Env) (F L : Int), s.Decides ∧
    m.AcceptedTyped s ∧ m.Regular ∧ m.Simple ∧ Path m.links INITIAL (q ++ [l]) l.target ∧ Overlays l x ∧ Valued m ρ ∧
    (∀ D, Layout D m ρ F L (q ++ [l])) ∧ ¬ SameBits ρ l x := by
  refine ⟨oSolver, oMsg, [o1, o2, o3], o4, ⟨[['A']]⟩, oEnv, 1, 24, tableSolver_decides, oMsg_acceptedTyped, oMsg_regular, oMsg_simple,
    oMsg_path.1, ⟨by decide, false, rfl⟩, ⟨⟨1, rfl, rfl⟩, ⟨24, rfl, rfl⟩, ?_⟩, oEnv_layout, ?_⟩
  · intro e he hs _ _
    have he : e ∈ [oL, oC, oA, oB] := he
    simp only [List.mem_cons, List.not_mem_nil, or_false] at he
    rcases he with rfl | rfl | rfl | rfl
    · exact ⟨1, rfl, ⟨0, .b0⟩, ⟨255, .b0⟩, rfl, rfl, by decide, by decide⟩
    · exact ⟨0, rfl, ⟨0, .b0⟩, ⟨255, .b0⟩, rfl, rfl, by decide, by decide⟩
    · cases hs
    · cases hs
  · rintro ⟨a, b, _, _, h1, h2⟩
    have h1 : Val.int 24 = .int b := h1
    have h2 : Val.int 16 = .int b := h2
    cases h1; cases h2

end Verif.Verify
