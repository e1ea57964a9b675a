import Verif.Ada.FromProps
import Verif.Gen.Example

/-! # C51: examples, and expressions whose text is wrong -/

namespace Verif.Ada
open Verif

/-! ## A world for an assignment -/

/-- Entities named by paths. -/
inductive Thing
  | path (k : List PyStr)
  | attr (k : List PyStr) (a : PyStr)
  | app (k : List PyStr) (vs : List Val)
  | lit (v : Val)
  | other

/-- The attribute of Ada with a name. -/
def attrKind (a : PyStr) : AttrKind :=
  if a = Attr.size.name then .size
  else if a = Attr.length.name then .length
  else if a = Attr.first.name then .first
  else if a = Attr.last.name then .last
  else .valid

/-- The world in which names have the values of an assignment. -/
def worldOf (ρ : Env) : World where
  Ent := Thing
  id x := .path [x]
  sel n x := match n with
    | .path k => .path (k ++ [x])
    | _ => .other
  attr n a := match n with
    | .path k => .attr k a
    | _ => .other
  app n vs := match n with
    | .path k => .app k vs
    | _ => .other
  slice _ _ _ := .other
  record _ := .other
  lit := .lit
  val n := match n with
    | .path k => if k = ["true".toList] then some (.bool true) else if k = ["false".toList] then some (.bool false) else some (ρ.var k)
    | .attr k a => some (ρ.attr (attrKind a) k)
    | .app k vs => some (ρ.call k vs)
    | .lit v => some v
    | .other => none

theorem worldOf_selPath (ρ : Env) (k : List PyStr) : ∀ ps : List PyStr,
    selPath (worldOf ρ) (Thing.path k) ps = Thing.path (k ++ ps.map PyStr.lower) := by
  intro ps
  induction ps generalizing k with
  | nil => simp only [List.map_nil, List.append_nil]; rfl
  | cons p ps ih =>
    have := ih (k ++ [p.lower])
    simp only [List.append_assoc, List.singleton_append] at this
    exact this

theorem worldOf_path (ρ : Env) {i : ID} (h : i.parts ≠ []) : path (worldOf ρ) i.parts = some (Thing.path i.key) := by
  cases hp : i.parts with
  | nil => exact (h hp).elim
  | cons p ps =>
    simp only [path, ID.key, hp]
    exact congrArg some (worldOf_selPath ρ [p.lower] ps)

theorem worldOf_val (ρ : Env) {k : List PyStr} (h1 : k ≠ ["true".toList]) (h2 : k ≠ ["false".toList]) :
    (worldOf ρ).val (Thing.path k) = some (ρ.var k) := by
  show (if k = ["true".toList] then some (.bool true) else if k = ["false".toList] then some (.bool false) else some (ρ.var k)) = _
  rw [if_neg h1, if_neg h2]

/-- Names that are neither `True` nor `False` can have arbitrary values; a component has the value of the name composed of its parts. -/
theorem shows_worldOf {ρ : Env} {N : Names} (h1 : ∀ i, N.var i → i.key ≠ ["true".toList] ∧ i.key ≠ ["false".toList])
    (h2 : ∀ i s, N.sel i s → 2 ≤ (i.key ++ s.key).length ∧ ρ.sel i.key s.key = ρ.var (i.key ++ s.key)) : Shows (worldOf ρ) ρ N [] where
  std := ⟨rfl, rfl⟩
  lit _ := rfl
  bound _ h := by simp at h
  var i hN hp _ := by
    rw [worldOf_path ρ hp]
    exact worldOf_val ρ (h1 i hN).1 (h1 i hN).2
  attr i k a _ ha hp _ := by
    rw [worldOf_path ρ hp]
    cases k <;> simp only [attrName, Option.some.injEq, reduceCtorEq] at ha <;> subst ha <;> rfl
  sel i s hN hp _ := by
    obtain ⟨hl, hs⟩ := h2 i s hN
    rw [worldOf_path ρ hp, hs]
    refine (congrArg (worldOf ρ).val (worldOf_selPath ρ i.key s.parts)).trans ?_
    have : ∀ w : PyStr, i.key ++ s.key ≠ [w] := fun w hw => by
      rw [hw] at hl
      exact absurd hl (by simp)
    exact worldOf_val ρ (this _) (this _)
  call i vs _ hp _ _ := by
    rw [worldOf_path ρ hp]
    rfl

/-! ## Expressions -/

/-- `X`. -/
def exV : Expr := .v ⟨[['X']]⟩
/-- `I`. -/
def exI : Expr := .v ⟨[['I']]⟩

/-- `(for all I in P.Seq => I < X + 3 * X'Size) and X.A - F (X, -X) in P.T`. -/
def exSpec : Expr :=
  .bool .and [.quant .allIn ⟨[['I']]⟩ (.v ⟨[['P'], ['S', 'e', 'q']]⟩) (.rel .lt exI (.add [exV, .mul [.n 3, .attr false .size exV]])),
    .rel .isIn (.bin .sub (.sel false exV ⟨[['A']]⟩) (.call false ⟨[['F']]⟩ [exV, .var true false ⟨[['X']]⟩])) (.v ⟨[['P'], ['T']]⟩)]

/-- The names of `exSpec`. -/
def exSpecNames : Names where
  var i := i.key = [['x']] ∨ i.key = [['p'], ['t']] ∨ i.key = [['p'], ['s', 'e', 'q']]
  attr k i := k = .size ∧ i.key = [['x']]
  sel i s := i.key = [['x']] ∧ s.key = [['a']]
  call i := i.key = [['f']]

theorem exSpec_adaptable : Adaptable exSpecNames [] exSpec := by
  have hX : Dotted ⟨[['X']]⟩ := by decide +kernel
  have hI : Dotted ⟨[['I']]⟩ := by decide +kernel
  have hA : Dotted ⟨[['A']]⟩ := by decide +kernel
  have hF : Dotted ⟨[['F']]⟩ := by decide +kernel
  have hT : Dotted ⟨[['P'], ['T']]⟩ := by decide +kernel
  have hS : Dotted ⟨[['P'], ['S', 'e', 'q']]⟩ := by decide +kernel
  have hW : Word ['I'] := by decide +kernel
  simp only [exSpec, exV, exI, Expr.v, Expr.n, Adaptable, AdaptableL, Visible, sumHead, plainName, hX, hI, hA, hF, hT, hS, first?, exSpecNames,
    ID.key, attrName]
  refine ⟨⟨⟨['I'], rfl, hW, ?_⟩, ?_⟩, ?_⟩
  all_goals simp
  all_goals decide +kernel

/-- An assignment. -/
def exSpecEnv : Env where
  var k := if k = [['x']] then .int 2 else if k = [['p'], ['s', 'e', 'q']] then .seq [1, 7] else if k = [['x'], ['a']] then .int 4 else .seq [1, 2]
  attr _ _ := .int 8
  sel _ _ := .int 4
  call _ vs := match vs with
    | [.int a, .int b] => .int (a - b - 1)
    | _ => .int 0

example : Shows (worldOf exSpecEnv) exSpecEnv exSpecNames [] ∧ eval .ada exSpecEnv exSpec = some (.bool true) := by
  refine ⟨shows_worldOf ?_ ?_, by decide +kernel⟩
  · intro i h
    rcases h with h | h | h <;> rw [h] <;> decide
  · intro i s ⟨h, h'⟩
    rw [h, h']
    decide

/-- The generated text of `exSpec`. -/
example : (adaExpr exSpec).bind AExpr.str = .ok
    "(for all I in P.Seq =>\n    I < X + 3 * X'Size)\nand X.A - F (X, (-X)) in P.T".toList := by
  with_unfolding_all rfl

/-! ## A generated condition -/

/-- `Len * 8 < Data'Size + 1`. -/
def exShort : Expr := .rel .lt (.mul [Gen.exLenV, .n 8]) (.add [Gen.exDataSize, .n 1])


/-- The generated expression of `exShort`. -/
def exShortR : Expr :=
  .rel .lt (.mul [.call false Gen.U64 [Gen.getCall ['L', 'e', 'n']], .n 8])
    (.add [.call false Gen.U64 [.call false Gen.FIELD_SIZE [Gen.ctxVar, Gen.fieldVar ['D', 'a', 't', 'a']]], .n 1])

/-- The options of expressions in the contracts of public functions. -/
def exOpts : Gen.Opts := ⟨false, true, some Gen.U64⟩

theorem exShort_generate : exOpts.generate Gen.exMsg exShort = .ok exShortR := by with_unfolding_all rfl

/-- The names of `exShortR`. -/
def exShortNames : Names where
  var i := i.key = [['c', 't', 'x']] ∨ i.key = [['f', '_', 'd', 'a', 't', 'a']]
  attr _ _ := False
  sel _ _ := False
  call _ := True

theorem exShort_adaptable : Adaptable exShortNames [] exShortR ∧ Direct exShortR := by
  have hU : Dotted Gen.U64 := by decide +kernel
  have hG : Dotted ⟨['G' :: 'e' :: 't' :: '_' :: ['L', 'e', 'n']]⟩ := by decide +kernel
  have hS : Dotted Gen.FIELD_SIZE := by decide +kernel
  have hC : Dotted ⟨[Gen.CTX]⟩ := by decide +kernel
  have hD : Dotted ⟨[Gen.affixed ['D', 'a', 't', 'a']]⟩ := by decide +kernel
  constructor
  · simp only [exShortR, Gen.getCall, Gen.ctxVar, Gen.fieldVar, Expr.v, Expr.n, Adaptable, AdaptableL, Visible, sumHead, hU, hG, hS, hC, hD, exShortNames]
    simp [ID.key]
    decide +kernel
  · simp [exShortR, Gen.getCall, Gen.ctxVar, Gen.fieldVar, Expr.v, Expr.n, Direct, DirectL]

theorem exShort_cond : Gen.Cond Gen.exMsg exOpts Gen.exKnown exShort := by
  have len : Gen.ScalarField Gen.exMsg Gen.exKnown ⟨[['L', 'e', 'n']]⟩ :=
    ⟨.inr (.inl (by decide)), Verify.exU8, List.mem_cons_of_mem _ List.mem_cons_self, trivial⟩
  exact ⟨⟨⟨rfl, .inl len⟩, trivial, trivial⟩,
    ⟨rfl, rfl, by simp, .inr ⟨Gen.exData, by simp [Gen.exMsg], .inr (.inr rfl), by decide, by simp [exOpts]⟩⟩, trivial, trivial⟩

example : ∃ r a s t, exOpts.generate Gen.exMsg exShort = .ok r ∧ adaExpr r = .ok a ∧ a.str = .ok s ∧ Reads .expression (elements s) t ∧
    (∀ u, Reads .expression (elements s) u → u = t) ∧
    ∀ W, Shows W (Gen.exView.env false) exShortNames [] → t.value W = some (.bool true) := by
  refine C51_generated_partial (Gen.exNames _) (.inr (.inl rfl)) (Gen.exRepresents exOpts) exShort_cond ?_ ?_
    (fun r hr => by rw [exShort_generate] at hr; cases hr; exact exShort_adaptable) (by decide +kernel)
  · simp only [exShort, Gen.exLenV, Gen.exDataV, Gen.exDataSize, Expr.WF, Expr.WFL, Expr.headOK]; decide
  · simp [exShort, Gen.exLenV, Gen.exDataV, Gen.exDataSize, Expr.Good, Expr.GoodL]

example : Shows (worldOf (Gen.exView.env false)) (Gen.exView.env false) exShortNames [] :=
  shows_worldOf (fun i h => by rcases h with h | h <;> rw [h] <;> decide) (fun _ _ h => h.elim)

/-! ## Where the text is wrong -/

/-- `Len - Len + 0` is simplified to a sum without terms (`rflx/expression.py:781-793`), which has no text. -/
theorem C51_difference_counterexample :
    ∃ m o V S σ e v r a, Gen.Names m o ∧ Gen.Target o ∧ Gen.Represents m o V S σ ∧ Gen.Cond m o S e ∧ e.WF ∧ e.Good Division.ada.Odd false ∧
      eval .ada σ e = some v ∧ o.generate m e = .ok r ∧ adaExpr r = .ok a ∧ a.str = .error .indexError := by
  have len : Gen.ScalarField Gen.exMsg Gen.exKnown ⟨[['L', 'e', 'n']]⟩ :=
    ⟨.inr (.inl (by decide)), Verify.exU8, List.mem_cons_of_mem _ List.mem_cons_self, trivial⟩
  refine ⟨Gen.exMsg, exOpts, Gen.exView, Gen.exKnown, Gen.exEnv43, .add [.bin .sub Gen.exLenV Gen.exLenV, .n 0], .int 0, .add [], .add [],
    Gen.exNames _, .inr (.inl rfl), Gen.exRepresents exOpts, ⟨⟨⟨rfl, .inl len⟩, ⟨rfl, .inl len⟩⟩, trivial, trivial⟩, ?_, ?_,
    by decide +kernel, by with_unfolding_all rfl, by with_unfolding_all rfl, by with_unfolding_all rfl⟩
  · simp only [Gen.exLenV, Expr.WF, Expr.WFL, Expr.headOK]; decide
  · simp [Gen.exLenV, Expr.Good, Expr.GoodL]

/-- Ada expressions have no class for the attributes `Valid_Checksum`, `Present`, `Head` and `Opaque` (`rflx/ada.py:350-383`). -/
theorem C51_attribute_counterexample (k : AttrKind) (h : k = .validChecksum ∨ k = .present ∨ k = .head ∨ k = .opaque) (neg : Bool) (i : ID) :
    adaExpr (.attr neg k (.v i)) = .error .attributeError := by
  rcases h with rfl | rfl | rfl | rfl <;> rfl

/-- An empty aggregate violates the invariant of `ada.Aggregate` (`rflx/ada.py:475-479`); the text of an aggregate of one element is read as the
element. -/
theorem C51_aggregate_counterexample (D : Division) (ρ : Env) (W : World) :
    eval D ρ (.agg []) = some (.seq []) ∧ adaExpr (.agg []) = .error .assertion ∧
    eval D ρ (.agg [.n 1]) = some (.seq [1]) ∧
      ∃ a s t, adaExpr (.agg [.n 1]) = .ok a ∧ a.str = .ok s ∧ Reads .expression (elements s) t ∧ t.value W = some (.int 1) := by
  refine ⟨rfl, rfl, rfl, .agg [.num 1 .b0], (AExpr.agg [.num 1 .b0]).strF false, ?_⟩
  obtain ⟨t, h1, h2⟩ := C50_aggregate_counterexample
  exact ⟨t, rfl, by with_unfolding_all rfl, h1, (h2 W).1⟩

/-- A membership test in an aggregate is not one in the text. -/
theorem C51_membership_counterexample (D : Division) (ρ : Env) (W : World) :
    eval D ρ (.rel .isIn (.n 1) (.agg [.n 1, .n 2])) = some (.bool true) ∧
      ∃ a s t, adaExpr (.rel .isIn (.n 1) (.agg [.n 1, .n 2])) = .ok a ∧ a.str = .ok s ∧ Reads .expression (elements s) t ∧ t.value W = none := by
  refine ⟨rfl, .rel .isIn (.num 1 .b0) (.agg [.num 1 .b0, .num 2 .b0]), (AExpr.rel .isIn (.num 1 .b0) (.agg [.num 1 .b0, .num 2 .b0])).strF false, ?_⟩
  obtain ⟨t, h1, h2⟩ := C50_membership_counterexample
  exact ⟨t, rfl, by with_unfolding_all rfl, h1, (h2 W).1⟩

end Verif.Ada
