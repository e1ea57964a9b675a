import Verif.Verify.Example

/-! # Where the verification of messages does not give what C18 and C20 promise -/

namespace Verif.Verify
open Verif Verif.Graph Verif.Types

/-- The values of names given by a list, 0 for all others. -/
def byList (l : List (ZName × Int)) : ZModel :=
  ⟨fun x => ((l.find? fun e => e.1 == x).map (·.2)).getD 0, fun _ => 0, fun _ => 0, fun _ _ => 0⟩

/-- Formulas that cannot be satisfied, about a first field `d` of `n` bits and a second field `x` of 8 bits. -/
def cxUnsat (n : Int) : List (List Expr) :=
  let first := at' .first MESSAGE
  let last := at' .last MESSAGE
  let lastD := at' .last (fld 'd')
  let endD := Expr.bin .sub (.add [first, .n n]) (.n 1)
  let beginX := Expr.add [lastD, .n 1]
  let endX := Expr.bin .sub (.add [beginX, .n 8]) (.n 1)
  let lastFact := Expr.rel .eq lastD endD
  let sizeD := at' .size (fld 'd')
  let sizeX := at' .size (fld 'x')
  [[.rel .ge bitVar first, .rel .le bitVar last, .not (.bool .and [.rel .ge bitVar first, .rel .le bitVar endD]),
    .rel .eq endD last],
   [.rel .ge bitVar first, .rel .le bitVar last, .not (.bool .and [.rel .ge bitVar first, .rel .le bitVar endD]),
    .not (.bool .and [.rel .ge bitVar beginX, .rel .le bitVar endX]), .rel .eq endX last, lastFact],
   [.rel .lt (.n 4) (.n 0)],
   [.rel .lt (.n 8) (.n 0)],
   [.rel .lt (.n 0) (.n 0)],
   [.not (.rel .eq (.bin .mod first (.n 8)) (.n 1)), .rel .eq (.bin .mod first (.n 8)) (.n 1)],
   [.not (.rel .eq (.bin .mod (.n 8) (.n 8)) (.n 0))],
   [.rel .ne (.bin .mod (.add [sizeD]) (.n 8)) (.n 0), .rel .eq (.bin .mod sizeD (.n 8)) (.n 0)],
   [.rel .ne (.bin .mod (.add [sizeD]) (.n 8)) (.n 0), .rel .eq sizeD (.n 8)],
   [.rel .ne (.bin .mod (.add [sizeD, sizeX]) (.n 8)) (.n 0), .rel .eq sizeD (.n 8), .rel .eq sizeX (.n 8)]]

theorem cxUnsat_unsat (n : Int) : ∀ u ∈ cxUnsat n, ¬ ∃ M, Holds M u := by
  intro u hu
  simp only [cxUnsat, List.mem_cons, List.not_mem_nil, or_false] at hu
  rcases hu with rfl | rfl | rfl | rfl | rfl | rfl | rfl | rfl | rfl | rfl <;>
  · rintro ⟨M, h⟩
    simp [Holds, zeval, zevalL, at', bitVar, Expr.v, Expr.n, Bind.bind, Except.bind, pure, Except.pure, ZVal.int?,
      ZVal.bool?, zRel, zArith, zEqual, ZVal.cast, intSum, intProd, BoolOp.isAnd] at h
    try omega

def cxD : Expr := .v (fld 'd')

/-- The value of `d`, and the last bit of the message. -/
def cxModel (v e : Int) : ZModel := byList
  [(.var [['d']], v), (.attr .first false [['d']], 1), (.attr .size false [['d']], 8), (.attr .last false [['d']], 8),
   (.attr .first false [['x']], 9), (.attr .size false [['x']], 8), (.attr .last false [['x']], 16),
   (.attr .first false FINAL.key, e + 1), (.attr .last false FINAL.key, e),
   (.attr .first false MESSAGE.key, 1), (.attr .size false MESSAGE.key, e), (.attr .last false MESSAGE.key, e),
   (.attr .size false [['m'], ['u', '8']], 8)]

/-! ## Aggregates -/

/-- `D : Opaque` of one byte, `then null if D = [1]`, `then X if D /= [2]`. -/
def aggMsg : Msg :=
  ⟨⟨[['M'], ['T']]⟩,
   [⟨INITIAL, fld 'd', .tru, .n 8, .undefined⟩, lnk (fld 'd') FINAL (.rel .eq cxD (.agg [.n 1])),
    lnk (fld 'd') (fld 'x') (.rel .ne cxD (.agg [.n 2])), lnk (fld 'x') FINAL],
   [fld 'd', fld 'x'], [(fld 'd', .opaque), (fld 'x', exU8)], []⟩

def aggSolver : Solver :=
  tableSolver (cxModel 0 8) [cxModel 0 8, cxModel 1 16]
    ([.bool .and [.rel .eq cxD (.agg [.n 1]), .rel .ne cxD (.agg [.n 2])]] :: cxUnsat 8) (by
      intro u hu
      rcases List.mem_cons.mp hu with rfl | hu
      · rintro ⟨M, h⟩
        simp [Holds, zeval, zevalL, cxD, Expr.v, Expr.n, Bind.bind, Except.bind, pure, Except.pure, ZVal.bool?, zRel,
          zEqual, ZVal.cast, BoolOp.isAnd] at h
      · exact cxUnsat_unsat 8 u hu)

/-- A message is accepted although the conditions of two links are true at the same time: for the solver all aggregates
are `False`, so `D = [1]` and `D /= [2]` exclude each other. -/
theorem C18_aggregate_counterexample :
    ∃ (s : Solver) (m : Msg) (l₁ l₂ : Link), s.Decides ∧ m.Accepted s ∧ m.Regular ∧ (∀ e ∈ m.types, e.2.Ok) ∧
      l₁ ∈ m.links ∧ l₂ ∈ m.links ∧ l₁.source = l₂.source ∧ l₁.target ≠ l₂.target ∧
      ∀ (D : Division) (ρ : Env), ρ.var [['d']] = .seq [1] →
        eval D ρ l₁.condition = some (.bool true) ∧ eval D ρ l₂.condition = some (.bool true) := by
  refine ⟨aggSolver, aggMsg, lnk (fld 'd') FINAL (.rel .eq cxD (.agg [.n 1])),
    lnk (fld 'd') (fld 'x') (.rel .ne cxD (.agg [.n 2])), tableSolver_decides, ⟨fun _ => .ok false, 20, rfl⟩, ?_, ?_,
    by simp [aggMsg], by simp [aggMsg], rfl, by decide, ?_⟩
  · simp only [Msg.Regular]; decide
  · intro e he
    simp only [aggMsg, List.mem_cons, List.not_mem_nil, or_false] at he
    rcases he with rfl | rfl
    · trivial
    · exact exMsg_types (fld 'l', exU8) (by simp [exMsg])
  · intro D ρ h
    have h' : ρ.var (fld 'd').key = .seq [1] := h
    simp [lnk, eval, evalL, cxD, Expr.v, Expr.n, h', Val.negIf, allSome, Val.int?, RelOp.eval]

/-! ## Answers that are neither `sat` nor `unsat` -/

/-- A solver that gives up on some formulas. -/
def Solver.giveUp (s : Solver) (p : List Expr → Bool) : Solver where
  check es := (s.check es).map fun r => if p es then .unknown else r
  translated es r h := by
    cases hs : s.check es with
    | error e => rw [hs] at h; cases h
    | ok r' => exact s.translated es r' hs
  unsat es h := by
    cases hs : s.check es with
    | error e => rw [hs] at h; cases h
    | ok r' =>
      rw [hs] at h
      simp only [Except.map, Except.ok.injEq] at h
      split at h
      · cases h
      · subst h; exact s.unsat es hs
  sat es h := by
    cases hs : s.check es with
    | error e => rw [hs] at h; cases h
    | ok r' =>
      rw [hs] at h
      simp only [Except.map, Except.ok.injEq] at h
      split at h
      · cases h
      · subst h; exact s.sat es hs

/-- `D : U8`, `then null if D > 0`, `then X if D > 1`. -/
def unkMsg : Msg :=
  ⟨⟨[['M'], ['T']]⟩,
   [lnk INITIAL (fld 'd'), lnk (fld 'd') FINAL (.rel .gt cxD (.n 0)),
    lnk (fld 'd') (fld 'x') (.rel .gt cxD (.n 1)), lnk (fld 'x') FINAL],
   [fld 'd', fld 'x'], [(fld 'd', exU8), (fld 'x', exU8)], []⟩

def unkSolver : Solver :=
  (tableSolver (cxModel 0 8) [cxModel 2 8, cxModel 2 16] (cxUnsat 8) (cxUnsat_unsat 8)).giveUp fun es =>
    match es with
    | e :: _ => same e (.bool .and [.rel .gt cxD (.n 0), .rel .gt cxD (.n 1)])
    | [] => false

/-- If the solver gives up on the conjunction of two conditions, the conditions pass as exclusive. -/
theorem C18_unknown_counterexample :
    ∃ (s : Solver) (m : Msg) (l₁ l₂ : Link), m.Accepted s ∧ m.Regular ∧ (∀ e ∈ m.types, e.2.Ok) ∧
      l₁ ∈ m.links ∧ l₂ ∈ m.links ∧ l₁.source = l₂.source ∧ l₁.target ≠ l₂.target ∧
      ∀ (D : Division) (ρ : Env), ρ.var [['d']] = .int 2 →
        eval D ρ l₁.condition = some (.bool true) ∧ eval D ρ l₂.condition = some (.bool true) := by
  refine ⟨unkSolver, unkMsg, lnk (fld 'd') FINAL (.rel .gt cxD (.n 0)),
    lnk (fld 'd') (fld 'x') (.rel .gt cxD (.n 1)), ⟨fun _ => .ok false, 20, rfl⟩, ?_, ?_,
    by simp [unkMsg], by simp [unkMsg], rfl, by decide, ?_⟩
  · simp only [Msg.Regular]; decide
  · intro e he
    simp only [unkMsg, List.mem_cons, List.not_mem_nil, or_false] at he
    rcases he with rfl | rfl <;> exact exMsg_types (fld 'l', exU8) (by simp [exMsg])
  · intro D ρ h
    have h' : ρ.var (fld 'd').key = .int 2 := h
    simp [lnk, eval, cxD, Expr.v, Expr.n, h', Val.negIf, RelOp.eval]

/-! ## Arrays -/

/-- `D : A` with `Size => 4`, where `type A is array of U8`. -/
def arrMsg : Msg :=
  ⟨⟨[['M'], ['T']]⟩, [⟨INITIAL, fld 'd', .tru, .n 4, .undefined⟩, lnk (fld 'd') FINAL],
   [fld 'd'], [(fld 'd', .array ⟨[['M'], ['A']]⟩ exU8)], []⟩

def arrModel : ZModel := byList
  [(.attr .first false [['d']], 1), (.attr .size false [['d']], 4), (.attr .last false [['d']], 4),
   (.attr .first false FINAL.key, 5), (.attr .last false FINAL.key, 4),
   (.attr .first false MESSAGE.key, 1), (.attr .size false MESSAGE.key, 8), (.attr .last false MESSAGE.key, 8)]

def arrSolver : Solver := tableSolver arrModel [arrModel] (cxUnsat 4) (cxUnsat_unsat 4)

def arrEnv : Env :=
  ⟨fun _ => .int 0, fun a k => match a with
    | .first => .int 1
    | .size => if k = [['d']] then .int 4 else .int 8
    | .last => if k = [['d']] then .int 4 else .int 8
    | _ => .int 0, fun _ _ => .int 0, fun _ _ => .int 0⟩

/-- A message is accepted although its only path consists of an array of 4 bits: the sizes of arrays are assumed to be
multiples of 8, and this is checked for opaque fields only. -/
theorem C20_array_counterexample (D : Division) :
    ∃ (s : Solver) (m : Msg) (ρ : Env) (l o : Link), s.Decides ∧ m.Accepted s ∧ m.Regular ∧ (∀ e ∈ m.types, e.2.Ok) ∧
      Path m.links INITIAL [l, o] FINAL ∧ Allowed m ρ ∧ Layout D m ρ 1 8 [l] ∧ (∀ x ∈ [l, o], PlainLink D ρ x) ∧
      eval D ρ o.condition = some (.bool true) ∧ At D m ρ 1 l 1 4 := by
  have hat : At D arrMsg arrEnv 1 ⟨INITIAL, fld 'd', .tru, .n 4, .undefined⟩ 1 4 :=
    ⟨.inl ⟨rfl, rfl⟩, .inl ⟨by simp [Expr.n], rfl⟩, rfl, rfl, rfl⟩
  refine ⟨arrSolver, arrMsg, arrEnv, ⟨INITIAL, fld 'd', .tru, .n 4, .undefined⟩, lnk (fld 'd') FINAL,
    tableSolver_decides, ⟨fun _ => .ok false, 20, rfl⟩, ?_, ?_, ?_, ?_, ?_, ?_, rfl, hat⟩
  · simp only [Msg.Regular]; decide
  · intro e he
    simp only [arrMsg, List.mem_cons, List.not_mem_nil, or_false] at he
    subst he; trivial
  · refine Path.snoc (p := [⟨INITIAL, fld 'd', .tru, .n 4, .undefined⟩]) (l := lnk (fld 'd') FINAL) ?_ (by simp [arrMsg])
    exact Path.snoc (p := []) (l := ⟨INITIAL, fld 'd', .tru, .n 4, .undefined⟩) .nil (by simp [arrMsg])
  · refine ⟨⟨1, rfl, rfl⟩, ⟨8, rfl, rfl⟩, ?_, ?_, ?_, ?_⟩
    · intro e he hs
      simp only [arrMsg, List.mem_cons, List.not_mem_nil, or_false] at he
      subst he; cases hs
    · intro e he s hs
      simp only [arrMsg, List.mem_cons, List.not_mem_nil, or_false] at he
      subst he; cases hs
    · intro e he t ht
      simp only [arrMsg, List.mem_cons, List.not_mem_nil, or_false] at he
      subst he; cases ht
    · intro e he s hs
      simp only [arrMsg, List.mem_cons, List.not_mem_nil, or_false] at he
      subst he; cases hs
  · refine ⟨rfl, rfl, rfl, by decide, by decide, ?_, ?_⟩
    · intro l hl
      obtain rfl := List.mem_singleton.mp hl
      exact ⟨1, 4, hat, by decide⟩
    · intro l hl
      obtain rfl := List.mem_singleton.mp hl
      rfl
  · intro x hx
    simp only [List.mem_cons, List.not_mem_nil, or_false] at hx
    rcases hx with rfl | rfl <;> simp [PlainLink, lnk, Plain, Expr.n]

/-! ## Messages without fields -/

/-- A message that consists of a link from the initial to the final field is neither accepted nor rejected: `IndexError`
is raised (`rflx/model/message.py:1032`). -/
theorem C19_no_fields_counterexample :
    ∃ s : Solver, s.Decides ∧ ∀ k, 5 ≤ k →
      Msg.new s (fun _ => .ok false) ⟨[['M'], ['T']]⟩ [lnk INITIAL FINAL] [] [] k = .error .indexError := by
  refine ⟨tableSolver arrModel [byList [(.attr .size false FINAL.key, 0), (.attr .last false FINAL.key, 0),
    (.attr .first false FINAL.key, 1), (.attr .first false MESSAGE.key, 1), (.attr .last false MESSAGE.key, 8),
    (.attr .size false MESSAGE.key, 8)]] [] (by simp), tableSolver_decides, fun k hk => ?_⟩
  obtain ⟨j, rfl⟩ : ∃ j, k = j + 5 := ⟨k - 5, by omega⟩
  rfl

end Verif.Verify
