import Verif.Verify.Props
import Verif.Verify.Table
import Verif.Graph.Props

/-! # A message that meets the hypotheses of the theorems of `Verif/Verify/Props.lean`

```
type T is
   message
      L : U8
         then V
            with Size => L * 8
            if L > 0
         then null
            if L = 0;
      V : Opaque;
   end message;
``` -/

namespace Verif.Verify
open Verif Verif.Graph Verif.Types

/-- `type U8 is mod 256`. -/
def exU8 : FTy := .int (.modular ⟨⟨[['M'], ['U', '8']]⟩, .n 256, .n 8⟩)

def exL : Expr := .v ⟨[['L']]⟩
def exLinks : List Link :=
  [lnk INITIAL (fld 'l'), ⟨fld 'l', fld 'v', .rel .gt exL (.n 0), .mul [exL, .n 8], .undefined⟩,
   lnk (fld 'l') FINAL (.rel .eq exL (.n 0)), lnk (fld 'v') FINAL]

def exMsg : Msg := ⟨⟨[['M'], ['T']]⟩, exLinks, [fld 'l', fld 'v'], [(fld 'l', exU8), (fld 'v', .opaque)], []⟩

/-- The message with the length `x` at the bits 1 to `last`. -/
def exModel (x last : Int) : ZModel :=
  ⟨fun
    | .var k => if k = [['l']] then x else 0
    | .attr .first _ k => if k = [['v']] then 9 else if k = FINAL.key then last + 1 else 1
    | .attr .size _ k => if k = [['v']] then 8 * x else if k = MESSAGE.key then last else if k = FINAL.key then 0 else 8
    | .attr .last _ k => if k = [['l']] then 8 else if k = [['v']] then 8 + 8 * x else last
    | _ => 0, fun _ => 0, fun _ => 0, fun _ _ => 0⟩

/-- Sets of formulas that cannot be satisfied. -/
def exUnsat : List (List Expr) :=
  let first := at' .first MESSAGE
  let last := at' .last MESSAGE
  let lastL := at' .last (fld 'l')
  let endL := Expr.bin .sub (.add [first, .n 8]) (.n 1)
  let beginV := Expr.add [lastL, .n 1]
  let sizeV := Expr.mul [exL, .n 8]
  let endV := Expr.bin .sub (.add [beginV, sizeV]) (.n 1)
  let lastFact := Expr.rel .eq lastL endL
  [[.bool .and [.rel .gt exL (.n 0), .rel .eq exL (.n 0)]],
   [.rel .ge bitVar first, .rel .le bitVar last, .not (.bool .and [.rel .ge bitVar first, .rel .le bitVar endL]),
    .rel .eq endL last],
   [.rel .ge bitVar first, .rel .le bitVar last, .not (.bool .and [.rel .ge bitVar first, .rel .le bitVar endL]),
    .not (.bool .and [.rel .ge bitVar beginV, .rel .le bitVar endV]), .rel .eq endV last, lastFact],
   [.rel .lt (.n 8) (.n 0)],
   [.rel .lt (.n 0) (.n 0)],
   [.rel .lt sizeV (.n 0), .rel .gt exL (.n 0)],
   [.not (.rel .eq (.bin .mod beginV (.n 8)) (.n 1)), lastFact, .rel .eq (.bin .mod first (.n 8)) (.n 1)],
   [.not (.rel .eq (.bin .mod sizeV (.n 8)) (.n 0))],
   [.rel .ne (.bin .mod (.add [at' .size (fld 'l')]) (.n 8)) (.n 0), .rel .eq (at' .size (fld 'l')) (.n 8)],
   [.rel .ne (.bin .mod (.add [at' .size (fld 'l'), at' .size (fld 'v')]) (.n 8)) (.n 0),
    .rel .eq (at' .size (fld 'l')) (.n 8), .rel .eq (at' .size (fld 'v')) sizeV]]

theorem exUnsat_unsat : ∀ u ∈ exUnsat, ¬ ∃ M, Holds M u := by
  intro u hu
  simp only [exUnsat, List.mem_cons, List.not_mem_nil, or_false] at hu
  rcases hu with rfl | rfl | rfl | rfl | rfl | rfl | rfl | rfl | rfl | rfl <;>
  · rintro ⟨M, h⟩
    simp [Holds, zeval, zevalL, at', bitVar, exL, Expr.v, Expr.n, Bind.bind, Except.bind, pure, Except.pure, ZVal.int?,
      ZVal.bool?, zRel, zArith, zEqual, ZVal.cast, intSum, intProd, BoolOp.isAnd] at h
    try omega

/-- A solver that decides what is needed for the example. -/
def exSolver : Solver := tableSolver (exModel 1 16) [exModel 1 16, exModel 0 8] exUnsat exUnsat_unsat

theorem exMsg_accepted : exMsg.Accepted exSolver := ⟨fun _ => .ok false, 20, rfl⟩

theorem exMsg_regular : exMsg.Regular := by
  simp only [Msg.Regular]; decide

theorem exMsg_types : ∀ e ∈ exMsg.types, e.2.Ok := by
  intro e he
  simp only [exMsg, List.mem_cons, List.not_mem_nil, or_false] at he
  rcases he with rfl | rfl
  · refine ⟨?_, ?_, ?_, ?_⟩
    · exact ⟨⟨[['M'], ['U', '8']]⟩, .n 256, rfl⟩
    · refine ⟨?_, ?_, fun D ρ => ⟨256, rfl⟩⟩
      · simp [Expr.Const]
      · simp [Expr.WF]
    · simp only [ID.Valid]; decide
    · intro D ρ; simp [Expr.n, Plain]
  · trivial

/-- The assignment for a length of 2 in a buffer of 4 bytes; `b` is the value of other names. -/
def exEnv (b : Int) : Env :=
  ⟨fun k => if k = [['l']] then .int 2 else .int b,
   fun a k => match a with
    | .first => if k = [['v']] then .int 9 else .int 1
    | .size => if k = [['v']] then .int 16 else if k = MESSAGE.key then .int 32 else .int 8
    | .last => if k = [['l']] then .int 8 else if k = [['v']] then .int 24 else .int 32
    | _ => .int 0, fun _ _ => .int 0, fun _ _ => .int 0⟩

theorem exEnv_allowed (b : Int) : Allowed exMsg (exEnv b) where
  start := ⟨1, rfl, rfl⟩
  total := ⟨32, rfl, rfl⟩
  value := by
    intro e he hs
    simp only [exMsg, List.mem_cons, List.not_mem_nil, or_false] at he
    rcases he with rfl | rfl
    · exact ⟨2, .inl rfl, ⟨0, .b0⟩, ⟨255, .b0⟩, rfl, rfl, by decide, by decide⟩
    · cases hs
  size := by
    intro e he s hs
    simp only [exMsg, List.mem_cons, List.not_mem_nil, or_false] at he
    rcases he with rfl | rfl
    · cases hs; rfl
    · cases hs
  literals := by
    intro e he t ht
    simp only [exMsg, List.mem_cons, List.not_mem_nil, or_false] at he
    rcases he with rfl | rfl <;> cases ht
  typeSize := by
    intro e he s hs
    simp only [exMsg, List.mem_cons, List.not_mem_nil, or_false] at he
    rcases he with rfl | rfl
    · cases hs; rfl
    · cases hs

def exPath : List Link :=
  [lnk INITIAL (fld 'l'), ⟨fld 'l', fld 'v', .rel .gt exL (.n 0), .mul [exL, .n 8], .undefined⟩]

theorem exPath_path : Path exMsg.links INITIAL (exPath ++ [lnk (fld 'v') FINAL]) FINAL := by
  refine Path.snoc (l := lnk (fld 'v') FINAL) ?_ (by simp [exMsg, exLinks])
  refine Path.snoc (p := [lnk INITIAL (fld 'l')])
    (l := ⟨fld 'l', fld 'v', .rel .gt exL (.n 0), .mul [exL, .n 8], .undefined⟩) ?_ (by simp [exMsg, exLinks])
  exact Path.snoc (p := []) (l := lnk INITIAL (fld 'l')) .nil (by simp [exMsg, exLinks])

theorem exL_at (D : Division) (b : Int) : At D exMsg (exEnv b) 1 (lnk INITIAL (fld 'l')) 1 8 :=
  ⟨.inl ⟨rfl, rfl⟩, .inr (.inr ⟨rfl, by decide, exU8, ⟨8, .b0⟩, rfl, rfl, rfl⟩), rfl, rfl, rfl⟩

theorem exV_at (D : Division) (b : Int) :
    At D exMsg (exEnv b) 1 ⟨fld 'l', fld 'v', .rel .gt exL (.n 0), .mul [exL, .n 8], .undefined⟩ 9 16 :=
  ⟨.inr (.inl ⟨by decide, rfl, 8, rfl, rfl⟩), .inl ⟨by simp, rfl⟩, rfl, rfl, rfl⟩

theorem exPath_layout (D : Division) (b : Int) : Layout D exMsg (exEnv b) 1 32 exPath where
  first := rfl
  last := rfl
  size := rfl
  nonneg := by decide
  nonempty := by decide
  field := by
    intro l hl
    simp only [exPath, List.mem_cons, List.not_mem_nil, or_false] at hl
    rcases hl with rfl | rfl
    · exact ⟨1, 8, exL_at D b, by decide⟩
    · exact ⟨9, 16, exV_at D b, by decide⟩
  condition := by
    intro l hl
    simp only [exPath, List.mem_cons, List.not_mem_nil, or_false] at hl
    rcases hl with rfl | rfl <;> rfl

theorem exLinks_plain (D : Division) (b : Int) : ∀ l ∈ exMsg.links, PlainLink D (exEnv b) l := by
  intro l hl
  simp only [exMsg, exLinks, List.mem_cons, List.not_mem_nil, or_false] at hl
  rcases hl with rfl | rfl | rfl | rfl <;>
    simp [PlainLink, lnk, Plain, PlainL, exL, Expr.v, Expr.n, exEnv, Atomic] <;>
  exact trivial

/-- The hypotheses of `C47_path_facts`. -/
example (D : Division) : ∃ fs, exMsg.pathFacts exPath = .ok fs ∧ ∀ c ∈ fs, eval D (exEnv 0) c = some (.bool true) :=
  C47_path_facts D exMsg _ 1 32 exPath (exPath_layout D 0) (by
    intro l hl
    simp only [exPath, List.mem_cons, List.not_mem_nil, or_false] at hl
    rcases hl with rfl | rfl <;> exact .inr (by simp [exMsg, lnk]))

/-- The hypotheses of `C47_type_facts_partial`. -/
example (D : Division) (cs : List Expr) (h : exMsg.typeConstraints (.rel .gt exL (.n 0)) = .ok cs) :
    Holds (model (exEnv 0)) cs := by
  refine C47_type_facts_partial D exMsg _ (exEnv_allowed 0) exMsg_types _ ?_ cs h ?_
  · exact (exLinks_plain D 0 ⟨fld 'l', fld 'v', .rel .gt exL (.n 0), .mul [exL, .n 8], .undefined⟩
      (by simp [exMsg, exLinks])).1
  · have : ∃ cs', exMsg.typeConstraints (.rel .gt exL (.n 0)) = .ok cs' ∧
        cs'.all (zBool (model (exEnv 0))) = true := ⟨_, rfl, rfl⟩
    obtain ⟨cs', h1, h2⟩ := this
    rw [h] at h1
    cases h1
    exact fun c hc => zBool_all (List.all_eq_true.mp h2 c hc) _

/-- The hypotheses of `C18_deterministic_partial`: a length of 2 excludes the link to the end. -/
example (D : Division) : eval D (exEnv 0) (.rel .eq exL (.n 0)) ≠ some (.bool true) := by
  intro h
  have := C18_deterministic_partial exSolver tableSolver_decides exMsg exMsg_accepted exMsg_regular exMsg_types D (exEnv 0)
    (exEnv_allowed 0) ⟨fld 'l', fld 'v', .rel .gt exL (.n 0), .mul [exL, .n 8], .undefined⟩
    (lnk (fld 'l') FINAL (.rel .eq exL (.n 0))) (by simp [exMsg, exLinks]) (by simp [exMsg, exLinks]) rfl (by decide)
    (exLinks_plain D 0 _ (by simp [exMsg, exLinks])).1 (exLinks_plain D 0 _ (by simp [exMsg, exLinks])).1 rfl h
  simp [lnk, fld, FINAL] at this

/-- The hypotheses of `C19_positions_partial`. -/
example (D : Division) : (9 : Int) % 8 = 1 ∧ (16 : Int) % 8 = 0 :=
  (C19_positions_partial exSolver tableSolver_decides exMsg exMsg_accepted exMsg_regular exMsg_types D (exEnv 0)
    (exEnv_allowed 0) 1 32 [lnk INITIAL (fld 'l')] _ (path_snoc exPath_path).2.2 (exPath_layout D 0)
    (by
      intro x hx
      refine exLinks_plain D 0 x ?_
      simp only [List.cons_append, List.nil_append, List.mem_cons, List.not_mem_nil, or_false] at hx
      rcases hx with rfl | rfl <;> simp [exMsg, exLinks])
    (.inr ⟨lnk (fld 'v') FINAL, by simp [exMsg, exLinks], rfl, trivial, rfl⟩) 9 16 (exV_at D 0)).2 rfl

/-- The length as the buffer ends with the message: an assignment for a buffer of 3 bytes. -/
def exEnv' (b : Int) : Env :=
  { exEnv b with attr := fun a k =>
      if k = MESSAGE.key then (match a with
        | .first => .int 1
        | _ => .int 24) else (exEnv b).attr a k }

theorem exPath_layout' (D : Division) (b : Int) : Layout D exMsg (exEnv' b) 1 24 exPath where
  first := rfl
  last := rfl
  size := rfl
  nonneg := by decide
  nonempty := by decide
  field := by
    intro l hl
    simp only [exPath, List.mem_cons, List.not_mem_nil, or_false] at hl
    rcases hl with rfl | rfl
    · exact ⟨1, 8, ⟨.inl ⟨rfl, rfl⟩, .inr (.inr ⟨rfl, by decide, exU8, ⟨8, .b0⟩, rfl, rfl, rfl⟩), rfl, rfl, rfl⟩, by decide⟩
    · exact ⟨9, 16, ⟨.inr (.inl ⟨by decide, rfl, 8, rfl, rfl⟩), .inl ⟨by simp, rfl⟩, rfl, rfl, rfl⟩, by decide⟩
  condition := by
    intro l hl
    simp only [exPath, List.mem_cons, List.not_mem_nil, or_false] at hl
    rcases hl with rfl | rfl <;> rfl

/-- The hypotheses of `C19_coverage_partial`. -/
example (D : Division) (b : Int) (h1 : 1 ≤ b) (h2 : b ≤ 24) :
    ∃ x ∈ exPath, ∃ a n, At D exMsg (exEnv' b) 1 x a n ∧ a ≤ b ∧ b ≤ a + n - 1 :=
  C19_coverage_partial exSolver tableSolver_decides exMsg exMsg_accepted exMsg_regular D (exEnv' b) 1 24
    [lnk INITIAL (fld 'l')] _ _ exPath_path (exPath_layout' D b)
    (by
      intro x hx
      simp only [List.cons_append, List.nil_append, List.mem_cons, List.not_mem_nil, or_false] at hx
      rcases hx with rfl | rfl <;>
        simp [PlainLink, lnk, Plain, PlainL, exL, Expr.v, Expr.n, exEnv', exEnv, Atomic]
      exact trivial) 9 16
    ⟨.inr (.inl ⟨by decide, rfl, 8, rfl, rfl⟩), .inl ⟨by simp, rfl⟩, rfl, rfl, rfl⟩ rfl b rfl h1 h2

theorem exPath_plain (D : Division) : ∀ x ∈ exPath ++ [lnk (fld 'v') FINAL], PlainLink D (exEnv 0) x := by
  intro x hx
  refine exLinks_plain D 0 x ?_
  simp only [exPath, List.cons_append, List.nil_append, List.mem_cons, List.not_mem_nil, or_false] at hx
  rcases hx with rfl | rfl | rfl <;> simp [exMsg, exLinks]

/-- The hypotheses of `C19_no_holes_partial` and `C19_sizes_partial`. -/
example (D : Division) (b : Int) (h1 : 1 ≤ b) (h2 : b ≤ 24) :
    ∃ x ∈ exPath, ∃ a n, At D exMsg (exEnv 0) 1 x a n ∧ a ≤ b ∧ b ≤ a + n - 1 := by
  refine C19_no_holes_partial exSolver tableSolver_decides exMsg exMsg_accepted exMsg_regular exMsg_types D (exEnv 0)
    (exEnv_allowed 0) 1 32 exPath _ exPath_path (exPath_layout D 0) (exPath_plain D) rfl ?_ _
    (List.mem_cons_of_mem _ (List.mem_cons_self ..)) 9 16 (exV_at D 0) b h1 h2
  intro q₁ l q₂ h _ hf
  have : l ∈ exPath := by rw [h]; simp
  simp only [exPath, List.mem_cons, List.not_mem_nil, or_false] at this
  rcases this with rfl | rfl <;> exact absurd rfl hf

/-- The hypotheses of `C20_message_size_partial`, and those of `C20_sizes_partial`. -/
example (D : Division) : ((9 : Int) + 16 - 1) % 8 = 0 := by
  refine C20_message_size_partial exSolver tableSolver_decides exMsg exMsg_accepted exMsg_regular exMsg_types D (exEnv 0)
    (exEnv_allowed 0) 1 32 [lnk INITIAL (fld 'l')] _ _ exPath_path (exPath_layout D 0)
    (fun x hx => exPath_plain D x (List.mem_append_left _ hx)) ?_ ?_ ?_ 9 16 (exV_at D 0)
  · intro e he hu
    simp only [exMsg, List.mem_cons, List.not_mem_nil, or_false] at he
    rcases he with rfl | rfl
    · cases hu
    · exact ⟨16, rfl, rfl⟩
  · intro x hx
    simp only [List.cons_append, List.nil_append, List.mem_cons, List.not_mem_nil, or_false] at hx
    rcases hx with rfl | rfl <;> rfl
  · intro x hx
    simp only [List.cons_append, List.nil_append, List.mem_cons, List.not_mem_nil, or_false] at hx
    rcases hx with rfl | rfl <;> decide

end Verif.Verify
