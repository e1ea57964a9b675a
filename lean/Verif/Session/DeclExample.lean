import Verif.Session.DeclTypes
import Verif.Session.Props

/-! # Property C49: a concrete session, and counterexamples -/

namespace Verif.Session
open Verif Verif.Typing

/-! ## A case that meets the hypotheses -/

/-- The package `P`. -/
def exPackage : ID := nm 'P'
/-- A name in the package. -/
def exIn (c : Char) : ID := ⟨[['P'], [c]]⟩

/-- Messages (`0`: `M` with the fields `L` and `D`, `1`: the same with a refinement of `D` by `N`, `2`: `N`). -/
def exBody : Body Nat where
  field := fun m f => if m ≤ 1 then (if f = ['L'] then some (.integer "P::T" ⟨some 0, some 255⟩) else if f = ['D'] then some OPAQUE else none) else none
  combinations := fun m => if m ≤ 1 then [[['L'], ['D']]] else []
  refinements := fun m => if m = 1 then [(['D'], .message "P::N" 2)] else []

/-- `P::T`, `P::M`, `P::N`, a refinement, the array `P::Q` of `P::T`, and `Boolean`. -/
def exTypes : Dict (MType Nat) :=
  [(exIn 'T', .other (.integer "P::T" ⟨some 0, some 255⟩)), (exIn 'M', .message (.message "P::M" 0) fun l => .message "P::M" (if l.isEmpty then 0 else 1)),
    (exIn 'N', .message (.message "P::N" 2) fun _ => .message "P::N" 2),
    (exIn 'R', .refinement (.message "P::R" 1) (exIn 'M') ['D'] (exIn 'N') (.message "P::M" 0) (.message "P::N" 2)),
    (exIn 'Q', .other (.array "P::Q" (.integer "P::T" ⟨some 0, some 255⟩))), (booleanId, .other BOOLEAN)]

/-- A session: with channel `C`, function `F`, and global variables `V` and `X`:

    state A is
       Y : T := X + 1;
    begin
       C'Read (V);
       X := Y;
       V := M'(L => X, D => []);
    transition
       then A if F (X) and C'Data_Available
       then B
    exception
       then B
    end A;
-/
def exFull : FullSession Nat where
  identifier := exIn 'S'
  initial := nm 'A'
  final := nm 'B'
  states := [
    { identifier := nm 'A'
      transitions := [(nm 'A', .bool .and [.call false (nm 'F') [.v (nm 'X')], .call false dataAvailable [.v (nm 'C')]]), (nm 'B', .tru)]
      exception := some (nm 'B')
      actions := [.read (nm 'C') (.plain (.v (nm 'V'))), .assign (nm 'X') (.plain (.v (nm 'Y'))),
        .assign (nm 'V') (.aggregate (exIn 'M') [(nm 'L', .v (nm 'X')), (nm 'D', .agg [.n 1])])]
      declarations := [.variable (nm 'Y') (nm 'T') (some (.plain (.add [.v (nm 'X'), .n 1])))] },
    { identifier := nm 'B', transitions := [], actions := [], declarations := [] }]
  declarations := [.variable (nm 'V') (exIn 'M') none, .variable (nm 'X') (nm 'T') (some (.plain (.n 1)))]
  parameters := [.channel (nm 'C') true false, .function (nm 'F') [nm 'T'] booleanName]
  types := exTypes

/-- Whether there is no error. -/
def isOk {α : Type} : Py α → Bool
  | .ok _ => true
  | .error _ => false

theorem accepted_of {M : Type} [DecidableEq M] {B : Body M} {literals : Dict (Ty M)} {h : List PyStr → Int} {s : FullSession M}
    (hs : isOk (FullSession.new B literals h s) = true) : s.Accepted B literals h := by
  cases hn : FullSession.new B literals h s with
  | error e => rw [hn] at hs; cases hs
  | ok r =>
    unfold FullSession.new at hn
    obtain ⟨package, h1, hn⟩ := bind_ok' hn
    obtain ⟨d, h2, hn⟩ := bind_ok' hn
    obtain ⟨v, h3, hn⟩ := bind_ok' hn
    split at hn
    · rename_i hc
      unfold FullSession.Accepted FullSession.new
      rw [h1]
      show (do let d ← validateDecls B literals package h false _ _; _) = _
      rw [h2]
      show (do let v ← stateLoop B literals package h d.visible _ _; _) = _
      rw [h3]
      show (if _ then _ else _) = _
      rw [if_pos hc]
    · cases hn

theorem exFull_accepted : exFull.Accepted exBody [] (fun _ => 0) := accepted_of (by decide +kernel)

theorem exBody_proper : exBody.Proper := by
  intro m r hr
  unfold exBody at hr
  simp only at hr
  split at hr
  · simp only [List.mem_singleton] at hr
    subst hr
    exact ⟨_, _, rfl⟩
  · cases hr

theorem exTypes_ordinary : ∀ t ∈ exTypes, t.2.Ordinary := by
  simp [exTypes, MType.Ordinary, Ordinary, BOOLEAN]

theorem exFull_ordinary : exFull.OrdinaryTypes :=
  ⟨exTypes_ordinary, by simp [FullSession.everything, FullSession.all, exFull]⟩

theorem exFull_distinct : DistinctNames exFull.all := by
  simp only [DistinctNames, exFull, FullSession.all]
  decide

example : exFull.Accepted exBody [] (fun _ => 0) ∧ exFull.OrdinaryTypes ∧ exBody.Proper ∧ DistinctNames exFull.all ∧
    (∀ t ∈ exFull.states, DistinctNames t.declarations ∧ ∀ a ∈ t.actions, ∀ e, a.expr = some e → SDirect e) :=
  ⟨exFull_accepted, exFull_ordinary, exBody_proper, exFull_distinct, by
    simp only [exFull, DistinctNames, List.mem_cons, List.not_mem_nil, or_false, forall_eq_or_imp, forall_eq, Action.expr, Option.some.injEq]
    refine ⟨⟨by simp, ?_⟩, by simp, nofun⟩
    refine ⟨by rintro _ rfl; trivial, by rintro _ rfl; trivial, ?_⟩
    rintro _ rfl v hv
    simp only [List.mem_cons, List.not_mem_nil, or_false] at hv
    rcases hv with rfl | rfl <;> trivial⟩

/-! ## Counterexamples -/

/-- A session of two states, with declarations and actions of the first one. -/
def exSmall (parameters declarations locals : List (Decl Nat)) (actions : List Action) (exception : Option ID := none) : FullSession Nat where
  identifier := exIn 'S'
  initial := nm 'A'
  final := nm 'B'
  states := [{ identifier := nm 'A', transitions := [(nm 'B', .tru)], exception := exception, actions := actions, declarations := locals },
    { identifier := nm 'B', transitions := [], actions := [], declarations := [] }]
  declarations := declarations
  parameters := parameters
  types := exTypes

theorem exSmall_ordinary {ps ds ls : List (Decl Nat)} {as : List Action} {x : Option ID} (h : ∀ d ∈ ps ++ ds ++ ls, ∀ i t, d ≠ .type i t) :
    (exSmall ps ds ls as x).OrdinaryTypes := by
  refine ⟨exTypes_ordinary, fun d hd i t hdt => absurd hdt (h d ?_ i t)⟩
  simpa [FullSession.everything, FullSession.all, exSmall] using hd

/-- Declarations with the same name are merged silently, and only the last one is checked: `X : Y` with the unknown type `Y` is
accepted if `X : T` follows. -/
theorem C49_duplicate_counterexample : ∃ (s : FullSession Nat) (d : Decl Nat) (i : ID), s.Accepted exBody [] (fun _ => 0) ∧ s.OrdinaryTypes ∧
    d ∈ s.all ∧ d.Names i ∧ s.package = .ok exPackage ∧ ¬ KnownType exPackage s.types s.everything i := by
  refine ⟨exSmall [] [.variable (nm 'X') (nm 'Y') none, .variable (nm 'X') (nm 'T') none] [] [.assign (nm 'X') (.plain (.n 1))],
    .variable (nm 'X') (nm 'Y') none, nm 'Y', accepted_of (by decide +kernel), exSmall_ordinary (by simp), by simp [FullSession.all, exSmall],
    .variable, by with_unfolding_all rfl, ?_⟩
  rintro (⟨t, ht, hk⟩ | ⟨j, t, hj, hk⟩)
  · simp only [exSmall, exTypes, List.mem_cons, List.not_mem_nil, or_false] at ht
    rcases ht with rfl | rfl | rfl | rfl | rfl | rfl <;> revert hk <;> decide
  · simp [FullSession.everything, FullSession.all, exSmall] at hj

/-- A variable that is used in an aggregate only is considered as unused, and the session is rejected. -/
theorem C49_unused_counterexample : ∃ s : FullSession Nat, (∀ d ∈ s.all, s.Uses d.id.key) ∧ s.OrdinaryTypes ∧
    isOk (FullSession.new exBody [] (fun _ => 0) s) = false ∧
    s = exSmall [] [.variable (nm 'V') (nm 'Q') none, .variable (nm 'X') (nm 'T') none] []
      [.assign (nm 'V') (.plain (.agg [.v (nm 'X')]))] ∧
    (exSmall [] [.variable (nm 'V') (nm 'Q') none, .variable (nm 'X') (nm 'T') none] []
      [.assign (nm 'V') (.plain (.agg [.v (nm 'X')])), .assign (nm 'X') (.plain (.n 1))]).Accepted exBody [] (fun _ => 0) := by
  refine ⟨_, ?_, exSmall_ordinary (by simp), by decide +kernel, rfl, accepted_of (by decide +kernel)⟩
  intro d hd
  refine .inr (.inr ⟨_, List.mem_cons_self .., .inr (.inl ⟨_, List.mem_cons_self .., ?_⟩)⟩)
  simp only [FullSession.all, exSmall, List.nil_append, List.mem_cons, List.not_mem_nil, or_false] at hd
  rcases hd with rfl | rfl
  · exact .inl rfl
  · exact .inr ⟨_, rfl, .inl (.plain (.agg (List.mem_cons_self ..) (.var rfl)))⟩

/-- A call of a variable leads to an `AssertionError`. -/
theorem C49_call_counterexample : ∃ s : FullSession Nat, s.OrdinaryTypes ∧ FullSession.new exBody [] (fun _ => 0) s = .error .assertion :=
  ⟨exSmall [] [.variable (nm 'X') (nm 'T') none] [] [.assign (nm 'X') (.plain (.call false (nm 'X') [.n 1]))], exSmall_ordinary (by simp), by
    with_unfolding_all rfl⟩

/-- The name of a declared type in an expression leads to a `NotImplementedError`. -/
theorem C49_type_counterexample : ∃ s : FullSession Nat, s.OrdinaryTypes ∧ FullSession.new exBody [] (fun _ => 0) s = .error .notImplemented :=
  ⟨exSmall [.type (nm 'Z') (.other (.priv "P::Z"))] [.variable (nm 'X') (nm 'T') none] [] [.assign (nm 'X') (.plain (.v (nm 'Z')))],
    ⟨exTypes_ordinary, by simp [FullSession.everything, FullSession.all, exSmall, MType.Ordinary, Ordinary]⟩, by with_unfolding_all rfl⟩

/-- In a message aggregate, the value of an opaque field is not checked if its type is compatible with a refinement: the argument of the
function is not declared. -/
theorem C49_aggregate_counterexample : ∃ (s : FullSession Nat) (t : FullState Nat) (a : Action) (e : SExpr) (x : List PyStr),
    s.Accepted exBody [] (fun _ => 0) ∧ s.OrdinaryTypes ∧ t ∈ s.states ∧ a ∈ t.actions ∧ a.expr = some e ∧ SFree x e ∧
      ¬ DeclaredBy s.everything x := by
  refine ⟨exSmall [.function (nm 'F') [nm 'T'] (exIn 'N')] [.variable (nm 'V') (exIn 'M') none] []
    [.assign (nm 'V') (.aggregate (exIn 'M') [(nm 'L', .n 1), (nm 'D', .call false (nm 'F') [.v (nm 'U')])])] (some (nm 'B')), _, _, _, (nm 'U').key,
    accepted_of (by decide +kernel), exSmall_ordinary (by simp), List.mem_cons_self .., List.mem_cons_self .., rfl,
    .value (List.mem_cons_of_mem _ (List.mem_cons_self ..)) (.call (List.mem_cons_self ..) (.var rfl)), ?_⟩
  rintro ⟨d, hd, hk, _⟩
  simp only [FullSession.everything, FullSession.all, exSmall, List.flatMap_cons, List.flatMap_nil, List.append_nil, List.mem_append,
    List.mem_cons, List.not_mem_nil, or_false] at hd
  rcases hd with rfl | rfl <;> revert hk <;> decide

/-- A variable of a type without a prefix has no refinements: the renaming is accepted only if the type of `V` is written with the
name of the package. -/
theorem C49_unqualified_counterexample :
    (exSmall [] [.variable (nm 'V') (exIn 'M') none] [.renaming (nm 'W') (exIn 'N') false (.v (nm 'V')) (nm 'D')]
      [.reset (nm 'W')]).Accepted exBody [] (fun _ => 0) ∧
    isOk (FullSession.new exBody [] (fun _ => 0)
      (exSmall [] [.variable (nm 'V') (nm 'M') none] [.renaming (nm 'W') (exIn 'N') false (.v (nm 'V')) (nm 'D')] [.reset (nm 'W')])) = false ∧
    qualified (nm 'M') exPackage = exIn 'M' :=
  ⟨accepted_of (by decide +kernel), by decide +kernel, by decide +kernel⟩

/-- A value can be assigned to a function. -/
theorem C49_function_target_counterexample : ∃ (s : FullSession Nat) (t : FullState Nat) (i : ID) (e : SExpr),
    s.Accepted exBody [] (fun _ => 0) ∧ s.OrdinaryTypes ∧ t ∈ s.states ∧ Action.assign i e ∈ t.actions ∧
      ∀ d ∈ s.everything, d.id.key = i.key → ∃ as r, d = .function i as r := by
  refine ⟨exSmall [.function (nm 'F') [] (nm 'T')] [] [] [.assign (nm 'F') (.plain (.n 1))], _, _, _, accepted_of (by decide +kernel),
    exSmall_ordinary (by simp), List.mem_cons_self .., List.mem_cons_self .., ?_⟩
  intro d hd _
  simp only [FullSession.everything, FullSession.all, exSmall, List.flatMap_cons, List.flatMap_nil, List.append_nil, 
    List.mem_cons, List.not_mem_nil, or_false] at hd
  exact ⟨_, _, hd⟩

/-- A channel can be assigned to a channel. -/
theorem C49_channel_target_counterexample : ∃ (s : FullSession Nat) (t : FullState Nat) (i : ID) (e : SExpr),
    s.Accepted exBody [] (fun _ => 0) ∧ s.OrdinaryTypes ∧ t ∈ s.states ∧ Action.assign i e ∈ t.actions ∧
      ∀ d ∈ s.everything, d.id.key = i.key → ∃ r w, d = .channel i r w := by
  refine ⟨exSmall [.channel (nm 'C') true false, .channel (nm 'D') true true] [] [] [.assign (nm 'C') (.plain (.v (nm 'D')))], _, _, _,
    accepted_of (by decide +kernel), exSmall_ordinary (by simp), List.mem_cons_self .., List.mem_cons_self .., ?_⟩
  intro d hd hk
  simp only [FullSession.everything, FullSession.all, exSmall, List.flatMap_cons, List.flatMap_nil, List.append_nil, 
    List.mem_cons, List.not_mem_nil, or_false] at hd
  rcases hd with rfl | rfl
  · exact ⟨_, _, rfl⟩
  · exact absurd hk (by decide)

/-! ## A renaming -/

/-- A session with the message `V` and the message `W` in the field `D` of `V`. -/
def exRenaming : FullSession Nat :=
  exSmall [] [.variable (nm 'V') (exIn 'M') none, .renaming (nm 'W') (exIn 'N') false (.v (nm 'V')) (nm 'D')] [] [.reset (nm 'W')]

example : exRenaming.Accepted exBody [] (fun _ => 0) ∧ exRenaming.OrdinaryTypes ∧ DistinctNames exRenaming.all ∧
    exRenaming.all = [.variable (nm 'V') (exIn 'M') none] ++ .renaming (nm 'W') (exIn 'N') false (.var false false (nm 'V')) (nm 'D') :: [] :=
  ⟨accepted_of (by decide +kernel), exSmall_ordinary (by simp), by simp only [DistinctNames, exRenaming, exSmall, FullSession.all]; decide, rfl⟩

example : ∃ t ∈ exFull.states, ∃ a ∈ t.actions, a.expr = some (.aggregate (exIn 'M') [(nm 'L', .v (nm 'X')), (nm 'D', .agg [.n 1])]) :=
  ⟨_, List.mem_cons_self, .assign (nm 'V') _, by simp, rfl⟩

end Verif.Session
