import Verif.SpecParser.SessionsProps
import Verif.Session.DeclExample

/-! # Property C56: a concrete session, and counterexamples -/

namespace Verif.SpecParser
open Verif

/-! ## A case that meets the hypotheses -/

instance (n : PyStr) : Decidable (FreeName n) := inferInstanceAs (Decidable (_ ∉ _))

/-- The name `c`. -/
def exId (c : Char) : IdNode := .qualified none [c]

/-- A session of a specification, in a package `P` with the types of `Session.exTypes`, with a channel `C`:

    generic
       C : Channel with Readable;
    session S with
       Initial => A,
       Final => B
    is
       V : P::M;
       X : T := 1;
    begin
       state A is
          Y : T := X + 1;
       begin
          C'Read (V);
          X := Y;
          V := P::M'(L => X, D => [1]);
       transition
          then A if X = 1
          then B
       exception
          then B
       end A;
       state B is null state;
    end S;
-/
def exSession : SessionTree where
  name := ['S']
  endName := ['S']
  initial := ['A']
  final := ['B']
  states := [
    { name := ['A']
      body := some
        { conditional := [⟨['A'], some (.binop .eq (exName 'X') (.numeral ['1']))⟩]
          final := ⟨['B'], none⟩
          exception := some ⟨['B'], none⟩
          actions := [.attribute ['C'] ['R', 'e', 'a', 'd'] (.plain (exName 'V')), .assignment ['X'] (.plain (exName 'Y')),
            .assignment ['V'] (.aggregate (.qualified (some ['P']) ['M'])
              (some [(['L'], exName 'X'), (['D'], .aggregate [.numeral ['1']])]))]
          declarations := [.variable ['Y'] (exId 'T') (some (.plain (.binop .add (exName 'X') (.numeral ['1']))))]
          endName := ['A'] } },
    { name := ['B'], body := none }]
  declarations := [.variable ['V'] (.qualified (some ['P']) ['M']) none, .variable ['X'] (exId 'T') (some (.plain (.numeral ['1'])))]
  parameters := [.channel ['C'] [true]]

theorem exSession_lexical : exSession.Lexical := by
  constructor <;>
    simp [exSession, exId, exName, IsName, StateTree.Lexical, TransitionTree.Lexical, StatementTree.Lexical, LocalTree.Lexical,
      FormalTree.Lexical, STree.Lexical, Lexical, IdNode.Lexical]
  all_goals first
    | exact ⟨_, exNumeral1⟩
    | refine ⟨⟨_, exNumeral1⟩, ?_, _, exNumeral1⟩
      rintro a b (⟨rfl, rfl⟩ | ⟨rfl, rfl⟩)
      · exact ⟨by decide, by simp [Lexical, IdNode.Lexical, IsName]⟩
      · exact ⟨by decide, by simp only [Lexical, LexicalL]; exact ⟨⟨_, exNumeral1⟩, trivial⟩⟩

theorem exReadable_name (c : Char) : Readable .any (exName c) :=
  ⟨trivial, Division.ada, exEnvT 0 [], _, .var, trivial⟩

theorem exReadable_one : Readable .any (.numeral ['1']) :=
  ⟨.inl (by decide), Division.ada, exEnvT 0 [], _, .numeral exNumeral1, trivial⟩

theorem exSession_readable : exSession.Readable := by
  have h1 : Readable .bool (.binop .eq (exName 'X') (.numeral ['1'])) :=
    ⟨⟨trivial, .inl (by decide)⟩, Division.ada, exEnvT 0 [], _, .binop (a := .int 0) (b := .int 1) .var (.numeral exNumeral1) rfl, _, rfl⟩
  have h2 : Readable .any (.binop .add (exName 'X') (.numeral ['1'])) :=
    ⟨⟨trivial, .inl (by decide)⟩, Division.ada, exEnvT 0 [], _, .binop (a := .int 0) (b := .int 1) .var (.numeral exNumeral1) rfl, trivial⟩
  have h3 : Readable .any (.aggregate [.numeral ['1']]) :=
    ⟨⟨.inl (by decide), trivial⟩, Division.ada, exEnvT 0 [], _, .aggregate (xs := [1]) (.cons (.numeral exNumeral1) .nil), trivial⟩
  constructor
  case states =>
    simp only [exSession, List.mem_cons, List.not_mem_nil, or_false, forall_eq_or_imp, forall_eq, StateTree.Readable, Option.some.injEq,
      forall_eq', TransitionTree.Readable, StatementTree.Readable, LocalTree.Readable, STree.Readable]
    exact ⟨⟨by decide, trivial, ⟨by decide, h1⟩, ⟨by decide, nofun⟩, trivial, ⟨⟨by decide, nofun⟩, trivial⟩,
      ⟨⟨by decide, exReadable_name _, by decide⟩, ⟨by decide, exReadable_name _⟩, ⟨by decide, trivial, ⟨by decide, exReadable_name _⟩, by decide, h3⟩⟩,
      by decide, trivial, h2⟩, by decide, nofun⟩
  case declarations =>
    simp only [exSession, List.mem_cons, List.not_mem_nil, or_false, forall_eq_or_imp, forall_eq, LocalTree.Readable, STree.Readable,
      Option.some.injEq, forall_eq']
    exact ⟨⟨by decide, trivial, nofun⟩, by decide, trivial, exReadable_one⟩
  case parameters =>
    simp only [exSession, List.mem_cons, List.not_mem_nil, or_false, forall_eq, FormalTree.Readable]
    exact ⟨by decide, by decide⟩
  all_goals first | rfl | (unfold FreeName exSession; decide)

theorem exPackage_valid : Session.exPackage.Valid := by
  refine ⟨by simp [Session.exPackage, Session.nm], ?_⟩
  simp [Session.exPackage, Session.nm]

/-- The session is created. -/
theorem exSession_created : ∃ s, createSession Session.exBody [] (fun _ => 0) Session.exPackage exSession Session.exTypes = .ok s := by
  have : Session.isOk (createSession Session.exBody [] (fun _ => 0) Session.exPackage exSession Session.exTypes) = true := by decide +kernel
  cases h : createSession Session.exBody [] (fun _ => 0) Session.exPackage exSession Session.exTypes with
  | ok s => exact ⟨s, rfl⟩
  | error e => rw [h] at this; cases this

/-- The hypotheses of the theorems. -/
example : ∃ s, Session.exPackage.Valid ∧ Session.exPackage.parts.length = 1 ∧ exSession.Lexical ∧ exSession.Readable ∧
    createSession Session.exBody [] (fun _ => 0) Session.exPackage exSession Session.exTypes = .ok s :=
  exSession_created.imp fun _ h => ⟨exPackage_valid, rfl, exSession_lexical, exSession_readable, h⟩

/-! ## Counterexamples -/

/-- `exSession` with other declarations. -/
def exDeclared (declarations : List LocalTree) : SessionTree := { exSession with declarations := declarations }

/-- `exSession` with another statement in the first state. -/
def exAssigning (e : STree) : SessionTree :=
  { exSession with
    states := [
      { name := ['A']
        body := some
          { conditional := []
            final := ⟨['B'], none⟩
            exception := some ⟨['B'], none⟩
            actions := [.attribute ['C'] ['R', 'e', 'a', 'd'] (.plain (exName 'V')), .assignment ['X'] (.plain (exName 'X')), .assignment ['V'] e]
            declarations := []
            endName := ['A'] } },
      { name := ['B'], body := none }] }

/-- The names of the declarations of a session that is created. -/
def declarationsOf (t : SessionTree) : Option (List (List PyStr)) :=
  match createSession Session.exBody [] (fun _ => 0) Session.exPackage t Session.exTypes with
  | .ok s => some (s.declarations.map fun d => d.id.parts)
  | .error _ => none

theorem declarationsOf_some {t : SessionTree} {l : List (List PyStr)} (h : declarationsOf t = some l) :
    ∃ s, createSession Session.exBody [] (fun _ => 0) Session.exPackage t Session.exTypes = .ok s ∧ s.declarations.map (fun d => d.id.parts) = l := by
  unfold declarationsOf at h
  split at h
  · rename_i s hs; exact ⟨s, hs, Option.some.inj h⟩
  · cases h

/-- A session in which the same name is declared twice is created, with one of the declarations only: `X : Unknown` is dropped, although
there is no such type. -/
theorem C56_declaration_counterexample : ∃ t s, t.declarations.length = 3 ∧
    createSession Session.exBody [] (fun _ => 0) Session.exPackage t Session.exTypes = .ok s ∧ s.declarations.length = 2 := by
  obtain ⟨s, h1, h2⟩ := declarationsOf_some (t := exDeclared (.variable ['x'] (.qualified none ['U']) none :: exSession.declarations))
    (l := [[['X']], [['V']]]) (by decide +kernel)
  refine ⟨_, s, rfl, h1, ?_⟩
  have := congrArg List.length h2
  simpa using this

/-- The fields of the aggregates in the first state of a session that is created. -/
def fieldsOf (t : SessionTree) : Option (List (List (List PyStr))) :=
  match createSession Session.exBody [] (fun _ => 0) Session.exPackage t Session.exTypes with
  | .ok s => some ((s.states.take 1).flatMap fun x => x.actions.filterMap fun
    | .assign _ (.aggregate _ vs) => some (vs.map fun v => v.1.parts)
    | _ => none)
  | .error _ => none

/-- A message aggregate with two values for the same field is accepted; the first value is dropped. -/
theorem C56_field_counterexample :
    fieldsOf (exAssigning (.aggregate (.qualified (some ['P']) ['M'])
      (some [(['L'], .binop .add (exName 'V') (exName 'C')), (['D'], .aggregate [.numeral ['1']]), (['l'], exName 'X')]))) =
      some [[[['L']], [['D']]]] := by
  decide +kernel

/-- The end identifiers have to be spelled as the name, although names are compared without regard to case anywhere else. -/
theorem C56_end_counterexample : ∃ t : SessionTree, t.Lexical ∧ nameKey t.endName = nameKey t.name ∧
    Session.isOk (createSession Session.exBody [] (fun _ => 0) Session.exPackage t Session.exTypes) = false ∧
    Session.isOk (createSession Session.exBody [] (fun _ => 0) Session.exPackage { t with endName := t.name } Session.exTypes) = true := by
  refine ⟨{ exSession with endName := ['s'] }, ⟨exSession_lexical.1, exSession_lexical.2, exSession_lexical.3, exSession_lexical.4,
    exSession_lexical.5, exSession_lexical.6⟩, by decide, by decide +kernel, by decide +kernel⟩

end Verif.SpecParser
