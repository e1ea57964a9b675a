import Verif.Ada.Grammar

/-! # Reading statements of Ada

An independent specification: the syntax of statements (ARM 5.1-5.4, 6.4, 6.5, 2.8) on top of that of expressions, and their effect in an
arbitrary machine. Nothing here refers to `rflx/ada.py`. Left out: loops, blocks, labels, `return` without expression, extended returns,
rules of legality (e.g. that `others` is the last choice). -/

namespace Verif.Ada
open Verif

/-! ## Syntax -/

/-- Syntax trees of statements. `seq` is a sequence; an `if` statement without `else` has the branch `null`, an `elsif` part is an `if` statement
in the branch of the previous condition. The alternatives of a case statement are a chain of `alt`. -/
inductive STree where
  | null
  | assign (t e : Tree)
  | call (t : Tree)
  | pragma (x : PyStr) (args : List Tree)
  | ret (e : Tree)
  | ite (c : Tree) (t e : STree)
  | case (c : Tree) (alts : STree)
  | alt (choices : List Tree) (t : STree) (next : Option STree)
  | seq (s t : STree)

/-- Syntactic categories: a statement, a sequence of statements, what follows a branch of an `if` statement, alternatives. -/
inductive SCat | statement | sequence | otherwise | alternatives

/-- The syntax of statements: ARM 5.1 (sequences, `null`), 5.2 (assignments), 6.4 (calls), 2.8 (pragmas), 6.5 (`return`), 5.3 (`if`), 5.4
(`case`). -/
inductive SReads : SCat → List Tok → STree → Prop
  | null : SReads .statement [kw "null", .semi] .null
  | assign {ts us t u} : Reads .name ts t → Reads .expression us u → SReads .statement (ts ++ .assign :: us ++ [.semi]) (.assign t u)
  | call {ts t} : Reads .name ts t → SReads .statement (ts ++ [.semi]) (.call t)
  | directive {x} : SReads .statement [kw "pragma", .ident x, .semi] (.pragma x [])
  | pragma {x us es} : Reads .list us (.agg es) → SReads .statement (kw "pragma" :: .ident x :: .lpar :: us ++ [.rpar, .semi]) (.pragma x es)
  | ret {us u} : Reads .expression us u → SReads .statement (kw "return" :: us ++ [.semi]) (.ret u)
  | ite {ts us vs c t e} : Reads .expression ts c → SReads .sequence us t → SReads .otherwise vs e →
      SReads .statement (.if_ :: ts ++ .then_ :: us ++ vs) (.ite c t e)
  | case {ts us c a} : Reads .expression ts c → SReads .alternatives us a →
      SReads .statement (kw "case" :: ts ++ kw "is" :: us ++ [kw "end", kw "case", .semi]) (.case c a)
  | one {ts t} : SReads .statement ts t → SReads .sequence ts t
  | seq {ts us t u} : SReads .statement ts t → SReads .sequence us u → SReads .sequence (ts ++ us) (.seq t u)
  | endIf : SReads .otherwise [kw "end", .if_, .semi] .null
  | else_ {ts t} : SReads .sequence ts t → SReads .otherwise (.else_ :: ts ++ [kw "end", .if_, .semi]) t
  | elsif {ts us vs c t e} : Reads .expression ts c → SReads .sequence us t → SReads .otherwise vs e →
      SReads .otherwise (.elsif :: ts ++ .then_ :: us ++ vs) (.ite c t e)
  | alt {ts us cs u} : Reads .choices ts (.agg cs) → SReads .sequence us u →
      SReads .alternatives (kw "when" :: ts ++ .arrow :: us) (.alt cs u none)
  | alts {ts us vs cs u v} : Reads .choices ts (.agg cs) → SReads .sequence us u → SReads .alternatives vs v →
      SReads .alternatives (kw "when" :: ts ++ .arrow :: us ++ vs) (.alt cs u (some v))

/-! ## Effects -/

/-- An argument of a procedure: a variable or a value. -/
inductive Arg (E : Type) | var (n : E) | val (v : Val)

/-- A machine: its states, the meaning of names in a state, whether a parameter of a procedure is a variable (`out`, `in out`), the effect of
assignments, of calls and of pragmas. `none` is an error (an exception, or a violated rule of Ada). -/
structure Machine where
  State : Type
  world : State → World
  out : (s : State) → (world s).Ent → Nat → Bool
  assign : (s : State) → (world s).Ent → Val → Option State
  call : (s : State) → (world s).Ent → List (Arg (world s).Ent) → Option State
  pragma : State → PyStr → List (Option Val) → Option State

/-- How a statement ends: the next statement follows, or the subprogram returns a value. -/
inductive Outcome (S : Type) | next (s : S) | returned (s : S) (v : Val)

/-- What is passed to a procedure: variables or values, depending on the parameter. -/
def passed (M : Machine) (s : M.State) (p : (M.world s).Ent) : Nat → List (Option (M.world s).Ent × Option Val) → Option (List (Arg (M.world s).Ent))
  | _, [] => some []
  | i, (n, v) :: as =>
    match (if M.out s p i then n.map Arg.var else v.map Arg.val), passed M s p (i + 1) as with
    | some a, some as => some (a :: as)
    | _, _ => none

/-- A call. -/
def callTo (M : Machine) (s : M.State) (p : Option (M.world s).Ent) (as : List (Option (M.world s).Ent × Option Val)) : Option (Outcome M.State) :=
  p.bind fun p => (passed M s p 0 as).bind fun as => (M.call s p as).map .next

/-- An assignment. -/
def assignTo (M : Machine) (s : M.State) (n : Option (M.world s).Ent) (v : Option Val) : Option (Outcome M.State) :=
  n.bind fun n => v.bind fun v => (M.assign s n v).map .next

/-- One statement after another. -/
def andThen {S : Type} (x : Option (Outcome S)) (f : S → Option (Outcome S)) : Option (Outcome S) :=
  match x with
  | some (.next s) => f s
  | some (.returned s v) => some (.returned s v)
  | none => none

/-- A choice between two branches. -/
def branch {α : Type} (c : Option Val) (t e : Option α) : Option α :=
  match c with
  | some (.bool true) => t
  | some (.bool false) => e
  | _ => none

/-- The called name and the arguments. -/
def Tree.called (W : World) : Tree → Option W.Ent × List (Option W.Ent × Option Val)
  | .app t args => (t.ent W, args.map fun a => (a.ent W, a.value W))
  | t => (t.ent W, [])

mutual

/-- The effect of a statement. -/
def STree.exec (M : Machine) (s : M.State) : STree → Option (Outcome M.State)
  | .null => some (.next s)
  | .assign t e => assignTo M s (t.ent (M.world s)) (e.value (M.world s))
  | .call t => callTo M s (t.called (M.world s)).1 (t.called (M.world s)).2
  | .pragma x args => (M.pragma s x (args.map fun a => a.value (M.world s))).map .next
  | .ret e => (e.value (M.world s)).map (.returned s)
  | .ite c t e => branch (c.value (M.world s)) (t.exec M s) (e.exec M s)
  | .case c a => (c.value (M.world s)).bind fun v => a.select M s v
  | .alt .. => none
  | .seq a b => andThen (a.exec M s) fun s' => b.exec M s'

/-- The effect of the first alternative with a choice that has the value `v`. -/
def STree.select (M : Machine) (s : M.State) (v : Val) : STree → Option (Outcome M.State)
  | .alt cs t none => branch ((Tree.covers (M.world s) v cs).map .bool) (t.exec M s) none
  | .alt cs t (some a) => branch ((Tree.covers (M.world s) v cs).map .bool) (t.exec M s) (a.select M s v)
  | _ => none

end

end Verif.Ada
