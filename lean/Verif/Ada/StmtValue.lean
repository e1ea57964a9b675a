import Verif.Ada.Stmt
import Verif.Ada.StmtGrammar
import Verif.Ada.Value

/-! # What statement objects stand for -/

namespace Verif.Ada
open Verif

namespace AStmt

/-- An argument: the variable (if it is a name) and the value. -/
def arg (W : World) (e : AExpr) : Option W.Ent × Option Val := (if e.isName then e.ent W else none, e.value W)

mutual

/-- The effect of a statement object. -/
def exec (M : Machine) (s : M.State) : AStmt → Option (Outcome M.State)
  | null => some (.next s)
  | assign t e => assignTo M s (t.ent (M.world s)) (e.value (M.world s))
  | call i args => callTo M s (path (M.world s) i.parts) (args.map (arg (M.world s)))
  | pragma i ps => (M.pragma s (joinDot i.parts).lower (ps.map fun e => e.value (M.world s))).map .next
  | ret e => (e.value (M.world s)).map (.returned s)
  | ife arms elses => execArms M s arms (match elses with | none => some (.next s) | some ss => execs M s ss)
  | case c alts => (c.value (M.world s)).bind fun v => execAlts M s v alts

/-- The effect of a sequence of statements. -/
def execs (M : Machine) (s : M.State) : List AStmt → Option (Outcome M.State)
  | [] => some (.next s)
  | a :: as => andThen (exec M s a) fun s' => execs M s' as

/-- The first branch with a true condition; `x` is the effect of the `else` part. -/
def execArms (M : Machine) (s : M.State) : List (AExpr × List AStmt) → Option (Outcome M.State) → Option (Outcome M.State)
  | [], x => x
  | (c, ss) :: as, x => branch (c.value (M.world s)) (execs M s ss) (execArms M s as x)

/-- The first alternative whose choice is `others` or has the value `v`. -/
def execAlts (M : Machine) (s : M.State) (v : Val) : List (AExpr × List AStmt) → Option (Outcome M.State)
  | [] => none
  | (c, ss) :: as =>
    if c.isOthers then execs M s ss
    else (c.value (M.world s)).bind fun u => if u = v then execs M s ss else execAlts M s v as

end

mutual

/-- The statements whose text is claimed to be right: their expressions are (`AExpr.WF`), the target of an assignment is a name without sign,
calls have arguments, the name of a pragma is a word of Ada, `if` statements have a branch, no branch and no alternative is empty, case
statements have alternatives and their choices are expressions or `others`. -/
def WF : AStmt → Prop
  | null => True
  | assign t e => t.WF ∧ t.isName = true ∧ e.WF
  | call i args => Dotted i ∧ args ≠ [] ∧ AExpr.WFL args
  | pragma i ps => (∃ x, i.parts = [x] ∧ Word x) ∧ AExpr.WFL ps
  | ret e => e.WF
  | ife arms elses => arms ≠ [] ∧ WFP arms ∧ (match elses with | none => True | some ss => WFL ss)
  | case c alts => c.WF ∧ alts ≠ [] ∧ WFA alts

/-- `WF` for lists. -/
def WFL : List AStmt → Prop
  | [] => True
  | s :: ss => WF s ∧ WFL ss

/-- `WF` for the branches of an `if` statement. -/
def WFP : List (AExpr × List AStmt) → Prop
  | [] => True
  | (c, ss) :: as => c.WF ∧ ss ≠ [] ∧ WFL ss ∧ WFP as

/-- `WF` for the alternatives of a case statement. -/
def WFA : List (AExpr × List AStmt) → Prop
  | [] => True
  | (c, ss) :: as => (c.WF ∨ c.isOthers = true) ∧ ss ≠ [] ∧ WFL ss ∧ WFA as

end

end AStmt
end Verif.Ada
