import Verif.Ada.Syntax

/-! # Statements of Ada (`rflx/ada.py:1287-1395`)

Sequences are lists (the code also accepts tuples; a list and a tuple are never equal). Text is given by `strF`, exceptions by `raises`. -/

namespace Verif.Ada
open Verif

/-- The classes derived from `Statement`, `rflx/ada.py:1293-1395`. `elses` is `none` if `else_statements` is `None`. -/
inductive AStmt where
  | null
  | assign (target e : AExpr)
  | call (id : ID) (args : List AExpr)
  | pragma (id : ID) (params : List AExpr)
  | ret (e : AExpr)
  | ife (arms : List (AExpr × List AStmt)) (elses : Option (List AStmt))
  | case (c : AExpr) (alts : List (AExpr × List AStmt))

/-- `Assignment(identifier, expression)` with an identifier, `rflx/ada.py:1302-1304`. -/
def mkAssign (i : ID) (e : AExpr) : AStmt := .assign (.var false i) e

/-- `isinstance(self.expression, CaseExpr)`, `rflx/ada.py:1338`. -/
def AExpr.isCase : AExpr → Bool
  | .case .. => true
  | _ => false

/-- The condition in `IfStatement.__str__`, `rflx/ada.py:1355-1359`. -/
def condText (s : PyStr) : PyStr :=
  if s.contains '\n' then '\n' :: indent s 2 ++ ['\n'] else ' ' :: s ++ [' ']

namespace AStmt

mutual

/-- `==`, `rflx/common.py:7-18`: same class and same attributes. -/
def eqb : AStmt → AStmt → Bool
  | null, null => true
  | assign t e, assign t' e' => AExpr.eqb t t' && AExpr.eqb e e'
  | call i as, call i' as' => i.eq i' && AExpr.eqbL as as'
  | pragma i as, pragma i' as' => i.eq i' && AExpr.eqbL as as'
  | ret e, ret e' => AExpr.eqb e e'
  | ife as none, ife as' none => eqbP as as'
  | ife as (some es), ife as' (some es') => eqbP as as' && eqbL es es'
  | case c as, case c' as' => AExpr.eqb c c' && eqbP as as'
  | _, _ => false

/-- `==` of lists. -/
def eqbL : List AStmt → List AStmt → Bool
  | [], [] => true
  | s :: ss, s' :: ss' => eqb s s' && eqbL ss ss'
  | _, _ => false

/-- `==` of lists of pairs. -/
def eqbP : List (AExpr × List AStmt) → List (AExpr × List AStmt) → Bool
  | [], [] => true
  | (c, ss) :: as, (c', ss') :: as' => AExpr.eqb c c' && eqbL ss ss' && eqbP as as'
  | _, _ => false

end

mutual

/-- `str(self)`: `NullStatement` (`rflx/ada.py:1297-1298`), `Assignment` (1306-1307), `CallStatement` (1315-1317), `PragmaStatement`
(1325-1330), `ReturnStatement` (1337-1340), `IfStatement` (1352-1371), `CaseStatement` (1383-1395). -/
def strF : AStmt → PyStr
  | null => ['n', 'u', 'l', 'l', ';']
  | assign t e => t.strF false ++ [' ', ':', '=', ' '] ++ e.strF false ++ [';']
  | call i args => dotted i ++ [' ', '('] ++ joinComma (AExpr.strL args) ++ [')', ';']
  | pragma i ps =>
    ['p', 'r', 'a', 'g', 'm', 'a', ' '] ++ dotted i ++
      (match ps with
        | [] => []
        | _ :: _ => [' ', '('] ++ indentNext (joinComma (AExpr.strL ps)) ((dotted i).length + 9) ++ [')']) ++ [';']
  | ret e =>
    if e.isCase then ['r', 'e', 't', 'u', 'r', 'n', ' ', '('] ++ indentNext (e.strF false) 8 ++ [')', ';']
    else ['r', 'e', 't', 'u', 'r', 'n', ' '] ++ indentNext (e.strF false) 7 ++ [';']
  | ife arms elses =>
    (match arms with
      | [] => []
      | (c, ss) :: as => ['i', 'f'] ++ condText (c.strF false) ++ ['t', 'h', 'e', 'n', '\n'] ++ strLines ss ++ strArms as) ++
    (match elses with
      | none => []
      | some [] => []
      | some (s :: ss) => ['e', 'l', 's', 'e', '\n'] ++ indent (strF s) 3 ++ '\n' :: strLines ss) ++ ['e', 'n', 'd', ' ', 'i', 'f', ';']
  | case c alts => ['c', 'a', 's', 'e', ' '] ++ c.strF false ++ [' ', 'i', 's'] ++ indent (strAlts none alts) 3 ++ ['\n', 'e', 'n', 'd', ' ', 'c', 'a', 's', 'e', ';']

/-- The statements of a branch of `IfStatement`, `rflx/ada.py:1364-1365`. -/
def strLines : List AStmt → PyStr
  | [] => []
  | s :: ss => indent (strF s) 3 ++ '\n' :: strLines ss

/-- `map(str, statements)`. -/
def strs : List AStmt → List PyStr
  | [] => []
  | s :: ss => strF s :: strs ss

/-- The branches after the first in `IfStatement.__str__`, `rflx/ada.py:1363`. -/
def strArms : List (AExpr × List AStmt) → PyStr
  | [] => []
  | (c, ss) :: as => ['e', 'l', 's', 'i', 'f'] ++ condText (c.strF false) ++ ['t', 'h', 'e', 'n', '\n'] ++ strLines ss ++ strArms as

/-- The alternatives in `CaseStatement.__str__`, `rflx/ada.py:1384-1393`: adjacent alternatives with equal statements are joined. `key` are the
statements of the group an alternative belongs to, with their text, or `none` for the first one of a group; the last alternative of a group is
followed by the statements. -/
def strAlts (key : Option (List AStmt × PyStr)) : List (AExpr × List AStmt) → PyStr
  | [] => []
  | (c, ss) :: as =>
    (if key.isNone then ['\n', 'w', 'h', 'e', 'n', ' '] else [' ', '|', ' ']) ++ c.strF false ++
      (match as with
        | [] => [' ', '=', '>', '\n'] ++ indent (key.getD (ss, joinLines (strs ss))).2 3
        | (c', ss') :: as' =>
          if eqbL (key.getD (ss, joinLines (strs ss))).1 ss' then strAlts (some (key.getD (ss, joinLines (strs ss)))) ((c', ss') :: as')
          else [' ', '=', '>', '\n'] ++ indent (key.getD (ss, joinLines (strs ss))).2 3 ++ strAlts none ((c', ss') :: as'))

end

mutual

/-- The exception that `str` raises (see `AExpr.raises`). -/
def raises : AStmt → Option PyErr
  | null => none
  | assign t e => t.raises <|> e.raises
  | call _ args => AExpr.raisesL args
  | pragma _ ps => AExpr.raisesL ps
  | ret e => e.raises
  | ife arms elses => raisesP arms <|> (match elses with | none => none | some ss => raisesL ss)
  | case c alts => raisesC alts <|> raisesS alts <|> c.raises

/-- `raises` for lists. -/
def raisesL : List AStmt → Option PyErr
  | [] => none
  | s :: ss => raises s <|> raisesL ss

/-- `raises` for the branches of `IfStatement`. -/
def raisesP : List (AExpr × List AStmt) → Option PyErr
  | [] => none
  | (c, ss) :: as => c.raises <|> raisesL ss <|> raisesP as

/-- `raises` for the choices of `CaseStatement`, `rflx/ada.py:1385`. -/
def raisesC : List (AExpr × List AStmt) → Option PyErr
  | [] => none
  | (c, _) :: as => c.raises <|> raisesC as

/-- `raises` for the statements of `CaseStatement`, `rflx/ada.py:1390`. -/
def raisesS : List (AExpr × List AStmt) → Option PyErr
  | [] => none
  | (_, ss) :: as => raisesL ss <|> raisesS as

end

/-- `str(self)`. -/
def str (s : AStmt) : Py PyStr := match s.raises with | some x => .error x | none => .ok s.strF

end AStmt
end Verif.Ada
