import Verif.Ada.Stmt
import Verif.Common.Model

/-! # Declarations of Ada (`rflx/ada.py:722-1284, 1398-1743`)

Sequences are lists, as in `Verif/Ada/Stmt.lean`. Identifiers given as strings (`StrID`) are identifiers. Text is given by `strF`, exceptions by
`raises`. Not modelled: classes that print no text of their own (`Declaration`, `ContextItem`, `Aspect`, `FormalDeclaration`, ...), `__hash__` of
the classes that define it (equal objects have equal hashes, because the hash is that of the identifiers, see C38). -/

namespace Verif.Ada
open Verif

/-- Fixed text. -/
def tx (s : String) : PyStr := s.toList

/-- `sep.join(..)`. -/
def joinBy (sep : PyStr) : List PyStr → PyStr
  | [] => []
  | [s] => s
  | s :: r :: ss => s ++ sep ++ joinBy sep (r :: ss)

/-- `", ".join(map(str, identifiers))`, e.g. `rflx/ada.py:742`. -/
def idList (is : List ID) : PyStr := joinBy (tx ", ") (is.map dotted)

/-- `==` of lists. -/
def eqList {α : Type} (eq : α → α → Bool) : List α → List α → Bool
  | [], [] => true
  | a :: as, b :: bs => eq a b && eqList eq as bs
  | _, _ => false

/-- `==` of values that may be `None`. -/
def eqOpt {α : Type} (eq : α → α → Bool) : Option α → Option α → Bool
  | none, none => true
  | some a, some b => eq a b
  | _, _ => false

/-- `==` of dictionaries: the order is irrelevant. -/
def eqDict {α : Type} (eq : α → α → Bool) (as bs : List (ID × α)) : Bool :=
  as.length == bs.length && as.all fun a => bs.any fun b => a.1.eq b.1 && eq a.2 b.2

/-- The first exception. -/
def firstOf : List (Option PyErr) → Option PyErr
  | [] => none
  | x :: xs => x <|> firstOf xs

/-- The text of an optional expression with `:=` in front, e.g. `rflx/ada.py:1033`. An expression is always true as condition. -/
def initText : Option AExpr → PyStr
  | none => []
  | some e => tx " := " ++ e.strF false

/-- The exception raised by an optional expression. -/
def optRaises : Option AExpr → Option PyErr
  | none => none
  | some e => e.raises

/-! ## Aspects -/

/-- The classes derived from `Aspect`, `rflx/ada.py:775-918`. -/
inductive AAspect where
  | pre (e : AExpr)
  | post (e : AExpr)
  | contractCases (cs : List (AExpr × AExpr))
  | depends (ds : List (ID × List ID))
  | dynamicPredicate (e : AExpr)
  | size (e : AExpr)
  | defaultInitialCondition (e : AExpr)
  | sparkMode
  | ghost
  | «import»
  | annotate (args : List PyStr)

namespace AAspect

/-- `mark`, `rflx/ada.py:779-913`. -/
def mark : AAspect → PyStr
  | pre _ => tx "Pre"
  | post _ => tx "Post"
  | contractCases _ => tx "Contract_Cases"
  | depends _ => tx "Depends"
  | dynamicPredicate _ => tx "Dynamic_Predicate"
  | size _ => tx "Size"
  | defaultInitialCondition _ => tx "Default_Initial_Condition"
  | sparkMode => tx "SPARK_Mode"
  | ghost => tx "Ghost"
  | «import» => tx "Import"
  | annotate _ => tx "Annotate"

/-- `input_values`, `rflx/ada.py:825-830`. -/
def inputs : List ID → PyStr
  | [] => tx "null"
  | [i] => dotted i
  | is => tx "(" ++ idList is ++ tx ")"

/-- `definition`, `rflx/ada.py:783-918`. -/
def definition : AAspect → PyStr
  | pre e | post e | dynamicPredicate e | size e | defaultInitialCondition e => e.strF false
  | contractCases cs => tx "(" ++ indentNext (joinBy (tx ",\n") (cs.map fun c => c.1.strF false ++ tx " =>\n" ++ indent (c.2.strF false) 3)) 1 ++ tx ")"
  | depends ds => tx "(" ++ indentNext (joinBy (tx ", ") (ds.map fun d => dotted d.1 ++ tx " => " ++ inputs d.2)) 1 ++ tx ")"
  | sparkMode | ghost | «import» => []
  | annotate args => tx "(" ++ joinBy (tx ", ") args ++ tx ")"

/-- `Aspect.__str__`, `rflx/ada.py:759-762`. -/
def strF (a : AAspect) : PyStr := if a.definition.isEmpty then a.mark else a.mark ++ tx " =>\n" ++ indent a.definition 2

/-- `==`. -/
def eqb : AAspect → AAspect → Bool
  | pre e, pre e' | post e, post e' | dynamicPredicate e, dynamicPredicate e' | size e, size e'
  | defaultInitialCondition e, defaultInitialCondition e' => e.eqb e'
  | contractCases cs, contractCases cs' => AExpr.eqbP cs cs'
  | depends ds, depends ds' => eqDict (eqList ID.eq) ds ds'
  | sparkMode, sparkMode | ghost, ghost | «import», «import» => true
  | annotate as, annotate as' => as = as'
  | _, _ => false

/-- The exception that `str` raises. `definition` is evaluated first. -/
def raises : AAspect → Option PyErr
  | pre e | post e | dynamicPredicate e | size e | defaultInitialCondition e => e.raises
  | contractCases cs => AExpr.raisesP cs
  | _ => none

end AAspect

/-- `aspect_specification`, `rflx/ada.py:1736-1739`. -/
def aspectText (as : List AAspect) : PyStr :=
  if as.isEmpty then [] else tx " with\n" ++ joinBy (tx ",\n") (as.map fun a => indent a.strF 2)

/-- The exception raised by `aspect_specification`. -/
def aspectRaises (as : List AAspect) : Option PyErr := firstOf (as.map AAspect.raises)

/-! ## Types -/

/-- `Discriminant`, `rflx/ada.py:1040-1046`. -/
structure ADiscriminant where
  ids : List ID
  type : ID
  default : Option AExpr

/-- `Discriminant.__str__`, `rflx/ada.py:1048-1051`. -/
def ADiscriminant.strF (d : ADiscriminant) : PyStr := idList d.ids ++ tx " : " ++ dotted d.type ++ initText d.default

/-- `==`. -/
def ADiscriminant.eqb (d e : ADiscriminant) : Bool := eqList ID.eq d.ids e.ids && d.type.eq e.type && eqOpt AExpr.eqb d.default e.default

/-- `Component` and `NullComponent`, `rflx/ada.py:1224-1240`. -/
inductive AComponent where
  | comp (id type : ID) (default : Option AExpr)
  | null

/-- `__str__`, `rflx/ada.py:1230-1232, 1239-1240`. -/
def AComponent.strF : AComponent → PyStr
  | comp i t d => dotted i ++ tx " : " ++ dotted t ++ initText d ++ tx ";"
  | null => tx "null;"

/-- `==`. `NullComponent` is a subclass of `Component`, and its attributes are `null` and `null`. -/
def AComponent.eqb : AComponent → AComponent → Bool
  | comp i t d, comp i' t' d' => i.eq i' && t.eq t' && eqOpt AExpr.eqb d d'
  | null, null => true
  | comp i t d, null | null, comp i t d => i.eq ⟨[tx "null"]⟩ && t.eq ⟨[tx "null"]⟩ && d.isNone

/-- The exception that `str` raises. -/
def AComponent.raises : AComponent → Option PyErr
  | comp _ _ d => optRaises d
  | null => none

/-- `Variant`, `rflx/ada.py:1243-1246`. -/
structure AVariant where
  choices : List AExpr
  components : List AComponent

/-- `Variant.__str__`, `rflx/ada.py:1248-1251`. -/
def AVariant.strF (v : AVariant) : PyStr :=
  tx "   when " ++ joinBy (tx " | ") (v.choices.map fun e => e.strF false) ++ tx " =>\n" ++ indent (joinBy (tx "\n") (v.components.map AComponent.strF)) 6

/-- `==`. -/
def AVariant.eqb (v w : AVariant) : Bool := AExpr.eqbL v.choices w.choices && eqList AComponent.eqb v.components w.components

/-- `VariantPart`, `rflx/ada.py:1254-1257`. -/
structure AVariantPart where
  discriminant : ID
  variants : List AVariant

/-- `VariantPart.__str__`, `rflx/ada.py:1259-1261`. -/
def AVariantPart.strF (p : AVariantPart) : PyStr :=
  tx "case " ++ dotted p.discriminant ++ tx " is\n" ++ joinBy (tx "\n") (p.variants.map AVariant.strF) ++ tx "\nend case;\n"

/-- `==`. -/
def AVariantPart.eqb (p q : AVariantPart) : Bool := p.discriminant.eq q.discriminant && eqList AVariant.eqb p.variants q.variants

/-- The classes derived from `TypeDeclaration`, `rflx/ada.py:1088-1276`. The literals of `enumeration` are the attribute `literals`, see
`mkEnumeration`; a literal has an optional number. -/
inductive ATypeDef where
  | modular (modulus : AExpr)
  | range (first last : AExpr)
  | enumeration (literals : List (ID × Option (Int × NBase))) (size : Option AExpr)
  | subtype (base : ID)
  | rangeSubtype (base : ID) (first last : AExpr)
  | derived (type : ID)
  | «private»
  | discrete
  | array (index component : ID)
  | unconstrained (index component : ID)
  | access (object : ID)
  | record (components : List AComponent) (variants : Option AVariantPart)

/-- `EnumerationType.__init__`, `rflx/ada.py:1122-1131`: the literals are sorted by their numbers (stable), unless one of them has none. -/
def mkEnumeration (literals : List (ID × Option (Int × NBase))) (size : Option AExpr) : ATypeDef :=
  .enumeration (if literals.all fun l => l.2.isSome then literals.mergeSort fun a b => decide ((a.2.map (·.1)).getD 0 ≤ (b.2.map (·.1)).getD 0) else literals) size

/-- `TypeDeclaration`, `rflx/ada.py:1054-1063`. -/
structure ATypeDecl where
  id : ID
  discriminants : Option (List ADiscriminant)
  aspects : List AAspect
  definition : ATypeDef

/-- `str(Number(v, b))`. -/
def numText (n : Int × NBase) : PyStr := (AExpr.num n.1 n.2).strF false

/-- `type_definition`, `rflx/ada.py:1093-1284`. -/
def ATypeDef.strF : ATypeDef → PyStr
  | modular m => tx " mod " ++ m.strF false
  | range a b => tx " range " ++ a.strF false ++ tx " .. " ++ b.strF false
  | enumeration ls _ => tx " (" ++ idList (ls.map (·.1)) ++ tx ")"
  | subtype b => tx " " ++ dotted b
  | rangeSubtype b x y => tx " " ++ dotted b ++ tx " range " ++ x.strF false ++ tx " .. " ++ y.strF false
  | derived t => tx " new " ++ dotted t
  | «private» => tx " private"
  | discrete => tx " (<>)"
  | array i c => tx " array (" ++ dotted i ++ tx ") of " ++ dotted c
  | unconstrained i c => tx " array (" ++ dotted i ++ tx " range <>) of " ++ dotted c
  | access o => tx " access " ++ dotted o
  | record cs v =>
    tx "\n   record\n" ++ (if cs.isEmpty then [] else indent (joinBy (tx "\n") (cs.map AComponent.strF)) 6 ++ tx "\n") ++
      (match v with | none => [] | some p => indent p.strF 6) ++ tx "   end record"

/-- `super().__str__()` of `Subtype`, `rflx/ada.py:1156-1157`. -/
def ATypeDef.isSubtype : ATypeDef → Bool
  | subtype .. | rangeSubtype .. => true
  | _ => false

/-- The aspects given by `EnumerationType.__init__`, `rflx/ada.py:1122`. -/
def ATypeDef.ownAspects : ATypeDef → List AAspect
  | enumeration _ (some e) => [.size e]
  | _ => []

/-- `extra_declaration`, `rflx/ada.py:1083-1085, 1139-1148`. -/
def ATypeDef.extra (i : ID) : ATypeDef → PyStr
  | enumeration ls _ =>
    match ls.filterMap fun l => l.2.map fun v => dotted l.1 ++ tx " => " ++ numText v with
    | [] => []
    | ts => tx "\nfor " ++ dotted i ++ tx " use (" ++ joinBy (tx ", ") ts ++ tx ");"
  | _ => []

/-- `discriminant_part`, `rflx/ada.py:1074-1076`. -/
def discriminantText : Option (List ADiscriminant) → PyStr
  | none => []
  | some [] => []
  | some (d :: ds) => tx " (" ++ joinBy (tx "; ") ((d :: ds).map ADiscriminant.strF) ++ tx ")"

/-- `TypeDeclaration.__str__` and `Subtype.__str__`, `rflx/ada.py:1068-1072, 1156-1157`. -/
def ATypeDecl.strF (t : ATypeDecl) : PyStr :=
  (if t.definition.isSubtype then tx "subtype " else tx "type ") ++ dotted t.id ++ discriminantText t.discriminants ++ tx " is" ++ t.definition.strF ++
    aspectText (t.definition.ownAspects ++ t.aspects) ++ tx ";" ++ t.definition.extra t.id

/-- `==` of numbers of literals. -/
def eqNumber (a b : Option (Int × NBase)) : Bool := eqOpt (fun x y : Int × NBase => x.1 = y.1 && x.2 = y.2) a b

/-- `==` of the attributes that the derived classes add. `UnconstrainedArrayType` is a subclass of `ArrayType` without attributes of its own: an
object of the one class may be equal to an object of the other. Literals that were sorted are compared in order (`OrderedDict`), others without
regard to order. -/
def ATypeDef.eqb : ATypeDef → ATypeDef → Bool
  | modular m, modular m' => m.eqb m'
  | range a b, range a' b' => a.eqb a' && b.eqb b'
  | enumeration ls s, enumeration ls' s' =>
    (if (ls.all fun l => l.2.isSome) && ls'.all fun l => l.2.isSome then eqList (fun a b => ID.eq a.1 b.1 && eqNumber a.2 b.2) ls ls' else eqDict eqNumber ls ls') &&
      eqOpt AExpr.eqb s s'
  | subtype b, subtype b' => b.eq b'
  | rangeSubtype b x y, rangeSubtype b' x' y' => b.eq b' && x.eqb x' && y.eqb y'
  | derived t, derived t' => t.eq t'
  | «private», «private» | discrete, discrete => true
  | array i c, array i' c' | unconstrained i c, unconstrained i' c' | array i c, unconstrained i' c' | unconstrained i c, array i' c' => i.eq i' && c.eq c'
  | access o, access o' => o.eq o'
  | record cs v, record cs' v' => eqList AComponent.eqb cs cs' && eqOpt AVariantPart.eqb v v'
  | _, _ => false

/-- `==`. -/
def ATypeDecl.eqb (t u : ATypeDecl) : Bool :=
  t.id.eq u.id && eqOpt (eqList ADiscriminant.eqb) t.discriminants u.discriminants && eqList AAspect.eqb t.aspects u.aspects && t.definition.eqb u.definition

/-- The exception that `type_definition` raises. -/
def ATypeDef.raises : ATypeDef → Option PyErr
  | modular m => m.raises
  | range a b | rangeSubtype _ a b => a.raises <|> b.raises
  | record cs v => firstOf (cs.map AComponent.raises) <|>
      (match v with
        | none => none
        | some p => firstOf (p.variants.map fun w => AExpr.raisesL w.choices <|> firstOf (w.components.map AComponent.raises)))
  | _ => none

/-- The exception that `str` raises. -/
def ATypeDecl.raises (t : ATypeDecl) : Option PyErr :=
  firstOf ((t.discriminants.getD []).map fun d => optRaises d.default) <|> t.definition.raises <|> aspectRaises (t.definition.ownAspects ++ t.aspects)

/-! ## Subprograms -/

/-- The classes derived from `Parameter`, `rflx/ada.py:1416-1441`. -/
inductive PMode | «in» | out | inOut | access | accessConstant
deriving DecidableEq

/-- `Parameter`, `rflx/ada.py:1398-1404`. -/
structure AParameter where
  ids : List ID
  mode : PMode
  type : ID
  default : Option AExpr

/-- `mode`, `rflx/ada.py:1411-1441`. -/
def PMode.strF : PMode → PyStr
  | «in» => []
  | out => tx "out "
  | inOut => tx "in out "
  | access => tx "access "
  | accessConstant => tx "access constant "

/-- `Parameter.__str__`, `rflx/ada.py:1406-1409`. -/
def AParameter.strF (p : AParameter) : PyStr := idList p.ids ++ tx " : " ++ p.mode.strF ++ dotted p.type ++ initText p.default

/-- `==` of modes: the mode is no attribute but given by the class. `OutParameter` and `InOutParameter` are subclasses of `Parameter` without
attributes of their own: an object of `Parameter` may be equal to an object of one of these. -/
def PMode.eqb : PMode → PMode → Bool
  | «in», out | out, «in» | «in», inOut | inOut, «in» => true
  | m, m' => m = m'

/-- `==`. -/
def AParameter.eqb (p q : AParameter) : Bool :=
  eqList ID.eq p.ids q.ids && p.mode.eqb q.mode && p.type.eq q.type && eqOpt AExpr.eqb p.default q.default

/-- `ProcedureSpecification` and `FunctionSpecification`, `rflx/ada.py:1444-1473`; a function has a return type. -/
structure ASpec where
  id : ID
  parameters : List AParameter
  result : Option ID

/-- `_parameters`, `rflx/ada.py:1449-1450`. -/
def parameterText (ps : List AParameter) : PyStr := if ps.isEmpty then [] else tx " (" ++ joinBy (tx "; ") (ps.map AParameter.strF) ++ tx ")"

/-- `__str__`, `rflx/ada.py:1461-1462, 1472-1473`. -/
def ASpec.strF (s : ASpec) : PyStr :=
  match s.result with
  | none => tx "procedure " ++ dotted s.id ++ parameterText s.parameters
  | some r => tx "function " ++ dotted s.id ++ parameterText s.parameters ++ tx " return " ++ dotted r

/-- `==`. -/
def ASpec.eqb (s t : ASpec) : Bool := s.id.eq t.id && eqList AParameter.eqb s.parameters t.parameters && eqOpt ID.eq s.result t.result

/-- The exception that `str` raises. -/
def ASpec.raises (s : ASpec) : Option PyErr := firstOf (s.parameters.map fun p => optRaises p.default)

/-- The classes derived from `FormalDeclaration`, `rflx/ada.py:927-946, 1054`. -/
inductive AFormal where
  | subprogram (s : ASpec)
  | package (id generic : ID) (associations : List ID)
  | type (t : ATypeDecl)

/-- `__str__`, `rflx/ada.py:934-935, 949-951`. -/
def AFormal.strF : AFormal → PyStr
  | subprogram s => tx "with " ++ s.strF ++ tx ";"
  | package i g as => tx "with package " ++ dotted i ++ tx " is new " ++ dotted g ++ tx " (" ++ (if as.isEmpty then tx "<>" else idList as) ++ tx ");"
  | type t => t.strF

/-- `==`. The associations of a formal package are strings, `rflx/ada.py:944`. -/
def AFormal.eqb : AFormal → AFormal → Bool
  | subprogram s, subprogram t => s.eqb t
  | package i g as, package i' g' as' => i.eq i' && g.eq g' && (as.map dotted == as'.map dotted)
  | type t, type u => t.eqb u
  | _, _ => false

/-- The exception that `str` raises. -/
def AFormal.raises : AFormal → Option PyErr
  | subprogram s => s.raises
  | package .. => none
  | type t => t.raises

/-- `unique` (`rflx/common.py:78-83`) for objects whose hashes are equal if the objects are. -/
def distinct {α : Type} (eq : α → α → Bool) (l : List α) : List α := unique (fun _ => 0) eq l

/-- `generic_formal_part`, `rflx/ada.py:1718-1723`. -/
def formalText : Option (List AFormal) → PyStr
  | none => []
  | some fs => tx "generic" ++ joinBy [] ((distinct AFormal.eqb fs).map fun f => tx "\n   " ++ f.strF) ++ tx "\n"

/-- The exception raised by `generic_formal_part`. -/
def formalRaises : Option (List AFormal) → Option PyErr
  | none => none
  | some fs => firstOf (fs.map AFormal.raises)

/-! ## Declarations -/

/-- The classes derived from `Declaration`: `UsePackageClause`, `UseTypeClause` (`rflx/ada.py:746-755`), `Pragma` (1601-1605),
`ObjectDeclaration` (1015-1028), `TypeDeclaration` (1054), `SubprogramDeclaration` (1488-1497), `SubprogramBody` (1506-1517),
`ExpressionFunctionDeclaration` (1536-1545), `GenericProcedureInstantiation` and `GenericFunctionInstantiation` (1552-1581; the specification
tells them apart), `SubprogramRenamingDeclaration` (1590-1595), `PackageDeclaration` (954-967), `PackageBody` (979-988),
`GenericPackageInstantiation` (1000-1006). -/
inductive ADecl where
  | use (ids : List ID)
  | useType (ids : List ID)
  | pragma (id : ID) (params : List AExpr)
  | object (ids : List ID) (type : ID) (e : Option AExpr) (const : Bool) (aspects : List AAspect)
  | type (t : ATypeDecl)
  | subprogram (s : ASpec) (aspects : List AAspect) (formals : Option (List AFormal))
  | body (s : ASpec) (decls : List ADecl) (stmts : List AStmt) (aspects : List AAspect)
  | exprFunction (s : ASpec) (e : AExpr) (aspects : List AAspect)
  | instance (id : ID) (s : ASpec) (associations : List ID)
  | «renaming» (s : ASpec) (id : ID)
  | package (id : ID) (decls priv : List ADecl) (formals : Option (List AFormal)) (aspects : List AAspect)
  | packageBody (id : ID) (decls : List ADecl) (aspects : List AAspect)
  | newPackage (id generic : ID) (associations : List ID)

namespace ADecl

/-- Whether the class defines `__hash__` (`rflx/ada.py:732-733, 1065-1066, 1480-1481, 1612-1613`); a class that does not has none, because `Base`
defines `__eq__`. -/
def hashable : ADecl → Bool
  | object .. | package .. | packageBody .. | newPackage .. => false
  | _ => true

mutual

/-- `==`, `rflx/common.py:7-18`; a pragma is never equal to a pragma (`rflx/ada.py:1607-1610`). -/
def eqb : ADecl → ADecl → Bool
  | use is, use is' | useType is, useType is' => eqList ID.eq is is'
  | object is t e c as, object is' t' e' c' as' =>
    eqList ID.eq is is' && t.eq t' && eqOpt AExpr.eqb e e' && c == c' && eqList AAspect.eqb as as'
  | type t, type t' => t.eqb t'
  | subprogram s as fs, subprogram s' as' fs' => s.eqb s' && eqList AAspect.eqb as as' && eqOpt (eqList AFormal.eqb) fs fs'
  | body s ds ss as, body s' ds' ss' as' => s.eqb s' && eqbL ds ds' && AStmt.eqbL ss ss' && eqList AAspect.eqb as as'
  | exprFunction s e as, exprFunction s' e' as' => s.eqb s' && e.eqb e' && eqList AAspect.eqb as as'
  | «instance» i s as, «instance» i' s' as' => i.eq i' && s.eqb s' && eqList ID.eq as as'
  | «renaming» s i, «renaming» s' i' => s.eqb s' && i.eq i'
  | package i ds ps fs as, package i' ds' ps' fs' as' =>
    i.eq i' && eqbL ds ds' && eqbL ps ps' && eqOpt (eqList AFormal.eqb) fs fs' && eqList AAspect.eqb as as'
  | packageBody i ds as, packageBody i' ds' as' => i.eq i' && eqbL ds ds' && eqList AAspect.eqb as as'
  | newPackage i g as, newPackage i' g' as' => i.eq i' && g.eq g' && eqList ID.eq as as'
  | _, _ => false

/-- `==` of lists. -/
def eqbL : List ADecl → List ADecl → Bool
  | [], [] => true
  | d :: ds, d' :: ds' => eqb d d' && eqbL ds ds'
  | _, _ => false

end

/-- Declarations with something computed from them, without repetitions. -/
def distinctWith {α : Type} (l : List (ADecl × α)) : List (ADecl × α) := distinct (fun a b => eqb a.1 b.1) l

/-- `declarative_items`, `rflx/ada.py:1728-1733`; the declarations are given with their text. -/
def itemText (priv : Bool) (l : List (ADecl × PyStr)) : PyStr :=
  match ((distinctWith l).filter fun d => !d.2.isEmpty).map fun d => indent d.2 3 with
  | [] => []
  | t :: ts => (if priv then tx "private\n\n" else []) ++ joinBy (tx "\n\n") (t :: ts) ++ tx "\n\n"

/-- The associations of an instantiation, e.g. `rflx/ada.py:1010-1012`. -/
def associationText (is : List ID) : PyStr := if (idList is).isEmpty then [] else tx " (" ++ idList is ++ tx ")"

mutual

/-- `str(self)`: `UsePackageClause` (`rflx/ada.py:747-749`), `UseTypeClause` (753-755), `Pragma` (1615-1620), `ObjectDeclaration` (1030-1037),
`TypeDeclaration` (1068-1072), `SubprogramDeclaration` (1499-1503), `SubprogramBody` (1525-1533), `ExpressionFunctionDeclaration` (1547-1549),
`GenericProcedureInstantiation` (1564-1568), `GenericFunctionInstantiation` (1583-1587), `SubprogramRenamingDeclaration` (1597-1598),
`PackageDeclaration` (969-976), `PackageBody` (990-997), `GenericPackageInstantiation` (1008-1012). -/
def strF : ADecl → PyStr
  | use is => tx "use " ++ idList is ++ tx ";"
  | useType is => tx "use type " ++ idList is ++ tx ";"
  | pragma i ps => tx "pragma " ++ dotted i ++ (if ps.isEmpty then [] else tx " (" ++ joinComma (AExpr.strL ps) ++ tx ")") ++ tx ";"
  | object is t e c as => idList is ++ tx " : " ++ (if c then tx "constant " else []) ++ dotted t ++ initText e ++ aspectText as ++ tx ";"
  | type t => t.strF
  | subprogram s as fs => formalText fs ++ s.strF ++ aspectText as ++ tx ";"
  | body s ds ss as =>
    s.strF ++ (if as.isEmpty then tx " " else aspectText as ++ tx "\n") ++ tx "is\n" ++ joinBy [] (strL ds) ++ tx "begin\n" ++
      joinBy (tx "\n") ((AStmt.strs ss).map fun s => indent s 3) ++ tx "\nend " ++ dotted s.id ++ tx ";"
  | exprFunction s e as =>
    s.strF ++ tx " is\n  (" ++ indentNext (e.strF false) 3 ++ tx ")" ++ (if as.isEmpty then [] else tx "\n" ++ aspectText as) ++ tx ";"
  | «instance» i s as => (if s.result.isNone then tx "procedure " else tx "function ") ++ dotted i ++ tx " is new " ++ dotted s.id ++ associationText as ++ tx ";"
  | «renaming» s i => s.strF ++ tx " renames " ++ dotted i ++ tx ";"
  | package i ds ps fs as =>
    formalText fs ++ tx "package " ++ dotted i ++ aspectText as ++ tx "\nis\n\n" ++ itemText false (texts ds) ++ itemText true (texts ps) ++
      tx "end " ++ dotted i ++ tx ";\n"
  | packageBody i ds as =>
    if ds.isEmpty then []
    else tx "package body " ++ dotted i ++ aspectText as ++ tx "\nis\n\n" ++ itemText false (texts ds) ++ tx "end " ++ dotted i ++ tx ";\n"
  | newPackage i g as => tx "package " ++ dotted i ++ tx " is new " ++ dotted g ++ associationText as ++ tx ";\n"

/-- The lines of `_declarations`, `rflx/ada.py:1519-1520`. -/
def strL : List ADecl → List PyStr
  | [] => []
  | d :: ds => indent (strF d ++ tx "\n") 3 :: strL ds

/-- Declarations with their text. -/
def texts : List ADecl → List (ADecl × PyStr)
  | [] => []
  | d :: ds => (d, strF d) :: texts ds

end

mutual

/-- The exception that `str` raises. `unique` computes the hashes of declarations (see `hashable`). If there are several reasons for an exception,
the code may raise another one than the model. -/
def raises : ADecl → Option PyErr
  | use _ | useType _ => none
  | pragma _ ps => AExpr.raisesL ps
  | object _ _ e _ as => optRaises e <|> aspectRaises as
  | type t => t.raises
  | subprogram s as fs => formalRaises fs <|> s.raises <|> aspectRaises as
  | body s ds ss as => s.raises <|> aspectRaises as <|> raisesL ds <|> AStmt.raisesL ss
  | exprFunction s e as => s.raises <|> e.raises <|> aspectRaises as
  | «instance» .. => none
  | «renaming» s _ => s.raises
  | package _ ds ps fs as => formalRaises fs <|> aspectRaises as <|> raisesH ds <|> raisesH ps
  | packageBody _ ds as => aspectRaises as <|> raisesH ds
  | newPackage .. => none

/-- `raises` for the declarations of a subprogram. -/
def raisesL : List ADecl → Option PyErr
  | [] => none
  | d :: ds => raises d <|> raisesL ds

/-- `raises` for the declarations of a package. -/
def raisesH : List ADecl → Option PyErr
  | [] => none
  | d :: ds => (if d.hashable then raises d else some .typeError) <|> raisesH ds

end

/-- `str(self)`. -/
def str (d : ADecl) : Py PyStr := match d.raises with | some x => .error x | none => .ok d.strF

end ADecl

/-! ## Units -/

/-- The classes derived from `ContextItem`, `rflx/ada.py:740-755, 1601`. -/
inductive AContext where
  | «with» (ids : List ID)
  | use (ids : List ID)
  | useType (ids : List ID)
  | pragma (id : ID) (params : List AExpr)

/-- `str`, `rflx/ada.py:740-755, 1615-1620`. -/
def AContext.strF : AContext → PyStr
  | «with» is => tx "with " ++ idList is ++ tx ";"
  | use is => (ADecl.use is).strF
  | useType is => (ADecl.useType is).strF
  | pragma i ps => (ADecl.pragma i ps).strF

/-- `==`. -/
def AContext.eqb : AContext → AContext → Bool
  | «with» is, «with» is' | use is, use is' | useType is, useType is' => eqList ID.eq is is'
  | _, _ => false

/-- The exception that `str` raises. -/
def AContext.raises : AContext → Option PyErr
  | pragma _ ps => AExpr.raisesL ps
  | _ => none

/-- `context_clause`, `rflx/ada.py:1742-1743`. -/
def contextText (cs : List AContext) : PyStr :=
  if cs.isEmpty then [] else joinBy (tx "\n") ((distinct AContext.eqb cs).map AContext.strF) ++ tx "\n\n"

/-- `ads` of `PackageUnit` and `InstantiationUnit`, and `adb` of `PackageUnit`, `rflx/ada.py:1668-1674, 1694-1696`: the context and a declaration
(there is no text if the declaration has none). -/
def unitText (cs : List AContext) (d : ADecl) : Py PyStr :=
  match firstOf (cs.map AContext.raises) <|> d.raises with
  | some x => .error x
  | none => .ok (if d.strF.isEmpty then [] else contextText cs ++ d.strF)

end Verif.Ada
