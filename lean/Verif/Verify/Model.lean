import Verif.Graph.Model
import Verif.Types.Model
import Verif.Verify.Z3

/-! # Verification of messages (`rflx/model/message.py:289-410,582-1277`)

Error messages are not modelled, only their presence: `true` means that some error was recorded. Sets of paths are lists,
in the order of insertion; for another order, the presence of an error is the same. -/

namespace Verif.Verify
open Verif Verif.Graph Verif.Types

/-- Types of fields: `rflx/model/type_.py:72-577`; for messages only the identifier matters. `Private` types cannot be
types of fields (`rflx/model/message.py:87-91`). -/
inductive FTy
  | int (t : IntType)
  | enum (t : Enum)
  | array (id : ID) (elem : FTy)
  | opaque
  | message (id : ID)

/-- `const.INTERNAL_PACKAGE * "Opaque"`, `rflx/model/type_.py:542`. -/
def opaqueId : ID := ⟨[['_', '_', 'I', 'N', 'T', 'E', 'R', 'N', 'A', 'L', '_', '_'], ['O', 'p', 'a', 'q', 'u', 'e']]⟩

/-- `Type.identifier`, `rflx/model/type_.py:28`. -/
def FTy.id : FTy → ID
  | .int (.modular t) => t.id
  | .int (.range t) => t.id
  | .enum t => t.id
  | .array id _ => id
  | .opaque => opaqueId
  | .message id => id

/-- `isinstance(t, mty.Scalar)`, `rflx/model/type_.py:49-320`. -/
def FTy.isScalar : FTy → Bool
  | .int _ | .enum _ => true
  | _ => false

/-- `isinstance(t, (mty.Opaque, mty.Array))`, `rflx/model/message.py:750,1192`. -/
def FTy.isUnconstrained : FTy → Bool
  | .array .. | .opaque => true
  | _ => false

/-- `Scalar.size`, `rflx/model/type_.py:54-58`. -/
def FTy.size : FTy → Py Num
  | .int t => t.size
  | .enum t => scalarSize t.size
  | _ => .error .attributeError

/-- `Scalar.constraints(name, proof=True, same_package)`, `rflx/model/type_.py:142-150,278-286,430-455`. -/
def FTy.constraints (name : ID) (samePackage : Bool) : FTy → Py (List Expr)
  | .int t => t.proofConstraints name
  | .enum t => t.proofConstraints name samePackage
  | _ => .error .attributeError

/-- `ID("Message")`. -/
def MESSAGE : ID := ⟨[['M', 'e', 's', 's', 'a', 'g', 'e']]⟩

/-- An attribute of a name: `expr.First(name)` etc., `rflx/expression.py:1062-1070`. -/
def at' (k : AttrKind) (name : ID) : Expr := .attr false k (.var false false name)

/-- `Composite.element_size`, `rflx/model/type_.py:525-527,554-556`. -/
def FTy.elementSize : FTy → Py Expr
  | .array _ e => do return at' .size (← e.id.name)
  | .opaque => .ok (.n 8)
  | _ => .error .assertion

/-- An expression in a checksum definition: `ValueRange` (`rflx/expression.py:1864-1905`) or another expression. -/
inductive ChkExpr
  | range (lower upper : Expr)
  | plain (e : Expr)

/-- The attributes of a message after its creation, `rflx/model/message.py:104-139`. -/
structure Msg where
  id : ID
  links : List Link
  fields : List Field
  types : List (Field × FTy)
  checksums : List (ID × List ChkExpr)

/-- `self.types.get(f)`. -/
def Msg.type? (m : Msg) (f : Field) : Option FTy := (m.types.find? fun e => e.1 == f).map (·.2)

/-- `package`, `rflx/model/type_.py:40-42`. -/
def Msg.package (m : Msg) : Py ID := m.id.parent

/-- `const.BUILTINS_PACKAGE * "Boolean"` etc.: the package of builtin types. -/
def isBuiltins (p : ID) : Bool := p.eq builtinsPackage

/-- `qualified_enum_literals`, `rflx/model/type_.py:627-638`: the keys. -/
def enumLiterals (package : ID) : List FTy → Py (List ID)
  | [] => .ok []
  | .enum t :: ts => do
    let p ← t.id.parent
    let ls ← (t.literals.mapM fun l => do
      let a := if isBuiltins p || p.eq package then [l.1] else []
      let b ← (if isBuiltins p then .ok [] else do return [← p.mul l.1] : Py (List ID))
      return a ++ b : Py (List (List ID)))
    return ls.flatten ++ (← enumLiterals package ts)
  | _ :: ts => enumLiterals package ts

/-- `d[k] = v` for the dictionary in `qualified_type_literals`. -/
def setType (d : List (ID × FTy)) (k : ID) (t : FTy) : List (ID × FTy) :=
  match d with
  | [] => [(k, t)]
  | e :: d => if e.1.eq k then (e.1, t) :: d else e :: setType d k t

/-- `qualified_type_literals`, `rflx/model/type_.py:641-647`. -/
def typeLiterals : List FTy → List (ID × FTy) → Py (List (ID × FTy))
  | [], d => .ok d
  | t :: ts, d => do
    let k ← (if isBuiltins (← t.id.parent) then t.id.name else .ok t.id : Py ID)
    typeLiterals ts (setType d k t)

/-- `isinstance(x, (expr.Equal, expr.NotEqual))`, `rflx/model/message.py:382`. -/
def isEqNe : Expr → Bool
  | .rel .eq _ _ => true
  | .rel .ne _ _ => true
  | _ => false

/-- `get_constraints`, `rflx/model/message.py:357-370`. -/
def Msg.aggregateConstraints1 (m : Msg) (es : List Expr) (field : Expr) (name : ID) : Py (List Expr) := do
  match m.type? ⟨name.key⟩ with
  | none => .error .keyError
  | some comp =>
    let es ← (do
      let size ← comp.elementSize
      return Expr.rel .eq (.mul [.n es.length, size]) (.attr false .size field) : Py Expr)
    match comp with
    | .array _ e => if e.isScalar then return es :: (← e.constraints (← e.id.name) true) else return [es]
    | _ => return [es]

/-- The body of the loop, `rflx/model/message.py:381-387`. -/
def Msg.aggregateConstraints (m : Msg) (r : Expr) : Py (List Expr) :=
  match r with
  | .rel _ (.agg es) (.var ng im id) => m.aggregateConstraints1 es (.var ng im id) id
  | .rel _ (.var ng im id) (.agg es) => m.aggregateConstraints1 es (.var ng im id) id
  | _ => .ok []

/-- Concatenation of the results of a function. -/
def concatM {α : Type} (f : α → Py (List Expr)) : List α → Py (List Expr)
  | [] => .ok []
  | a :: as => do return (← f a) ++ (← concatM f as)

/-- `["Message", "Final"]`, `rflx/model/message.py:377`. Simplified: the comparison there is that of strings. -/
def reserved (f : Field) : Bool := f == ⟨MESSAGE.key⟩ || f == FINAL

/-- The scalar types, `rflx/model/message.py:372-378`. -/
def Msg.scalarTypes (m : Msg) : Py (List (Field × FTy)) := do
  let ls ← enumLiterals (← m.package) (m.types.map (·.2))
  return m.types.filter fun e => e.2.isScalar && !ls.any (fun l => l.eq e.1) && !reserved e.1

/-- `message_constraints`, `rflx/model/message.py:389-392`. -/
def messageConstraints : List Expr :=
  [.rel .eq (.bin .mod (at' .first MESSAGE) (.n 8)) (.n 1), .rel .eq (.bin .mod (at' .size MESSAGE) (.n 8)) (.n 0)]

/-- `type_size_constraints`, `rflx/model/message.py:400-404`. -/
def Msg.typeSizeConstraints (m : Msg) : Py (List Expr) := do
  let d ← typeLiterals (m.types.map (·.2)) []
  concatM (fun e => if e.2.isScalar then do return [.rel .eq (at' .size e.1) (← e.2.size).expr] else .ok []) d

/-- `type_constraints`, `rflx/model/message.py:356-410`. -/
def Msg.typeConstraints (m : Msg) (e : Expr) : Py (List Expr) := do
  let package ← m.package
  let scalars ← m.scalarTypes
  let agg ← concatM m.aggregateConstraints (findall isEqNe e)
  let scal ← concatM (fun (s : Field × FTy) => do s.2.constraints s.1 (package.eq (← s.2.id.parent))) scalars
  let sizes ← m.typeSizeConstraints
  return messageConstraints ++ agg ++ scal ++ sizes

/-! ## Positions of fields -/

/-- `field_size`, `rflx/model/message.py:289-299`. -/
def Msg.fieldSize (m : Msg) (f : Field) : Py Expr :=
  if f = FINAL then .ok (.n 0)
  else if m.fields.contains f then
    match m.type? f with
    | none => .error .keyError
    | some t => if t.isScalar then do return (← t.size).expr else .ok .undefined
  else .error .assertion

/-- `__target_first`, `rflx/model/message.py:1234-1239`. -/
def targetFirst (l : Link) : Expr :=
  if l.source = INITIAL then at' .first MESSAGE
  else if !l.first.eq .undefined then l.first
  else .add [at' .last l.source, .n 1]

/-- `__target_size`, `rflx/model/message.py:1241-1244`. -/
def Msg.targetSize (m : Msg) (l : Link) : Py Expr :=
  if !l.size.eq .undefined then .ok l.size else m.fieldSize l.target

/-- `__target_last`, `rflx/model/message.py:1246-1251`. -/
def Msg.targetLast (m : Msg) (l : Link) : Py Expr := do
  return .bin .sub (.add [targetFirst l, ← m.targetSize l]) (.n 1)

/-- `expression_list`, `rflx/model/message.py:1671-1674`. -/
def expressionList (e : Expr) : List Expr :=
  match e with
  | .bool op ts => if op.isAnd then ts else [e]
  | _ => [e]

/-- The facts about the message as a whole, `rflx/model/message.py:1268-1275`. -/
def messageFacts (name : ID) : List Expr :=
  [.rel .ge (at' .first MESSAGE) (.n 0),
   .rel .ge (at' .last MESSAGE) (at' .last name),
   .rel .ge (at' .last MESSAGE) (at' .first MESSAGE),
   .rel .eq (at' .size MESSAGE) (.add [.bin .sub (at' .last MESSAGE) (at' .first MESSAGE), .n 1])]

/-- `__link_expression`, `rflx/model/message.py:1253-1277`. -/
def Msg.linkExpression (m : Msg) (l : Link) : Py (List Expr) := do
  let name := l.target
  let first := targetFirst l
  let size ← m.targetSize l
  let last ← m.targetLast l
  return Expr.rel .eq (at' .first name) first ::
    (if size.eq .undefined then [] else [.rel .eq (at' .size name) size, .rel .eq (at' .last name) last]) ++
    messageFacts name ++ expressionList l.condition

/-- `[fact for link in path for fact in self.__link_expression(link)]`. -/
def Msg.pathFacts (m : Msg) (p : List Link) : Py (List Expr) := concatM m.linkExpression p

/-! ## Checks of expressions -/

/-- `isinstance(x, expr.Attribute)`. -/
def isAttr : Expr → Bool
  | .attr .. => true
  | _ => false

/-- `__check_attributes`, `rflx/model/message.py:715-730`. -/
def Msg.checkAttributes (m : Msg) (e : Expr) : Py Bool := do
  let d ← typeLiterals (m.types.map (·.2)) []
  return (findall isAttr e).any fun a =>
    match a with
    | .attr _ .size (.var _ _ id) => !(id.str == MESSAGE.str || m.fields.contains ⟨id.key⟩ || d.any fun t => t.1.eq id)
    | .attr _ .size _ => true
    | _ => false

/-- `__check_first_expression`, `rflx/model/message.py:732-739`. -/
def checkFirst (l : Link) : Bool :=
  !l.first.eq .undefined && (match l.first with
    | .attr _ .first _ => false
    | _ => true)

/-- `__check_size_expression`, `rflx/model/message.py:741-765`. -/
def Msg.checkSize (m : Msg) (l : Link) : Bool :=
  if l.target = FINAL then !l.size.eq .undefined
  else match m.type? l.target with
    | none => false
    | some t => (!t.isUnconstrained && !l.size.eq .undefined) || (t.isUnconstrained && l.size.eq .undefined)

/-- Whether a function returns `true` for some element; it is called for all elements. -/
def anyM' {α : Type} (f : α → Py Bool) : List α → Py Bool
  | [] => .ok false
  | a :: as => do
    let b ← f a
    let bs ← anyM' f as
    return b || bs

/-- `__verify_expressions`, `rflx/model/message.py:708-713`. -/
def Msg.verifyExpressions (m : Msg) : Py Bool :=
  anyM' (fun f => anyM' (fun l => do
    let a ← m.checkAttributes l.condition
    return a || checkFirst l || m.checkSize l) (outgoing m.links f)) (INITIAL :: m.fields)

/-! ## Checksums -/

/-- `valid_lower`, `rflx/model/message.py:768-774`. -/
def validLower : Expr → Bool
  | .attr _ .first _ => true
  | .add [.attr _ .last _, n] => n.eq (.n 1)
  | _ => false

/-- `valid_upper`, `rflx/model/message.py:776-781`. -/
def validUpper : Expr → Bool
  | .attr _ .last _ => true
  | .bin .sub (.attr _ .first _) n => n.eq (.n 1)
  | _ => false

/-- The supported forms, `rflx/model/message.py:793-800`. -/
def ChkExpr.supported : ChkExpr → Bool
  | .plain (.var ..) => true
  | .plain (.attr _ .size _) => true
  | .plain _ => false
  | .range l u => validLower l && validUpper u

/-- `e.findall(lambda x: isinstance(x, expr.Variable))`. `ValueRange.findall` is the default one
(`rflx/expression.py:163-164`): it does not look into the bounds. -/
def ChkExpr.variables : ChkExpr → List Expr
  | .plain e => findall isVar e
  | .range .. => []

/-- The identifier of a variable. -/
def varId : Expr → Option ID
  | .var _ _ id => some id
  | _ => none

/-- The field of a bound of a range, `rflx/model/message.py:828-833`. -/
def boundField (other : Field) (id : ID) : Field := if id.key = MESSAGE.key then other else ⟨id.key⟩

/-- The check of a range, `rflx/model/message.py:820-841`. -/
def Msg.checkRange (m : Msg) (k : Nat) : ChkExpr → Py Bool
  | .plain _ => .ok false
  | .range lower upper =>
    match findall isVar lower, findall isVar upper with
    | l :: _, u :: _ =>
      if l.eq u then .ok false
      else match varId l, varId u with
        | some li, some ui => do
          let ps ← paths m.links k (boundField FINAL ui)
          return ps.any fun p => !p.any fun x => boundField INITIAL li == x.source
        | _, _ => .error .assertion
    | _, _ => .error .indexError

/-- `isinstance(x, expr.ValidChecksum)`. -/
def isValidChecksum : Expr → Bool
  | .attr _ .validChecksum _ => true
  | _ => false

/-- The variable of a checksum that is checked, `rflx/model/message.py:843-849`. -/
def checkedId : Expr → Option ID
  | .attr _ .validChecksum (.var _ _ id) => some id
  | _ => none

/-- `__verify_checksums`, `rflx/model/message.py:767-863`. -/
def Msg.verifyChecksums (m : Msg) (k : Nat) : Py Bool := do
  let a ← anyM' (fun (c : ID × List ChkExpr) => do
    let unknown := !m.fields.contains ⟨c.1.key⟩
    let bad ← anyM' (fun e => do
      let r ← m.checkRange k e
      return !e.supported || (e.variables.any fun v => match varId v with
        | some id => !m.fields.contains ⟨id.key⟩
        | none => true) || r) c.2
    return unknown || bad) m.checksums
  let cond ← fieldCondition m.links k FINAL
  let checked := (findall isValidChecksum cond).filterMap checkedId
  return a || (m.checksums.any fun c => !checked.any fun i => i.eq c.1) ||
    checked.any fun i => !m.checksums.any fun c => i.eq c.1

/-! ## Proofs -/

/-- `proof.result` where `proof.error` is used if the result is not `SAT`: it asserts that the result is `UNSAT`,
`rflx/expression.py:59-61`. `true` means `SAT`. -/
def satOrCore (r : ProofResult) : Py Bool :=
  match r with
  | .sat => .ok true
  | .unsat => .ok false
  | .unknown => .error .assertion

/-- The pairs of elements of a list, in order, `rflx/model/message.py:867-869`. -/
def pairs {α : Type} : List α → List (α × α)
  | [] => []
  | a :: as => as.map (fun b => (a, b)) ++ pairs as

/-- `__prove_conflicting_conditions`, `rflx/model/message.py:865-894`. -/
def Msg.proveConflicts (s : Solver) (m : Msg) : Py Bool :=
  anyM' (fun f => anyM' (fun (c : Link × Link) => do
    let conflict := Expr.bool .and [c.1.condition, c.2.condition]
    let r ← s.check (conflict :: (← m.typeConstraints conflict))
    return r == .sat) (pairs (outgoing m.links f))) (INITIAL :: m.fields)

/-- Whether some element is mapped to `true`; the function is called up to the first one (`for ... break ... else`). -/
def existsM {α : Type} (f : α → Py Bool) : List α → Py Bool
  | [] => .ok false
  | a :: as => do if ← f a then return true else existsM f as

/-- `has_final`, `rflx/model/message.py:897-903`. The first argument bounds the depth of the recursion. -/
def hasFinal (links : List Link) : Nat → Field → Py Bool
  | 0, _ => .error .fuel
  | k + 1, f => if f = FINAL then .ok true else existsM (fun o => hasFinal links k o.target) (outgoing links f)

/-- The disjunction of the outgoing conditions, `rflx/model/message.py:918-926,1096-1100`. -/
def outgoingFact (links : List Link) (f : Field) : List Expr :=
  let o := outgoing links f
  if f ≠ FINAL ∧ o ≠ [] then [.bool .or (o.map Link.condition)] else []

/-- `__prove_reachability`, `rflx/model/message.py:896-951`. -/
def Msg.proveReachability (s : Solver) (m : Msg) (k : Nat) : Py Bool := do
  let a ← anyM' (fun f => do return !(← hasFinal m.links k f)) (INITIAL :: m.fields)
  let b ← anyM' (fun f => do
    let found ← existsM (fun p => do
      let facts ← m.pathFacts p
      satOrCore (← s.check (.tru :: (facts ++ outgoingFact m.links f)))) (← paths m.links k f)
    return !found) (m.fields ++ [FINAL])
  return a || b

/-- `__prove_contradictions`, `rflx/model/message.py:953-993`: an error is recorded if there are contradictions, as many
as paths and outgoing links. -/
def Msg.proveContradictions (s : Solver) (m : Msg) (k : Nat) : Py Bool :=
  anyM' (fun f => do
    let ps ← paths m.links k f
    let pcs := ps.flatMap fun p => (outgoing m.links f).map fun c => (p, c)
    let found ← anyM' (fun (pc : List Link × Link) => do
      let facts ← m.pathFacts pc.1
      let cs ← m.typeConstraints pc.2.condition
      satOrCore (← s.check (pc.2.condition :: (cs ++ facts)))) pcs
    return !pcs.isEmpty && !found) (INITIAL :: m.fields)

/-- `expr.Variable("f")`, `rflx/model/message.py:1013-1014,1021-1022`. -/
def bitVar : Expr := .var false false ⟨[['f']]⟩

/-- The fact that a bit is not covered by the target of a link, `rflx/model/message.py:1019-1025`. -/
def Msg.notCovered (m : Msg) (l : Link) : Py (List Expr) := do
  return [.not (.bool .and [.rel .ge bitVar (targetFirst l), .rel .le bitVar (← m.targetLast l)])]

/-- The loop body of `__prove_coverage`, `rflx/model/message.py:1008-1058`, for the path without its last link. -/
def Msg.coverage1 (s : Solver) (m : Msg) (path : List Link) : Py Bool :=
  match path.getLast? with
  | none => .error .indexError
  | some last => do
    let holes ← concatM m.notCovered path
    let facts ← m.pathFacts path
    let r ← s.check (.tru :: ([.rel .ge bitVar (at' .first MESSAGE), .rel .le bitVar (at' .last MESSAGE)] ++ holes ++
      [.rel .eq (← m.targetLast last) (at' .last MESSAGE)] ++ facts))
    return r == .sat

/-- `__prove_coverage`, `rflx/model/message.py:995-1058`. It returns after the first error. -/
def Msg.proveCoverage (s : Solver) (m : Msg) (k : Nat) : Py Bool := do
  existsM (fun p => m.coverage1 s p.dropLast) (← paths m.links k FINAL)

/-- The loop body of `__prove_overlays`, `rflx/model/message.py:1063-1082`, for a path. -/
def Msg.overlay1 (s : Solver) (m : Msg) (p : List Link) : Py Bool :=
  match p.getLast? with
  | none => .ok false
  | some l =>
    match l.first with
    | .attr _ .first pre => do
      let facts ← m.pathFacts p
      let overlaid := Expr.rel .eq (← m.targetLast l) (.attr false .last pre)
      return !(← satOrCore (← s.check (overlaid :: facts)))
    | _ => .ok false

/-- `__prove_overlays`, `rflx/model/message.py:1060-1082`. -/
def Msg.proveOverlays (s : Solver) (m : Msg) (k : Nat) : Py Bool :=
  anyM' (fun f => do anyM' (m.overlay1 s) (← paths m.links k f)) (INITIAL :: m.fields)

/-- The loop body of `__prove_field_positions`, `rflx/model/message.py:1087-1182`, for a path to a field. -/
def Msg.position1 (s : Solver) (m : Msg) (f : Field) (path : List Link) : Py Bool :=
  match path.getLast? with
  | none => .error .indexError
  | some last => do
    let size ← m.targetSize last
    let negative := Expr.rel .lt size (.n 0)
    let start := Expr.rel .ge (targetFirst last) (at' .first MESSAGE)
    let pf ← m.pathFacts path
    let facts := pf ++ outgoingFact m.links f ++ (← m.typeConstraints negative) ++ (← m.typeConstraints start)
    let r ← s.check (.tru :: facts)
    if r != .sat then return false
    let r ← s.check (negative :: facts)
    if r != .unsat then return true
    if !(← satOrCore (← s.check (start :: facts))) then return true
    match m.type? f with
    | some .opaque =>
      let aligned := Expr.not (.rel .eq (.bin .mod (targetFirst last) (.n 8)) (.n 1))
      let r ← s.check (aligned :: (facts ++ (← m.typeConstraints aligned)))
      if r != .unsat then return true
      let multiple := Expr.not (.rel .eq (.bin .mod size (.n 8)) (.n 0))
      let r ← s.check (multiple :: (facts ++ (← m.typeConstraints multiple)))
      return r != .unsat
    | _ => return false

/-- `__prove_field_positions`, `rflx/model/message.py:1084-1182`. It returns after the first error. -/
def Msg.provePositions (s : Solver) (m : Msg) (k : Nat) : Py Bool :=
  existsM (fun f => do existsM (m.position1 s f) (← paths m.links k f)) (m.fields ++ [FINAL])

/-- `field_size_constraints`, `rflx/model/message.py:1189-1193`. -/
def Msg.fieldSizeConstraints (m : Msg) : List Expr :=
  (m.types.filter fun e => e.2.isUnconstrained).map fun e =>
    .rel .eq (.bin .mod (at' .size e.1) (.n 8)) (.n 0)

/-- The loop body of `__prove_message_size`, `rflx/model/message.py:1195-1224`, for the path without its last link. -/
def Msg.messageSize1 (s : Solver) (m : Msg) (path : List Link) : Py Bool := do
  let tc ← m.typeConstraints .tru
  let sizes := (path.filter fun l => decide (l.target ≠ FINAL) && l.first.eq .undefined).map fun l => at' .size l.target
  let facts ← m.pathFacts path
  let r ← s.check (.rel .ne (.bin .mod (.add sizes) (.n 8)) (.n 0) :: (facts ++ tc ++ m.fieldSizeConstraints))
  return r == .sat

/-- `__prove_message_size`, `rflx/model/message.py:1184-1224`. It returns after the first error. -/
def Msg.proveMessageSize (s : Solver) (m : Msg) (k : Nat) : Py Bool := do
  existsM (fun p => m.messageSize1 s p.dropLast) (← paths m.links k FINAL)

/-- `Message.verify`, `rflx/model/message.py:602-618`. `typeError` stands for `__verify_expression_types`
(`rflx/model/message.py:655-706`), which is modelled in `Verify/ExprTypes`. -/
def Msg.verify (s : Solver) (typeError : Py Bool) (m : Msg) (k : Nat) : Py Unit :=
  if m.links.isEmpty && m.types.isEmpty then .ok ()
  else do
    let e1 ← typeError
    let e2 ← m.verifyExpressions
    let e3 ← m.verifyChecksums k
    if e1 || e2 || e3 then .error .recordFlux
    let p1 ← m.proveConflicts s
    let p2 ← m.proveReachability s k
    let p3 ← m.proveContradictions s k
    let p4 ← m.proveCoverage s k
    let p5 ← m.proveOverlays s k
    let p6 ← m.provePositions s k
    let p7 ← m.proveMessageSize s k
    if p1 || p2 || p3 || p4 || p5 || p6 || p7 then .error .recordFlux
    return ()

/-- `Message.__init__`, `rflx/model/message.py:582-600`, with `skip_proof=False`. -/
def Msg.new (s : Solver) (typeError : Msg → Py Bool) (id : ID) (links : List Link) (types : List (Field × FTy))
    (checksums : List (ID × List ChkExpr)) (k : Nat) : Py Msg := do
  if id.parts.length ≤ 1 then .error .assertion
  let literals ← enumLiterals (← id.parent) (types.map (·.2))
  let fields ← (Def.mk links (types.map (·.1)) literals).construct k
  let m : Msg := ⟨id, links, fields, types, checksums⟩
  m.verify s (typeError m) k
  return m

end Verif.Verify
