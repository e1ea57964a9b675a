import Verif.Cache.Props
import Verif.Verify.Counterexamples

/-! # The text that is hashed for the verification cache

`rflx/specification/cache.py:56-59`, with `str` of messages, links and types. -/

namespace Verif.Cache
open Verif Verif.Graph Verif.Types Verif.Verify

/-- `Type.name`, `rflx/model/type_.py:32-34`: the last part of the identifier. -/
def lastPart (id : ID) : PyStr := id.parts.getLast?.getD []

/-- `ModularInteger.__str__` (`rflx/model/type_.py:125-126`) and `RangeInteger.__str__` (256-260). -/
def intText : IntType → PyStr
  | .modular t => "type ".toList ++ lastPart t.id ++ " is mod ".toList ++ t.modulus.str
  | .range t => "type ".toList ++ lastPart t.id ++ " is range ".toList ++ t.firstExpr.str ++ " .. ".toList ++ t.lastExpr.str ++
      " with Size => ".toList ++ t.size.str

/-- `Enumeration.__str__`, `rflx/model/type_.py:421-424`. Values of literals are printed in base 10: the model of enumerations
has no base. -/
def enumText (t : Enum) : PyStr :=
  let literals := joinComma (t.literals.map fun l => l.1.str ++ " => ".toList ++ intStr l.2 .b0)
  let alwaysValid := if t.alwaysValid then ", Always_Valid => True".toList else []
  "type ".toList ++ lastPart t.id ++ " is (".toList ++ literals ++ ") with Size => ".toList ++ t.size.str ++ alwaysValid

/-- `str(t)` for the types of fields: `Array.__str__` (`rflx/model/type_.py:518-519`), `Opaque.__str__` (547-548). The text of
a message is given by a parameter: fields of message type contain no further information in the model of verification. -/
def typeText (messages : ID → PyStr) : FTy → PyStr
  | .int t => intText t
  | .enum t => enumText t
  | .array id e => "type ".toList ++ lastPart id ++ " is array of ".toList ++ lastPart e.id
  | .opaque => []
  | .message id => messages id

/-- How the names of fields are written: fields are represented in lower case. -/
abbrev Spelling := Field → PyStr

/-- `Link.__str__`, `rflx/model/message.py:58-69`. -/
def linkText (sp : Spelling) (l : Link) : PyStr :=
  let condition := indentNext
    (if l.condition.eq .tru then [] else "\nif ".toList ++ indentNext l.condition.str 3) 3
  let aspects := (if l.size.eq .undefined then [] else ["Size => ".toList ++ l.size.str]) ++
    (if l.first.eq .undefined then [] else ["First => ".toList ++ l.first.str])
  let withClause := indentNext (if aspects.isEmpty then [] else "\nwith ".toList ++ joinComma aspects) 3
  let target := if l.target == FINAL then "null".toList else sp l.target
  "then ".toList ++ target ++ withClause ++ condition

/-- The condition in `AbstractMessage.__str__`, `rflx/model/message.py:165-171`: the links need not be printed. -/
def plainLink (outgoing : List Link) (next : Option Field) : Bool :=
  match outgoing with
  | [l] => l.condition.eq .tru && l.size.eq .undefined && l.first.eq .undefined &&
      (match next with
      | none => true
      | some f => f == l.target)
  | _ => false

/-- `self.types[f].name`, `rflx/model/message.py:163`. -/
def typeName (m : Verify.Msg) (f : Field) : PyStr :=
  match m.type? f with
  | some t => lastPart t.id
  | none => []

/-- The loop of `AbstractMessage.__str__`, `rflx/model/message.py:158-177`. -/
def fieldsText (sp : Spelling) (m : Verify.Msg) : List Field → PyStr → PyStr
  | [], acc => acc
  | f :: fs, acc =>
    let acc := if f == INITIAL then acc
      else acc ++ (if acc.isEmpty then [] else ['\n']) ++ sp f ++ " : ".toList ++ typeName m f
    let out := outgoing m.links f
    let acc := if plainLink out fs.head? then acc
      else acc ++ (if f == INITIAL then "null".toList else []) ++ '\n' :: indent (joinLines (out.map (linkText sp))) 3
    fieldsText sp m fs (if acc.isEmpty then acc else acc ++ [';'])

/-- `AbstractMessage.__str__`, `rflx/model/message.py:154-178`. -/
def messageText (sp : Spelling) (m : Verify.Msg) : PyStr :=
  if m.links.isEmpty || m.types.isEmpty then "type ".toList ++ lastPart m.id ++ " is null message".toList
  else "type ".toList ++ lastPart m.id ++ " is\n   message\n".toList ++ indent (fieldsText sp m (INITIAL :: m.fields) []) 6 ++
    "\n   end message".toList

/-- What the cache reads of a message. -/
def keyMsg (sp : Spelling) (messages : ID → PyStr) (m : Verify.Msg) : Cache.Msg :=
  ⟨m.id.str, messageText sp m, m.types.map fun e => typeText messages e.2⟩

/-! ## C37: the key does not determine the message -/

/-- C37: the key does not depend on the definitions of checksums. -/
theorem C37_checksums (sp : Spelling) (ms : ID → PyStr) (m : Verify.Msg) (cs : List (ID × List ChkExpr)) :
    keyMsg sp ms { m with checksums := cs } = keyMsg sp ms m := by
  have loop : ∀ (fs : List Field) (acc : PyStr), fieldsText sp { m with checksums := cs } fs acc = fieldsText sp m fs acc := by
    intro fs
    induction fs with
    | nil => intro acc; rfl
    | cons f fs ih => intro acc; simp only [fieldsText, typeName, Msg.type?]; exact ih _
  simp only [keyMsg, messageText, loop]

/-- The types of elements are replaced by types of the same name. -/
def SameButElements : FTy → FTy → Prop
  | .array id e, .array id' e' => id = id' ∧ e.id = e'.id
  | t, t' => t = t'

theorem same_text {t t' : FTy} (h : SameButElements t t') (ms : ID → PyStr) : typeText ms t = typeText ms t' ∧ t.id = t'.id := by
  cases t <;> cases t' <;> simp_all [SameButElements, typeText, FTy.id]

/-- C37: the key does not depend on the definition of the elements of arrays. -/
theorem C37_elements (sp : Spelling) (ms : ID → PyStr) (m : Verify.Msg) (g : FTy → FTy) (hg : ∀ t, SameButElements t (g t)) :
    keyMsg sp ms { m with types := m.types.map fun e => (e.1, g e.2) } = keyMsg sp ms m := by
  have hf : ∀ (l : List (Field × FTy)) (f : Field), ((l.map fun e => (e.1, g e.2)).find? fun e => e.1 == f) =
      (l.find? fun e => e.1 == f).map fun e => (e.1, g e.2) := by
    intro l f
    induction l with
    | nil => rfl
    | cons e l ih =>
      simp only [List.map_cons, List.find?_cons]
      split <;> simp_all
  have loop : ∀ (fs : List Field) (acc : PyStr),
      fieldsText sp { m with types := m.types.map fun e => (e.1, g e.2) } fs acc = fieldsText sp m fs acc := by
    intro fs
    induction fs with
    | nil => intro acc; rfl
    | cons f fs ih =>
      intro acc
      have hn : typeName { m with types := m.types.map fun e => (e.1, g e.2) } f = typeName m f := by
        simp only [typeName, Msg.type?, hf]
        cases (m.types.find? fun e => e.1 == f) with
        | none => rfl
        | some e => simp only [Option.map_some, (same_text (hg e.2) ms).2]
      simp only [fieldsText, hn]
      exact ih _
  have he : (m.types.map fun e => (e.1, g e.2)).isEmpty = m.types.isEmpty := by cases m.types <;> rfl
  have ht : (m.types.map fun e => (e.1, g e.2)).map (fun e => typeText ms e.2) = m.types.map fun e => typeText ms e.2 := by
    rw [List.map_map]
    exact List.map_congr_left fun e _ => (same_text (hg e.2) ms).1.symm
  simp only [keyMsg, messageText, loop, he, ht]

/-- The example message with a checksum for a field that does not exist. -/
def chkMsg : Verify.Msg := { Verify.exMsg with checksums := [(⟨[['Z']]⟩, [])] }

theorem chkMsg_rejected (s : Solver) (te : Py Bool) (k : Nat) : chkMsg.verify s te k ≠ .ok () := by
  intro h
  have hv : chkMsg.verifyChecksums k = .ok true ∨ ∃ e, chkMsg.verifyChecksums k = .error e := by
    simp only [Msg.verifyChecksums, chkMsg, anyM', Bind.bind, Except.bind, pure, Except.pure]
    cases hc : fieldCondition Verify.exMsg.links k FINAL with
    | error e => exact .inr ⟨e, rfl⟩
    | ok c =>
      left
      rfl
  have hl : (chkMsg.links.isEmpty && chkMsg.types.isEmpty) = false := rfl
  simp only [Msg.verify, hl, Bool.false_eq_true, if_false, Bind.bind, Except.bind] at h
  cases te with
  | error e => cases h
  | ok e1 =>
    simp only at h
    cases he : chkMsg.verifyExpressions with
    | error e => rw [he] at h; cases h
    | ok e2 =>
      rw [he] at h
      rcases hv with hv | ⟨e, hv⟩ <;> rw [hv] at h
      · simp only [Bool.or_true, if_true] at h
        cases h
      · cases h

/-- C37 is false: two messages have the same key, one is accepted and the other one is rejected, whatever the solver. -/
theorem C37_counterexample (sp : Spelling) (ms : ID → PyStr) : ∃ m m' : Verify.Msg, keyMsg sp ms m = keyMsg sp ms m' ∧
    (∃ s : Solver, s.Decides ∧ m.Accepted s) ∧ ∀ (s : Solver) (te : Py Bool) (k : Nat), m'.verify s te k ≠ .ok () :=
  ⟨Verify.exMsg, chkMsg, (C37_checksums sp ms Verify.exMsg _).symm, ⟨exSolver, tableSolver_decides, exMsg_accepted⟩, chkMsg_rejected⟩

/-- The consequence: there is a history after which a process that is asked to verify skips the proofs of a message
that would be rejected. -/
theorem C37_skips_counterexample (sp : Spelling) (ms : ID → PyStr) (md5 : PyStr → PyStr) (version : PyStr) :
    ∃ (w : World) (p : Parser) (m' : Verify.Msg), Reachable md5 w ∧ w.procs 1 = some p ∧ p.skipVerification = false ∧
      (∀ e ∈ w.verified, ∃ m s, e = (version, keyMsg sp ms m) ∧ m.Accepted s) ∧
      p.skipProof md5 (keyMsg sp ms m') = true ∧ ∀ (s : Solver) (te : Py Bool) (k : Nat), m'.verify s te k ≠ .ok () := by
  let p0 : Parser := .new false true version none
  let w1 : World := { World.initial with procs := upd World.initial.procs 1 (some p0) }
  have r1 : Reachable md5 w1 := .step .initial (Step.start _ 1 false true version rfl)
  have hp : w1.procs 1 = some p0 := rfl
  refine ⟨w1.create md5 1 p0 (keyMsg sp ms Verify.exMsg), { p0 with cache := (p0.cache.addVerified md5 (keyMsg sp ms Verify.exMsg)).1 }, chkMsg,
    .step r1 (Step.create _ 1 p0 _ hp rfl), rfl, rfl, ?_, ?_, chkMsg_rejected⟩
  · intro e he
    have : (w1.create md5 1 p0 (keyMsg sp ms Verify.exMsg)).verified = [(version, keyMsg sp ms Verify.exMsg)] := rfl
    rw [this, List.mem_singleton] at he
    exact ⟨Verify.exMsg, exSolver, he, exMsg_accepted⟩
  · rw [show keyMsg sp ms chkMsg = keyMsg sp ms Verify.exMsg from C37_checksums sp ms Verify.exMsg _]
    have : p0.cache.addVerified md5 (keyMsg sp ms Verify.exMsg) =
        ({ p0.cache with verification := [((keyMsg sp ms Verify.exMsg).fullName, messageHash md5 version (keyMsg sp ms Verify.exMsg))] }, true) := rfl
    rw [this]
    simp [Parser.skipProof, Cache.isVerified, get?, p0, Parser.new, Cache.new]

/-- `type E is mod 2 ** n`. -/
def elemType (n : Nat) : FTy := .int (.modular ⟨⟨[['M'], ['E']]⟩, .n (2 ^ n : Nat), .n n⟩)

/-- `type A is array of E`; `D : A with Size => 8 then null if D = [1]`. -/
def elemMsg (n : Nat) : Verify.Msg :=
  ⟨⟨[['M'], ['T']]⟩, [⟨INITIAL, fld 'd', .tru, .n 8, .undefined⟩, lnk (fld 'd') FINAL (.rel .eq cxD (.agg [.n 1]))],
   [fld 'd'], [(fld 'd', .array ⟨[['M'], ['A']]⟩ (elemType n))], []⟩

/-- One field of 8 bits. -/
def elemModel : ZModel := byList
  [(.attr .first false [['d']], 1), (.attr .size false [['d']], 8), (.attr .last false [['d']], 8),
   (.attr .first false FINAL.key, 9), (.attr .last false FINAL.key, 8), (.attr .size false [['e']], 8),
   (.attr .first false MESSAGE.key, 1), (.attr .size false MESSAGE.key, 8), (.attr .last false MESSAGE.key, 8)]

/-- Formulas that cannot be satisfied if an element has 4 bits. -/
def elemUnsat : List Expr :=
  [.rel .eq (.mul [.n 1, at' .size ⟨[['E']]⟩]) (.attr false .size cxD), .rel .eq (at' .size ⟨[['E']]⟩) (.n 4),
   .rel .eq (at' .size (fld 'd')) (.n 8)]

def elemSolver : Solver :=
  tableSolver elemModel [elemModel] (elemUnsat :: cxUnsat 8) (by
    intro u hu
    rcases List.mem_cons.mp hu with rfl | hu
    · rintro ⟨M, h⟩
      simp [elemUnsat, fld, Verify.Holds, zeval, zevalL, cxD, at', Expr.v, Expr.n, Bind.bind, Except.bind, pure, Except.pure, ZVal.bool?,
        ZVal.int?, intProd, zRel, zEqual, ZVal.cast, BoolOp.isAnd] at h
      omega
    · exact cxUnsat_unsat 8 u hu)

/-- C37 is false for the elements of arrays as well: a message is accepted with elements of 8 bits and rejected with
elements of 4 bits, with the same key. -/
theorem C37_elements_counterexample (sp : Spelling) (ms : ID → PyStr) : keyMsg sp ms (elemMsg 8) = keyMsg sp ms (elemMsg 4) ∧
    elemSolver.Decides ∧ (elemMsg 8).Accepted elemSolver ∧ (elemMsg 4).verify elemSolver (.ok false) 20 = .error .recordFlux := by
  refine ⟨rfl, tableSolver_decides, ⟨fun _ => .ok false, 20, ?_⟩, ?_⟩
  · rfl
  · rfl

end Verif.Cache
