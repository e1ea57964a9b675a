import Verif.Merge.Model

/-! # Derived messages (`rflx/model/message.py:1280-1325,1479-1549,1650-1668`)

A message `type D is new B` is created by `UnprovenDerivedMessage(identifier, base).merged().proven()`
(`rflx/specification/parser.py:1019-1025,1095-1104`). The base is a message that has been merged and proven before, so none of
its fields has a message as type and `merged` returns the message as it is (`rflx/model/message.py:1383-1390`).

`self.structure = sorted(structure)` (`rflx/model/message.py:118`): the links of the base are sorted, the derived links have
the same sources and targets, and expressions are never less than each other (`rflx/expression.py:104-107`), so sorting,
which is stable, changes nothing. -/

namespace Verif.Derived
open Verif Verif.Graph Verif.Types Verif.Verify

/-- The message a message is derived from: the message, its property `aspects` (only the aspect `Checksum` exists,
`rflx/specification/parser.py:778`) and whether it is a derived message itself. -/
structure Base where
  msg : Msg
  aspects : List (ID × List ChkExpr)
  derived : Bool

/-- `UnprovenMessage.proven`, `rflx/model/message.py:1348-1357`, as the base of a derivation: the message is created with
`state` and without `aspects`, so its property `aspects` is empty (`rflx/model/message.py:120`) while `checksums` is that of the
state (245-246). -/
def proven (m : Msg) : Base := ⟨m, [], false⟩

/-- `base_enum_literals`, `rflx/model/message.py:1653-1658`. -/
def literals (package : ID) : List (Field × FTy) → Py (List ID)
  | [] => .ok []
  | (_, .enum t) :: ts => do
    let p ← t.id.parent
    let ls ← literals package ts
    return if p.eq package then t.literals.map (·.1) ++ ls else ls
  | _ :: ts => literals package ts

/-- `mapping`, `rflx/model/message.py:1659-1661`. In a dictionary later entries replace earlier ones, so they come first
here. -/
def mapping (package : ID) (ls : List ID) : Py (List (Expr × Expr)) := do
  let es ← ls.mapM fun e => (do return (Expr.var false false e, Expr.var false false (← package.mul e)) : Py (Expr × Expr))
  return es.reverse

/-- The link with another condition, `rflx/model/message.py:1664-1665`. -/
def deriveLink (map : List (Expr × Expr)) (l : Link) : Py Link := do
  return { l with condition := ← l.condition.substituted map }

/-- `derived_message_structure(base)`, `rflx/model/message.py:1650-1668`. -/
def derivedStructure (m : Msg) : Py (List Link) := do
  let package ← m.package
  let map ← mapping package (← literals package m.types)
  m.links.mapM (deriveLink map)

/-- The creation of a derived message. `UnprovenDerivedMessage.__init__` (`rflx/model/message.py:1481-1517`) creates the
structure, checks it like every message (104-139; the errors are those raised by the creation of the proven message) and
rejects derived messages as base; `proven` (1540-1549) creates a `DerivedMessage` with this structure, the types and the
aspects, which is verified (582-600): `skip_proof` is not passed on. Simplified: where several errors are recorded, which of
the exceptions is raised is not distinguished. -/
def derive (s : Solver) (typeError : Msg → Py Bool) (k : Nat) (id : ID) (b : Base) : Py Msg := do
  let links ← derivedStructure b.msg
  if b.derived then .error .recordFlux
  Msg.new s typeError id links b.msg.types b.aspects k

end Verif.Derived
