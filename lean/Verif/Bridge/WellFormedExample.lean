import Verif.Bridge.WellFormed
import Verif.Bridge.Counterexample

/-! # C71: the hypotheses of `C71_wellformed_partial` are met -/

namespace Verif.Bridge
open Verif Verif.Graph Verif.Verify Verif.Types Verif.Gen Verif.Spark Verif.Ctx

theorem bUsable : Usable bP where
  names := bWellFormed.names
  size := bWellFormed.size
  affix := bWellFormed.affix
  nonempty h := by have := bFields.mpr (.inl rfl); rw [h] at this; cases this
  literals f t h := (bWellFormed.enum f t h).2
  sized := bWellFormed.sized
  final l hl := by rcases bLinks.mp hl with rfl | rfl | rfl | rfl <;> decide
  grouped := bWellFormed.grouped
  noFirst := bWellFormed.noFirst
  scope := bWellFormed.scope
  wf := bWellFormed.wf
  definite l hl := by
    rcases bLinks.mp hl with rfl | rfl | rfl | rfl <;> simp [b1, b2, b3, b4, lnk, bLv, Expr.v, Expr.n, Definite, truth]
  own := bWellFormed.own
  sizeScope := bWellFormed.sizeScope
  sizeWF := bWellFormed.sizeWF
  sizeDefinite l hl t ht hs := by
    cases bComposite hl ht hs
    simp [b2, bLv, Expr.v, Expr.n, Definite, DefiniteL]

/-- A message with a length field and a value. -/
example : WellFormed bP := C71_wellformed_partial bChecked bUsable

/-- The message whose sizes may be negative is well formed, too. -/
theorem nUsable : Usable nP where
  names := nWellFormed.names
  size := nWellFormed.size
  affix := nWellFormed.affix
  nonempty h := by have := nFields.mpr (.inl rfl); rw [h] at this; cases this
  literals f t h := (nWellFormed.enum f t h).2
  sized := nWellFormed.sized
  final l hl := by rcases nLinks.mp hl with rfl | rfl | rfl <;> decide
  grouped := nWellFormed.grouped
  noFirst := nWellFormed.noFirst
  scope := nWellFormed.scope
  wf := nWellFormed.wf
  definite l hl := by
    rcases nLinks.mp hl with rfl | rfl | rfl <;> simp [b1, n2, n3, lnk, bLv, Expr.v, Expr.n, Definite, truth]
  own := nWellFormed.own
  sizeScope := nWellFormed.sizeScope
  sizeWF := nWellFormed.sizeWF
  sizeDefinite l hl t ht hs := by
    cases nComposite hl ht hs
    simp [n2, nSize, bLv, Expr.v, Expr.n, Definite, DefiniteL]

example : WellFormed nP := C71_wellformed_partial nChecked nUsable

end Verif.Bridge
