import Verif.PyRFLX.EnumProps

/-! # C03, C04: bytes and texts of scalar values -/

namespace Verif.PyRFLX

open Verif Verif.Types Verif.Bits

/-- Parsing bytes succeeds exactly if their number (most significant byte first) belongs to the type, and then gives this number. Restricted as
`C03_assign_partial`: the modulus of a modular type is made of numbers. -/
theorem C03_parse_bytes_partial (t : IntType) (h : t.Accepted) (hm : t.ConstModulus) (b : List Byte) (hb : b ≠ []) :
    (InRange t (Bits.Spec.beValue b) → IntegerValue.parseBytes t b true = .ok (Bits.Spec.beValue b)) ∧
    (¬ InRange t (Bits.Spec.beValue b) → IntegerValue.parseBytes t b true = .error .pyrflx) := by
  have hbits := fromBytes_bits hb
  have hne : (Bitstring.fromBytes b).bits ≠ [] := by
    rw [hbits]
    cases b with
    | nil => exact absurd rfl hb
    | cons x b => simp [Bits.Spec.byteBits]
  have hp : IntegerValue.parseBytes t b true = IntegerValue.assign t (Bits.Spec.beValue b) true := by
    simp only [IntegerValue.parseBytes, IntegerValue.parse, Bitstring.toInt, List.isEmpty_iff, hne, if_false, bind, Except.bind]
    rw [hbits, bitsToNat_flatMap, bytesToNat_eq_spec]
  rw [hp]
  exact C03_assign_partial t h hm _

example : IntegerValue.parseBytes (.range ⟨⟨[['P'], ['R']]⟩, .n 0, ⟨0, .b0⟩, .n 300, ⟨300, .b0⟩, .n 16⟩) [1, 2] true = .ok 258 :=
  (C03_parse_bytes_partial (.range ⟨⟨[['P'], ['R']]⟩, .n 0, ⟨0, .b0⟩, .n 300, ⟨300, .b0⟩, .n 16⟩) ⟨⟨[['P'], ['R']]⟩, .n 0, .n 300, .n 16, rfl⟩ trivial [1, 2] (by simp)).1
    ⟨⟨0, .b0⟩, ⟨300, .b0⟩, rfl, rfl, by decide, by decide⟩

/-- The text of a parsed value outside of the package of its type: the name of the literal, preceded by the package unless the type is predefined;
`UNKNOWN` for an unnamed value of an always valid enumeration. Restricted as `C04_parse_partial`. -/
theorem C04_text_partial (t : Enum) (h : Plain t) (b : Bitstring) (hb : b.bits ≠ []) (n : Int) (hn : n = bitsToNat b.bits) :
    (∀ l, (l, n) ∈ t.literals → EnumValue.parse t true b =
      .ok (if t.package.parts.map (List.map Char.toLower) = [['_', '_', 'b', 'u', 'i', 'l', 't', 'i', 'n', 's', '_', '_']] then joinSep l.parts
        else joinSep (t.package.parts ++ l.parts), n)) ∧
    (∀ l, (l, n) ∈ t.literals → EnumValue.parse t false b = .ok (joinSep l.parts, n)) ∧
    ((∀ l, (l, n) ∉ t.literals) → ∀ imported, EnumValue.parse t imported b =
      if t.alwaysValid then .ok (['U', 'N', 'K', 'N', 'O', 'W', 'N'], n) else .error .pyrflx) := by
  subst hn
  refine ⟨?_, ?_, ?_⟩
  · intro l hl
    rw [(C04_parse_partial t h true b hb).1 l hl, spelled]
    have hk : t.package.key = builtinsPackage.key ↔
        t.package.parts.map (List.map Char.toLower) = [['_', '_', 'b', 'u', 'i', 'l', 't', 'i', 'n', 's', '_', '_']] := by
      have : builtinsPackage.key = [['_', '_', 'b', 'u', 'i', 'l', 't', 'i', 'n', 's', '_', '_']] := by decide
      rw [this]
      exact Iff.rfl
    by_cases hc : t.package.key = builtinsPackage.key
    · rw [if_neg (by simp [hc]), if_pos (hk.1 hc)]
      rfl
    · rw [if_pos ⟨rfl, hc⟩, if_neg (fun h => hc (hk.2 h))]
      rfl
  · intro l hl
    rw [(C04_parse_partial t h false b hb).1 l hl, spelled, if_neg (by simp)]
    rfl
  · intro hl imported
    rw [(C04_parse_partial t h imported b hb).2 hl]
    rfl

example : EnumValue.parse exEnum true ⟨[true, false]⟩ = .ok (['P', ':', ':', 'T', 'w', 'o'], 2) ∧
    EnumValue.parse exEnum true ⟨[true, true]⟩ = .ok (['U', 'N', 'K', 'N', 'O', 'W', 'N'], 3) := by
  have h : Plain exEnum :=
    ⟨⟨_, _, _, _, exEnum_new⟩, ⟨by simp only [ID.Valid]; decide, by simp only [ID.Valid]; decide⟩, by decide⟩
  refine ⟨?_, ?_⟩
  · have := (C04_text_partial exEnum h ⟨[true, false]⟩ (by simp) 2 (by decide)).1 ⟨[['T', 'w', 'o']]⟩ (by decide)
    rw [this]; rfl
  · have := (C04_text_partial exEnum h ⟨[true, true]⟩ (by simp) 3 (by decide)).2.2 (by intro l hl; simp [exEnum] at hl) true
    rw [this]; rfl

end Verif.PyRFLX
