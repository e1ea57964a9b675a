import Verif.PyRFLX.MessageChecksumProps

/-! # Messages with checksums (C55): examples and counterexamples -/

namespace Verif.PyRFLX

open Verif Verif.Types Verif.Bits Verif.Graph

/-! ## A checksum before the data -/

/-- `a'Valid_Checksum` -/
def exValidA : Expr := .attr false .validChecksum (.var false false exA)

/-- A message of two bytes `a` and `b`; `a` is a checksum of the range from `b` on. -/
def exLead : CMsg where
  base :=
    { links := [⟨INITIAL, exA, .tru, .undefined, .undefined⟩, ⟨exA, exB, .tru, .undefined, .undefined⟩,
        ⟨exB, FINAL, exValidA, .undefined, .undefined⟩]
      fields := [exA, exB]
      types := fun _ => .scalar (.int exByte) false
      lits := []
      fuel := 10 }
  names := [exA]

/-- A checksum function: the sum of all bytes but the first. -/
def exSum : ChecksumFn := fun bs _ => .ok (.int (((bs.drop 1).map (·.val)).sum % 256 : Nat))

/-- The checksum of `exLead`. -/
def exLeadCheck : Check :=
  { Check.new exA [.range (.attr false .first (.var false false exB)) (.attr false .last (.var false false exB))] with
    function := some exSum }

theorem toBytes_drop (x : List Bool) : (Bitstring.toBytes ⟨x⟩).drop 1 = Bitstring.toBytes ⟨x.drop 8⟩ := by
  unfold Bitstring.toBytes
  cases x with
  | nil => simp [chunks8]
  | cons b x =>
    rw [chunks8]
    simp

/-- The function does not look at the first byte. -/
theorem exSum_ignores : Ignores exSum 0 8 := by
  intro x y as _ h
  unfold exSum
  rw [toBytes_drop, toBytes_drop]
  have : x.drop 8 = y.drop 8 := by
    apply List.ext_getElem?
    intro i
    rw [List.getElem?_drop, List.getElem?_drop]
    exact h.2 (8 + i) (by omega)
  rw [this]

theorem exLead_type {f : Field} (hf : f ∈ exLead.msg.fields) : exLead.msg.typeOf f = .scalar (.int exByte) false := by
  simp only [CMsg.msg, exLead, List.mem_cons, List.not_mem_nil, or_false] at hf
  rcases hf with rfl | rfl <;> rfl

/-- `a'Valid_Checksum` is true. -/
theorem exLead_valid {fv : Field → FV} {M : List (Expr × Expr)} (hM : MappingOf exLead.msg fv M) :
    exLead.msg.holds M exValidA = .ok true := by
  have hs : substitution (M ++ exLead.msg.lits) exValidA = .tru := by
    have hf : (M ++ exLead.msg.lits).find? (fun kv => kv.1.eq exValidA) = some (exValidA, .tru) := by
      rw [List.find?_append]
      have : M.find? (fun kv => kv.1.eq exValidA) = none := by
        rw [List.find?_eq_none]
        intro kv hkv
        rcases hM kv hkv with ⟨f, _, he⟩ | ⟨a, n, ha, rfl⟩
        · rcases he.key with h | ⟨a, ha, h⟩
          · rw [h]; simp [Expr.eq, exValidA, Expr.cls, Expr.Cls.sub]
          · rw [h]; rcases ha with rfl | rfl | rfl <;> simp [Expr.eq, exValidA, Expr.cls, Expr.Cls.sub]
        · rcases ha with rfl | rfl | rfl <;> simp [Expr.eq, exValidA, Expr.cls, Expr.Cls.sub]
      rw [this]
      rfl
    unfold substitution
    rw [if_pos (show exValidA.isName = true from rfl), hf]
  have h1 : exValidA.substituted (M ++ exLead.msg.lits) = .ok .tru := by
    unfold exValidA at hs ⊢
    simp [Expr.substituted, subst, hs, Except.bind]
  have h2 : (Expr.tru).substituted (M ++ exLead.msg.lits) = .ok .tru := rfl
  unfold Msg.holds Msg.simplifiedIn
  simp only [exValidA, Expr.isTru, Expr.isFls, Bool.or_false, Bool.false_eq_true, if_false]
  have h1' := h1
  unfold exValidA at h1'
  rw [h1']
  simp only [Except.bind, h2]
  rfl

/-- The message is parsed field by field. -/
theorem exLead_well : Well exLead.msg (fun f => if f = INITIAL then 0 else if f = exA then 1 else if f = exB then 2 else 3)
    (fun _ => false) := by
  constructor
  case ranked =>
    intro l hl
    simp only [CMsg.msg, exLead, List.mem_cons, List.not_mem_nil, or_false] at hl
    rcases hl with rfl | rfl | rfl <;> decide
  case start =>
    refine ⟨_, rfl, rfl, by decide, ?_⟩
    intro l hl
    simp only [CMsg.msg, exLead, List.mem_cons, List.not_mem_nil, or_false] at hl
    rcases hl with rfl | rfl | rfl <;> decide
  case links =>
    intro l hl
    simp only [CMsg.msg, exLead, List.mem_cons, List.not_mem_nil, or_false] at hl
    rcases hl with rfl | rfl | rfl <;> decide
  case noInitial => decide
  case noFinal => decide
  case noFirst =>
    intro l hl
    simp only [CMsg.msg, exLead, List.mem_cons, List.not_mem_nil, or_false] at hl
    rcases hl with rfl | rfl | rfl <;> rfl
  case proper =>
    intro f hf
    simp only [CMsg.msg, exLead, List.mem_cons, List.not_mem_nil, or_false] at hf
    rcases hf with rfl | rfl | rfl <;> exact no_number rfl (by decide)
  case lits =>
    intro kv hkv
    simp only [CMsg.msg, exLead, List.nil_append, List.map_cons, List.map_nil, List.mem_cons, List.not_mem_nil, or_false] at hkv
    subst hkv
    exact .inr ⟨rfl, fun id => by simp [Expr.eq, Expr.cls, Expr.Cls.sub]⟩
  case apart =>
    intro f hf ex inp txt n i h
    rw [exLead_type hf] at h
    obtain ⟨v, hv, _⟩ := assign_int h
    cases hv
  case conditions =>
    intro l hl
    simp only [CMsg.msg, exLead, List.mem_cons, List.not_mem_nil, or_false] at hl
    rcases hl with rfl | rfl | rfl <;> intro n hn <;>
      simp only [exValidA, names, List.mem_cons, List.not_mem_nil, or_false, Bool.false_eq_true, if_false] at hn
    rcases hn with rfl | rfl <;> unfold Free Apart <;> decide
  case exclusive =>
    intro fv M hv hM l hl l' hl' hs h h'
    simp only [CMsg.msg, exLead, List.mem_cons, List.not_mem_nil, or_false] at hl hl'
    rcases hl with rfl | rfl | rfl <;> rcases hl' with rfl | rfl | rfl <;>
      first
      | rfl
      | exact absurd hs (by decide)
  case stable =>
    intro fv fv' M M' hv hv' hM hM' l hl _ hfresh h
    simp only [CMsg.msg, exLead, List.mem_cons, List.not_mem_nil, or_false] at hl
    rcases hl with rfl | rfl | rfl
    · rfl
    · rfl
    · exact exLead_valid (newMapping_mem hM')
  case scalars =>
    intro f hf s imp h
    rw [exLead_type hf] at h
    cases h
    exact exByte_fine
  case sizes =>
    intro l hl h1 h2
    rw [exLead_type h1] at h2
    cases h2
  case rests => intro f hf; cases hf

/-- The encoding of a message with checksums after parsing the input, with the flags of the checksums. -/
def creencode (c : CMsg) (checks : List Check) (input : List Byte) : Option (List Byte × List Bool) :=
  match (c.new checks).bind fun σ => (c.parseBytes σ input).bind fun σ => (c.bytestring σ).map fun out => (σ, out) with
  | .ok (σ, out) => some (out, σ.checks.map Check.calculated)
  | .error _ => none

theorem creencode_some {c : CMsg} {checks : List Check} {input out : List Byte} {fs : List Bool}
    (h : creencode c checks input = some (out, fs)) :
    ∃ σ σ', c.new checks = .ok σ ∧ c.parseBytes σ input = .ok σ' ∧ c.bytestring σ' = .ok out ∧
      σ'.checks.map Check.calculated = fs := by
  unfold creencode at h
  split at h
  · rename_i σ' x hx
    simp only [Option.some.injEq, Prod.mk.injEq] at h
    obtain ⟨rfl, rfl⟩ := h
    obtain ⟨σ, h1, h2⟩ := bind_ok hx
    obtain ⟨τ, h2, h3⟩ := bind_ok h2
    obtain ⟨o, h4, h5⟩ := map_ok h3
    cases h5
    exact ⟨σ, _, h1, h2, h4, rfl⟩
  · cases h

theorem exLead_encoded : creencode exLead [exLeadCheck] [7, 7] = some ([7, 7], [false]) := by with_unfolding_all rfl

/-- The hypotheses of `C55_bytestring`, `C55_parse_partial` and `C55_roundtrip_partial`: a right checksum. -/
example : ∃ σ σ', exLead.new [exLeadCheck] = .ok σ ∧ exLead.msg.new = .ok σ.st ∧ exLead.parseBytes σ [7, 7] = .ok σ' ∧
    (∀ k ∈ σ'.checks, k.calculated = false) ∧ exLead.bytestring σ' = .ok [7, 7] := by
  obtain ⟨σ, σ', h1, h2, h3, h4⟩ := creencode_some exLead_encoded
  refine ⟨σ, σ', h1, ?_, h2, ?_, h3⟩
  · obtain ⟨s, hs, rfl⟩ := map_ok (h1 : (exLead.base.new).map _ = _)
    rw [← hs]
    with_unfolding_all rfl
  · intro k hk
    have : k.calculated ∈ σ'.checks.map Check.calculated := List.mem_map_of_mem hk
    rw [h4] at this
    simpa using this

/-- A wrong checksum before the data is found. -/
example : creencode exLead [exLeadCheck] [8, 7] = none := by with_unfolding_all rfl

/-- The state after setting fields one after the other, if there is no error. -/
def csets (c : CMsg) (σ : CState) : List (Field × Int) → Option CState
  | [] => some σ
  | (f, x) :: r =>
    match c.set σ f (.int x) with
    | (σ, none) => csets c σ r
    | (_, some _) => none

/-- The state of a new message after setting fields. -/
def crun (c : CMsg) (checks : List Check) (r : List (Field × Int)) : Option CState :=
  match c.new checks with
  | .ok σ => csets c σ r
  | .error _ => none

/-- The values of integer fields. -/
def valueOf (σ : CState) (f : Field) : Option Int :=
  match (σ.st.fv f).value with
  | some (.scalar (.int v)) => some v
  | _ => none

/-- The state of `exLead` after `a` has been set to 5 by hand. -/
def exLead5 : CState := (crun exLead [exLeadCheck] [(exA, 5)]).get (by with_unfolding_all rfl)

theorem exLead5_checks : exLead5.checks = [exLeadCheck] := by with_unfolding_all rfl

/-- The hypotheses of `C55_manual`. -/
example : ∃ s, exLead.msg.set exLead5.st exB (.int 7) = (s, none) ∧
    (∀ k ∈ exLead5.checks, k.calculated = false ∧ (s.fv k.field).isSet (exLead.msg.typeOf k.field) = .ok true) := by
  refine ⟨_, by with_unfolding_all rfl, ?_⟩
  intro k hk
  rw [exLead5_checks] at hk
  have := List.mem_singleton.mp hk
  subst this
  exact ⟨rfl, by with_unfolding_all rfl⟩

/-- The state after `b` has been set to 7, too. The checksum is wrong now. -/
def exLead57 : CState := (crun exLead [exLeadCheck] [(exA, 5), (exB, 7)]).get (by with_unfolding_all rfl)

example : ∃ τ, exLead.validMessage exLead57 = .ok (τ, false) := ⟨_, by with_unfolding_all rfl⟩

/-- The hypotheses of `C55_update_partial`. -/
example : ∃ σ', exLead57.checks = [exLeadCheck] ∧ exLead.updateChecksums exLead57 = .ok σ' ∧
    exLead.msg.typeOf exA = .scalar (.int exByte) false ∧ (Scalar.int exByte).Fine ∧
    (exLead57.st.fv exA).first = some ⟨0, .b0⟩ ∧ exByte.size = .ok ⟨8, .b0⟩ ∧
    (exLead57.st.fv exA).value = some (.scalar (.int 5)) ∧ InRange exByte 5 ∧
    (exLead57.st.fv exA).isSet (exLead.msg.typeOf exA) = .ok true ∧ exLeadCheck.function = some exSum ∧ Ignores exSum 0 8 ∧
    (∀ p ∈ exLeadCheck.params, ∀ ng imm i, exLead.msg.evalParam exLead57.st.mapping p.1 = .ok (.expr (.var ng imm i)) ∨
      p.2 = .expr (.var ng imm i) → exA.eq i = false) ∧
    valueOf σ' exA = some 7 ∧ ∃ τ, exLead.validMessage σ' = .ok (τ, true) := by
  refine ⟨_, by with_unfolding_all rfl, by with_unfolding_all rfl, rfl, exByte_fine, by with_unfolding_all rfl, rfl,
    by with_unfolding_all rfl, ⟨Num.n 0, Num.n 255, rfl, by rfl, by decide, by decide⟩, by with_unfolding_all rfl, rfl,
    exSum_ignores, ?_, by with_unfolding_all rfl, ⟨_, by with_unfolding_all rfl⟩⟩
  intro p hp ng imm i h
  have := List.mem_singleton.mp hp
  subst this
  rcases h with h | h
  · simp only [Msg.evalParam] at h
    obtain ⟨l, _, h⟩ := bind_ok h
    obtain ⟨u, _, h⟩ := map_ok h
    cases h
  · cases h

/-! ## A checksum after the data -/

/-- A message of two bytes `a` and `b`; `b` is a checksum of `a`. The specification of `TLV_With_Checksum` in the tests has the
same shape: the checksum comes last. -/
def exTrail : CMsg where
  base :=
    { links := [⟨INITIAL, exA, .tru, .undefined, .undefined⟩, ⟨exA, exB, .tru, .undefined, .undefined⟩,
        ⟨exB, FINAL, .attr false .validChecksum (.var false false exB), .undefined, .undefined⟩]
      fields := [exA, exB]
      types := fun _ => .scalar (.int exByte) false
      lits := []
      fuel := 10 }
  names := [exB]

/-- A checksum function: the value of the parameter. -/
def exCopy : ChecksumFn := fun _ as =>
  match as with
  | [(_, .int v)] => .ok (.int v)
  | _ => .error .pyrflx

/-- The checksum of `exTrail`. -/
def exTrailCheck : Check := { Check.new exB [.expr (.var false false exA)] with function := some exCopy }

/-- A new message. -/
def exTrail0 : CState := (crun exTrail [exTrailCheck] []).get (by with_unfolding_all rfl)

/-- The hypotheses of `C55_automatic_partial`: `a` is set, then `b` is calculated. -/
example : ∃ σ' s k₁, exTrail0.checks = [exTrailCheck] ∧ exTrail.set exTrail0 exA (.int 3) = (σ', none) ∧
    exTrail.msg.set exTrail0.st exA (.int 3) = (s, none) ∧ (s.fv exB).isSet (exTrail.msg.typeOf exB) = .ok false ∧
    exTrail.msg.settable exTrail.names s exTrailCheck = .ok (k₁, true) ∧ valueOf σ' exB = some 3 :=
  ⟨_, _, _, by with_unfolding_all rfl, by with_unfolding_all rfl, by with_unfolding_all rfl, by with_unfolding_all rfl,
    by with_unfolding_all rfl, by with_unfolding_all rfl⟩

/-- The fourth clause of C55 is false if the checksum comes after the data: a wrong checksum in the input is replaced by the
right one without an error, the message counts as valid and is encoded differently. -/
theorem C55_parse_counterexample : ∃ σ σ', exTrail.new [exTrailCheck] = .ok σ ∧ exTrail.parseBytes σ [1, 9] = .ok σ' ∧
    exTrail.bytestring σ' = .ok [1, 1] := by
  obtain ⟨σ, σ', h1, h2, h3, _⟩ := creencode_some (c := exTrail) (checks := [exTrailCheck]) (input := [1, 9])
    (out := [1, 1]) (fs := [true]) (by with_unfolding_all rfl)
  exact ⟨σ, σ', h1, h2, h3⟩

/-- A checksum that has been calculated cannot be set by hand any more: setting it succeeds, but the field keeps the calculated
value. -/
theorem C55_overwritten_counterexample : ∃ σ, crun exTrail [exTrailCheck] [(exA, 1), (exB, 9)] = some σ ∧
    valueOf σ exB = some 1 := ⟨_, by with_unfolding_all rfl, by with_unfolding_all rfl⟩

/-! ## Several checksums -/

/-- A message of three bytes `a`, `b` and `c`; `a` is a checksum of `b`, and `b` is a checksum of `c`. -/
def exOrder : CMsg where
  base :=
    { links := [⟨INITIAL, exA, .tru, .undefined, .undefined⟩, ⟨exA, exB, .tru, .undefined, .undefined⟩,
        ⟨exB, exTag, .tru, .undefined, .undefined⟩,
        ⟨exTag, FINAL, .bool .and [exValidA, .attr false .validChecksum (.var false false exB)], .undefined, .undefined⟩]
      fields := [exA, exB, exTag]
      types := fun _ => .scalar (.int exByte) false
      lits := []
      fuel := 10 }
  names := [exA, exB]

/-- The checksums of `exOrder`, with a function for the first. -/
def exOrderChecks (f : ChecksumFn) : List Check :=
  [{ Check.new exA [.expr (.var false false exB)] with function := some f },
    { Check.new exB [.expr (.var false false exTag)] with function := some exCopy }]

/-- The third clause of C55 is false for several checksums: they are calculated in the order of their declaration, so a checksum
that covers a later one is wrong after `update_checksums`. -/
theorem C55_order_counterexample : ∃ σ σ' τ, crun exOrder (exOrderChecks exSum) [(exA, 1), (exB, 2), (exTag, 3)] = some σ ∧
    exOrder.updateChecksums σ = .ok σ' ∧ valueOf σ' exA = some 5 ∧ valueOf σ' exB = some 3 ∧
    exOrder.validMessage σ' = .ok (τ, false) :=
  ⟨_, _, _, by with_unfolding_all rfl, by with_unfolding_all rfl, by with_unfolding_all rfl, by with_unfolding_all rfl,
    by with_unfolding_all rfl⟩

/-- Moreover, `update_checksums` does not update the values used for parameters: the checksum `a`, which should be equal to
`b`, is not, but the message counts as valid. -/
theorem C55_stale_counterexample : ∃ σ σ', crun exOrder (exOrderChecks exCopy) [(exA, 1), (exB, 2), (exTag, 3)] = some σ ∧
    exOrder.updateChecksums σ = .ok σ' ∧ valueOf σ' exA = some 2 ∧ valueOf σ' exB = some 3 ∧
    exOrder.bytestring σ' = .ok [2, 3, 3] :=
  ⟨_, _, by with_unfolding_all rfl, by with_unfolding_all rfl, by with_unfolding_all rfl, by with_unfolding_all rfl,
    by with_unfolding_all rfl⟩

end Verif.PyRFLX
