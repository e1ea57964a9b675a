import Verif.PyRFLX.NestedProps
import Verif.PyRFLX.MessageParseExample

/-! # Refinements of PyRFLX messages: examples and messages for which the property fails -/

namespace Verif.PyRFLX

open Verif Verif.Types Verif.Bits Verif.Graph

/-- The message `P::O`. -/
def nxOuter : ID := ⟨[['P'], ['O']]⟩
/-- The message `P::M`. -/
def nxMid : ID := ⟨[['P'], ['M']]⟩
/-- The message `P::A`. -/
def nxAll : ID := ⟨[['P'], ['A']]⟩

/-- A message of a length `l`, a value `v` of this length and a field `t` behind it. -/
def exMid : Msg where
  links := [⟨INITIAL, exLen, .tru, .undefined, .undefined⟩,
    ⟨exLen, exVal, .tru, .mul [.var false false exLen, .n 8], .undefined⟩,
    ⟨exVal, exTag, .tru, .undefined, .undefined⟩, ⟨exTag, FINAL, .tru, .undefined, .undefined⟩]
  fields := [exLen, exVal, exTag]
  types := fun f => if f = exTag ∨ f = exLen then .scalar (.int exByte) false else .opaque
  lits := []
  fuel := 10

/-- `P::O` contains `P::O` in field `v` if the length is 4, and in field `r` if the tag is 2; `P::M` contains `P::O` in field `v`, and `P::A`
contains `P::A`. -/
def exWorld : World where
  messages := [(nxOuter, exTlv), (nxMid, exMid), (nxAll, exAll)]
  refinements := [(nxOuter, ⟨exVal, nxOuter, .rel .eq (.var false false exLen) (.n 4)⟩),
    (nxOuter, ⟨exRest, nxOuter, .rel .eq (.var false false exTag) (.n 2)⟩), (nxMid, ⟨exVal, nxOuter, .tru⟩), (nxAll, ⟨exVal, nxAll, .tru⟩)]

theorem exWorld_outer : exWorld.message nxOuter = .ok exTlv := by with_unfolding_all rfl
theorem exWorld_mid : exWorld.message nxMid = .ok exMid := by with_unfolding_all rfl
theorem exWorld_all : exWorld.message nxAll = .ok exAll := by with_unfolding_all rfl

/-- The encoding of the message after parsing the input, and the encoding of the nested message in the field. -/
def renest (i : ID) (f : Field) (input : List Byte) : Option (List Byte × Option (ID × List Byte)) :=
  match (exWorld.parse 4 i (Bitstring.fromBytes input)).bind fun v => (exWorld.bytestring v).bind fun out =>
    match v.nested f with
    | none => .ok (out, none)
    | some n => (exWorld.bytestring n).map fun o => (out, some (n.id, o)) with
  | .ok r => some r
  | .error _ => none

theorem renest_some {i : ID} {f : Field} {input out : List Byte} {s : ID} {o : List Byte} (h : renest i f input = some (out, some (s, o))) :
    ∃ v n, exWorld.parse 4 i (Bitstring.fromBytes input) = .ok v ∧ exWorld.bytestring v = .ok out ∧ v.nested f = some n ∧ n.id = s ∧
      exWorld.bytestring n = .ok o := by
  unfold renest at h
  split at h
  · rename_i x hx
    cases h
    obtain ⟨v, h1, h2⟩ := bind_ok hx
    obtain ⟨out', h2', h3⟩ := bind_ok h2
    cases hn : v.nested f with
    | none => rw [hn] at h3; cases h3
    | some n =>
      rw [hn] at h3
      simp only at h3
      obtain ⟨o', h4, h5⟩ := map_ok h3
      cases h5
      exact ⟨v, n, h1, h2', hn, rfl, h4⟩
  · cases h

/-- Nested messages, three levels deep: the hypotheses of `C59_roundtrip_partial`. -/
theorem exNested : renest nxOuter exRest [2, 2, 1, 2, 7, 8] = some ([2, 2, 1, 2, 7, 8], some (nxOuter, [2, 1, 2, 7, 8])) := by
  decide +kernel

theorem exNestedVal : renest nxOuter exVal [1, 4, 1, 2, 7, 8, 9] = some ([1, 4, 1, 2, 7, 8], some (nxOuter, [1, 2, 7, 8])) := by
  decide +kernel

theorem exPlain : renest nxOuter exVal [1, 2, 3, 2, 7] = some ([1, 2, 3, 2], none) := by
  decide +kernel

theorem exWorld_refs : exWorld.refs nxOuter = [⟨exVal, nxOuter, .rel .eq (.var false false exLen) (.n 4)⟩,
    ⟨exRest, nxOuter, .rel .eq (.var false false exTag) (.n 2)⟩] := by with_unfolding_all rfl

/-- The conditions only refer to earlier fields. -/
theorem exWorld_early : ∀ r ∈ exWorld.refs nxOuter, Early exTlv exTlvRank r.field r.condition := by
  rw [exWorld_refs]
  intro r hr
  simp only [List.mem_cons, List.not_mem_nil, or_false] at hr
  rcases hr with rfl | rfl
  · refine .inr fun l hl ht => ?_
    have : l.source = exLen := by
      simp only [exTlv, List.mem_cons, List.not_mem_nil, or_false] at hl
      rcases hl with rfl | rfl | rfl | rfl | rfl | rfl | rfl <;> first | rfl | exact absurd ht (by decide)
    rw [this]
    refine ⟨by decide, fun n hn => ?_⟩
    simp only [names, List.append_nil, Expr.n, List.mem_cons, List.not_mem_nil, or_false, Bool.false_eq_true, if_false] at hn
    subst hn
    show Apart _ exLen
    unfold Apart
    decide
  · refine .inr fun l hl ht => ?_
    have : l.source = exTag := by
      simp only [exTlv, List.mem_cons, List.not_mem_nil, or_false] at hl
      rcases hl with rfl | rfl | rfl | rfl | rfl | rfl | rfl <;> first | rfl | exact absurd ht (by decide)
    rw [this]
    refine ⟨by decide, fun n hn => ?_⟩
    simp only [names, List.append_nil, Expr.n, List.mem_cons, List.not_mem_nil, or_false, Bool.false_eq_true, if_false] at hn
    subst hn
    show Apart _ exTag
    unfold Apart
    decide

/-- The hypotheses of `C59_roundtrip_partial` and `C59_parse_choice_partial`. -/
example : ∃ v n, exWorld.parse 4 nxOuter (Bitstring.fromBytes [1, 4, 1, 2, 7, 8, 9]) = .ok v ∧
    exWorld.bytestring v = .ok [1, 4, 1, 2, 7, 8] ∧ v.nested exVal = some n ∧ n.id = nxOuter ∧ exWorld.bytestring n = .ok [1, 2, 7, 8] :=
  renest_some exNestedVal

/-- The message after setting fields. -/
def nsets (W : World) (depth : Nat) : NVal → List (Field × Input) → NVal
  | v, [] => v
  | v, (f, x) :: r => nsets W depth (W.set depth v f x).1 r

theorem nsets_reach {W : World} {i : ID} {depth : Nat} : ∀ (fs : List (Field × Input)) (v : NVal), Reach W i v → Reach W i (nsets W depth v fs)
  | [], _, h => h
  | (f, x) :: fs, v, h => nsets_reach fs _ (Reach.set v depth f x h)

/-- The hypotheses of `C59_parse_choice_partial` for a field with and a field without nested message: the refinement is chosen by the condition. -/
example (v : NVal) (h : exWorld.parse 4 nxOuter (Bitstring.fromBytes [1, 4, 1, 2, 7, 8, 9]) = .ok v) (hv : (v.st.fv exVal).value ≠ none) :
    (Chosen exWorld exTlv nxOuter exVal v.st.mapping none ∧ v.nested exVal = none) ∨
    ∃ s n, Chosen exWorld exTlv nxOuter exVal v.st.mapping (some s) ∧ v.nested exVal = some n ∧ n.id = s :=
  C59_parse_choice_partial exWorld nxOuter exTlv exTlvRank _ exWorld_outer exTlv_well 4 _ v h exVal (by decide) rfl
    (fun r hr hf => hf ▸ exWorld_early r hr) hv

/-- Proof device: the value of the field after parsing. -/
def parsedSome (input : List Byte) : Bool :=
  match exWorld.parse 4 nxOuter (Bitstring.fromBytes input) with
  | .ok v => (v.st.fv exVal).value.isSome
  | .error _ => false

example : ∃ v, exWorld.parse 4 nxOuter (Bitstring.fromBytes [1, 2, 3, 2, 7]) = .ok v ∧ (v.st.fv exVal).value ≠ none := by
  have h : parsedSome [1, 2, 3, 2, 7] = true := by decide +kernel
  unfold parsedSome at h
  split at h
  · rename_i v hv
    exact ⟨v, hv, by cases hx : (v.st.fv exVal).value <;> simp_all⟩
  · cases h

/-- The hypotheses of `C59_choice_partial`: a new message has no refinement. -/
def choiceCheck : Bool :=
  match exWorld.new nxOuter with
  | .error _ => false
  | .ok v =>
    let v := nsets exWorld 4 v [(exTag, .int 1), (exLen, .int 4)]
    let r := exWorld.set 4 v exVal (.bytes [1, 2, 7, 8])
    (v.ref exVal).isNone && r.2.isNone && (r.1.nested exVal).isSome &&
      (match exWorld.get r.1 exVal with | .ok (.message _) => true | _ => false)

example : choiceCheck = true := by decide +kernel

/-- The hypotheses of `C59_get`. -/
example : ∃ v v' n, Reach exWorld nxOuter v ∧ v.ref exVal = none ∧ exWorld.set 4 v exVal (.bytes [1, 2, 7, 8]) = (v', none) ∧
    exWorld.get v' exVal = .ok (.message n) := by
  have h : choiceCheck = true := by decide +kernel
  unfold choiceCheck at h
  split at h
  · cases h
  · rename_i v hv
    simp only [Bool.and_eq_true] at h
    obtain ⟨⟨⟨h0, h1⟩, _⟩, h3⟩ := h
    split at h3
    · rename_i n hn
      exact ⟨_, _, n, nsets_reach _ _ (.new v hv), by simpa using h0, Prod.ext rfl (by simpa using h1), hn⟩
    · cases h3

/-- C59 is false for a nested message that is shorter than its field: the rest of the field is lost, the encoding is no prefix of the input, and
the length of the field does not match any more. -/
theorem C59_lossy_counterexample : renest nxMid exVal [2, 3, 9, 5] = some ([2, 3, 5], some (nxOuter, [3])) := by
  decide +kernel

/-- The fields that are set in `C59_stale_counterexample`. -/
def exStale : List (Field × Input) :=
  [(exTag, .int 1), (exLen, .int 4), (exVal, .bytes [1, 2, 7, 8]), (exLen, .int 1)]

/-- Proof device: the check of `C59_stale_counterexample`. -/
def staleCheck : Bool :=
  match exWorld.new nxOuter with
  | .error _ => false
  | .ok v =>
    let v := nsets exWorld 4 v exStale
    let r := exWorld.set 4 v exVal (.bytes [3])
    r.2.isNone && (r.1.nested exVal).isSome && (exTlv.holds v.st.mapping (.rel .eq (.var false false exLen) (.n 4)) matches .ok false)

/-- C59 is false for fields that were set before: when the condition does not hold any more, the bytes are still parsed as the message of the old
refinement. -/
theorem C59_stale_counterexample : ∃ v v' n, Reach exWorld nxOuter v ∧ exWorld.set 4 v exVal (.bytes [3]) = (v', none) ∧
    Chosen exWorld exTlv nxOuter exVal v.st.mapping none ∧ v'.nested exVal = some n := by
  have h : staleCheck = true := by decide +kernel
  unfold staleCheck at h
  split at h
  · cases h
  · rename_i v hv
    simp only [Bool.and_eq_true] at h
    obtain ⟨⟨h1, h2⟩, h3⟩ := h
    refine ⟨nsets exWorld 4 v exStale, (exWorld.set 4 (nsets exWorld 4 v exStale) exVal (.bytes [3])).1, _, nsets_reach _ _ (.new v hv), ?_, ?_,
      (Option.some_get h2).symm⟩
    · exact Prod.ext rfl (by simpa using h1)
    · intro r hr hf
      rw [exWorld_refs] at hr
      simp only [List.mem_cons, List.not_mem_nil, or_false] at hr
      rcases hr with rfl | rfl
      · simp only
        revert h3
        split
        · rename_i b hb; intro h3; exact hb
        · intro h3; cases h3
      · exact absurd hf (by decide)

theorem exAll_step (sub : Parser) (h : ∀ b, sub nxAll b = .error .fuel) (b : Bitstring) :
    ((exWorld.message nxAll).bind fun m => (exWorld.new nxAll).bind fun v => exWorld.parseIn sub m v b) = .error .fuel := by
  have hs : sub = fun i b => if i = nxAll then .error .fuel else sub i b := by
    funext i b
    split
    · rename_i hi; rw [hi, h]
    · rfl
  rw [hs]
  clear hs h
  with_unfolding_all rfl

/-- C59 is false for messages that contain themselves without end: parsing never ends with a message, whatever the limit of Python's recursion is. -/
theorem C59_recursion_counterexample (depth : Nat) (b : Bitstring) : exWorld.parse depth nxAll b = .error .fuel := by
  induction depth generalizing b with
  | zero => rfl
  | succ d ih => exact exAll_step _ ih b

end Verif.PyRFLX
