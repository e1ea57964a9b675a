import Verif.Export.Decls

/-! # The export of a model (C61)

Full claim: `rflx export` of any model that was created writes a document that describes the model completely: its
types, messages, refinements and sessions can be read back from the document.

The claim is false: sessions cannot be exported, the export ends with an `AttributeError`; the checksums of a message
and the message a message is derived from are not in the document. Proved: a model without sessions is exported, the
document describes all its types in their order, and two models with the same document have the same types, but for
checksums, derivations, the form of the expressions of bounds and sizes, and the flags for immutable variables. -/

namespace Verif.Export

open Verif Verif.Types

/-- A model without sessions is exported and the document describes it. -/
theorem C61_export_partial (m : Model) (hs : m.sessions = []) (hg : ∀ d ∈ m.types, GoodDecl d) :
    ∃ j, m.serialize = .ok j ∧ DescribesModel m j := by
  obtain ⟨ts, ht, dt⟩ := mapM_each (R := DescribesDecl) m.types (fun d hd => decl_json d (hg d hd))
  exact ⟨_, by simp only [Model.serialize, ht, hs, List.mapM_nil, bind, Except.bind, pure, Except.pure]; rfl,
    hasKind_tagged "Model" _, ⟨ts, by rw [part_tagged]; rfl, dt⟩, hs, by rw [part_tagged]; rfl⟩

/-- Two models that are described by the same document have the same types in the same order. -/
theorem C61_faithful_partial (m m' : Model) (hg : ∀ d ∈ m.types, GoodDecl d) (hg' : ∀ d ∈ m'.types, GoodDecl d)
    (j : Json) (h : DescribesModel m j) (h' : DescribesModel m' j) : Each SameDecl m.types m'.types := by
  obtain ⟨_, ⟨l, hl, dl⟩, _⟩ := h
  obtain ⟨_, ⟨l', hl', dl'⟩, _⟩ := h'
  rw [hl] at hl'; cases hl'
  exact each_unique _ _ l (fun a ha b hb j => decl_unique a b j (hg a ha) (hg' b hb)) dl dl'

/-- Two models with the same export have the same types in the same order. -/
theorem C61_injective_partial (m m' : Model) (hs : m.sessions = []) (hs' : m'.sessions = [])
    (hg : ∀ d ∈ m.types, GoodDecl d) (hg' : ∀ d ∈ m'.types, GoodDecl d)
    (h : m.serialize = m'.serialize) : Each SameDecl m.types m'.types := by
  obtain ⟨j, h1, d1⟩ := C61_export_partial m hs hg
  obtain ⟨j', h2, d2⟩ := C61_export_partial m' hs' hg'
  rw [h1, h2] at h; cases h
  exact C61_faithful_partial m m' hg hg' j d1 d2

/-! ## A model that is exported -/

/-- The identifier `P::n`. -/
private def pid (n : String) : ID := ⟨["P".toList, n.toList]⟩

/-- An identifier with one part. -/
private def sid (n : String) : ID := ⟨[n.toList]⟩

/-- `P::T` is `mod 2**8`, `P::R` is `range 1 .. 10 with Size => 4 + 4`, `P::E` is `(A => 1, B => 2) with Size => 8`,
`P::L` an array of `P::T`, `P::M` has the fields `F` of type `P::T` and `G` of type `P::E`, where `G` follows `F` only
if `F > 3`. -/
private def exTypes : List Decl :=
  [.opaque, .modular (pid "T") (.bin .pow (.num 2 .b0) (.num 8 .b0)),
    .range (pid "R") (.num 1 .b0) (.num 10 .b0) (.num 8 .b0) ⟨1, .b0⟩ ⟨10, .b0⟩,
    .enum (pid "E") [(sid "A", ⟨1, .b0⟩), (sid "B", ⟨2, .b16⟩)] (.num 8 .b0) false,
    .array (pid "L") (pid "T"),
    .message ⟨pid "M", [⟨sid "F", sid "Final", .rel .le (.v (sid "F")) (.n 3), .undefined, .undefined⟩,
      ⟨sid "F", sid "G", .rel .gt (.v (sid "F")) (.n 3), .undefined, .undefined⟩,
      ⟨sid "G", sid "Final", .tru, .undefined, .undefined⟩,
      ⟨sid "Initial", sid "F", .tru, .undefined, .undefined⟩], [(sid "F", pid "T"), (sid "G", pid "E")], [], none⟩,
    .refinement (pid "__REFINEMENT__P_M__P_M__F__") (pid "M") (sid "F") (pid "M") (.rel .eq (.v (sid "G")) (.v (sid "A")))]

private theorem exGood : ∀ d ∈ exTypes, GoodDecl d := by
  intro d hd
  simp only [exTypes, List.mem_cons, List.not_mem_nil, or_false] at hd
  rcases hd with rfl | rfl | rfl | rfl | rfl | rfl | rfl
  · trivial
  · trivial
  · exact ⟨⟨8, .b0⟩, rfl⟩
  · exact ⟨⟨by unfold GoodID; decide, by decide⟩, ⟨8, .b0⟩, rfl⟩
  · trivial
  · exact ⟨by unfold GoodID; decide, by decide⟩
  · exact ⟨by decide, by decide⟩

example : ∃ j, (⟨exTypes, []⟩ : Model).serialize = .ok j ∧ DescribesModel ⟨exTypes, []⟩ j :=
  C61_export_partial ⟨exTypes, []⟩ rfl exGood

/-- The bounds of a range can be given by other expressions without a change of the document. -/
example : (⟨[.range (pid "R") (.num 1 .b0) (.num 10 .b0) (.num 8 .b0) ⟨1, .b0⟩ ⟨10, .b0⟩], []⟩ : Model).serialize =
    (⟨[.range (pid "R") (.bin .sub (.n 2) (.n 1)) (.num 10 .b0) (.num 8 .b0) ⟨1, .b0⟩ ⟨10, .b0⟩], []⟩ : Model).serialize :=
  rfl

/-! ## What is not exported -/

theorem attrs_value (k : PyStr) (v : Val) (r) (h : excluded.contains k = false) :
    Val.serializeAttrs ((k, v) :: r) = (do
      let j ← valueOf v
      let d ← Val.serializeAttrs r
      return (k, j) :: d) := by
  cases v with
  | list l =>
    simp only [Val.serializeAttrs, h, valueOf]
    cases Val.serializeList l <;> rfl
  | _ => simp only [Val.serializeAttrs, h, valueOf] <;> rfl

mutual

theorem error_kind : ∀ (v : Val) (e : PyErr), v.serialize = .error e → e = .attributeError
  | .obj c as, e, h => by
    rw [Val.serialize] at h
    cases ha : Val.serializeAttrs as with
    | error e' => rw [ha] at h; cases h; exact error_kind_attrs as e ha
    | ok d => rw [ha] at h; cases h
  | .id _, e, h => by rw [Val.serialize] at h; cases h
  | .none, e, h => by cases h; rfl
  | .bool _, e, h => by cases h; rfl
  | .int _, e, h => by cases h; rfl
  | .str _, e, h => by cases h; rfl
  | .list _, e, h => by cases h; rfl
  | .dict _ _, e, h => by cases h; rfl
  | .other, e, h => by cases h; rfl

theorem error_kind_list : ∀ (l : List Val) (e : PyErr), Val.serializeList l = .error e → e = .attributeError
  | [], e, h => by cases h
  | v :: l, e, h => by
    rw [Val.serializeList] at h
    cases hv : v.serialize with
    | error e' => rw [hv] at h; cases h; exact error_kind v e hv
    | ok j =>
      rw [hv] at h
      cases hl : Val.serializeList l with
      | error e' => simp only [hl, bind, Except.bind] at h; cases h; exact error_kind_list l e hl
      | ok js => simp only [hl, bind, Except.bind] at h; cases h

theorem error_kind_attrs : ∀ (l : List (PyStr × Val)) (e : PyErr), Val.serializeAttrs l = .error e → e = .attributeError
  | [], e, h => by cases h
  | (k, v) :: r, e, h => by
    have hr : ∀ e, Val.serializeAttrs r = .error e → e = .attributeError := fun e => error_kind_attrs r e
    by_cases hk : excluded.contains k = true
    · rw [attrs_skip k v r hk] at h; exact hr e h
    · have hk : excluded.contains k = false := by simpa using hk
      rw [attrs_value k v r hk] at h
      cases hv : valueOf v with
      | ok j =>
        rw [hv] at h
        cases hd : Val.serializeAttrs r with
        | ok d => rw [hd] at h; cases h
        | error e' => rw [hd] at h; cases h; exact hr e hd
      | error e' =>
        rw [hv] at h; cases h
        cases v with
        | list l =>
          cases hl : Val.serializeList l with
          | ok js => simp only [valueOf, hl] at hv; cases hv
          | error e' => simp only [valueOf, hl] at hv; cases hv; exact error_kind_list l e hl
        | bool _ => cases hv
        | int _ => cases hv
        | str _ => cases hv
        | none => exact error_kind .none e hv
        | id i => cases hv
        | dict _ _ => cases hv; rfl
        | other => cases hv; rfl
        | obj c as => exact error_kind (.obj c as) e hv

end

theorem attrs_dict (a b : List (PyStr × Val)) (k : PyStr) (ks : List ID) (vs : List Val)
    (hk : excluded.contains k = false) : ∃ e, Val.serializeAttrs (a ++ (k, .dict ks vs) :: b) = .error e := by
  induction a with
  | nil => exact ⟨.attributeError, by rw [List.nil_append, attrs_value _ _ _ hk]; rfl⟩
  | cons x a ih =>
    obtain ⟨e, h⟩ := ih
    obtain ⟨k', v⟩ := x
    rw [List.cons_append]
    by_cases hx : excluded.contains k' = true
    · exact ⟨e, by rw [attrs_skip _ _ _ hx, h]⟩
    · have hx : excluded.contains k' = false := by simpa using hx
      rw [attrs_value _ _ _ hx, h]
      cases valueOf v <;> exact ⟨_, rfl⟩

/-- A session cannot be exported: its declarations are a dictionary, which has no attribute `serialize`. -/
theorem session_error (s : Session) : s.toVal.serialize = .error .attributeError := by
  have h : ∃ e, s.toVal.serialize = .error e := by
    obtain ⟨e, h⟩ := attrs_dict [("identifier".toList, .id s.id), ("initial".toList, .id s.initial),
      ("final".toList, .id s.final), ("states".toList, .list s.states)]
      [("parameters".toList, .dict (s.parameters.map (·.1)) (s.parameters.map (·.2))),
      ("types".toList, .dict (s.types.map (·.1)) (s.types.map (·.2))), ("location".toList, .none), ("error".toList, .other)]
      "declarations".toList (s.declarations.map (·.1)) (s.declarations.map (·.2)) (by decide)
    refine ⟨e, ?_⟩
    rw [Session.toVal, Val.serialize]
    exact congrArg (fun x => x >>= fun d => pure (tagged "Session".toList d)) h
  obtain ⟨e, h⟩ := h
  rw [h, error_kind _ _ h]

/-- The full claim fails for sessions: every model with a session raises an `AttributeError` on export. -/
theorem C61_session_counterexample (m : Model) (hs : m.sessions ≠ []) (hg : ∀ d ∈ m.types, GoodDecl d) :
    m.serialize = .error .attributeError := by
  obtain ⟨ts, ht, _⟩ := mapM_each (R := DescribesDecl) m.types (fun d hd => decl_json d (hg d hd))
  cases hm : m.sessions with
  | nil => exact absurd hm hs
  | cons s ss => simp only [Model.serialize, ht, hm, List.mapM_cons, session_error, bind, Except.bind]

/-- A session with one state, no declarations. -/
example : (⟨[], [⟨pid "S", sid "A", sid "A", [], [], [], []⟩]⟩ : Model).serialize = .error .attributeError :=
  C61_session_counterexample _ (by simp) (by simp)

/-- The full claim fails for checksums: two messages that differ in their checksums have the same export. -/
theorem C61_checksum_counterexample (m : Message) (cs : List (ID × List Expr)) :
    (Decl.message m).serialize = (Decl.message { m with checksums := cs }).serialize := rfl

/-- The full claim fails for derived messages: the base of a derived message is not exported. -/
theorem C61_derived_counterexample (m : Message) (b : Option ID) :
    (Decl.message m).serialize = (Decl.message { m with base := b }).serialize := rfl

end Verif.Export
