import Verif.Units.Fit

/-! # Examples and counterexamples for C57 -/

namespace Verif.Units
open Verif Spec

/-! ## A model that fulfils all conditions -/

/-- `P::N`. -/
def pid (p n : String) : ID := ⟨[p.toList, n.toList]⟩

def exPrefix : List PyStr := ["RFLX".toList]

/-- A scalar array and an array of messages, used in the message `Outer` (twice in the case of the scalar array). -/
def exInner : Message := ⟨pid "Base" "Inner", [.scalar (pid "Base" "Tag")], none⟩
def exOuter : Message := ⟨pid "Proto" "Outer", [.scalar (pid "Base" "Tag"), .array (pid "Proto" "Tags") (.scalar (pid "Base" "Tag")), .opaque,
  .array (pid "Proto" "Inners") (.message (pid "Base" "Inner")), .array (pid "Proto" "Tags") (.scalar (pid "Base" "Tag")),
  .scalar (pid "__BUILTINS__" "Boolean")], none⟩
def exDerived : Message := ⟨pid "App" "Derived", exOuter.types, some (pid "Proto" "Outer")⟩
def exNull : Message := ⟨pid "App" "Nothing", [], none⟩

/-- Refinements of `App`: of the derived message and of the original one. -/
def exR1 : Refinement := ⟨⟨["App".toList]⟩, exDerived, exInner, [pid "Base" "Lit"]⟩
def exR2 : Refinement := ⟨⟨["App".toList]⟩, exOuter, exNull, []⟩
def exR3 : Refinement := ⟨⟨["App".toList]⟩, exOuter, exInner, [⟨["Tag".toList]⟩]⟩

def exModel : List Decl :=
  [.scalar (pid "__BUILTINS__" "Boolean"), .opaque, .scalar (pid "Base" "Tag"), .message exInner, .array (pid "Proto" "Tags") (.scalar (pid "Base" "Tag")),
    .array (pid "Proto" "Inners") (.message (pid "Base" "Inner")), .message exOuter, .message exDerived, .message exNull, .refinement exR1,
    .refinement exR2, .refinement exR3]

theorem ex_distinct : Distinct exModel where
  shape := by
    intro t ht
    simp only [exModel, List.mem_cons, List.not_mem_nil, or_false] at ht
    rcases ht with rfl | rfl | rfl | rfl | rfl | rfl | rfl | rfl | rfl | rfl | rfl | rfl <;>
      refine ⟨?_, ?_, ?_⟩ <;> intro x hx <;> cases hx <;> rfl
  names := by decide
  generic := by
    intro t ht id h
    have hm : id ∈ exModel.filterMap unitId := List.mem_filterMap.mpr ⟨t, ht, h⟩
    clear h
    revert id
    decide
  contains := by
    intro t ht id h r hr
    have hm : id ∈ exModel.filterMap unitId := List.mem_filterMap.mpr ⟨t, ht, h⟩
    have hp : nm r.package = [low "App".toList] := by
      simp only [exModel, List.mem_cons, List.not_mem_nil, or_false, reduceCtorEq, false_or, Decl.refinement.injEq] at hr
      rcases hr with rfl | rfl | rfl <;> rfl
    rw [hp]
    clear h
    revert id
    decide

theorem ex_live {t : Decl} (h : t ∈ exModel) (hp : predefined t.package = false) : Live exModel t := (live_iff _ _).mpr ⟨h, hp⟩

theorem ex_complete : Complete exModel where
  scalars := by
    intro m hm id hid
    simp only [exModel, List.mem_cons, List.not_mem_nil, or_false, reduceCtorEq, false_or, Decl.message.injEq] at hm
    rcases hm with rfl | rfl | rfl | rfl
    · simp only [exInner, List.mem_cons, List.not_mem_nil, or_false, FieldType.scalar.injEq] at hid
      subst hid
      exact .inl ⟨rfl, ex_live (by simp [exModel]) (by decide)⟩
    · simp only [exOuter, List.mem_cons, List.not_mem_nil, or_false, reduceCtorEq, false_or, FieldType.scalar.injEq] at hid
      rcases hid with rfl | rfl
      · exact .inl ⟨rfl, ex_live (by simp [exModel]) (by decide)⟩
      · exact .inr (by decide)
    · simp only [exDerived, exOuter, List.mem_cons, List.not_mem_nil, or_false, reduceCtorEq, false_or, FieldType.scalar.injEq] at hid
      rcases hid with rfl | rfl
      · exact .inl ⟨rfl, ex_live (by simp [exModel]) (by decide)⟩
      · exact .inr (by decide)
    · simp [exNull] at hid
  arrays := by
    intro m hm id e hid
    simp only [exModel, List.mem_cons, List.not_mem_nil, or_false, reduceCtorEq, false_or, Decl.message.injEq] at hm
    rcases hm with rfl | rfl | rfl | rfl <;>
      simp only [IsArray, exInner, exOuter, exDerived, exNull, List.mem_cons, List.not_mem_nil, or_false, reduceCtorEq, false_or, FieldType.array.injEq] at hid
    · rcases hid with ⟨rfl, rfl⟩ | ⟨rfl, rfl⟩ | ⟨rfl, rfl⟩ <;> exact ex_live (by simp [exModel]) (by decide)
    · rcases hid with ⟨rfl, rfl⟩ | ⟨rfl, rfl⟩ | ⟨rfl, rfl⟩ <;> exact ex_live (by simp [exModel]) (by decide)
  scalarElements := by
    intro id e h
    simp only [exModel, List.mem_cons, List.not_mem_nil, or_false, reduceCtorEq, false_or, Decl.array.injEq, Element.scalar.injEq, and_false] at h
    obtain ⟨_, rfl⟩ := h
    exact ⟨rfl, ex_live (by simp [exModel]) (by decide)⟩
  messageElements := by
    intro id e h
    simp only [exModel, List.mem_cons, List.not_mem_nil, or_false, reduceCtorEq, false_or, Decl.array.injEq, Element.message.injEq, and_false] at h
    obtain ⟨_, rfl⟩ := h
    exact ⟨exInner, ex_live (by simp [exModel]) (by decide), rfl, by simp [exInner]⟩
  bases := by
    intro m hm b hb
    simp only [exModel, List.mem_cons, List.not_mem_nil, or_false, reduceCtorEq, false_or, Decl.message.injEq] at hm
    rcases hm with rfl | rfl | rfl | rfl <;> cases hb
    exact ⟨by simp [exDerived, exOuter], exOuter, ex_live (by simp [exModel]) (by decide), rfl, rfl, rfl⟩
  pdus := by
    intro r hr
    simp only [exModel, List.mem_cons, List.not_mem_nil, or_false, reduceCtorEq, false_or, Decl.refinement.injEq] at hr
    rcases hr with rfl | rfl | rfl
    · exact ⟨ex_live (by simp [exModel, exR1]) (by decide), by simp [exR1, exDerived, exOuter]⟩
    · exact ⟨ex_live (by simp [exModel, exR2]) (by decide), by simp [exR2, exOuter]⟩
    · exact ⟨ex_live (by simp [exModel, exR3]) (by decide), by simp [exR3, exOuter]⟩
  sdus := by
    intro r hr
    simp only [exModel, List.mem_cons, List.not_mem_nil, or_false, reduceCtorEq, false_or, Decl.refinement.injEq] at hr
    rcases hr with rfl | rfl | rfl
    · exact ex_live (by simp [exModel, exR1]) (by decide)
    · exact ex_live (by simp [exModel, exR2]) (by decide)
    · exact ex_live (by simp [exModel, exR3]) (by decide)
  literals := by
    intro r hr v hv hl
    simp only [exModel, List.mem_cons, List.not_mem_nil, or_false, reduceCtorEq, false_or, Decl.refinement.injEq] at hr
    rcases hr with rfl | rfl | rfl
    · simp only [exR1, List.mem_singleton] at hv
      subst hv
      exact ⟨.message exInner, ex_live (by simp [exModel]) (by decide), by decide⟩
    · simp [exR2] at hv
    · simp only [exR3, List.mem_singleton] at hv
      subst hv
      simp at hl

theorem ex_unambiguous : Unambiguous exModel where
  sequences := by
    intro m hm a ea b eb ha hb h
    simp only [exModel, List.mem_cons, List.not_mem_nil, or_false, reduceCtorEq, false_or, Decl.message.injEq] at hm
    rcases hm with rfl | rfl | rfl | rfl <;>
      simp only [IsArray, exInner, exOuter, exDerived, exNull, List.mem_cons, List.not_mem_nil, or_false, reduceCtorEq, false_or, FieldType.array.injEq]
        at ha hb <;>
      rcases ha with ⟨rfl, rfl⟩ | ⟨rfl, rfl⟩ | ⟨rfl, rfl⟩ <;> rcases hb with ⟨rfl, rfl⟩ | ⟨rfl, rfl⟩ | ⟨rfl, rfl⟩ <;> revert h <;> decide
  flat := by
    have key : ∀ r m, .refinement r ∈ exModel → Involved r m → m = exDerived ∨ m = exInner ∨ m = exOuter := by
      intro r m hr hm
      simp only [exModel, List.mem_cons, List.not_mem_nil, or_false, reduceCtorEq, false_or, Decl.refinement.injEq] at hr
      rcases hr with rfl | rfl | rfl <;> rcases hm with rfl | ⟨rfl, h⟩ <;> simp [exR1, exR2, exR3] at *
      simp [exNull] at h
    intro r s hr hs _ a b ha hb h
    rcases key r a hr ha with rfl | rfl | rfl <;> rcases key s b hs hb with rfl | rfl | rfl <;> revert h <;> decide

theorem ex_words : Words exModel := by
  intro t ht
  simp only [exModel, List.mem_cons, List.not_mem_nil, or_false] at ht
  rcases ht with rfl | rfl | rfl | rfl | rfl | rfl | rfl | rfl | rfl | rfl | rfl | rfl <;>
    refine ⟨?_, ?_, ?_⟩ <;> intro x hx <;> cases hx <;> simp only [Word] <;> decide

theorem ex_separate : Separate exModel := by
  intro t ht
  simp only [exModel, List.mem_cons, List.not_mem_nil, or_false] at ht
  rcases ht with rfl | rfl | rfl | rfl | rfl | rfl | rfl | rfl | rfl | rfl | rfl | rfl <;> decide

/-- The units of the example. -/
def exUnits : Dict := match generate exPrefix [] exModel with
  | .ok d => d
  | .error _ => []

theorem ex_generate : generate exPrefix [] exModel = .ok exUnits := rfl

/-- The files of the example. -/
example : (files exPrefix exUnits true).map String.ofList =
    ["rflx-base", "rflx-base-generic_inner", "rflx-base-inner", "rflx-proto", "rflx-proto-tags", "rflx-proto-inners", "rflx-proto-generic_outer",
      "rflx-proto-outer", "rflx-app", "rflx-app-derived", "rflx-app-generic_contains", "rflx-app-contains", "rflx-rflx_arithmetic",
      "rflx-rflx_builtin_types-conversions", "rflx-rflx_builtin_types", "rflx-rflx_generic_types", "rflx-rflx_message_sequence",
      "rflx-rflx_scalar_sequence", "rflx-rflx_types", "rflx"] := by decide +kernel

example : ∃ d, generate exPrefix [] exModel = .ok d ∧ (d.map fun e => nm e.2.id).Nodup ∧
    ∀ n, (∃ e ∈ d, nm e.2.id = n) ↔ ∃ w, Wanted exModel w ∧ n = lows exPrefix ++ w := C57_units_partial _ _ ex_distinct

theorem ex_prefix_words : ∀ p ∈ exPrefix, Word p := by
  intro p hp
  rw [exPrefix, List.mem_singleton] at hp
  subst hp
  simp only [Word]
  decide

example : (files exPrefix exUnits true).Nodup :=
  C57_files_partial _ _ _ _ ex_distinct ex_separate ex_words ex_prefix_words ex_generate

example : ∀ e ∈ exUnits, ∀ w ∈ e.2.withs, Exists exPrefix exUnits (nm w) := C57_closed_partial _ _ _ ex_distinct ex_complete ex_generate

example : ∀ e ∈ exUnits, ∀ p n, nm e.2.id = lows exPrefix ++ [p, n] → ∃ e' ∈ exUnits, nm e'.2.id = lows exPrefix ++ [p] ∧ e'.2.kind = .package none :=
  C57_parents _ _ _ ex_distinct ex_generate

example (h : List PyStr → Int) : ∀ e ∈ exUnits, ∀ g as, e.2.kind = .instance g as → Fits h exPrefix exUnits g as :=
  C57_instances_partial h _ _ _ ex_distinct ex_complete ex_unambiguous ex_words ex_generate

example := C57_arrays exPrefix exModel exUnits ex_distinct ex_complete ex_generate (pid "Proto" "Inners") (.message (pid "Base" "Inner"))
  (ex_live (by simp [exModel]) (by decide))

example (h : List PyStr → Int) := C57_messages h exPrefix exModel exUnits ex_distinct ex_complete ex_generate exOuter
  (ex_live (by simp [exModel]) (by decide)) (by simp [exOuter])

example (h : List PyStr → Int) := C57_refinements h exPrefix exModel exUnits ex_distinct ex_complete ex_words ex_generate exR1
  (ex_live (by simp [exModel]) (by decide))

/-! ## Counterexamples -/

/-- The names of the units, the number of formal parameters as printed (with a constant hash function) and of actual parameters. -/
def Dict.overview (d : Dict) : List (String × Option Nat × Option Nat) := d.map fun e =>
  (String.ofList (dotted e.2.id.parts), (e.2.kind.printed fun _ => 0).map List.length, match e.2.kind with
    | .instance _ as => some as.length
    | _ => none)

/-- What is generated for a model. -/
def overview (ds : List Decl) : Option (List (String × Option Nat × Option Nat)) := match generate exPrefix [] ds with
  | .ok d => some d.overview
  | .error _ => none

/-- The `with` clauses of a unit. -/
def withsOf (ds : List Decl) (n : String) : List String := match generate exPrefix [] ds with
  | .ok d => (d.filter fun e => dotted e.2.id.parts == n.toList).flatMap fun e => e.2.withs.map fun w => String.ofList (dotted w.parts)
  | .error _ => []

def scalarMessage (n : ID) : Message := ⟨n, [.scalar (pid "P" "T")], none⟩

/-- A message `Generic_M` beside a message `M`: the instance of `Generic_M` replaces the generic package of `M`. -/
theorem C57_generic_counterexample : overview [.scalar (pid "P" "T"), .message (scalarMessage (pid "P" "M")), .message (scalarMessage (pid "P" "Generic_M"))] =
    some [("RFLX.P", none, none), ("RFLX.P.Generic_M", none, some 1), ("RFLX.P.M", none, some 1), ("RFLX.P.Generic_Generic_M", some 1, none)] := by
  decide +kernel

/-- A message `Contains` beside a refinement: the message gets the messages of the refinement as parameters, and there is no `Contains` package of its own
for the refinement. -/
theorem C57_contains_counterexample :
    overview [.scalar (pid "P" "T"), .message (scalarMessage (pid "P" "Contains")), .message (scalarMessage (pid "P" "M")),
      .refinement ⟨⟨["P".toList]⟩, scalarMessage (pid "P" "M"), scalarMessage (pid "P" "M"), []⟩] =
    some [("RFLX.P", none, none), ("RFLX.P.Generic_Contains", some 2, none), ("RFLX.P.Contains", none, some 2), ("RFLX.P.Generic_M", some 1, none),
      ("RFLX.P.M", none, some 1)] ∧
    -- if the message comes last, its packages replace the ones of the refinement
    overview [.scalar (pid "P" "T"), .message (scalarMessage (pid "P" "M")),
      .refinement ⟨⟨["P".toList]⟩, scalarMessage (pid "P" "M"), scalarMessage (pid "P" "M"), []⟩, .message (scalarMessage (pid "P" "Contains"))] =
    some [("RFLX.P", none, none), ("RFLX.P.Generic_M", some 1, none), ("RFLX.P.M", none, some 1), ("RFLX.P.Generic_Contains", some 1, none),
      ("RFLX.P.Contains", none, some 1)] := by
  decide +kernel

/-- An array `Generic_Contains` beside a refinement: with the empty prefix, the assertion on the kind of the unit fails; with a prefix, two units have the
same name. -/
theorem C57_assertion_counterexample :
    let ds : List Decl := [.scalar (pid "P" "T"), .array (pid "P" "Generic_Contains") (.scalar (pid "P" "T")), .message (scalarMessage (pid "P" "M")),
      .refinement ⟨⟨["P".toList]⟩, scalarMessage (pid "P" "M"), scalarMessage (pid "P" "M"), []⟩]
    (generate [] [] ds matches .error .assertion) = true ∧
    overview ds = some [("RFLX.P", none, none), ("RFLX.P.Generic_Contains", none, some 6), ("RFLX.P.Generic_M", some 1, none), ("RFLX.P.M", none, some 1),
      ("RFLX.P.Generic_Contains", some 2, none), ("RFLX.P.Contains", none, some 2)] := by
  decide +kernel

/-- A package `Rflx_Types`, which `check_naming` does not refuse: the file of the package is the file of `RFLX_Types`. -/
theorem C57_library_counterexample : ∃ d, generate exPrefix [] [.scalar (pid "Rflx_Types" "T")] = .ok d ∧
    ((files exPrefix d true).filter (· == "rflx-rflx_types".toList)).length = 2 := ⟨_, rfl, by decide +kernel⟩

/-- A message derived from a null message: its instance needs a generic package that is not generated. -/
theorem C57_null_counterexample :
    overview [.message ⟨pid "P" "N", [], none⟩, .message ⟨pid "P" "D", [], some (pid "P" "N")⟩] = some [("RFLX.P", none, none), ("RFLX.P.D", none, some 1)] ∧
    withsOf [.message ⟨pid "P" "N", [], none⟩, .message ⟨pid "P" "D", [], some (pid "P" "N")⟩] "RFLX.P.D" = ["RFLX.P.Generic_N", "RFLX.RFLX_Types"] := by
  decide +kernel

/-- Arrays of the same name from two packages as types of the fields of a message: the generic package has two parameters, its instance has three. -/
theorem C57_array_counterexample :
    overview [.scalar (pid "P" "T"), .array (pid "P" "A") (.scalar (pid "P" "T")), .array (pid "Q" "A") (.scalar (pid "P" "T")),
      .message ⟨pid "Q" "M", [.array (pid "P" "A") (.scalar (pid "P" "T")), .array (pid "Q" "A") (.scalar (pid "P" "T"))], none⟩] =
    some [("RFLX.P", none, none), ("RFLX.P.A", none, some 6), ("RFLX.Q", none, none), ("RFLX.Q.A", none, some 6), ("RFLX.Q.Generic_M", some 2, none),
      ("RFLX.Q.M", none, some 3)] := by decide +kernel

/-- Messages `P::Q_M` and `P_Q::M` in refinements of a package: two formal packages are named `P_Q_M`. -/
theorem C57_flat_counterexample :
    ((refinementFormals exPrefix ⟨⟨["P".toList]⟩, scalarMessage (pid "P" "Q_M"), scalarMessage (pid "P_Q" "M"), []⟩).map fun f =>
      (String.ofList (dotted f.id.parts), String.ofList (dotted f.generic.parts))) =
    [("P_Q_M", "RFLX.P.Generic_Q_M"), ("P_Q_M", "RFLX.P_Q.Generic_M")] := by decide +kernel

end Verif.Units
