import Verif.Generator.FieldNames

/-! # C80: names of the declarations for fields of messages -/

namespace Verif.Generator.FieldNames
open Verif

/-! ## Specification -/

/-- A name in lower case. -/
abbrev low (s : PyStr) : PyStr := s.map Char.toLower

/-- Two declarations of a package are not allowed together (Ada RM 8.3): they have the same name without regard to letter case, and one of them is generic
(and therefore not overloadable) or both have the same parameter types and the same result type. -/
def Clash (a b : Sub) : Prop :=
  low a.name = low b.name ∧ (a.isGeneric = true ∨ b.isGeneric = true ∨ a.parameters.map low = b.parameters.map low ∧ a.result.map low = b.result.map low)

/-- What models ensure: fields have different names, and none is called `Initial` or `Final` (reserved words, `rflx/specification/const.py:75-76`). -/
structure Checked (fs : List Field) : Prop where
  different : fs.Pairwise fun f g => low f.name ≠ low g.name
  notInitial : ∀ f ∈ fs, low f.name ≠ txt "initial"
  notFinal : ∀ f ∈ fs, low f.name ≠ txt "final"

/-- A field with an array type or an opaque field. -/
def Composite (f : Field) : Prop := ∀ a b, f.kind ≠ .scalar a b

/-! ## Lemmas -/

/-- What stands before the name of a field. -/
def before : Part → PyStr
  | .enumerator => txt "F_"
  | .scalarGetter | .compositeGetter => txt "Get_"
  | .scalarSetter | .emptySetter | .arraySetter | .opaqueSetter => txt "Set_"
  | .genericSetter => txt "Generic_Set_"
  | .initializer => txt "Initialize_"
  | .switch => txt "Switch_To_"
  | .complete => txt "Complete_"
  | .update => txt "Update_"

/-- What stands after the name of a field. -/
def after : Part → PyStr
  | .emptySetter => txt "_Empty"
  | _ => []

theorem create_name {p : Part} {f : Field} {x : Sub} (h : p.create f = some x) : x.name = before p ++ (f.name ++ after p) := by
  obtain ⟨n, k, e⟩ := f
  cases p <;> cases k <;> cases e <;> first
    | (obtain rfl := Option.some.inj h; exact congrArg (_ ++ ·) (List.append_nil n).symm)
    | (obtain rfl := Option.some.inj h; rfl)
    | exact (Option.some_ne_none x (Eq.symm h)).elim

theorem create_low {p : Part} {f : Field} {x : Sub} (h : p.create f = some x) : low x.name = low (before p) ++ (low f.name ++ low (after p)) := by
  rw [create_name h, low, List.map_append, List.map_append]

theorem starts {p : Part} {f : Field} {x : Sub} (h : p.create f = some x) : low (before p) <+: low x.name := ⟨_, (create_low h).symm⟩

/-- Names with different beginnings are different. -/
theorem far {a b s t : PyStr} (h : ¬ a <+: b ∧ ¬ b <+: a) (hs : a <+: s) (ht : b <+: t) : s ≠ t := by
  rintro rfl
  rcases List.prefix_or_prefix_of_prefix hs ht with h' | h'
  · exact h.1 h'
  · exact h.2 h'

/-- The only generic declarations. -/
theorem generic_part {p : Part} {f : Field} {x : Sub} (h : p.create f = some x) (hg : x.isGeneric = true) : p = .compositeGetter ∨ p = .genericSetter := by
  cases p <;>
    simp only [Part.create, enumerator, scalarGetter, compositeGetter, scalarSetter, emptySetter, arraySetter, opaqueSetter, genericSetter, initializer,
      switch, complete, update] at h <;>
    (try split at h) <;> first | (simp only [Option.some.injEq] at h; subst h; simp at hg ⊢) | simp at h

/-- The number of parameters. -/
def arity : Part → Nat
  | .enumerator => 0
  | .scalarGetter | .compositeGetter | .emptySetter | .genericSetter | .initializer => 1
  | _ => 2

theorem create_arity {p : Part} {f : Field} {x : Sub} (h : p.create f = some x) : x.parameters.length = arity p := by
  cases p <;>
    simp only [Part.create, enumerator, scalarGetter, compositeGetter, scalarSetter, emptySetter, arraySetter, opaqueSetter, genericSetter, initializer,
      switch, complete, update] at h <;>
    (try split at h) <;> first | (simp only [Option.some.injEq] at h; subst h; rfl) | simp at h

/-- Declarations that are not generic and have different numbers of parameters. -/
theorem overload {x y : Sub} (hx : x.isGeneric = false) (hy : y.isGeneric = false) (h : x.parameters.length ≠ y.parameters.length) : ¬ Clash x y := by
  rintro ⟨_, h' | h' | h'⟩
  · rw [hx] at h'; exact nomatch h'
  · rw [hy] at h'; exact nomatch h'
  · have := congrArg List.length h'.1
    simp only [List.length_map] at this
    exact h this

theorem plain {p : Part} {f : Field} {x : Sub} (h : p.create f = some x) (h1 : p ≠ .compositeGetter) (h2 : p ≠ .genericSetter) : x.isGeneric = false := by
  cases hg : x.isGeneric with
  | false => rfl
  | true => rcases generic_part h hg with e | e
            · exact absurd e h1
            · exact absurd e h2

theorem same_field {fs : List Field} (hd : fs.Pairwise fun f g => low f.name ≠ low g.name) : ∀ {f g}, f ∈ fs → g ∈ fs → low f.name = low g.name → f = g := by
  induction fs with
  | nil => intro f g hf; simp at hf
  | cons a fs ih =>
    intro f g hf hg he
    rw [List.pairwise_cons] at hd
    rcases List.mem_cons.1 hf with rfl | hf <;> rcases List.mem_cons.1 hg with rfl | hg
    · rfl
    · exact absurd he (hd.1 _ (by assumption))
    · exact absurd he.symm (hd.1 _ (by assumption))
    · exact ih hd.2 hf hg he

/-- Declarations of different parts do not clash. -/
theorem cross_parts {fs : List Field} (hd : fs.Pairwise fun f g => low f.name ≠ low g.name) {p q : Part} (hne : p ≠ q) {f g : Field} (hf : f ∈ fs)
    (hg : g ∈ fs) {x y : Sub} (hx : p.create f = some x) (hy : q.create g = some y) : ¬ Clash x y := by
  -- parts for the same name of the same field exclude each other
  have excl : before p = before q → after p = [] → after q = [] → (∀ h, ((p.create h).isSome && (q.create h).isSome) = false) → ¬ Clash x y := by
    intro hb ha ha' hs hc
    have h := hc.1
    rw [create_low hx, create_low hy, hb, ha, ha'] at h
    have h := List.append_cancel_right (List.append_cancel_left h)
    have e := same_field hd hf hg h
    subst e
    have := hs f
    rw [hx, hy] at this
    exact nomatch this
  have apart : (¬ low (before p) <+: low (before q) ∧ ¬ low (before q) <+: low (before p)) → ¬ Clash x y :=
    fun h hc => far h (starts hx) (starts hy) hc.1
  have count : p ≠ .compositeGetter → p ≠ .genericSetter → q ≠ .compositeGetter → q ≠ .genericSetter → arity p ≠ arity q → ¬ Clash x y := by
    intro h1 h2 h3 h4 h
    exact overload (plain hx h1 h2) (plain hy h3 h4) (by rw [create_arity hx, create_arity hy]; exact h)
  cases p <;> cases q <;> first
    | exact absurd rfl hne
    | exact apart (by decide)
    | exact count (by decide) (by decide) (by decide) (by decide) (by decide)
    | (refine excl rfl rfl rfl fun h => ?_
       obtain ⟨n, k, e⟩ := h
       cases k <;> rfl)

/-- Declarations of one part do not clash. -/
theorem within_part {fs : List Field} (hd : fs.Pairwise fun f g => low f.name ≠ low g.name) (p : Part) :
    (fs.filterMap p.create).Pairwise fun x y => ¬ Clash x y := by
  rw [List.pairwise_filterMap]
  refine hd.imp ?_
  intro f g h x hx y hy hc
  have e := hc.1
  rw [create_low hx, create_low hy] at e
  exact h (List.append_cancel_right (List.append_cancel_left e))

/-- Declarations for fields do not clash with those of every package. -/
theorem internal_field {fs : List Field} (hc : Checked fs) (hv : ∀ f ∈ fs, Composite f → low f.name ≠ txt "field_value") {i : Sub} (hi : i ∈ internals)
    {p : Part} {f : Field} (hf : f ∈ fs) {x : Sub} (hx : p.create f = some x) : ¬ Clash i x := by
  have apart : ¬ low (before p) <+: low i.name → ¬ Clash i x := fun h hc => h (hc.1 ▸ starts hx)
  have named : ∀ n : PyStr, low i.name = low (before p) ++ n → after p = [] → low f.name ≠ n → ¬ Clash i x := by
    intro n h ha hn hc
    have e := hc.1
    rw [create_low hx, h, ha] at e
    have e := List.append_cancel_left e
    simp at e
    exact hn e.symm
  have count : i.isGeneric = false → p ≠ .compositeGetter → p ≠ .genericSetter → i.parameters.length ≠ arity p → ¬ Clash i x := by
    intro h0 h1 h2 h
    exact overload h0 (plain hx h1 h2) (by rw [create_arity hx]; exact h)
  simp only [internals, List.mem_cons, List.not_mem_nil, or_false] at hi
  rcases hi with rfl | rfl | rfl | rfl
  · cases p <;> first
      | exact apart (by decide)
      | exact named (txt "initial") (by decide) rfl (hc.notInitial f hf)
  · cases p <;> first
      | exact apart (by decide)
      | exact named (txt "final") (by decide) rfl (hc.notFinal f hf)
  · cases p <;> first
      | exact apart (by decide)
      | exact count rfl (by decide) (by decide) (by decide)
      | (refine named (txt "field_value") (by decide) rfl (hv f hf ?_)
         intro a b hk
         simp [Part.create, compositeGetter, hk] at hx)
  · cases p <;> first
      | exact apart (by decide)
      | exact count rfl (by decide) (by decide) (by decide)

theorem mem_fieldDeclarations {fs : List Field} {x : Sub} : x ∈ fieldDeclarations fs ↔ ∃ p ∈ parts, ∃ f ∈ fs, p.create f = some x := by
  simp [fieldDeclarations, List.mem_flatMap, List.mem_filterMap]

instance (a b : Sub) : Decidable (Clash a b) := by unfold Clash; infer_instance

/-! ## C80 -/

/-- The declarations that are generated for the fields of a message do not clash with each other, nor with any other declaration of the package, if no
composite field is called `Field_Value`. Missing: the model accepts such a field, see the counterexample. -/
theorem C80_distinct_partial (fs : List Field) (hc : Checked fs) (hv : ∀ f ∈ fs, Composite f → low f.name ≠ txt "field_value") :
    (messageDeclarations fs).Pairwise (fun x y => ¬ Clash x y) ∧
    ∀ x ∈ messageDeclarations fs, ∀ n ∈ fixedNames, low x.name ≠ low n := by
  refine ⟨?_, ?_⟩
  · unfold messageDeclarations
    rw [List.pairwise_append]
    refine ⟨by decide, ?_, ?_⟩
    · unfold fieldDeclarations
      rw [List.pairwise_flatMap]
      refine ⟨fun p _ => within_part hc.different p, ?_⟩
      have hp : parts.Pairwise (· ≠ ·) := by decide
      refine hp.imp ?_
      intro p q hne x hx y hy
      obtain ⟨f, hf, hx⟩ := List.mem_filterMap.1 hx
      obtain ⟨g, hg, hy⟩ := List.mem_filterMap.1 hy
      exact cross_parts hc.different hne hf hg hx hy
    · intro i hi x hx
      obtain ⟨p, _, f, hf, hx⟩ := mem_fieldDeclarations.1 hx
      exact internal_field hc hv hi hf hx
  · intro x hx n hn
    rcases List.mem_append.1 hx with hx | hx
    · have h : ∀ x ∈ internals, ∀ n ∈ fixedNames, low x.name ≠ low n := by decide +kernel
      exact h x hx n hn
    · obtain ⟨p, _, f, _, hx⟩ := mem_fieldDeclarations.1 hx
      have h : ∀ p ∈ parts, ∀ n ∈ fixedNames, ¬ low (before p) <+: low n := by decide +kernel
      intro e
      exact h p (by cases p <;> decide) n hn (e ▸ starts hx)

/-- Every field can be accessed by its name: it has a literal, a getter and a setter, and an array field has subprograms to switch to the sequence, to check
it and to update the message. -/
theorem C80_declared (fs : List Field) : ∀ f ∈ fs,
    (∃ x ∈ messageDeclarations fs, x = ⟨['F', '_'] ++ f.name, false, [], some "Virtual_Field".toList⟩) ∧
    (∃ x ∈ messageDeclarations fs, x.name = ['G', 'e', 't', '_'] ++ f.name ∧ x.parameters = ["Context".toList] ∧
      (x.isGeneric = true ↔ Composite f) ∧ ∀ a b, f.kind = .scalar a b → x.result = some a) ∧
    (∃ x ∈ messageDeclarations fs, x.name = ['S', 'e', 't', '_'] ++ f.name ∧ x.isGeneric = false ∧ x.result = none ∧
      ∃ v, x.parameters = ["Context".toList, v] ∧ (∀ a b, f.kind = .scalar a b → v = b) ∧ (f.kind = .opaqueBytes → v = "Types.Bytes".toList) ∧
        ∀ t, f.kind = .array t → v = t ++ "_Sequence.Context".toList) ∧
    (f.possiblyEmpty = true → ∃ x ∈ messageDeclarations fs, x.name = ['S', 'e', 't', '_'] ++ f.name ++ "_Empty".toList ∧ x.isGeneric = false ∧
      x.parameters = ["Context".toList] ∧ x.result = none) ∧
    (f.kind = .opaqueBytes → (∃ x ∈ messageDeclarations fs, x.name = "Generic_Set_".toList ++ f.name ∧ x.isGeneric = true) ∧
      ∃ x ∈ messageDeclarations fs, x.name = "Initialize_".toList ++ f.name ∧ x.isGeneric = false ∧ x.parameters = ["Context".toList]) ∧
    ∀ t, f.kind = .array t → ∀ n ∈ ["Switch_To_".toList, "Complete_".toList, "Update_".toList],
      ∃ x ∈ messageDeclarations fs, x.name = n ++ f.name ∧ x.isGeneric = false ∧ x.parameters = ["Context".toList, t ++ "_Sequence.Context".toList] := by
  intro f hf
  have mem : ∀ (p : Part) {x : Sub}, p.create f = some x → x ∈ messageDeclarations fs := fun p x h =>
    List.mem_append_right _ (mem_fieldDeclarations.2 ⟨p, by cases p <;> decide, f, hf, h⟩)
  obtain ⟨n, k, e⟩ := f
  refine ⟨⟨_, mem .enumerator rfl, rfl⟩, ?_, ?_, ?_, ?_, ?_⟩
  · cases k with
    | scalar a b =>
      exact ⟨_, mem .scalarGetter rfl, rfl, rfl, by simp [Composite], fun a' b' h => by cases h; rfl⟩
    | opaqueBytes => exact ⟨_, mem .compositeGetter rfl, rfl, rfl, by simp [Composite], fun a' b' h => nomatch h⟩
    | array t => exact ⟨_, mem .compositeGetter rfl, rfl, rfl, by simp [Composite], fun a' b' h => nomatch h⟩
  · cases k with
    | scalar a b =>
      exact ⟨_, mem .scalarSetter rfl, rfl, rfl, rfl, _, rfl, fun a' b' h => by cases h; rfl, fun h => (nomatch h), fun t h => nomatch h⟩
    | opaqueBytes => exact ⟨_, mem .opaqueSetter rfl, rfl, rfl, rfl, _, rfl, fun a b h => (nomatch h), fun _ => rfl, fun t h => nomatch h⟩
    | array t =>
      exact ⟨_, mem .arraySetter rfl, rfl, rfl, rfl, _, rfl, fun a b h => (nomatch h), fun h => (nomatch h), fun t' h => by cases h; rfl⟩
  · intro h
    simp only at h
    subst h
    exact ⟨_, mem .emptySetter rfl, (List.append_assoc ['S', 'e', 't', '_'] n "_Empty".toList).symm, rfl, rfl, rfl⟩
  · intro h
    simp only at h
    subst h
    exact ⟨⟨_, mem .genericSetter rfl, rfl, rfl⟩, _, mem .initializer rfl, rfl, rfl, rfl⟩
  · intro t h
    simp only at h
    subst h
    intro m hm
    simp only [List.mem_cons, List.not_mem_nil, or_false] at hm
    rcases hm with rfl | rfl | rfl
    · exact ⟨_, mem .switch rfl, rfl, rfl, rfl⟩
    · exact ⟨_, mem .complete rfl, rfl, rfl, rfl⟩
    · exact ⟨_, mem .update rfl, rfl, rfl, rfl⟩

/-- A message with fields of all kinds whose names are close to each other: the setters of `Data` (for the empty value) and `Data_Empty` have the same name,
and the getter of the scalar field `Field_Value` is called like an internal function. -/
def exFields : List Field :=
  [⟨txt "Data", .opaqueBytes, true⟩, ⟨txt "Data_Empty", .array (txt "Options"), false⟩, ⟨txt "Field_Value", .scalar (txt "P.T") (txt "P.T"), false⟩]

example : Checked exFields ∧ (∀ f ∈ exFields, Composite f → low f.name ≠ txt "field_value") ∧ (messageDeclarations exFields).length = 19 ∧
    ∃ x ∈ messageDeclarations exFields, ∃ y ∈ messageDeclarations exFields, x ≠ y ∧ x.name = y.name := by
  refine ⟨⟨by decide +kernel, by decide +kernel, by decide +kernel⟩, ?_, by decide +kernel, by decide +kernel⟩
  intro f hf hcomp
  simp only [exFields, List.mem_cons, List.not_mem_nil, or_false] at hf
  rcases hf with rfl | rfl | rfl
  · decide +kernel
  · decide +kernel
  · exact absurd rfl (hcomp _ _)

/-- An opaque field called `Field_Value` is accepted, but its getter, which is generic, is called like the function `Get_Field_Value`. -/
theorem C80_clash_counterexample :
    let fs : List Field := [⟨txt "Field_Value", .opaqueBytes, false⟩]
    Checked fs ∧ ¬ (messageDeclarations fs).Pairwise fun x y => ¬ Clash x y := by
  refine ⟨⟨by decide +kernel, by decide +kernel, by decide +kernel⟩, by decide +kernel⟩

end Verif.Generator.FieldNames
