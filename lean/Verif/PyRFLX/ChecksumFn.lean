import Verif.Py.Basic

/-! # Registration of checksum functions in PyRFLX (`rflx/pyrflx/typevalue.py:887-900`): property C46

Names of fields are strings; the functions are values of any type. -/

namespace Verif.PyRFLX

open Verif

/-- `MessageValue.Checksum`, `rflx/pyrflx/typevalue.py:1164-1178`: the name of the field (the key in `_checksums`) and the
registered function. The parameters of the checksum play no part here. -/
structure Checksum (F : Type) where
  field : String
  function : Option F

/-- The inner loop, `rflx/pyrflx/typevalue.py:893-900`: the checksums after it and whether it ended without exception. An
exception leaves the functions registered before it in place. -/
def registerOne {F : Type} (name : String) (fn : F) : List (Checksum F) → List (Checksum F) × Bool
  | [] => ([], true)
  | c :: cs =>
    if c.field = name then
      let r := registerOne name fn cs
      ({ c with function := some fn } :: r.1, r.2)
    else (c :: cs, false)

/-- `set_checksum_function(checksums)`, `rflx/pyrflx/typevalue.py:887-900`: the checksums of the message afterwards and the
exception raised, if any. -/
def setChecksumFunction {F : Type} (fields : List String) :
    List (String × F) → List (Checksum F) → List (Checksum F) × Option PyErr
  | [], cs => (cs, none)
  | (name, fn) :: rest, cs =>
    if name ∉ fields then (cs, some .pyrflx)
    else
      match registerOne name fn cs with
      | (cs, false) => (cs, some .pyrflx)
      | (cs, true) => setChecksumFunction fields rest cs

theorem registerOne_ok {F : Type} (name : String) (fn : F) (cs : List (Checksum F)) :
    (registerOne name fn cs).2 = true ↔ ∀ c ∈ cs, c.field = name := by
  induction cs with
  | nil => simp [registerOne]
  | cons c cs ih =>
    by_cases h : c.field = name
    · simp [registerOne, h, ih]
    · simp [registerOne, h]

theorem registerOne_fields {F : Type} (name : String) (fn : F) (cs : List (Checksum F)) :
    (registerOne name fn cs).1.map Checksum.field = cs.map Checksum.field := by
  induction cs with
  | nil => simp [registerOne]
  | cons c cs ih => by_cases h : c.field = name <;> simp [registerOne, h, ih]

theorem set_fields {F : Type} (fields : List String) (d : List (String × F)) (cs : List (Checksum F)) :
    (setChecksumFunction fields d cs).1.map Checksum.field = cs.map Checksum.field := by
  induction d generalizing cs with
  | nil => simp [setChecksumFunction]
  | cons x d ih =>
    obtain ⟨name, fn⟩ := x
    unfold setChecksumFunction
    split
    · rfl
    · have := registerOne_fields name fn cs
      split <;> rename_i heq <;> rw [heq] at this
      · exact this
      · rw [ih]; exact this

/-- C46, what holds for every message and every mapping: a call is accepted exactly if every name is a field of the message
and every checksum field of the message has this name. -/
theorem C46_accepted_iff {F : Type} (fields : List String) (d : List (String × F)) (cs : List (Checksum F)) :
    (setChecksumFunction fields d cs).2 = none ↔
      ∀ name fn, (name, fn) ∈ d → name ∈ fields ∧ ∀ c ∈ cs, c.field = name := by
  induction d generalizing cs with
  | nil => simp [setChecksumFunction]
  | cons x d ih =>
    obtain ⟨name, fn⟩ := x
    have hok := registerOne_ok name fn cs
    have hf := registerOne_fields name fn cs
    unfold setChecksumFunction
    split
    · rename_i h
      simp only [reduceCtorEq, false_iff]
      intro hall
      exact h (hall name fn (by simp)).1
    · rename_i h
      simp only [Decidable.not_not] at h
      split <;> rename_i cs' heq <;> rw [heq] at hok hf
      · simp only [reduceCtorEq, false_iff]
        intro hall
        have := hok.mpr (hall name fn (by simp)).2
        simp at this
      · rw [ih]
        have hfield : ∀ n, (∀ c ∈ cs', c.field = n) ↔ ∀ c ∈ cs, c.field = n := by
          intro n
          have h1 : ∀ l : List (Checksum F), (∀ c ∈ l, c.field = n) ↔ ∀ f ∈ l.map Checksum.field, f = n := by simp
          have hf' : cs'.map Checksum.field = cs.map Checksum.field := hf
          rw [h1, h1, hf']
        have hc := hok.mp rfl
        constructor
        · intro hd n g hm
          rcases List.mem_cons.mp hm with hm | hm
          · simp only [Prod.mk.injEq] at hm
            obtain ⟨rfl, rfl⟩ := hm
            exact ⟨h, hc⟩
          · exact ⟨(hd n g hm).1, (hfield n).mp (hd n g hm).2⟩
        · intro hd n g hm
          have := hd n g (List.mem_cons_of_mem _ hm)
          exact ⟨this.1, (hfield n).mpr this.2⟩

/-- C46 for messages with one checksum field. Missing: messages with none or with several checksum fields, for which the
property does not hold (see the counterexamples). The keys of a dictionary are distinct. -/
theorem C46_one_field_partial {F : Type} (fields : List String) (d : List (String × F)) (c : Checksum F)
    (hc : c.field ∈ fields) (hd : (d.map Prod.fst).Nodup) :
    -- accepted exactly if every named field is a checksum field
    ((setChecksumFunction fields d [c]).2 = none ↔ ∀ name fn, (name, fn) ∈ d → name = c.field) ∧
    -- and then the function is registered for its field
    (∀ fn, (c.field, fn) ∈ d → (setChecksumFunction fields d [c]).2 = none →
      (setChecksumFunction fields d [c]).1 = [{ c with function := some fn }]) := by
  have hiff : (setChecksumFunction fields d [c]).2 = none ↔ ∀ name fn, (name, fn) ∈ d → name = c.field := by
    rw [C46_accepted_iff]
    constructor
    · intro h n g hm
      exact ((h n g hm).2 c (by simp)).symm
    · intro h n g hm
      obtain rfl := h n g hm
      exact ⟨hc, by simp⟩
  refine ⟨hiff, ?_⟩
  intro fn hm hok
  have hall := hiff.mp hok
  match d, hm, hd, hall with
  | [x], hm, _, _ =>
    obtain rfl : x = (c.field, fn) := (List.mem_singleton.mp hm).symm
    simp [setChecksumFunction, registerOne, hc]
  | x :: y :: d, _, hd, hall =>
    exfalso
    obtain ⟨n, g⟩ := x
    obtain ⟨n', g'⟩ := y
    obtain rfl := hall n g (by simp)
    obtain rfl := hall n' g' (by simp)
    simp at hd

/-- C46: whether accepted or not, a call changes the function of a checksum field only if the mapping names this field, and
then only to a function given for it. -/
theorem C46_only_named {F : Type} (fields : List String) (d : List (String × F)) (cs : List (Checksum F)) (c : Checksum F)
    (h : c ∈ (setChecksumFunction fields d cs).1) :
    c ∈ cs ∨ ∃ fn, (c.field, fn) ∈ d ∧ c.function = some fn := by
  induction d generalizing cs with
  | nil => exact .inl h
  | cons x d ih =>
    obtain ⟨name, fn⟩ := x
    have one : ∀ l : List (Checksum F), ∀ x ∈ (registerOne name fn l).1, x ∈ l ∨ (x.field = name ∧ x.function = some fn) := by
      intro l
      induction l with
      | nil => simp [registerOne]
      | cons a l ih =>
        intro x hx
        by_cases ha : a.field = name
        · simp only [registerOne, ha, if_true, List.mem_cons] at hx
          rcases hx with rfl | hx
          · exact .inr ⟨rfl, rfl⟩
          · rcases ih x hx with h | h
            · exact .inl (List.mem_cons_of_mem _ h)
            · exact .inr h
        · simp only [registerOne, ha, if_false] at hx
          exact .inl hx
    have lift : ∀ x : Checksum F, (x ∈ cs ∨ (x.field = name ∧ x.function = some fn)) →
        x ∈ cs ∨ ∃ fn', (x.field, fn') ∈ (name, fn) :: d ∧ x.function = some fn' := by
      rintro x (h | ⟨h1, h2⟩)
      · exact .inl h
      · exact .inr ⟨fn, by simp [h1], h2⟩
    unfold setChecksumFunction at h
    split at h
    · exact .inl h
    · have hone := one cs
      split at h <;> rename_i cs' heq <;> rw [heq] at hone
      · exact lift c (hone c h)
      · rcases ih cs' h with h | ⟨fn', h1, h2⟩
        · exact lift c (hone c h)
        · exact .inr ⟨fn', List.mem_cons_of_mem _ h1, h2⟩

/-- One checksum field: its function can be registered, no other name is accepted. -/
example : setChecksumFunction ["Tag", "Checksum"] [("Checksum", 7)] [⟨"Checksum", none⟩] = ([⟨"Checksum", some 7⟩], none) ∧
    (setChecksumFunction ["Tag", "Checksum"] [("Tag", 7)] [⟨"Checksum", none⟩]).2 = some .pyrflx := by
  simp [setChecksumFunction, registerOne]

/-- The property fails for every message with two checksum fields: no function can be registered. -/
theorem C46_two_fields_counterexample {F : Type} (fields : List String) (c1 c2 : Checksum F) (cs : List (Checksum F))
    (h : c1.field ≠ c2.field) (d : List (String × F)) (hd : d ≠ []) :
    (setChecksumFunction fields d (c1 :: c2 :: cs)).2 ≠ none := by
  rw [Ne, C46_accepted_iff]
  intro hall
  match d, hd, hall with
  | (name, fn) :: d, _, hall =>
    obtain ⟨_, h2⟩ := hall name fn (by simp)
    exact h ((h2 c1 (by simp)).trans (h2 c2 (by simp)).symm)

/-- The hypotheses of `C46_two_fields_counterexample` can be met by a mapping that names checksum fields only; moreover the
function of the first field has been registered although the call failed. -/
example : setChecksumFunction ["A", "B"] [("A", 7), ("B", 8)] [⟨"A", none⟩, ⟨"B", none⟩]
    = ([⟨"A", some 7⟩, ⟨"B", none⟩], some .pyrflx) := by
  simp [setChecksumFunction, registerOne]

/-- The property fails for messages without checksum fields: a function for a field that is no checksum field is accepted
(and forgotten). -/
theorem C46_no_field_counterexample : (setChecksumFunction ["Tag"] [("Tag", 7)] []).2 = none ∧
    (setChecksumFunction ["Tag"] [("Tag", 7)] ([] : List (Checksum Nat))).1.length = 0 := by
  simp [setChecksumFunction, registerOne]

end Verif.PyRFLX
