import Verif.Typing.Lemmas

/-! # Types of expressions: property C39 -/

namespace Verif.Typing

variable {M : Type} [DecidableEq M]

/-! ## Specification -/

/-- Specification: the values of an integer type with known bounds. -/
def Ty.HasValue (t : Ty M) (v : Int) : Prop :=
  match t with
  | .universal b => ∃ l u, b.lower = some l ∧ b.upper = some u ∧ l ≤ v ∧ v ≤ u
  | .integer _ b => ∃ l u, b.lower = some l ∧ b.upper = some u ∧ l ≤ v ∧ v ≤ u
  | _ => False

/-! ## Compatibility -/

/-- C39: every defined type is compatible with itself. -/
theorem C39_reflexive (t : Ty M) (h : t ≠ .undefined) : t.isCompatible t = true := by
  cases t <;> simp [Ty.isCompatible, Ty.isInteger] <;> grind

/-- C39: every defined type is compatible with `Any` and vice versa. -/
theorem C39_any (t : Ty M) (h : t ≠ .undefined) : t.isCompatible .any = true ∧ Ty.any.isCompatible t = true := by
  cases t <;> simp_all [Ty.isCompatible]

/-- C39: nothing is compatible with an undefined type. -/
theorem C39_undefined (t : Ty M) : t.isCompatible .undefined = false ∧ Ty.undefined.isCompatible t = false := by
  cases t <;> simp [Ty.isCompatible, Ty.isInteger]

/-- C39: compatibility is symmetric unless both types are channels. -/
theorem C39_symmetric (s t : Ty M) (h : ∀ r w r' w', ¬ (s = .channel r w ∧ t = .channel r' w')) :
    s.isCompatible t = t.isCompatible s := by
  cases s <;> cases t <;> simp [Ty.isCompatible, Ty.isInteger] <;> grind

/-- The restriction is needed: a channel that can be read and written may be used for reading only, but not the other way round. -/
theorem C39_channel_counterexample : (Ty.channel true true : Ty Unit).isCompatible (.channel true false) = true ∧
    (Ty.channel true false : Ty Unit).isCompatible (.channel true true) = false := by
  simp [Ty.isCompatible]

/-! ## Common type of two types -/

/-- Specification: a type that says which values an element has, i.e. neither `Any` nor an integer type without bounds or
name, nor a channel. -/
def Ty.Known : Ty M → Prop
  | .any | .anyInteger | .undefinedInteger | .channel _ _ => False
  | _ => True

/-- Specification: the class of types on which the common type does not depend on the order: the elements of aggregates and
arrays are known and the bounds of named integer types are known. -/
def Ty.Tame : Ty M → Prop
  | .aggregate e => e.Known ∧ e.Tame
  | .array _ e => e.Known
  | .integer _ b => b.defined = true
  | _ => True

theorem strong_symmetric {s t : Ty M} (hs : s.Known) (ht : t.Known) : s.isCompatibleStrong t = t.isCompatibleStrong s := by
  cases s <;> cases t <;> simp_all [Ty.isCompatible, Ty.isCompatibleStrong, Ty.Known] <;> grind

/-- C39: the common type of two types does not depend on their order. -/
theorem C39_common_commutative {s t : Ty M} (hs : s.Tame) (ht : t.Tame) : s.common t = t.common s := by
  induction s generalizing t with
  | aggregate e ih =>
    cases t with
    | aggregate e' =>
      by_cases h : e = e'
      · subst h; rfl
      · have h' : e' ≠ e := fun hh => h hh.symm
        simp only [Ty.common, ne_eq, h, h', not_false_eq_true, if_true]
        rw [ih hs.2 ht.2]
    | array n e' => simp only [Ty.common]; rw [strong_symmetric hs.1 ht]
    | _ => simp [Ty.common, Ty.isInteger]
  | array n e =>
    cases t with
    | aggregate e' => simp only [Ty.common]; rw [strong_symmetric hs ht.1]
    | array n' e' => simp only [Ty.common]; grind
    | _ => simp [Ty.common, Ty.isInteger]
  | _ => cases t <;> simp_all [Ty.common, Ty.isInteger, Ty.Tame] <;> grind [union_comm]

/-- C39: the common type of two compatible types is defined and compatible with both, provided that messages with the same
name are the same. -/
theorem C39_common_upper {s t : Ty M} (hs : s.Tame) (ht : t.Tame) (hc : s.isCompatible t = true)
    (hch : ∀ r w r' w', s = .channel r w → t = .channel r' w' → s = t)
    (hm : ∀ n b b', s = .message n b → t = .message n b' → b = b') :
    s.common t ≠ .undefined ∧ (s.common t).isCompatible s = true ∧ (s.common t).isCompatible t = true := by
  cases s <;> cases t <;> simp_all [Ty.common, Ty.isInteger, Ty.isCompatible, Ty.Tame] <;>
    grind [Ty.isCompatible, Ty.isInteger, strong_symmetric, Ty.Tame]

/-- C39: conversely, types with a defined common type are compatible. -/
theorem C39_common_defined {s t : Ty M} (hs : s.Tame) (ht : t.Tame) (hd : s.common t ≠ .undefined) :
    s.isCompatible t = true := by
  cases s <;> cases t <;> simp_all [Ty.common, Ty.isInteger, Ty.isCompatible, Ty.Tame] <;>
    grind [strong_symmetric]

section examples

private abbrev T := Ty Unit
private def byte : T := .integer "Byte" ⟨some 0, some 255⟩
private def lit (n : Int) : T := .universal ⟨some n, some n⟩

/-- Aggregates of literals and an array: the common type is the array. -/
example : (Ty.aggregate (lit 7)).Tame ∧ (Ty.array "A" byte).Tame ∧ (Ty.aggregate (lit 7)).isCompatible (.array "A" byte) = true ∧
    (Ty.aggregate (lit 7)).common (.array "A" byte) = .array "A" byte ∧
    (Ty.array "A" byte).common (.aggregate (lit 7)) = .array "A" byte := by
  simp [Ty.Tame, Ty.Known, Ty.isCompatible, Ty.isCompatibleStrong, Ty.common, lit, byte, Bounds.contains, Bounds.defined]

/-- A literal out of range is not strongly compatible. -/
example : (Ty.aggregate (lit 256)).isCompatible (.array "A" byte) = false := by
  simp [Ty.isCompatible, Ty.isCompatibleStrong, lit, byte, Bounds.contains, Bounds.defined]

/-- The element of an empty aggregate is `Any` (`rflx/expression.py:1431` takes the common type of no
types): the common type of an empty aggregate and an array depends on the order. -/
theorem C39_empty_aggregate_counterexample :
    (Ty.aggregate .any).common (Ty.array "A" byte) = .array "A" byte ∧
    (Ty.array "A" byte).common (.aggregate .any) = .undefined ∧
    (Ty.array "A" byte).isCompatible (.aggregate .any) = true := by
  simp [Ty.common, Ty.isCompatible, Ty.isCompatibleStrong, byte]

/-- The same for an aggregate of variables of different integer types. -/
theorem C39_mixed_aggregate_counterexample :
    (Ty.aggregate .undefinedInteger).common (Ty.array "A" byte) = .array "A" byte ∧
    (Ty.array "A" byte).common (.aggregate .undefinedInteger) = .undefined := by
  simp [Ty.common, Ty.isCompatible, Ty.isCompatibleStrong, byte, Ty.isInteger]

/-- Aggregates are compatible whatever their elements, so that the common type may have undefined elements. -/
theorem C39_aggregate_elements_counterexample :
    (Ty.aggregate byte).isCompatible (.aggregate (.enumeration "E")) = true ∧
    (Ty.aggregate byte).common (.aggregate (.enumeration "E")) = .aggregate .undefined := by
  simp [Ty.common, Ty.isCompatible, byte]

end examples

/-! ## Common type of any number of types -/

/-- C39: the common type of any number of types does not depend on their order. -/
theorem C39_common_type_order {ts us : List (Ty M)} (p : ts.Perm us) (h : ∀ t ∈ ts, t.Flat) :
    commonType ts = commonType us := foldl_perm p (r := .any) trivial h

/-- C39: the common type of any number of types is undefined or compatible with each of them. -/
theorem C39_common_type_upper {ts : List (Ty M)} (h : ∀ t ∈ ts, t.Flat) (hd : commonType ts ≠ .undefined) :
    ∀ t ∈ ts, (commonType ts).isCompatible t = true ∧ t.isCompatible (commonType ts) = true := by
  intro t ht
  have p := List.perm_cons_erase ht
  have hf : ∀ u ∈ ts.erase t, u.Flat := fun u hu => h u (List.mem_of_mem_erase hu)
  rw [C39_common_type_order p h] at hd ⊢
  have key : ∀ u : Ty M, commonType (t :: ts.erase t) = (ts.erase t).foldl Ty.common t := fun _ => rfl
  rw [key t] at hd ⊢
  have htu : t ≠ .undefined := by
    rintro rfl
    rw [undefined_foldl] at hd
    exact hd rfl
  have hc := foldl_compatible (h t ht) hf (h t ht) (C39_reflexive t htu) id hd
  refine ⟨hc, ?_⟩
  by_cases hch : ∃ r w, t = .channel r w
  · obtain ⟨r, w, rfl⟩ := hch
    have : (ts.erase (.channel r w)).foldl Ty.common (.channel r w) = .channel r w := by
      have gen : ∀ l : List (Ty M), l.foldl Ty.common (.channel r w) ≠ .undefined →
          l.foldl Ty.common (.channel r w) = .channel r w := by
        intro l
        induction l with
        | nil => intro _; rfl
        | cons u l ih =>
          intro hl
          simp only [List.foldl_cons, Ty.common] at hl ⊢
          split at hl
          · rename_i hu
            rw [if_pos hu]
            exact ih hl
          · rw [undefined_foldl] at hl
            exact absurd rfl hl
      exact gen _ hd
    rw [this]
    exact C39_reflexive _ (by simp)
  · rw [C39_symmetric t _ (fun r w _ _ hh => hch ⟨r, w, hh.1⟩)]
    exact hc

/-- C39: the common type of any number of types is defined if any two of them have a common type. -/
theorem C39_common_type_defined {ts : List (Ty M)} (h : ∀ t ∈ ts, t.Flat)
    (hp : ∀ s ∈ ts, ∀ t ∈ ts, s.common t ≠ .undefined) : commonType ts ≠ .undefined :=
  foldl_defined (r := .any) trivial h (by simp) (fun t ht hu => by
    have := hp t ht t ht
    simp only [Ty.common] at hu
    subst hu
    exact this rfl) hp

/-- Specification: the type does not restrict the value: it has no value of its own or no known bounds. -/
def Ty.Unbounded : Ty M → Prop
  | .undefined | .undefinedInteger => True
  | .universal b | .integer _ b => b.defined = false
  | _ => False

theorem value_left {r t : Ty M} {v : Int} (h : r.HasValue v ∨ r.Unbounded) : (r.common t).HasValue v ∨ (r.common t).Unbounded := by
  cases r with
  | universal b =>
    obtain ⟨bl, bu⟩ := b
    cases bl <;> cases bu <;> cases t <;>
      simp_all [Ty.common, Ty.isInteger, Ty.HasValue, Ty.Unbounded, Bounds.defined, Bounds.contains] <;>
      grind [Bounds.union, Ty.Unbounded, Ty.HasValue, Bounds.contains, Bounds.defined]
  | integer n b =>
    obtain ⟨bl, bu⟩ := b
    cases bl <;> cases bu <;> cases t <;>
      simp_all [Ty.common, Ty.isInteger, Ty.HasValue, Ty.Unbounded, Bounds.defined, Bounds.contains] <;>
      grind [Bounds.union, Ty.Unbounded, Ty.HasValue, Bounds.contains, Bounds.defined]
  | undefinedInteger => simp only [Ty.common]; split <;> simp [Ty.Unbounded]
  | undefined => simp [Ty.common, Ty.Unbounded]
  | _ => simp_all [Ty.HasValue, Ty.Unbounded]

theorem value_right {r t : Ty M} {v : Int} (h : t.HasValue v) : (r.common t).HasValue v ∨ (r.common t).Unbounded := by
  cases t with
  | universal b =>
    cases r <;> simp_all [Ty.common, Ty.isInteger, Ty.HasValue, Ty.Unbounded, Bounds.defined, Bounds.contains] <;>
      grind [Bounds.union, Ty.Unbounded, Ty.HasValue, Bounds.contains, Bounds.defined]
  | integer n b =>
    cases r <;> simp_all [Ty.common, Ty.isInteger, Ty.HasValue, Ty.Unbounded, Bounds.defined, Bounds.contains] <;>
      grind [Bounds.union, Ty.Unbounded, Ty.HasValue, Bounds.contains, Bounds.defined]
  | _ => simp [Ty.HasValue] at h

/-- C39: a common type with known bounds comprises all values of the types, whatever the types are. -/
theorem C39_common_type_values {ts : List (Ty M)} {t : Ty M} (ht : t ∈ ts) {v : Int} (hv : t.HasValue v) :
    (commonType ts).HasValue v ∨ (commonType ts).Unbounded := by
  have left : ∀ (l : List (Ty M)) (r : Ty M), r.HasValue v ∨ r.Unbounded →
      (l.foldl Ty.common r).HasValue v ∨ (l.foldl Ty.common r).Unbounded := by
    intro l
    induction l with
    | nil => exact fun _ h => h
    | cons u l ih => exact fun r h => ih _ (value_left h)
  have right : ∀ (l : List (Ty M)) (r : Ty M), t ∈ l →
      (l.foldl Ty.common r).HasValue v ∨ (l.foldl Ty.common r).Unbounded := by
    intro l
    induction l with
    | nil => intro _ h; cases h
    | cons u l ih =>
      intro r h
      rcases List.mem_cons.mp h with rfl | h
      · exact left l _ (value_right hv)
      · exact ih _ h
  exact right ts _ ht

/-- C39: a number that is strongly compatible with a named integer type is a value of that type. -/
theorem C39_strong_values {b b' : Bounds} {n : String} (hb : b'.defined = true)
    (h : (Ty.universal b : Ty M).isCompatibleStrong (.integer n b') = true) {v : Int} (hv : (Ty.universal b : Ty M).HasValue v) :
    (Ty.integer n b' : Ty M).HasValue v := by
  obtain ⟨bl, bu⟩ := b
  obtain ⟨bl', bu'⟩ := b'
  cases bl <;> cases bu <;> cases bl' <;> cases bu' <;>
    simp_all [Ty.isCompatibleStrong, Ty.HasValue, Bounds.contains, Bounds.defined] <;> omega

/-- C39: a number is reported to be in bounds exactly if it is a value of the type with these bounds. -/
theorem C39_bounds_values (b : Bounds) (i : Int) : b.containsInt i = true ↔ (Ty.universal b : Ty M).HasValue i := by
  obtain ⟨bl, bu⟩ := b
  cases bl <;> cases bu <;> simp [Bounds.containsInt, Ty.HasValue]

section examples

private def u (l h : Int) : T := .universal ⟨some l, some h⟩

/-- Literals and a variable: the common type is the type of the variable. -/
example : commonType [lit 3, .any, byte, lit 200] = byte ∧ commonType [byte, lit 200, lit 3, .any] = byte ∧
    byte.Flat ∧ (lit 3).Flat ∧ byte.HasValue 200 := by
  refine ⟨?_, ?_, ?_, ?_, ?_⟩ <;>
    simp [commonType, Ty.common, byte, lit, Ty.Flat, Bounds.defined, Bounds.Ok, Bounds.contains, Bounds.union, Ty.HasValue]

/-- Without known bounds the order matters: the bounds of a named type must be known. -/
theorem C39_unknown_bounds_counterexample :
    commonType [Ty.integer (M := Unit) "I" ⟨none, none⟩, u 0 1, .universal ⟨none, none⟩] = .undefinedInteger ∧
    commonType [u 0 1, .universal ⟨none, none⟩, Ty.integer "I" ⟨none, none⟩] = .integer "I" ⟨none, none⟩ := by
  simp [commonType, Ty.common, u, Bounds.contains, Bounds.defined, Bounds.union, Ty.isInteger]

/-- With aggregates the order matters even if the elements are known: two aggregates have a common type, which then decides
whether an array fits. -/
theorem C39_aggregates_counterexample :
    commonType [Ty.aggregate byte, .array "A" byte, .aggregate (lit 300)] = .undefined ∧
    commonType [Ty.aggregate byte, .aggregate (lit 300), .array "A" byte] = .array "A" byte := by
  simp [commonType, Ty.common, byte, lit, Bounds.contains, Bounds.defined, Ty.isCompatibleStrong, Ty.isCompatible, Ty.isInteger]

end examples

/-! ## Checking types -/

/-- C39: a type is accepted iff it is defined and compatible with the expected type, which may be undefined. -/
theorem C39_check_type (actual t : Ty M) : checkType actual (.one t) = .ok true ↔
    actual ≠ .undefined ∧ (t = .undefined ∨ actual.isCompatible t = true) := by
  simp only [checkType]
  split <;> (try split) <;> simp_all <;> grind

/-- C39: given several expected types, a type is accepted iff it is defined and compatible with one of them. -/
theorem C39_check_types (actual : Ty M) {ts : List (Ty M)} (hts : ts ≠ []) : checkType actual (.tuple ts) = .ok true ↔
    actual ≠ .undefined ∧ ∃ t ∈ ts, actual.isCompatible t = true := by
  cases ts with
  | nil => exact absurd rfl hts
  | cons t ts =>
    simp only [checkType]
    split <;> (try split) <;> simp_all <;> grind

/-- C39: checking never raises an exception unless no type is expected. -/
theorem C39_check_raises (actual : Ty M) (e : Expected M) : (∃ b, checkType actual e = .ok b) ∨ e = .tuple [] := by
  cases e with
  | one t => left; simp only [checkType]; split <;> (try split) <;> exact ⟨_, rfl⟩
  | tuple ts =>
    cases ts with
    | nil => right; rfl
    | cons t ts => left; simp only [checkType]; split <;> (try split) <;> exact ⟨_, rfl⟩

/-- A byte is accepted where a literal is expected, but not where an enumeration is. -/
example : checkType byte (.one (lit 1000)) = .ok true ∧ checkType byte (.tuple [.enumeration "E", .channel true true]) = .ok false := by
  simp [checkType, byte, lit, Ty.isCompatible, Ty.isInteger]

end Verif.Typing
