import Verif.Typing.Model

/-! # Lemmas about common types -/

namespace Verif.Typing

variable {M : Type} [DecidableEq M]

/-- Specification: the invariant checked by `Bounds.__post_init__`. -/
def Bounds.Ok (b : Bounds) : Prop := ∀ l u, b.lower = some l → b.upper = some u → l ≤ u

/-- Specification: types other than aggregates, whose bounds are known if the type has a name. -/
def Ty.Flat : Ty M → Prop
  | .aggregate _ => False
  | .integer _ b => b.defined = true ∧ b.Ok
  | .universal b => b.Ok
  | _ => True

/-- The union of bounds that satisfy the check of `__post_init__` satisfies it. -/
theorem union_make {a b : Bounds} (ha : a.Ok) (hb : b.Ok) :
    Bounds.make (a.union b).lower (a.union b).upper = .ok (a.union b) := by
  obtain ⟨al, au⟩ := a
  obtain ⟨bl, bu⟩ := b
  cases al <;> cases au <;> cases bl <;> cases bu <;> simp_all [Bounds.union, Bounds.make, Bounds.Ok] <;> grind

theorem union_contains {a b c : Bounds} (hc : c.defined = true) : c.contains (a.union b) = (c.contains a && c.contains b) := by
  obtain ⟨al, au⟩ := a
  obtain ⟨bl, bu⟩ := b
  obtain ⟨cl, cu⟩ := c
  cases al <;> cases au <;> cases bl <;> cases bu <;> cases cl <;> cases cu <;> simp_all [Bounds.union, Bounds.contains, Bounds.defined] <;> grind

theorem union_comm (a b : Bounds) : a.union b = b.union a := by
  obtain ⟨al, au⟩ := a
  obtain ⟨bl, bu⟩ := b
  cases al <;> cases au <;> cases bl <;> cases bu <;> simp_all [Bounds.union] <;> grind

theorem union_assoc (a b c : Bounds) : (a.union b).union c = a.union (b.union c) := by
  obtain ⟨al, au⟩ := a
  obtain ⟨bl, bu⟩ := b
  obtain ⟨cl, cu⟩ := c
  cases al <;> cases au <;> cases bl <;> cases bu <;> cases cl <;> cases cu <;> simp_all [Bounds.union] <;> grind

set_option maxHeartbeats 4000000 in
theorem common_comm_flat {s t : Ty M} (hs : s.Flat) (ht : t.Flat) : s.common t = t.common s := by
  cases s <;> cases t <;> simp_all [Ty.common, Ty.isInteger, Ty.Flat] <;> grind [union_comm]
theorem union_self_or (a : Bounds) : a.union a = a ∨ a.union a = ⟨none, none⟩ := by
  obtain ⟨al, au⟩ := a
  cases al <;> cases au <;> simp [Bounds.union] <;> grind
theorem union_ab_a (a b : Bounds) : (a.union b).union a = a.union b ∧ (a.union b).union b = a.union b := by
  obtain ⟨al, au⟩ := a
  obtain ⟨bl, bu⟩ := b
  cases al <;> cases au <;> cases bl <;> cases bu <;> simp_all [Bounds.union] <;> grind

set_option maxHeartbeats 40000000 in
theorem common_right_comm {s t r : Ty M} (hs : s.Flat) (ht : t.Flat) (hr : r.Flat) : (r.common s).common t = (r.common t).common s := by
  cases r with
  | any => simpa [Ty.common] using common_comm_flat hs ht
  | undefined => rfl
  | aggregate _ => cases hr
  | universal b => 
    cases s <;> cases t <;> simp_all [Ty.common, Ty.isInteger, Ty.Flat] <;> grind [union_comm, union_assoc, union_contains, Ty.common, Ty.isInteger, union_ab_a, union_self_or]
  | integer n b => 
    cases s <;> cases t <;> simp_all [Ty.common, Ty.isInteger, Ty.Flat] <;> grind [union_comm, union_assoc, union_contains, Ty.common, Ty.isInteger]
  | anyInteger =>
    cases s <;> cases t <;> simp_all [Ty.common, Ty.isInteger, Ty.Flat] <;> grind [union_comm, union_assoc, union_contains, Ty.common, Ty.isInteger]
  | undefinedInteger =>
    cases s <;> cases t <;> simp_all [Ty.common, Ty.isInteger, Ty.Flat] <;> grind [union_comm, union_assoc, union_contains, Ty.common, Ty.isInteger]
  | _ =>
    cases s <;> cases t <;> simp_all [Ty.common, Ty.isInteger, Ty.Flat] <;> grind [Ty.common, Ty.isInteger]

theorem union_ok {a b : Bounds} (ha : a.Ok) (hb : b.Ok) : (a.union b).Ok := by
  obtain ⟨al, au⟩ := a
  obtain ⟨bl, bu⟩ := b
  cases al <;> cases au <;> cases bl <;> cases bu <;> simp_all [Bounds.union, Bounds.Ok] <;> grind

theorem common_flat {s t : Ty M} (hs : s.Flat) (ht : t.Flat) : (s.common t).Flat := by
  cases s <;> cases t <;> simp_all [Ty.common, Ty.isInteger, Ty.Flat] <;> grind [union_ok, Ty.Flat]

set_option maxHeartbeats 4000000 in
theorem common_defined_flat {a b c : Ty M} (ha : a.Flat) (hb : b.Flat) (hc : c.Flat) (hab : a.common b ≠ .undefined)
    (hac : a.common c ≠ .undefined) (hbc : b.common c ≠ .undefined) : (a.common b).common c ≠ .undefined := by
  cases a <;> cases b <;> first
    | exact absurd rfl hab
    | grind [Ty.common, Ty.isInteger, Ty.Flat]
    | (cases c <;> grind [Ty.common, Ty.isInteger, Ty.Flat])

theorem foldl_flat {ts : List (Ty M)} {r : Ty M} (hr : r.Flat) (h : ∀ t ∈ ts, t.Flat) : (ts.foldl Ty.common r).Flat := by
  induction ts generalizing r with
  | nil => exact hr
  | cons t ts ih => exact ih (common_flat hr (h t (by simp))) (fun u hu => h u (by simp [hu]))

theorem foldl_perm {ts us : List (Ty M)} (p : ts.Perm us) {r : Ty M} (hr : r.Flat) (h : ∀ t ∈ ts, t.Flat) :
    ts.foldl Ty.common r = us.foldl Ty.common r := by
  induction p generalizing r with
  | nil => rfl
  | cons x _ ih => exact ih (common_flat hr (h x (by simp))) (fun u hu => h u (by simp [hu]))
  | swap x y l =>
    simp only [List.foldl_cons]
    rw [common_right_comm (h y (by simp)) (h x (by simp)) hr]
  | trans p₁ _ ih₁ ih₂ => exact (ih₁ hr h).trans (ih₂ hr (fun t ht => h t (p₁.symm.subset ht)))

theorem foldl_defined {ts : List (Ty M)} {r : Ty M} (hr : r.Flat) (h : ∀ t ∈ ts, t.Flat) (hd : r ≠ .undefined)
    (hrt : ∀ t ∈ ts, r.common t ≠ .undefined) (hp : ∀ s ∈ ts, ∀ t ∈ ts, s.common t ≠ .undefined) :
    ts.foldl Ty.common r ≠ .undefined := by
  induction ts generalizing r with
  | nil => exact hd
  | cons t ts ih =>
    refine ih (common_flat hr (h t (by simp))) (fun u hu => h u (by simp [hu])) (hrt t (by simp)) (fun u hu => ?_)
      (fun s hs u hu => hp s (by simp [hs]) u (by simp [hu]))
    exact common_defined_flat hr (h t (by simp)) (h u (by simp [hu])) (hrt t (by simp)) (hrt u (by simp [hu]))
      (hp t (by simp) u (by simp [hu]))

theorem undefined_foldl (ts : List (Ty M)) : ts.foldl Ty.common .undefined = .undefined := by
  induction ts with
  | nil => rfl
  | cons t ts ih => exact ih

theorem compatible_step {r s t : Ty M} (hr : r.Flat) (hs : s.Flat) (ht : t.Flat) (hrt : r.isCompatible t = true) (hany : r = .any → t = .any)
    (hd : r.common s ≠ .undefined) : (r.common s).isCompatible t = true ∧ (r.common s = .any → t = .any) := by
  cases r <;> cases s <;> simp_all [Ty.common, Ty.isInteger, Ty.Flat, Ty.isCompatible] <;>
    grind [Ty.common, Ty.isInteger, Ty.Flat, Ty.isCompatible]

theorem foldl_compatible {ts : List (Ty M)} {r t : Ty M} (hr : r.Flat) (h : ∀ t ∈ ts, t.Flat) (ht : t.Flat)
    (hrt : r.isCompatible t = true) (hany : r = .any → t = .any) (hd : ts.foldl Ty.common r ≠ .undefined) :
    (ts.foldl Ty.common r).isCompatible t = true := by
  induction ts generalizing r with
  | nil => exact hrt
  | cons s ts ih =>
    simp only [List.foldl_cons] at hd ⊢
    have hrs : r.common s ≠ .undefined := by
      intro hu
      rw [hu, undefined_foldl] at hd
      exact hd rfl
    obtain ⟨h1, h2⟩ := compatible_step hr (h s (by simp)) ht hrt hany hrs
    exact ih (common_flat hr (h s (by simp))) (fun u hu => h u (by simp [hu])) h1 h2 hd

end Verif.Typing
