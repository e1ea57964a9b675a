import Verif.Generator.DeclNames
import Verif.Common.Props

/-! # C79: names of the declarations for scalar types -/

namespace Verif.Generator.DeclNames
open Verif

/-! ## Specification -/

/-- A name in lower case. -/
abbrev lw (s : PyStr) : PyStr := s.map Char.toLower

/-- Two declarations of a package are not allowed together (Ada RM 8.3): they have the same name without regard to letter case, and one of them is a type or
both have the same parameter types and the same result type. -/
def Clash : Entity → Entity → Prop
  | .type a, .type b => lw a = lw b
  | .type a, .function b _ _ => lw a = lw b
  | .function a _ _, .type b => lw a = lw b
  | .function a ps r, .function b qs s => lw a = lw b ∧ ps.map lw = qs.map lw ∧ lw r = lw s

/-- The literals of a type. -/
def literals (t : Scalar) : List PyStr :=
  match t.kind with
  | .enumeration ls _ => ls
  | _ => []

/-- What models ensure (C44, and the check of literals by `Enumeration`): types of a package have different names, the literals of the package are different
from each other and from the names of types. -/
structure Checked (ts : List Scalar) : Prop where
  types : ts.Pairwise fun a b => lw a.name ≠ lw b.name
  different : (ts.flatMap literals).Pairwise fun a b => lw a ≠ lw b
  separate : ∀ t ∈ ts, ∀ l ∈ ts.flatMap literals, lw t.name ≠ lw l

/-- Names of types that are not used for other declarations. -/
def FreeType (n : PyStr) : Prop :=
  (¬ ['_', 'b', 'a', 's', 'e'] <:+ lw n) ∧ (¬ ['_', 'e', 'n', 'u', 'm'] <:+ lw n) ∧ (¬ ['u', 'n', 'r', 'e', 'a', 'c', 'h', 'a', 'b', 'l', 'e'] <+: lw n) ∧
    lw n ≠ lw validText ∧ lw n ≠ lw toActualText ∧ lw n ≠ ['t', 'o']

/-- Names of literals that are not used for other declarations. -/
def FreeLiteral (n : PyStr) : Prop :=
  (¬ ['_', 'b', 'a', 's', 'e'] <:+ lw n) ∧ (¬ ['_', 'e', 'n', 'u', 'm'] <:+ lw n) ∧ ¬ ['u', 'n', 'r', 'e', 'a', 'c', 'h', 'a', 'b', 'l', 'e'] <+: lw n

/-! ## Lemmas -/

theorem prefix_under {w t s : PyStr} (hw : '_' ∉ w) (h : w <+: t ++ '_' :: s) : w <+: t := by
  induction w generalizing t with
  | nil => exact List.nil_prefix
  | cons c w ih =>
    cases t with
    | nil =>
      simp only [List.nil_append, List.cons_prefix_cons] at h
      exact absurd h.1.symm (by simp only [List.mem_cons, not_or] at hw; exact hw.1)
    | cons d t =>
      simp only [List.cons_append, List.cons_prefix_cons] at h ⊢
      exact ⟨h.1, ih (by simp only [List.mem_cons, not_or] at hw; exact hw.2) h.2⟩

/-- The names (in lower case) of types declared or used for a type. -/
def Of (t : Scalar) (n : PyStr) : Prop :=
  n = lw t.name ∨ n = lw t.name ++ ['_', 'b', 'a', 's', 'e'] ∨ n = lw t.name ++ ['_', 'e', 'n', 'u', 'm']

theorem lw_base (s : PyStr) : lw (s ++ baseSuffix) = lw s ++ ['_', 'b', 'a', 's', 'e'] := by
  rw [lw, List.map_append]; rfl
theorem lw_enum (s : PyStr) : lw (s ++ enumSuffix) = lw s ++ ['_', 'e', 'n', 'u', 'm'] := by
  rw [lw, List.map_append]; rfl

theorem of_base (t : Scalar) : Of t (lw (baseName t)) := by
  unfold baseName
  split
  · exact .inl rfl
  · exact .inr (.inl (lw_base _))

theorem of_enum (t : Scalar) : Of t (lw (enumName t)) := .inr (.inr (lw_enum _))

theorem base_enum_ne (a b : PyStr) : a ++ ['_', 'b', 'a', 's', 'e'] ≠ b ++ ['_', 'e', 'n', 'u', 'm'] := by
  intro h
  have := (List.append_inj' h rfl).2
  revert this; decide

/-- Names of different types are different. -/
theorem of_ne {s t : Scalar} (hs : FreeType s.name) (ht : FreeType t.name) (h : lw s.name ≠ lw t.name) {a b : PyStr} (ha : Of s a) (hb : Of t b) : a ≠ b := by
  rintro rfl
  rcases ha with ha | ha | ha <;> rcases hb with hb | hb | hb
  · exact h (ha.symm.trans hb)
  · exact hs.1 ⟨_, (ha.symm.trans hb).symm⟩
  · exact hs.2.1 ⟨_, (ha.symm.trans hb).symm⟩
  · exact ht.1 ⟨_, ha.symm.trans hb⟩
  · exact h (List.append_cancel_right (ha.symm.trans hb))
  · exact base_enum_ne _ _ (ha.symm.trans hb)
  · exact ht.2.1 ⟨_, ha.symm.trans hb⟩
  · exact base_enum_ne _ _ (hb.symm.trans ha)
  · exact h (List.append_cancel_right (ha.symm.trans hb))

/-- The names of functions with a parameter. -/
def Operation (n : PyStr) : Prop := n = validText ∨ n = toBaseText ∨ n = toActualText

theorem of_operation {t : Scalar} (ht : FreeType t.name) {a n : PyStr} (ha : Of t a) (hn : Operation n) : a ≠ lw n := by
  rintro rfl
  rcases ha with ha | ha | ha
  · rcases hn with rfl | rfl | rfl
    · exact ht.2.2.2.1 ha.symm
    · exact ht.1 ⟨['t', 'o'], by rw [← ha]; decide⟩
    · exact ht.2.2.2.2.1 ha.symm
  · rcases hn with rfl | rfl | rfl
    · have := (List.append_inj' (s₁ := []) (t₁ := lw validText) ha rfl).2
      revert this; decide
    · have := (List.append_inj' (s₁ := ['t', 'o']) (t₁ := ['_', 'b', 'a', 's', 'e']) ha rfl).1
      exact ht.2.2.2.2.2 this.symm
    · have := (List.append_inj' (s₁ := ['t', 'o', '_', 'a']) (t₁ := ['c', 't', 'u', 'a', 'l']) ha rfl).2
      revert this; decide
  · rcases hn with rfl | rfl | rfl
    · have := (List.append_inj' (s₁ := []) (t₁ := lw validText) ha rfl).2
      revert this; decide
    · have := (List.append_inj' (s₁ := ['t', 'o']) (t₁ := ['_', 'b', 'a', 's', 'e']) ha rfl).2
      revert this; decide
    · have := (List.append_inj' (s₁ := ['t', 'o', '_', 'a']) (t₁ := ['c', 't', 'u', 'a', 'l']) ha rfl).2
      revert this; decide

theorem unreachable_eq {p : PyStr} {t : Scalar} (hp : '.' ∉ p ∧ ':' ∉ p) (ht : '.' ∉ t.name ∧ ':' ∉ t.name) :
    lw (unreachableName p t) = ['u', 'n', 'r', 'e', 'a', 'c', 'h', 'a', 'b', 'l', 'e', '_'] ++ (lw p ++ '_' :: lw t.name) := by
  unfold unreachableName flatName ID.str
  rw [Common.subSep_joinSep '_' _ (by simp [hp, ht])]
  rw [lw, List.map_append]
  congr 1
  simp [Common.Spec.joinWith]

theorem unreachable_prefix {p : PyStr} {t : Scalar} (hp : '.' ∉ p ∧ ':' ∉ p) (ht : '.' ∉ t.name ∧ ':' ∉ t.name) :
    ['u', 'n', 'r', 'e', 'a', 'c', 'h', 'a', 'b', 'l', 'e'] <+: lw (unreachableName p t) := by
  rw [unreachable_eq hp ht]
  exact ⟨'_' :: (lw p ++ '_' :: lw t.name), rfl⟩

theorem of_unreachable {s : Scalar} (hs : FreeType s.name) {a n : PyStr} (ha : Of s a)
    (hn : ['u', 'n', 'r', 'e', 'a', 'c', 'h', 'a', 'b', 'l', 'e'] <+: n) : a ≠ n := by
  rintro rfl
  rcases ha with ha | ha | ha
  · exact hs.2.2.1 (ha ▸ hn)
  · exact hs.2.2.1 (prefix_under (by decide) (ha ▸ hn))
  · exact hs.2.2.1 (prefix_under (by decide) (ha ▸ hn))

/-- The four kinds of declarations for a type. -/
inductive Class (p : PyStr) (t : Scalar) : Entity → Prop
  | type {n} : Of t (lw n) → Class p t (.type n)
  | literal {l r} : l ∈ literals t → Class p t (.function l [] r)
  | unreachable {r} : Class p t (.function (unreachableName p t) [] r)
  | operation {n a r} : Operation n → Of t (lw a) → Class p t (.function n [a] r)

theorem of_name (t : Scalar) : Of t (lw t.name) := .inl rfl

theorem types_shape (t : Scalar) : ∀ x ∈ types t, (∃ n, x = .type n ∧ Of t (lw n)) ∨ ∃ l r, l ∈ literals t ∧ x = .function l [] r := by
  intro x hx
  unfold types at hx
  split at hx
  · rw [List.mem_singleton] at hx; subst hx; exact .inl ⟨_, rfl, of_name t⟩
  · simp only [List.mem_cons, List.not_mem_nil, or_false] at hx
    rcases hx with rfl | rfl
    · exact .inl ⟨_, rfl, of_base t⟩
    · exact .inl ⟨_, rfl, of_name t⟩
  · rename_i ls av hk
    simp only [List.mem_append, List.mem_cons, List.not_mem_nil, or_false, List.mem_map] at hx
    rcases hx with ((rfl | rfl) | ⟨l, hl, rfl⟩) | hx
    · exact .inl ⟨_, rfl, of_base t⟩
    · cases av
      · exact .inl ⟨_, rfl, of_name t⟩
      · exact .inl ⟨_, rfl, of_enum t⟩
    · exact .inr ⟨_, _, by unfold literals; rw [hk]; exact hl, rfl⟩
    · cases av
      · simp at hx
      · rw [if_pos rfl, List.mem_singleton] at hx; subst hx; exact .inl ⟨_, rfl, of_name t⟩

theorem class_types (p : PyStr) (t : Scalar) : ∀ x ∈ types t, Class p t x := by
  intro x hx
  rcases types_shape t x hx with ⟨n, rfl, h⟩ | ⟨l, r, h, rfl⟩
  · exact .type h
  · exact .literal h

theorem class_functions (p : PyStr) (t : Scalar) : ∀ x ∈ functions t, Class p t x := by
  intro x hx
  unfold functions at hx
  simp only at hx
  split at hx
  · simp only [List.mem_cons, List.not_mem_nil, or_false] at hx
    rcases hx with rfl | rfl | rfl | rfl | rfl
    · exact .operation (.inl rfl) (of_base t)
    · exact .operation (.inr (.inl rfl)) (of_enum t)
    · exact .operation (.inr (.inr rfl)) (of_enum t)
    · exact .operation (.inr (.inr rfl)) (of_base t)
    · exact .operation (.inr (.inl rfl)) (of_name t)
  · simp only [List.mem_cons, List.not_mem_nil, or_false] at hx
    rcases hx with rfl | rfl | rfl
    · exact .operation (.inl rfl) (of_base t)
    · exact .operation (.inr (.inl rfl)) (of_name t)
    · exact .operation (.inr (.inr rfl)) (of_base t)

theorem class_of (p : PyStr) (t : Scalar) : ∀ x ∈ declarations p t, Class p t x := by
  intro x hx
  unfold declarations at hx
  simp only [List.mem_append, List.mem_singleton] at hx
  rcases hx with (hx | rfl) | hx
  · exact class_types p t x hx
  · exact .unreachable
  · exact class_functions p t x hx

theorem of_literal {s : Scalar} {a l : PyStr} (ha : Of s a) (hl : FreeLiteral l) (hne : lw s.name ≠ lw l) : a ≠ lw l := by
  rintro rfl
  rcases ha with ha | ha | ha
  · exact hne ha.symm
  · exact hl.1 ⟨_, ha.symm⟩
  · exact hl.2.1 ⟨_, ha.symm⟩

theorem unreachable_ne {p : PyStr} {s t : Scalar} (hp : '.' ∉ p ∧ ':' ∉ p) (hs : '.' ∉ s.name ∧ ':' ∉ s.name) (ht : '.' ∉ t.name ∧ ':' ∉ t.name)
    (h : lw s.name ≠ lw t.name) : lw (unreachableName p s) ≠ lw (unreachableName p t) := by
  rw [unreachable_eq hp hs, unreachable_eq hp ht]
  intro e
  have := List.append_cancel_left (List.append_cancel_left e)
  exact h (List.cons.inj this).2

/-- Declarations for different types do not clash. -/
theorem cross {p : PyStr} {s t : Scalar} (hp : '.' ∉ p ∧ ':' ∉ p) (hsn : '.' ∉ s.name ∧ ':' ∉ s.name) (htn : '.' ∉ t.name ∧ ':' ∉ t.name)
    (hs : FreeType s.name) (ht : FreeType t.name)
    (h : lw s.name ≠ lw t.name) (hls : ∀ l ∈ literals s, FreeLiteral l ∧ lw t.name ≠ lw l) (hlt : ∀ l ∈ literals t, FreeLiteral l ∧ lw s.name ≠ lw l)
    (hll : ∀ a ∈ literals s, ∀ b ∈ literals t, lw a ≠ lw b) {x y : Entity} (hx : Class p s x) (hy : Class p t y) : ¬ Clash x y := by
  intro hc
  cases hx with
  | type ha =>
    cases hy with
    | type hb => exact of_ne hs ht h ha hb hc
    | literal hl => exact of_literal ha (hlt _ hl).1 (hlt _ hl).2 hc
    | unreachable => exact of_unreachable hs ha (unreachable_prefix hp htn) hc
    | operation hn _ => exact of_operation hs ha hn hc
  | literal hl =>
    cases hy with
    | type hb => exact of_literal hb (hls _ hl).1 (hls _ hl).2 hc.symm
    | literal hl' => exact hll _ hl _ hl' hc.1
    | unreachable => exact (hls _ hl).1.2.2 (hc.1 ▸ unreachable_prefix hp htn)
    | operation _ _ => exact nomatch hc.2.1
  | unreachable =>
    cases hy with
    | type hb => exact of_unreachable ht hb (unreachable_prefix hp hsn) hc.symm
    | literal hl => exact (hlt _ hl).1.2.2 (hc.1 ▸ unreachable_prefix hp hsn)
    | unreachable => exact unreachable_ne hp hsn htn h hc.1
    | operation _ _ => exact nomatch hc.2.1
  | operation hn ha =>
    cases hy with
    | type hb => exact of_operation ht hb hn hc.symm
    | literal _ => exact nomatch hc.2.1
    | unreachable => exact nomatch hc.2.1
    | operation _ hb =>
      refine of_ne hs ht h ha hb ?_
      have := hc.2.1
      simpa using this

theorem ne_append (a : PyStr) {s : PyStr} (h : s ≠ []) : a ≠ a ++ s := by
  intro e
  have := congrArg List.length e
  rw [List.length_append] at this
  cases s with
  | nil => exact h rfl
  | cons c s => simp at this

theorem name_ne_base (t : Scalar) : lw t.name ≠ lw (t.name ++ baseSuffix) := by
  rw [lw_base]; exact ne_append _ (by simp)
theorem name_ne_enum (t : Scalar) : lw t.name ≠ lw (enumName t) := by
  rw [enumName, lw_enum]; exact ne_append _ (by simp)
theorem base_ne_enum (t : Scalar) : lw (t.name ++ baseSuffix) ≠ lw (enumName t) := by
  rw [enumName, lw_base, lw_enum]; exact base_enum_ne _ _

/-- The declarations for a type do not clash. -/
theorem within {p : PyStr} {t : Scalar} (hp : '.' ∉ p ∧ ':' ∉ p) (htn : '.' ∉ t.name ∧ ':' ∉ t.name) (ht : FreeType t.name)
    (hl : ∀ l ∈ literals t, FreeLiteral l ∧ lw t.name ≠ lw l) (hll : (literals t).Pairwise fun a b => lw a ≠ lw b) :
    (declarations p t).Pairwise fun x y => ¬ Clash x y := by
  have hty : ∀ {n y}, Of t (lw n) → Class p t y → (∀ m, y ≠ .type m) → ¬ Clash (.type n) y := by
    intro n y hn hy hne hc
    cases hy with
    | type _ => exact hne _ rfl
    | literal h => exact of_literal hn (hl _ h).1 (hl _ h).2 hc
    | unreachable => exact of_unreachable ht hn (unreachable_prefix hp htn) hc
    | operation ho _ => exact of_operation ht hn ho hc
  have hsym : ∀ {x y}, Clash x y → Clash y x := by
    intro x y h
    cases x <;> cases y <;> simp only [Clash] at h ⊢
    · exact h.symm
    · exact h.symm
    · exact h.symm
    · exact ⟨h.1.symm, h.2.1.symm, h.2.2.symm⟩
  have h1 := name_ne_base t
  have h2 := name_ne_enum t
  have h3 := base_ne_enum t
  have hv1 : lw validText ≠ lw toBaseText := by decide
  have hv2 : lw validText ≠ lw toActualText := by decide
  have hv3 : lw toBaseText ≠ lw toActualText := by decide
  have htypes : (types t).Pairwise fun x y => ¬ Clash x y := by
    unfold types baseName
    cases hk : t.kind with
    | modular => simp
    | range => exact List.pairwise_pair.2 fun e => h1 (show lw (t.name ++ baseSuffix) = lw t.name from e).symm
    | enumeration ls av =>
      have hls : literals t = ls := by unfold literals; rw [hk]
      rw [hls] at hl hll
      have hmap : ∀ e, (ls.map fun l => Entity.function l [] e).Pairwise fun x y => ¬ Clash x y := by
        intro e
        rw [List.pairwise_map]
        exact hll.imp fun h hc => h hc.1
      have hlit : ∀ n e, Of t (lw n) → ∀ l ∈ ls, ¬ Clash (.type n) (.function l [] e) := by
        intro n e hn l hm hc
        exact of_literal hn (hl l hm).1 (hl l hm).2 hc
      cases av with
      | false =>
        simp only [Bool.false_eq_true, if_false, List.append_nil]
        rw [List.pairwise_append]
        refine ⟨List.pairwise_pair.2 fun e => h1 (show lw (t.name ++ baseSuffix) = lw t.name from e).symm, hmap _, ?_⟩
        intro x hx y hy
        rw [List.mem_map] at hy
        obtain ⟨l, hm, rfl⟩ := hy
        simp only [List.mem_cons, List.not_mem_nil, or_false] at hx
        rcases hx with rfl | rfl
        · exact hlit _ _ (.inr (.inl (lw_base _))) l hm
        · exact hlit _ _ (of_name t) l hm
      | true =>
        simp only [if_true]
        rw [List.pairwise_append, List.pairwise_append]
        refine ⟨⟨List.pairwise_pair.2 h3, hmap _, ?_⟩, by simp, ?_⟩
        · intro x hx y hy
          rw [List.mem_map] at hy
          obtain ⟨l, hm, rfl⟩ := hy
          simp only [List.mem_cons, List.not_mem_nil, or_false] at hx
          rcases hx with rfl | rfl
          · exact hlit _ _ (.inr (.inl (lw_base _))) l hm
          · exact hlit _ _ (of_enum t) l hm
        · intro x hx y hy
          rw [List.mem_singleton] at hy
          subst hy
          simp only [List.mem_append, List.mem_cons, List.not_mem_nil, or_false, List.mem_map] at hx
          rcases hx with (rfl | rfl) | ⟨l, hm, rfl⟩
          · exact fun e => h1 e.symm
          · exact fun e => h2 e.symm
          · exact fun hc => hlit _ _ (of_name t) l hm (hsym hc)
  have hfun : (functions t).Pairwise fun x y => ¬ Clash x y := by
    unfold functions baseName
    cases hk : t.kind with
    | modular => simp [Clash, hv1, hv2, hv3]
    | range => simp [Clash, hv1, hv2, hv3]
    | enumeration ls av =>
      cases av with
      | false => simp [Clash, hv1, hv2, hv3]
      | true =>
        have h2' : ¬ lw (enumName t) = lw t.name := fun e => h2 e.symm
        have h3' : ¬ lw (enumName t) = lw (t.name ++ baseSuffix) := fun e => h3 e.symm
        have hv3' : ¬ lw toActualText = lw toBaseText := fun e => hv3 e.symm
        simp only [List.pairwise_cons, List.mem_cons, List.not_mem_nil, or_false, forall_eq_or_imp, forall_eq, Clash, List.map_cons, List.map_nil,
          List.cons.injEq, and_true, hv1, hv2, hv3, hv3', h2', h3', false_and, and_false, not_false_eq_true, and_self, true_and, List.Pairwise.nil,
          false_implies, implies_true]
  unfold declarations
  rw [List.pairwise_append, List.pairwise_append]
  refine ⟨⟨htypes, by simp, ?_⟩, hfun, ?_⟩
  · intro x hx y hy
    rw [List.mem_singleton] at hy
    subst hy
    intro hc
    rcases types_shape t x hx with ⟨n, rfl, hn⟩ | ⟨l, r, h, rfl⟩
    · exact of_unreachable ht hn (unreachable_prefix hp htn) hc
    · exact (hl _ h).1.2.2 (hc.1 ▸ unreachable_prefix hp htn)
  · intro x hx y hy hc
    have hy' : ∃ n a r, y = .function n [a] r ∧ Operation n := by
      have := class_functions p t y hy
      unfold functions at hy
      simp only at hy
      split at hy <;> simp only [List.mem_cons, List.not_mem_nil, or_false] at hy
      · rcases hy with rfl | rfl | rfl | rfl | rfl <;> exact ⟨_, _, _, rfl, by simp [Operation]⟩
      · rcases hy with rfl | rfl | rfl <;> exact ⟨_, _, _, rfl, by simp [Operation]⟩
    obtain ⟨n, a, r, rfl, ho⟩ := hy'
    rcases List.mem_append.1 hx with hx | hx
    · rcases types_shape t x hx with ⟨m, rfl, hm⟩ | ⟨l, r', h, rfl⟩
      · exact of_operation ht hm ho hc
      · exact nomatch hc.2.1
    · rw [List.mem_singleton] at hx
      subst hx
      exact nomatch hc.2.1

/-! ## C79 -/

/-- The declarations that are generated for the scalar types of a package do not clash, if the names of types and literals are not used for other
declarations. Missing: the model does not check the latter, see the counterexamples. -/
theorem C79_distinct_partial (package : PyStr) (ts : List Scalar) (hc : Checked ts) (hp : '.' ∉ package ∧ ':' ∉ package)
    (hw : ∀ t ∈ ts, '.' ∉ t.name ∧ ':' ∉ t.name) (ht : ∀ t ∈ ts, FreeType t.name) (hl : ∀ l ∈ ts.flatMap literals, FreeLiteral l) :
    (packageDeclarations package ts).Pairwise fun x y => ¬ Clash x y := by
  have mem : ∀ {t}, t ∈ ts → ∀ l ∈ literals t, l ∈ ts.flatMap literals := fun h l hm => List.mem_flatMap.2 ⟨_, h, hm⟩
  have hd := List.pairwise_flatMap.1 hc.different
  unfold packageDeclarations
  rw [List.pairwise_flatMap]
  refine ⟨fun t h => within hp (hw t h) (ht t h) (fun l hm => ⟨hl l (mem h l hm), hc.separate t h l (mem h l hm)⟩) (hd.1 t h), ?_⟩
  refine (hc.types.and hd.2).imp_of_mem ?_
  intro a b ha hb h x hx y hy
  exact cross hp (hw a ha) (hw b hb) (ht a ha) (ht b hb) h.1 (fun l hm => ⟨hl l (mem ha l hm), hc.separate b hb l (mem ha l hm)⟩)
    (fun l hm => ⟨hl l (mem hb l hm), hc.separate a ha l (mem hb l hm)⟩) h.2 (class_of package a x hx) (class_of package b y hy)

/-- Every type is declared under its own name, and each of its literals, in a package that has the functions for it. -/
theorem C79_declared (package : PyStr) (ts : List Scalar) : ∀ t ∈ ts,
    Entity.type t.name ∈ packageDeclarations package ts ∧
    (∀ l ∈ literals t, ∃ r, Entity.function l [] r ∈ packageDeclarations package ts) ∧
    ∃ base, Entity.type base ∈ packageDeclarations package ts ∧
      Entity.function ['V', 'a', 'l', 'i', 'd'] [base] ['B', 'o', 'o', 'l', 'e', 'a', 'n'] ∈ packageDeclarations package ts ∧
      Entity.function ['T', 'o', '_', 'B', 'a', 's', 'e'] [t.name] base ∈ packageDeclarations package ts ∧
      Entity.function ['T', 'o', '_', 'A', 'c', 't', 'u', 'a', 'l'] [base] t.name ∈ packageDeclarations package ts := by
  intro t ht
  have mem : ∀ {x}, x ∈ declarations package t → x ∈ packageDeclarations package ts := fun h => List.mem_flatMap.2 ⟨t, ht, h⟩
  have hfn : ∀ x, x = Entity.function validText [baseName t] booleanName ∨ x = Entity.function toBaseText [t.name] (baseName t) ∨
      x = Entity.function toActualText [baseName t] t.name → x ∈ functions t := by
    intro x hx
    unfold functions
    simp only
    split
    · rcases hx with rfl | rfl | rfl <;> simp
    · rcases hx with rfl | rfl | rfl <;> simp
  have hf : ∀ {x}, x ∈ functions t → x ∈ declarations package t := by
    intro x hx; unfold declarations; exact List.mem_append_right _ hx
  have hty : ∀ {x}, x ∈ types t → x ∈ declarations package t := by
    intro x hx; unfold declarations; exact List.mem_append_left _ (List.mem_append_left _ hx)
  refine ⟨mem (hty ?_), ?_, baseName t, mem (hty ?_), mem (hf (hfn _ (.inl rfl))), mem (hf (hfn _ (.inr (.inl rfl)))),
    mem (hf (hfn _ (.inr (.inr rfl))))⟩
  · unfold types
    split
    · simp
    · simp
    · rename_i ls av _
      cases av <;> simp
  · intro l hm
    unfold literals at hm
    cases hk : t.kind with
    | modular => rw [hk] at hm; simp at hm
    | range => rw [hk] at hm; simp at hm
    | enumeration ls av =>
      rw [hk] at hm
      refine ⟨if av then enumName t else t.name, mem (hty ?_)⟩
      unfold types
      rw [hk]
      simp only [List.mem_append, List.mem_map]
      exact .inl (.inr ⟨l, hm, rfl⟩)
  · unfold types baseName
    cases hk : t.kind with
    | modular => simp
    | range => simp
    | enumeration ls av => simp

/-- A package with types of all kinds. -/
def exScalars : List Scalar :=
  [⟨['L', 'e', 'n'], .modular⟩, ⟨['P', 'o', 'r', 't'], .range⟩, ⟨['T', 'a', 'g'], .enumeration [['A'], ['B']] false⟩,
    ⟨['O', 'p'], .enumeration [['C'], ['D']] true⟩]

instance : (x y : Entity) → Decidable (Clash x y)
  | .type a, .type b => inferInstanceAs (Decidable (lw a = lw b))
  | .type a, .function b _ _ => inferInstanceAs (Decidable (lw a = lw b))
  | .function a _ _, .type b => inferInstanceAs (Decidable (lw a = lw b))
  | .function a ps r, .function b qs s => inferInstanceAs (Decidable (lw a = lw b ∧ ps.map lw = qs.map lw ∧ lw r = lw s))
instance (n : PyStr) : Decidable (FreeType n) := by unfold FreeType; infer_instance
instance (n : PyStr) : Decidable (FreeLiteral n) := by unfold FreeLiteral; infer_instance

example : Checked exScalars ∧ (∀ t ∈ exScalars, '.' ∉ t.name ∧ ':' ∉ t.name) ∧ (∀ t ∈ exScalars, FreeType t.name) ∧
    (∀ l ∈ exScalars.flatMap literals, FreeLiteral l) ∧ (packageDeclarations ['P'] exScalars).length = 30 := by
  refine ⟨⟨?_, ?_, ?_⟩, ?_, ?_, ?_, rfl⟩
  · simp [exScalars]
  · simp [exScalars, literals]
  · simp [exScalars, literals]
  · simp [exScalars]
  · simp [exScalars]; decide
  · simp [exScalars, literals]; decide

/-- Names allowed by the model for which declarations clash: a range type `To` (its base type and a function are called `To_Base`), a type called `Valid`, a
range type `T` beside a type `T_Base`, and a range type `T` beside a literal `T_Base`. -/
theorem C79_clash_counterexample :
    let clashes (ts : List Scalar) := Checked ts ∧ ¬ (packageDeclarations ['P'] ts).Pairwise fun x y => ¬ Clash x y
    clashes [⟨['T', 'o'], .range⟩] ∧ clashes [⟨['V', 'a', 'l', 'i', 'd'], .modular⟩] ∧
    clashes [⟨['T'], .range⟩, ⟨['T', '_', 'B', 'a', 's', 'e'], .modular⟩] ∧
    clashes [⟨['T'], .range⟩, ⟨['U'], .enumeration [['T', '_', 'B', 'a', 's', 'e']] false⟩] := by
  refine ⟨⟨⟨?_, ?_, ?_⟩, ?_⟩, ⟨⟨?_, ?_, ?_⟩, ?_⟩, ⟨⟨?_, ?_, ?_⟩, ?_⟩, ⟨⟨?_, ?_, ?_⟩, ?_⟩⟩
  all_goals decide +kernel

end Verif.Generator.DeclNames
