import Verif.Bridge.Layout
import Verif.Ctx.Props

/-! # C71: generated code for messages that the model verification accepts -/

namespace Verif.Bridge
open Verif Verif.Graph Verif.Verify Verif.Types Verif.Gen Verif.Spark Verif.Ctx

/-- A field of a composite type can always be left: one of its links has no condition. -/
def Left (m : Msg) : Prop := ∀ f t, (f, t) ∈ m.types → ¬ Scalar t → ∃ o ∈ m.links, o.source = f ∧ o.condition = .tru

/-- A message that was created without error, by a solver that always answers; names can be told apart, and the solver reads its expressions as they
are meant. -/
structure Checked (s : Solver) (m : Msg) : Prop where
  decides : s.Decides
  accepted : m.Accepted s
  regular : m.Regular
  ok : ∀ e ∈ m.types, e.2.Ok
  distinct : Distinct m
  understood : Understood m

section
variable {P : Pkg} {b : Bytes} {lo hi : Int} {es : List Item} {p : Field} {pos : Int} {s : Solver}

theorem follows_allowed (W : WellFormed P) (K : Checked s P.m.msg) (hlo : lo % 8 = 1) (hhi : hi % 8 = 0) {dflt : Field → Int}
    (hdf : ∀ e ∈ P.m.msg.types, Scalar e.2 → e.2.Contains (dflt e.1)) (h : Follows P.m.msg b lo hi es p pos) :
    Allowed P.m.msg (fullEnv P.m.msg b lo hi es dflt) := by
  refine fullEnv_allowed W K.distinct hlo hhi hdf (follows_nodup W h) fun e he => ?_
  obtain ⟨t, ht, _, hs⟩ := follows_type h he
  refine ⟨t, ht, fun h => ?_⟩
  obtain ⟨n, h1, _, h2, h3⟩ := hs h
  exact ⟨n, h1, h2, h3⟩

/-- **C71.** In any buffer, of the conditions of the links from a field only one holds, so that the generated code never has a choice. -/
theorem C71_deterministic_partial (W : WellFormed P) (K : Checked s P.m.msg) (hlo : lo % 8 = 1) (hhi : hi % 8 = 0) : Deterministic P.m.msg b lo hi := by
  intro es p pos h l hl l' hl' hs hs' hc hc'
  obtain ⟨dflt, hdf⟩ := exists_values W
  have A := follows_allowed (b := b) W K hlo hhi hdf h
  have T := fullEnv_typed (b := b) (lo := lo) (hi := hi) (es := es) (dflt := dflt) W
  have hn := follows_nodup W h
  have G : AgreeOn P.m (· ∈ es.map (·.f)) (fullEnv P.m.msg b lo hi es dflt) (itemEnv P.m.msg b lo hi es) := agreeOn (xs := []) W hn
  have e1 := cond_congr (D := .ada) W.names G l.condition (W.scope l hl _ (hs ▸ follows_path h))
  have e2 := cond_congr (D := .ada) W.names G l'.condition (W.scope l' hl' _ (hs' ▸ follows_path h))
  exact C18_deterministic_partial s K.decides _ K.accepted K.regular K.ok .ada _ A l l' hl hl' (hs.trans hs'.symm) (source_ne_final W hl)
    (plainLink W K.accepted K.regular K.understood T hl).1 (plainLink W K.accepted K.regular K.understood T hl').1 (e1.trans hc) (e2.trans hc')

/-- What the verification says of a link to a composite field of a message in a buffer. -/
theorem composite_position (W : WellFormed P) (K : Checked s P.m.msg) (L : Left P.m.msg) (I : InBuffer P b lo hi) (hlo : lo % 8 = 1) (hhi : hi % 8 = 0)
    (h : Follows P.m.msg b lo hi es p pos) {l : Link} (hl : l ∈ P.m.msg.links) (hs : l.source = p) (ht : l.target ≠ FINAL)
    (hc : IsTrue P.m.msg b lo hi es l.condition) {t : FTy} (htt : (l.target, t) ∈ P.m.msg.types) (hct : ¬ Scalar t) {n : Int}
    (hn : eval .ada (itemEnv P.m.msg b lo hi es) l.size = some (.int n)) (hle : pos + n - 1 ≤ hi) :
    0 ≤ n ∧ (t = .opaque → pos % 8 = 1 ∧ n % 8 = 0) := by
  obtain ⟨dflt, hdf⟩ := exists_values W
  have hf : l.target ∈ P.m.msg.fields := (W.links l hl).2.resolve_left ht
  have hpath := follows_path h
  have hnd : (([⟨l.target, pos, pos + n - 1, 0⟩] ++ es : List Item).map (·.f)).Nodup :=
    (path_order W (Path.step hpath hl hs ht)).2
  have hA : Allowed P.m.msg (fullEnv P.m.msg b lo hi ([⟨l.target, pos, pos + n - 1, 0⟩] ++ es) dflt) := by
    refine fullEnv_allowed W K.distinct hlo hhi hdf hnd fun e he => ?_
    simp only [List.singleton_append, List.mem_cons] at he
    rcases he with rfl | he
    · exact ⟨t, htt, fun h => (hct h).elim⟩
    · obtain ⟨t, ht, _, hs⟩ := follows_type h he
      refine ⟨t, ht, fun h => ?_⟩
      obtain ⟨n, h1, _, h2, h3⟩ := hs h
      exact ⟨n, h1, h2, h3⟩
  obtain ⟨q, hq, hm, hR, hat, hcond, _⟩ := layout (dflt := dflt) W K.accepted K.regular h [⟨l.target, pos, pos + n - 1, 0⟩] hnd
  have hsp := spans_composite (b := b) (lo := lo) (hi := hi) (dflt := dflt) (xs := []) (y := ⟨l.target, pos, pos + n - 1, 0⟩) W hnd hl htt hct
    (hs ▸ hpath) hn
  have e : pos + n - 1 - pos + 1 = n := by omega
  have hAt := at_link (b := b) (lo := lo) (hi := hi) (dflt := dflt) (xs := []) (y := ⟨l.target, pos, pos + n - 1, 0⟩) W hnd hl rfl ht rfl hs hR
    (by simpa only [e] using hsp)
  simp only [e] at hAt
  have T := fullEnv_typed (b := b) (lo := lo) (hi := hi) (es := [⟨l.target, pos, pos + n - 1, 0⟩] ++ es) (dflt := dflt) W
  have hcl : eval .ada (fullEnv P.m.msg b lo hi ([⟨l.target, pos, pos + n - 1, 0⟩] ++ es) dflt) l.condition = some (.bool true) :=
    (cond_congr (D := .ada) W.names (agreeOn W hnd) l.condition (W.scope l hl _ (hs ▸ hpath))).trans hc
  have hmem : ∀ x ∈ q ++ [l], x ∈ P.m.msg.links := by
    intro x hx
    simp only [List.mem_append, List.mem_singleton] at hx
    rcases hx with h | rfl
    · exact hm x h
    · exact hl
  obtain ⟨o, ho, hos, hoc⟩ := L _ _ htt hct
  have := C19_positions_partial s K.decides _ K.accepted K.regular K.ok .ada _ hA lo hi q l (.snoc (hs ▸ hq) hl)
    { first := by simp [fullEnv, itemEnv]
      last := by simp [fullEnv, itemEnv]
      size := by simp [fullEnv, itemEnv]
      nonneg := by have := I.lower; omega
      nonempty := I.order
      field := fun x hx => by
        simp only [List.mem_append, List.mem_singleton] at hx
        rcases hx with h | rfl
        · exact hat x h
        · exact ⟨_, _, hAt, hle⟩
      condition := fun x hx => by
        simp only [List.mem_append, List.mem_singleton] at hx
        rcases hx with h | rfl
        · exact hcond x h
        · exact hcl }
    (fun x hx => plainLink W K.accepted K.regular K.understood T (hmem x hx))
    (.inr ⟨o, ho, hos, (plainLink W K.accepted K.regular K.understood T ho).1, by rw [hoc]; simp [eval]⟩) pos n hAt
  refine ⟨this.1, fun h => this.2 ?_⟩
  rw [type?_some W.names htt, h]

/-- **C71.** In any buffer, no field has a negative size. -/
theorem C71_nonnegative_partial (W : WellFormed P) (K : Checked s P.m.msg) (L : Left P.m.msg) (I : InBuffer P b lo hi) (hlo : lo % 8 = 1) (hhi : hi % 8 = 0)
    (h : Follows P.m.msg b lo hi es p pos) {l : Link} (hl : l ∈ P.m.msg.links) (hs : l.source = p) (ht : l.target ≠ FINAL)
    (hc : IsTrue P.m.msg b lo hi es l.condition) {t : FTy} (htt : (l.target, t) ∈ P.m.msg.types) (hct : ¬ Scalar t) {n : Int}
    (hn : eval .ada (itemEnv P.m.msg b lo hi es) l.size = some (.int n)) : 0 ≤ n := by
  have := follows_bounds W I.order h
  by_cases hle : pos + n - 1 ≤ hi
  · exact (composite_position W K L I hlo hhi h hl hs ht hc htt hct hn hle).1
  · omega

/-- **C71.** In any buffer, fields of type `Opaque` consist of whole bytes. -/
theorem C71_aligned_partial (W : WellFormed P) (K : Checked s P.m.msg) (L : Left P.m.msg) (I : InBuffer P b lo hi) (hlo : lo % 8 = 1) (hhi : hi % 8 = 0)
    (h : Follows P.m.msg b lo hi es p pos) {e : Item} (he : e ∈ es) (ht : (e.f, FTy.opaque) ∈ P.m.msg.types) : e.first % 8 = 1 ∧ e.last % 8 = 0 := by
  obtain ⟨xs, ys, rfl⟩ := List.append_of_mem he
  obtain ⟨p', pos', h'⟩ := follows_suffix h
  obtain ⟨p1, pos1, l, h1, hst, _, _⟩ := follows_cons h'
  obtain ⟨hl, hs, hf, hc, t, htt, hcase⟩ := hst
  have hy : e.f = l.target := by rcases hcase with ⟨_, n, _, _, _, rfl⟩ | ⟨_, n, _, _, _, rfl⟩ <;> rfl
  rw [hy] at ht
  cases nodup_pair W.names.once ht htt
  rcases hcase with ⟨hsc, _⟩ | ⟨hct, n, hn, _, hle, rfl⟩
  · exact hsc.elim
  · have := (composite_position W K L I hlo hhi h1 hl hs hf hc htt hct hn hle).2 rfl
    simp only
    omega

/-- Sizes do not exceed the range of bit indices. -/
def Small (P : Pkg) (b : Bytes) (lo hi : Int) : Prop :=
  ∀ es p pos, Follows P.m.msg b lo hi es p pos → ∀ l ∈ P.m.msg.links, l.source = p → l.target ≠ FINAL → IsTrue P.m.msg b lo hi es l.condition →
    ∀ t, (l.target, t) ∈ P.m.msg.types → ¬ Scalar t → ∀ n, eval .ada (itemEnv P.m.msg b lo hi es) l.size = some (.int n) → n ≤ P.bitLast

/-- The message begins with a scalar. -/
def StartsScalar (m : Msg) : Prop := ∀ l ∈ m.links, l.source = INITIAL → ∀ t, (l.target, t) ∈ m.types → Scalar t

/-- A field in front takes at least one bit if it is the first one. -/
theorem first_nonempty (W : WellFormed P) (hS : StartsScalar P.m.msg) {y : Item} (h : Follows P.m.msg b lo hi [y] p pos) : y.first ≤ y.last := by
  obtain ⟨p1, pos1, l, h1, hst, _, _⟩ := follows_cons h
  obtain ⟨hp, _⟩ := follows_nil h1
  obtain ⟨hl, hs, hf, hc, t, htt, hcase⟩ := hst
  have hsc := hS l hl (hs.trans hp) t htt
  rcases hcase with ⟨_, n, hn, _, _, rfl⟩ | ⟨hct, _⟩
  · obtain ⟨n', hn', h1⟩ := W.sized _ _ htt hsc
    cases hn.symm.trans hn'
    simp only
    omega
  · exact (hct hsc).elim

theorem follows_after (W : WellFormed P) (hS : StartsScalar P.m.msg) (ho : lo ≤ hi) (h : Follows P.m.msg b lo hi es p pos) (hp : p ≠ INITIAL) : lo < pos := by
  induction h with
  | start => exact (hp rfl).elim
  | @scalar es p pos l t n h hl hs ht hc htt hsc hsz hle hin ih =>
    obtain ⟨n', hn', h1⟩ := W.sized _ _ htt hsc
    cases hsz.symm.trans hn'
    have := (follows_bounds W ho h).1
    omega
  | @composite es p pos l t n h hl hs ht hc htt hct he h0 hle ih =>
    by_cases hp' : p = INITIAL
    · exact (hct (hS l hl (hs.trans hp') t htt)).elim
    · have := ih hp'
      omega

/-- **C71.** A message that the model verification accepts has what the theorems about generated code require (C29, C30, C31, C67, C68, C69), in
buffers of whole bytes: if it begins with a scalar, its composite fields are of type `Opaque` and can be left, and sizes are in the range of bit
indices. -/
theorem C71_verified_partial (W : WellFormed P) (K : Checked s P.m.msg) (L : Left P.m.msg) (hlo : lo % 8 = 1) (hhi : hi % 8 = 0)
    (hS : StartsScalar P.m.msg) (hO : ∀ f t, (f, t) ∈ P.m.msg.types → Scalar t ∨ t = .opaque) (hB : ∀ b, InBuffer P b lo hi → Small P b lo hi) :
    Ctx.Verified P lo hi where
  deterministic _ _ := C71_deterministic_partial W K hlo hhi
  sizes b I es p pos h l hl hs ht hc t htt hct n hn := by
    refine ⟨C71_nonnegative_partial W K L I hlo hhi h hl hs ht hc htt hct hn, hB b I es p pos h l hl hs ht hc t htt hct n hn, fun h1 => ?_⟩
    by_cases hp : p = INITIAL
    · exact (hct (hS l hl (hs.trans hp) t htt)).elim
    · have := follows_after W hS I.order h hp
      have := I.lower
      omega
  aligned b I es p pos h e he t ht hct := by
    rcases hO _ _ ht with h' | rfl
    · exact (hct h').elim
    · exact C71_aligned_partial W K L I hlo hhi h he ht
  nonempty b I y p pos h := first_nonempty W hS h

/-- **C71.** The generated parser of an accepted message accepts a buffer if and only if there is a message in it. -/
theorem C71_parser_partial (W : WellFormed P) (K : Checked s P.m.msg) (L : Left P.m.msg) (I : InBuffer P b lo hi) (hlo : lo % 8 = 1) (hhi : hi % 8 = 0)
    (hS : StartsScalar P.m.msg) (hB : Small P b lo hi) :
    ∃ c r, P.parse b lo hi = .ok c ∧ P.structuralValidMessage c = .ok r ∧ (r = true ↔ ∃ es, IsMessage P.m.msg b lo hi es) :=
  C29_accepts W I (C71_deterministic_partial W K hlo hhi) fun es p pos h l hl hs ht hc t htt hct n hn => by
    refine ⟨C71_nonnegative_partial W K L I hlo hhi h hl hs ht hc htt hct hn, hB es p pos h l hl hs ht hc t htt hct n hn, fun h1 => ?_⟩
    by_cases hp : p = INITIAL
    · exact (hct (hS l hl (hs.trans hp) t htt)).elim
    · have := follows_after W hS I.order h hp
      have := I.lower
      omega

end
end Verif.Bridge
