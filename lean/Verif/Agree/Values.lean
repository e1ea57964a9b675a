import Verif.Agree.Leaves
import Verif.Ctx.Leaves

/-! # Conditions and sizes have the same values in PyRFLX and in generated code (continued) -/

namespace Verif.Agree
open Verif Verif.Graph Verif.Types Verif.Bits Verif.Gen Verif.Ctx

variable {m : PyRFLX.Msg} {P : Pkg} {rest : Field → Bool} {b : Spark.Bytes} {lo hi : Int} {fv : Field → PyRFLX.FV} {p : List Field}
  {es : List Item} {M : List (Expr × Expr)}

theorem substitution_other (N : List (Expr × Expr)) (e : Expr) (h : e.isName = false) : substitution N e = e := by
  simp [substitution, h]

theorem known_maps (W : WellFormed P) (S : SameMessage m P rest) (hM : p ≠ [] → m.newMapping fv = .ok M) (hM' : PyRFLX.MappingOf m fv M)
    (I : Inv m P b lo fv p es) :
    Maps .ada (itemEnv P.m.msg b lo hi es) (itemEnv P.m.msg b lo hi es) (substitution (M ++ m.lits)) (Known m.fields p) AnyRel where
  leaf e he k hk := by
    obtain ⟨r, _, h1, h2⟩ := known_leaf (hi := hi) W S hM hM' I he
    exact ⟨r, h2 k hk, h1⟩
  rel op l r _ := substitution_other _ _ rfl
  other e h _ := substitution_other _ e h

/-- Substitution of the current values. -/
theorem known_subst (W : WellFormed P) (S : SameMessage m P rest) (hM : p ≠ [] → m.newMapping fv = .ok M) (hM' : PyRFLX.MappingOf m fv M)
    (I : Inv m P b lo fv p es) {e r : Expr} (he : Cov (Known m.fields p) AnyRel e) (h : e.substituted (M ++ m.lits) = .ok r) :
    Cov (Known m.fields p) AnyRel r ∧ Mapped .ada (itemEnv P.m.msg b lo hi es) (itemEnv P.m.msg b lo hi es) e r := by
  constructor
  · refine cov_subst (f := substitution (M ++ m.lits)) (substitution_other _) (fun e he k r h => ?_) e he _ r h
    obtain ⟨r', h1, _, h2⟩ := known_leaf (hi := hi) W S hM hM' I he
    have := subst_mono (k' := k + (depth e + 4)) (by omega) h
    rw [h2 _ (by omega)] at this
    cases this
    exact h1
  · obtain ⟨r', h1, h2⟩ := maps_ok (known_maps (hi := hi) W S hM hM' I) e he (depth e + 4) (by omega)
    have := subst_mono (k' := depth e + 4) (by omega) (h : subst (depth e + 1) _ e = .ok r)
    rw [h1] at this
    cases this
    exact h2

/-- `__simplified` does not change values. -/
theorem simplified_value (W : WellFormed P) (S : SameMessage m P rest) (hM : p ≠ [] → m.newMapping fv = .ok M) (hM' : PyRFLX.MappingOf m fv M)
    (I : Inv m P b lo fv p es) {e r : Expr} (he : Cov (Known m.fields p) AnyRel e) (hw : e.WF) (hg : e.Good Division.ada.Odd false)
    (h : m.simplifiedIn M e = .ok r) {v : Val} (hv : eval .ada (itemEnv P.m.msg b lo hi es) e = some v) :
    eval .ada (itemEnv P.m.msg b lo hi es) r = some v := by
  unfold PyRFLX.Msg.simplifiedIn at h
  split at h
  · cases h
    exact hv
  · obtain ⟨e1, h1, h⟩ := PyRFLX.bind_ok h
    obtain ⟨e2, h2, h⟩ := PyRFLX.bind_ok h
    obtain ⟨c1, m1⟩ := known_subst (hi := hi) W S hM hM' I he h1
    obtain ⟨_, m2⟩ := known_subst (hi := hi) W S hM hM' I c1 h2
    exact C08_C09_simplified_value_partial e2 r (m2.good _ (m1.good _ hg)) (m2.wf (m1.wf hw)) h _ v (m2.value _ (m1.value _ hv))

/-- A condition that holds in PyRFLX holds. -/
theorem holds_true (W : WellFormed P) (S : SameMessage m P rest) (hM : p ≠ [] → m.newMapping fv = .ok M) (hM' : PyRFLX.MappingOf m fv M)
    (I : Inv m P b lo fv p es) {l : Link} (hl : l ∈ m.links) (hc : Cov (Known m.fields p) AnyRel l.condition)
    (h : m.holds M l.condition = .ok true) : IsTrue P.m.msg b lo hi es l.condition := by
  have hl' : lowLink l ∈ P.m.msg.links := by rw [S.links]; exact List.mem_map_of_mem hl
  obtain ⟨r, hr, ht⟩ := PyRFLX.map_ok h
  obtain ⟨hw, hg⟩ := W.wf _ hl'
  obtain ⟨x, hx⟩ := W.bool _ hl' _ (itemEnv_typed (b := b) (lo := lo) (hi := hi) (es := es) W)
  have := simplified_value (hi := hi) W S hM hM' I hc hw hg hr hx
  have htru : r = .tru := by cases r <;> simp [Expr.isTru] at ht ⊢
  subst htru
  simp only [eval, Option.some.injEq, Val.bool.injEq] at this
  unfold IsTrue
  rw [show l.condition = (lowLink l).condition from rfl, hx, ← this]

/-- A size of PyRFLX is the size. -/
theorem size_value (W : WellFormed P) (S : SameMessage m P rest) (hM : p ≠ [] → m.newMapping fv = .ok M) (hM' : PyRFLX.MappingOf m fv M)
    (I : Inv m P b lo fv p es) {l : Link} (hl : l ∈ m.links) {t : Verify.FTy} (ht : (low l.target, t) ∈ P.m.msg.types) (hs : ¬ Scalar t)
    (hc : Cov (Known m.fields p) AnyRel l.size) {r : Expr} (h : m.simplifiedIn M l.size = .ok r) {n : Num} (hn : asNum r = some n) :
    eval .ada (itemEnv P.m.msg b lo hi es) l.size = some (.int n.v) := by
  have hl' : lowLink l ∈ P.m.msg.links := by rw [S.links]; exact List.mem_map_of_mem hl
  obtain ⟨hw, hg⟩ := W.sizeWF _ hl' t ht hs
  obtain ⟨x, hx⟩ := W.sizeInt _ hl' t ht hs _ (itemEnv_typed (b := b) (lo := lo) (hi := hi) (es := es) W)
  have := simplified_value (hi := hi) W S hM hM' I hc hw hg h hx
  cases r <;> simp [asNum] at hn
  subst hn
  simp only [eval, Option.some.injEq, Val.int.injEq] at this
  rw [show l.size = (lowLink l).size from rfl, hx, ← this]

/-! ## Ways -/

theorem way_of_walk (w : PyRFLX.Well m rank rest) {p q : List Field} {a e : Field} (hw : PyRFLX.Walk m M a p e) :
    Way m.links q a → Way m.links (p.reverse ++ q) e ∧ ∀ g ∈ p, g ∈ m.fields := by
  induction hw generalizing q with
  | nil => intro h; exact ⟨h, by simp⟩
  | @cons a f c p h1 h2 _ ih =>
    intro h
    obtain ⟨l, hl, hs, ht, _⟩ := w.next_holds h1
    have hf : f ∈ m.fields := by
      rcases (w.links l hl).2 with h | h
      · exact absurd (ht.symm.trans h) h2
      · rw [← ht]; exact h
    obtain ⟨h3, h4⟩ := ih (q := f :: q) (by rw [← ht]; exact .step h hl hs (by rw [ht]; exact h2))
    refine ⟨by simpa using h3, ?_⟩
    intro g hg
    rcases List.mem_cons.mp hg with rfl | hg
    · exact hf
    · exact h4 g hg

theorem known_reverse {fields p : List Field} {e : Expr} (h : Known fields p.reverse e) : Known fields p e := by
  cases e with
  | var ng imm id => exact ⟨h.1, h.2.1, fun h' => by simpa using h.2.2 h'⟩
  | attr ng a pre =>
    obtain ⟨h1, h2, f, hf, h3⟩ := h
    exact ⟨h1, h2, f, by simpa using hf, h3⟩
  | agg es => exact h
  | _ => exact h.elim

theorem condition_known (w : PyRFLX.Well m rank rest) (S : SameMessage m P rest) {e : Field} (hw : PyRFLX.Walk m M INITIAL p e) {l : Link}
    (hl : l ∈ m.links) (hs : l.source = e) : Cov (Known m.fields p) AnyRel l.condition := by
  have := S.conditions l hl p.reverse (by rw [hs]; simpa using (way_of_walk w hw (q := []) .start).1)
  exact cov_mono (fun _ h => known_reverse h) (fun _ _ _ h => h) _ this

theorem size_known (w : PyRFLX.Well m rank rest) (S : SameMessage m P rest) {e : Field} (hw : PyRFLX.Walk m M INITIAL p e) {l : Link}
    (hl : l ∈ m.links) (hs : l.source = e) (ht : l.target ∈ m.fields) (hc : (m.types l.target).isComposite = true)
    (hr : rest l.target = false) : Cov (Known m.fields p) AnyRel l.size := by
  have := S.sizes l hl ht hc hr p.reverse (by rw [hs]; simpa using (way_of_walk w hw (q := []) .start).1)
  exact cov_mono (fun _ h => known_reverse h) (fun _ _ _ h => h) _ this

/-! ## Bits -/

theorem bitsToNat_bitsAt {b : Spark.Bytes} {pos : Int} : ∀ {l : List Bool}, (∀ i (h : i < l.length), l[i] = bitAt b (pos + i)) →
    bitsToNat l = bitsAt b pos l.length := by
  intro l h
  obtain ⟨n, hn⟩ : ∃ n, l.length = n := ⟨_, rfl⟩
  rw [hn]
  induction n generalizing l with
  | zero =>
    rw [List.length_eq_zero_iff.mp hn]
    rfl
  | succ n ih =>
    have hne : l ≠ [] := by rintro rfl; simp at hn
    have hl := List.dropLast_concat_getLast hne
    have hlen : l.dropLast.length = n := by simp [hn]
    have h1 := ih (fun i hi => by rw [List.getElem_dropLast]; exact h i (by omega)) hlen
    have h2 : l.getLast hne = bitAt b (pos + n) := by
      rw [List.getLast_eq_getElem]
      have := h (l.length - 1) (by omega)
      simp only [this]
      congr 2
      omega
    rw [← hl, bitsToNat_append, h1, h2]
    simp only [bitsAt, List.length_singleton, Nat.pow_one]
    have : bitsToNat [bitAt b (pos + n)] = (bitAt b (pos + n)).toNat := by simp [bitsToNat]
    rw [this]
    omega

/-- A part of the input is a part of the buffer. -/
theorem Holds.slice {input : List Byte} (h : Holds b lo hi input) {a n : Nat} (hle : a + n ≤ (input.flatMap Spec.byteBits).length) :
    (((input.flatMap Spec.byteBits).drop a).take n).length = n ∧
      ∀ i (hi : i < (((input.flatMap Spec.byteBits).drop a).take n).length),
        (((input.flatMap Spec.byteBits).drop a).take n)[i] = bitAt b (lo + a + i) := by
  have hlen : (((input.flatMap Spec.byteBits).drop a).take n).length = n := by
    rw [List.length_take, List.length_drop]
    omega
  refine ⟨hlen, fun i hi => ?_⟩
  rw [hlen] at hi
  rw [List.getElem_take, List.getElem_drop, ← h.2 (a + i) (by omega)]
  congr 1
  simp only [Int.natCast_add]
  omega

end Verif.Agree
