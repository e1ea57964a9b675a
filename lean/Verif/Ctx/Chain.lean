import Verif.Ctx.Bits

/-! # Fields of a message, one after the other -/

namespace Verif.Ctx
open Verif Verif.Graph Verif.Verify Verif.Types Verif.Gen Verif.Spark

/-- One field more. -/
def Step (m : Msg) (b : Bytes) (lo hi : Int) (es : List Item) (p : Field) (pos : Int) (l : Link) (y : Item) : Prop :=
  l ∈ m.links ∧ l.source = p ∧ l.target ≠ FINAL ∧ IsTrue m b lo hi es l.condition ∧ ∃ t, (l.target, t) ∈ m.types ∧
    ((Scalar t ∧ ∃ n, t.size = .ok n ∧ pos + n.v - 1 ≤ hi ∧ InType t (bitsAt b pos n.v.toNat) ∧
      y = ⟨l.target, pos, pos + n.v - 1, bitsAt b pos n.v.toNat⟩) ∨
    (¬ Scalar t ∧ ∃ n, eval .ada (itemEnv m b lo hi es) l.size = some (.int n) ∧ 0 ≤ n ∧ pos + n - 1 ≤ hi ∧ y = ⟨l.target, pos, pos + n - 1, 0⟩))

section
variable {P : Pkg} {b : Bytes} {lo hi : Int} {es : List Item} {p : Field} {pos : Int} {y : Item} {m : Msg}

theorem Step.field {l : Link} (h : Step m b lo hi es p pos l y) : y.f = l.target ∧ y.first = pos := by
  obtain ⟨_, _, _, _, t, _, ⟨_, n, _, _, _, rfl⟩ | ⟨_, n, _, _, _, rfl⟩⟩ := h <;> exact ⟨rfl, rfl⟩

theorem follows_step {l : Link} (h : Follows m b lo hi es p pos) (hs : Step m b lo hi es p pos l y) :
    Follows m b lo hi (y :: es) l.target (y.last + 1) := by
  obtain ⟨h1, h2, h3, h4, t, ht, ⟨h5, n, h6, h7, h8, rfl⟩ | ⟨h5, n, h6, h7, h8, rfl⟩⟩ := hs
  · have := Follows.scalar h h1 h2 h3 h4 ht h5 h6 h7 h8
    have e : pos + n.v - 1 + 1 = pos + n.v := by omega
    simp only [e]
    exact this
  · have := Follows.composite h h1 h2 h3 h4 ht h5 h6 h7 h8
    have e : pos + n - 1 + 1 = pos + n := by omega
    simp only [e]
    exact this

theorem follows_cons {p' : Field} {pos' : Int} (h : Follows m b lo hi (y :: es) p' pos') :
    ∃ p pos l, Follows m b lo hi es p pos ∧ Step m b lo hi es p pos l y ∧ p' = l.target ∧ pos' = y.last + 1 := by
  cases h with
  | scalar h h1 h2 h3 h4 h5 h6 h7 h8 h9 =>
    refine ⟨_, _, _, h, ⟨h1, h2, h3, h4, _, h5, .inl ⟨h6, _, h7, h8, h9, rfl⟩⟩, rfl, ?_⟩
    simp only; omega
  | composite h h1 h2 h3 h4 h5 h6 h7 h8 h9 =>
    refine ⟨_, _, _, h, ⟨h1, h2, h3, h4, _, h5, .inr ⟨h6, _, h7, h8, h9, rfl⟩⟩, rfl, ?_⟩
    simp only; omega

theorem follows_nil {p' : Field} {pos' : Int} (h : Follows m b lo hi [] p' pos') : p' = INITIAL ∧ pos' = lo := by
  cases h
  exact ⟨rfl, rfl⟩

/-- The field in front. -/
def lastField : List Item → Field
  | [] => INITIAL
  | e :: _ => e.f

theorem follows_last (h : Follows m b lo hi es p pos) : p = lastField es := by
  cases es with
  | nil => exact (follows_nil h).1
  | cons e es =>
    obtain ⟨_, _, _, _, hs, hp, _⟩ := follows_cons h
    rw [hp, lastField, hs.field.1]

theorem follows_fun {p' : Field} {pos' : Int} (h : Follows m b lo hi es p pos) (h' : Follows m b lo hi es p' pos') : p = p' ∧ pos = pos' := by
  refine ⟨by rw [follows_last h, follows_last h'], ?_⟩
  cases es with
  | nil => rw [(follows_nil h).2, (follows_nil h').2]
  | cons e es =>
    obtain ⟨_, _, _, _, _, _, h1⟩ := follows_cons h
    obtain ⟨_, _, _, _, _, _, h2⟩ := follows_cons h'
    rw [h1, h2]

theorem follows_suffix {xs : List Item} (h : Follows m b lo hi (xs ++ es) p pos) : ∃ p' pos', Follows m b lo hi es p' pos' := by
  induction xs generalizing p pos with
  | nil => exact ⟨_, _, h⟩
  | cons x xs ih =>
    obtain ⟨p1, pos1, _, h1, _⟩ := follows_cons h
    exact ih h1

theorem follows_path (h : Follows m b lo hi es p pos) : Path m (es.map (·.f)) p := by
  induction h with
  | start => exact .start
  | scalar _ h1 h2 h3 _ _ _ _ _ _ ih => exact .step ih h1 h2 h3
  | composite _ h1 h2 h3 _ _ _ _ _ _ ih => exact .step ih h1 h2 h3

theorem path_mem (W : WellFormed P) {fs : List Field} (h : Path P.m.msg fs p) :
    (∀ f ∈ fs, f ∈ P.m.msg.fields) ∧ (p = INITIAL ∧ fs = [] ∨ p ∈ fs) := by
  induction h with
  | start => exact ⟨by simp, .inl ⟨rfl, rfl⟩⟩
  | step _ h1 h2 h3 ih =>
    refine ⟨?_, .inr List.mem_cons_self⟩
    intro f hf
    rcases List.mem_cons.mp hf with rfl | hf
    · exact (W.links _ h1).2.resolve_left h3
    · exact ih.1 f hf

/-- The fields of a path are in order. -/
theorem path_order (W : WellFormed P) {fs : List Field} (h : Path P.m.msg fs p) :
    (∀ f ∈ fs, P.m.msg.fields.idxOf f ≤ P.m.msg.fields.idxOf p) ∧ fs.Nodup := by
  induction h with
  | start => exact ⟨by simp, List.nodup_nil⟩
  | @step fs q l hp h1 h2 h3 ih =>
    subst h2
    have hm := path_mem W hp
    have hlt : ∀ f ∈ fs, P.m.msg.fields.idxOf f < P.m.msg.fields.idxOf l.target := by
      intro f hf
      have h4 := ih.1 f hf
      rcases hm.2 with ⟨_, rfl⟩ | hq
      · cases hf
      · have := W.order l h1 (hm.1 _ hq) ((W.links l h1).2.resolve_left h3)
        omega
    refine ⟨?_, ?_⟩
    · intro f hf
      rcases List.mem_cons.mp hf with rfl | hf
      · exact Nat.le_refl _
      · exact Nat.le_of_lt (hlt f hf)
    · rw [List.nodup_cons]
      exact ⟨fun hc => absurd (hlt _ hc) (Nat.lt_irrefl _), ih.2⟩

/-- A field that follows a path is not on it. -/
theorem path_next (W : WellFormed P) {fs : List Field} (h : Path P.m.msg fs p) {l : Link} (hl : l ∈ P.m.msg.links) (hs : l.source = p) (hf : l.target ≠ FINAL) :
    l.target ∉ fs := by
  have := (path_order W (.step h hl hs hf)).2
  rw [List.nodup_cons] at this
  exact this.1

theorem initial_ne_final : INITIAL ≠ FINAL := by decide

/-- Every field is on a path. -/
theorem path_exists (W : WellFormed P) {f : Field} (hf : f ∈ P.m.msg.fields) : ∃ fs, Path P.m.msg fs f := by
  suffices ∀ k f, f ∈ P.m.msg.fields → P.m.msg.fields.idxOf f ≤ k → ∃ fs, Path P.m.msg fs f from this _ f hf (Nat.le_refl _)
  intro k
  induction k with
  | zero =>
    intro f hf hk
    obtain ⟨l, hl, rfl⟩ := W.reached f hf
    rcases (W.links l hl).1 with h | h
    · exact ⟨_, .step .start hl h fun hf' => W.final (hf' ▸ hf)⟩
    · have := W.order l hl h hf
      omega
  | succ k ih =>
    intro f hf hk
    obtain ⟨l, hl, rfl⟩ := W.reached f hf
    rcases (W.links l hl).1 with h | h
    · exact ⟨_, .step .start hl h fun hf' => W.final (hf' ▸ hf)⟩
    · have := W.order l hl h hf
      obtain ⟨fs, hp⟩ := ih _ h (by omega)
      exact ⟨_, .step hp hl rfl fun hf' => W.final (hf' ▸ hf)⟩

theorem path_source (W : WellFormed P) {l : Link} (hl : l ∈ P.m.msg.links) : ∃ fs, Path P.m.msg fs l.source := by
  rcases (W.links l hl).1 with h | h
  · rw [h]; exact ⟨[], .start⟩
  · exact path_exists W h

/-- Conditions use fields of the message. -/
theorem cond_fields (W : WellFormed P) {l : Link} (hl : l ∈ P.m.msg.links) : Cond P.m opts (· ∈ P.m.msg.fields) l.condition := by
  obtain ⟨fs, hp⟩ := path_source W hl
  exact cond_mono (path_mem W hp).1 _ (W.scope l hl fs hp)

/-- The bounds of fields. -/
theorem follows_bounds (W : WellFormed P) (I : lo ≤ hi) (h : Follows P.m.msg b lo hi es p pos) :
    lo ≤ pos ∧ pos ≤ hi + 1 ∧ ∀ e ∈ es, lo ≤ e.first ∧ e.first ≤ e.last + 1 ∧ e.last ≤ hi := by
  induction h with
  | start => exact ⟨by omega, by omega, by simp⟩
  | @scalar es p pos l t n h h1 h2 h3 h4 h5 h6 h7 h8 h9 ih =>
    obtain ⟨n', hn, h10⟩ := W.sized _ _ h5 h6
    rw [h7] at hn
    cases hn
    refine ⟨by omega, by omega, ?_⟩
    intro e he
    rcases List.mem_cons.mp he with rfl | he
    · simp only; omega
    · exact ih.2.2 e he
  | @composite es p pos l t n h h1 h2 h3 h4 h5 h6 h7 h8 h9 ih =>
    refine ⟨by omega, by omega, ?_⟩
    intro e he
    rcases List.mem_cons.mp he with rfl | he
    · simp only; omega
    · exact ih.2.2 e he

theorem follows_nodup (W : WellFormed P) (h : Follows P.m.msg b lo hi es p pos) : (es.map (·.f)).Nodup := (path_order W (follows_path h)).2

theorem follows_fields (W : WellFormed P) (h : Follows P.m.msg b lo hi es p pos) {e : Item} (he : e ∈ es) : e.f ∈ P.m.msg.fields :=
  (path_mem W (follows_path h)).1 _ (List.mem_map_of_mem he)

/-- The type of a field, and its value. -/
theorem follows_type (h : Follows m b lo hi es p pos) {e : Item} (he : e ∈ es) :
    ∃ t, (e.f, t) ∈ m.types ∧ (¬ Scalar t → e.value = 0) ∧ (Scalar t → ∃ n, t.size = .ok n ∧ e.value = bitsAt b e.first n.v.toNat ∧
      e.last = e.first + n.v - 1 ∧ InType t e.value) := by
  induction h with
  | start => cases he
  | scalar h h1 h2 h3 h4 h5 h6 h7 h8 h9 ih =>
    rcases List.mem_cons.mp he with rfl | he
    · exact ⟨_, h5, fun hn => (hn h6).elim, fun _ => ⟨_, h7, rfl, rfl, h9⟩⟩
    · exact ih he
  | composite h h1 h2 h3 h4 h5 h6 h7 h8 h9 ih =>
    rcases List.mem_cons.mp he with rfl | he
    · exact ⟨_, h5, fun _ => rfl, fun hn => (h6 hn).elim⟩
    · exact ih he

theorem find_item {es : List Item} (hn : (es.map (·.f)).Nodup) {e : Item} (he : e ∈ es) {k : List PyStr} (hk : e.f = ⟨k⟩) :
    es.find? (fun e => e.f == ⟨k⟩) = some e := by
  induction es with
  | nil => cases he
  | cons a es ih =>
    simp only [List.map_cons, List.nodup_cons] at hn
    rcases List.mem_cons.mp he with rfl | he
    · simp [hk]
    · have : a.f ≠ ⟨k⟩ := by
        intro h
        apply hn.1
        rw [h, ← hk]
        exact List.mem_map_of_mem he
      rw [List.find?_cons_of_neg (by simpa using this)]
      exact ih hn.2 he

/-- What names stand for. -/
theorem itemEnv_typed (W : WellFormed P) : Typed P.m (itemEnv P.m.msg b lo hi es) where
  scalar f t h hs := by
    have ht := type?_some W.names h
    simp only [itemEnv]
    show ∃ i, (match P.m.msg.type? f, es.find? (fun e => e.f == f) with | none, _ => _ | some t, some e => _ | some t, none => _) = Val.int i
    rw [ht]
    cases es.find? (fun e => e.f == f) <;> simp [(scalar_iff t).mpr hs]
  composite f t h hs := by
    have ht := type?_some W.names h
    simp only [itemEnv]
    show ∃ ds, (match P.m.msg.type? f, es.find? (fun e => e.f == f) with | none, _ => _ | some t, some e => _ | some t, none => _) = Val.seq ds
    rw [ht]
    cases es.find? (fun e => e.f == f) <;> simp [mt (scalar_iff t).mp hs]
  literal id h := by
    have ht := type?_none W.names (W.names.literal id h).1
    simp [itemEnv, ht]
  attr a k := by
    simp only [itemEnv]
    split
    · cases a <;> exact ⟨_, rfl⟩
    · split <;> exact ⟨_, rfl⟩

/-! ## Determinism -/

/-- The next field is determined. -/
theorem step_fun (W : WellFormed P) (hD : Deterministic P.m.msg b lo hi) {l l' : Link} {y' : Item} (h : Follows P.m.msg b lo hi es p pos)
    (hs : Step P.m.msg b lo hi es p pos l y) (hs' : Step P.m.msg b lo hi es p pos l' y') : l = l' ∧ y = y' := by
  obtain ⟨h1, h2, h3, h4, t, ht, h5⟩ := hs
  obtain ⟨h1', h2', h3', h4', t', ht', h5'⟩ := hs'
  have hl := hD es p pos h l h1 l' h1' h2 h2' h4 h4'
  subst hl
  refine ⟨rfl, ?_⟩
  have := nodup_pair W.names.once ht ht'
  subst this
  rcases h5 with ⟨h5, n, h6, _, _, rfl⟩ | ⟨h5, n, h6, _, _, rfl⟩
  · rcases h5' with ⟨_, n', h6', _, _, rfl⟩ | ⟨h5', _⟩
    · rw [h6] at h6'
      cases h6'
      rfl
    · exact absurd h5 h5'
  · rcases h5' with ⟨h5', _⟩ | ⟨_, n', h6', _, _, rfl⟩
    · exact absurd h5' h5
    · rw [h6] at h6'
      cases h6'
      rfl

/-- Two lists of fields: one continues the other. -/
theorem follows_compare (W : WellFormed P) (hD : Deterministic P.m.msg b lo hi) {es' : List Item} {p' : Field} {pos' : Int}
    (h : Follows P.m.msg b lo hi es p pos) (h' : Follows P.m.msg b lo hi es' p' pos') : (∃ xs, es' = xs ++ es) ∨ ∃ xs, es = xs ++ es' := by
  suffices ∀ k (es es' : List Item) p pos p' pos', es.length = k → es.length ≤ es'.length → Follows P.m.msg b lo hi es p pos →
      Follows P.m.msg b lo hi es' p' pos' → ∃ xs, es' = xs ++ es by
    rcases Nat.le_total es.length es'.length with hl | hl
    · exact .inl (this _ _ _ _ _ _ _ rfl hl h h')
    · exact .inr (this _ _ _ _ _ _ _ rfl hl h' h)
  intro k
  induction k with
  | zero =>
    intro es es' _ _ _ _ hk _ _ _
    rw [List.length_eq_zero_iff.mp hk]
    exact ⟨es', by simp⟩
  | succ k ih =>
    intro es es' p pos p' pos' hk hle h h'
    match es, hk with
    | y :: es, hk =>
      simp only [List.length_cons] at hk hle
      obtain ⟨q, qpos, l, h1, hs, _⟩ := follows_cons h
      obtain ⟨xs, hxs⟩ := ih es es' q qpos p' pos' (by omega) (by omega) h1 h'
      rcases List.eq_nil_or_concat xs with rfl | ⟨zs, z, rfl⟩
      · simp only [List.nil_append] at hxs
        subst hxs
        omega
      · rw [List.concat_eq_append, List.append_assoc] at hxs
        subst hxs
        obtain ⟨q2, qpos2, h2⟩ := follows_suffix h'
        obtain ⟨q3, qpos3, l3, h3, hs3, _⟩ := follows_cons h2
        obtain ⟨rfl, rfl⟩ := follows_fun h1 h3
        obtain ⟨_, rfl⟩ := step_fun W hD h1 hs hs3
        exact ⟨zs, rfl⟩

/-- A condition of a link from the last field holds if the list of fields continues, or ends as a message. -/
def Goes (m : Msg) (b : Bytes) (lo hi : Int) (es : List Item) (p : Field) : Prop := ∃ l ∈ m.links, l.source = p ∧ IsTrue m b lo hi es l.condition

/-- If the only field that may come next cannot follow, or nothing can follow it, there is no message. -/
theorem no_message (W : WellFormed P) (hD : Deterministic P.m.msg b lo hi) (h : Follows P.m.msg b lo hi es p pos)
    (hfin : ∀ l ∈ P.m.msg.links, l.source = p → IsTrue P.m.msg b lo hi es l.condition → l.target ≠ FINAL)
    (hstep : ∀ l y, Step P.m.msg b lo hi es p pos l y → ¬ Goes P.m.msg b lo hi (y :: es) l.target) : ¬ ∃ es', IsMessage P.m.msg b lo hi es' := by
  rintro ⟨es', p', pos', l', h', hl', hs', ht', hc'⟩
  rcases follows_compare W hD h h' with ⟨xs, rfl⟩ | ⟨xs, rfl⟩
  · rcases List.eq_nil_or_concat xs with rfl | ⟨zs, z, rfl⟩
    · simp only [List.nil_append] at h' hc'
      obtain ⟨rfl, rfl⟩ := follows_fun h h'
      exact hfin l' hl' hs' hc' ht'
    · rw [List.concat_eq_append, List.append_assoc] at h' hc'
      obtain ⟨q, qpos, h2⟩ := follows_suffix h'
      simp only [List.singleton_append] at h' hc' h2
      obtain ⟨q3, qpos3, l, h3, hs, rfl, _⟩ := follows_cons h2
      obtain ⟨rfl, rfl⟩ := follows_fun h h3
      apply hstep l z hs
      rcases List.eq_nil_or_concat zs with rfl | ⟨ws, w, rfl⟩
      · simp only [List.nil_append] at h' hc'
        obtain ⟨rfl, rfl⟩ := follows_fun h2 h'
        exact ⟨l', hl', hs', hc'⟩
      · rw [List.concat_eq_append, List.append_assoc] at h'
        obtain ⟨_, _, h4⟩ := follows_suffix h'
        simp only [List.singleton_append] at h4
        obtain ⟨_, _, l4, h5, hs4, _⟩ := follows_cons h4
        obtain ⟨rfl, rfl⟩ := follows_fun h2 h5
        exact ⟨l4, hs4.1, hs4.2.1, hs4.2.2.2.1⟩
  · rcases List.eq_nil_or_concat xs with rfl | ⟨zs, z, rfl⟩
    · simp only [List.nil_append] at h hfin
      obtain ⟨rfl, rfl⟩ := follows_fun h h'
      exact hfin l' hl' hs' hc' ht'
    · rw [List.concat_eq_append, List.append_assoc] at h
      obtain ⟨_, _, h4⟩ := follows_suffix h
      simp only [List.singleton_append] at h4
      obtain ⟨_, _, l4, h5, hs4, _⟩ := follows_cons h4
      obtain ⟨rfl, rfl⟩ := follows_fun h' h5
      have := hD _ _ _ h' l' hl' l4 hs4.1 hs' hs4.2.1 hc' hs4.2.2.2.1
      subst this
      exact hs4.2.2.1 ht'

end

end Verif.Ctx
