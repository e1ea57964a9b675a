import Verif.PyRFLX.NestedRound

/-! # Refinements of PyRFLX messages: the choice of the refinement -/

namespace Verif.PyRFLX

open Verif Verif.Types Verif.Bits Verif.Graph

/-- Specification: `some s` if `s` is the message of the last refinement of field `f` of message `i` whose condition holds; `none` if no condition
holds. -/
def Chosen (W : World) (m : Msg) (i : ID) (f : Field) (M : List (Expr × Expr)) : Option ID → Prop
  | none => ∀ r ∈ W.refs i, r.field = f → m.holds M r.condition = .ok false
  | some s => ∃ before r after, W.refs i = before ++ r :: after ∧ r.field = f ∧ r.sdu = s ∧ m.holds M r.condition = .ok true ∧
      ∀ r' ∈ after, r'.field = f → m.holds M r'.condition = .ok false

/-- Specification: the condition only refers to fields before `f`. -/
def Early (m : Msg) (rank : Field → Nat) (f : Field) (c : Expr) : Prop :=
  c = .tru ∨ ∀ l ∈ m.links, l.target = f → l.source ≠ INITIAL ∧ FreeOf (late m rank (rank l.source)) c

section
variable {W : World} {m : Msg} {rank : Field → Nat} {rest : Field → Bool} {sub : Parser}

theorem Chosen.congr {i : ID} {f : Field} {M M' : List (Expr × Expr)} {c : Option ID} (h : Chosen W m i f M c)
    (he : ∀ r ∈ W.refs i, r.field = f → m.holds M r.condition = m.holds M' r.condition) : Chosen W m i f M' c := by
  cases c with
  | none => exact fun r hr hf => (he r hr hf).symm.trans (h r hr hf)
  | some s =>
    obtain ⟨bef, r, aft, h1, h2, h3, h4, h5⟩ := h
    refine ⟨bef, r, aft, h1, h2, h3, ?_, ?_⟩
    · rw [← he r (by rw [h1]; simp) h2]; exact h4
    · intro r' hr' hf
      rw [← he r' (by rw [h1]; simp [hr']) hf]
      exact h5 r' hr' hf

theorem finish_ok (hr : Ranked m.links rank) {σ : State} {f : Field} (h : (m.finish σ f).2 = none) : m.newMapping σ.fv = .ok (m.finish σ f).1.mapping := by
  unfold Msg.finish at h ⊢
  split at h
  · cases h
  · rename_i M hM
    simp only at h ⊢
    split at h
    · cases h
    · cases h
    · split at h
      · cases h
      · rename_i h'
        rw [hM]
        exact congrArg _ (preset_frame hr h').2.1.symm

/-- What a successful `set` does. -/
theorem setIn_ok {v v' : NVal} {f : Field} {x : Input} (h : W.setIn sub m v f x = (v', none)) :
    ∃ a y, m.prepare v.st f = .ok a ∧ v'.st = (m.finish (v.st.upd f { a with value := some y }) f).1 ∧
      (m.finish (v.st.upd f { a with value := some y }) f).2 = none ∧
      (((m.typeOf f).isOpaque = false ∧ assignValue (m.typeOf f) a.expected x = .ok y) ∨
        ∃ c, (m.typeOf f).isOpaque = true ∧ m.chooseRef v.st.mapping f (W.refs v.id) (v.ref f) = .ok c ∧
          ((c = none ∧ assignValue (m.typeOf f) a.expected x = .ok y ∧ v'.nested f = v.nested f) ∨
            ∃ i n, c = some i ∧ W.nest sub a.expected i x = .ok (n, y) ∧ v'.nested f = some n)) := by
  unfold World.setIn at h
  split at h
  · cases h
  split at h
  · cases h
  rename_i a ha
  split at h
  · cases h
  · rename_i hno
    split at h
    · cases h
    · rename_i y hy
      simp only [Prod.mk.injEq] at h
      obtain ⟨rfl, h2⟩ := h
      refine ⟨a, y, ha, rfl, h2, ?_⟩
      cases ho : (m.typeOf f).isOpaque with
      | false => exact .inl ⟨rfl, hy⟩
      | true =>
        rw [ho, if_pos rfl] at hno
        exact .inr ⟨none, rfl, hno, .inl ⟨rfl, hy, rfl⟩⟩
  · rename_i i hi
    simp only at h
    split at h
    · cases h
    · rename_i n y hn
      simp only [Prod.mk.injEq] at h
      obtain ⟨rfl, h2⟩ := h
      refine ⟨a, y, ha, rfl, h2, ?_⟩
      cases ho : (m.typeOf f).isOpaque with
      | false => rw [ho] at hi; cases hi
      | true =>
        rw [ho, if_pos rfl] at hi
        exact .inr ⟨some i, rfl, hi, .inr ⟨i, n, rfl, hn, by simp [NVal.nested]⟩⟩

theorem chosen_of {M : List (Expr × Expr)} {i : ID} {f : Field} {c : Option ID} (h : m.chooseRef M f (W.refs i) none = .ok c) :
    Chosen W m i f M c := by
  rcases chooseRef_last h with ⟨rfl, h'⟩ | ⟨bef, r, aft, h1, h2, h3, rfl, h5⟩
  · exact h'
  · exact ⟨bef, r, aft, h1, h2, rfl, h3, h5⟩

theorem Values.kept {σ σ' : State} (h : Values m σ.fv) (hk : Kept σ σ') : Values m σ'.fv := by
  intro f s imp x ht hx
  rcases hk f with e | e
  · exact h f s imp x ht (by rw [← e]; exact hx)
  · rw [hx] at e; cases e

theorem Values.upd {σ : State} {f : Field} {a : FV} {y : Val} (h : Values m σ.fv)
    (hy : ∀ s imp, m.typeOf f = .scalar s imp → ∃ ex inp, assignValue (m.typeOf f) ex inp = .ok y) :
    Values m (σ.upd f { a with value := some y }).fv := by
  intro g s imp x ht hx
  by_cases hg : g = f
  · subst hg
    simp only [State.upd, if_true, Option.some.injEq] at hx
    subst hx
    exact hy s imp ht
  · simp only [State.upd, hg, if_false] at hx
    exact h g s imp x ht hx

/-- Proof device: what holds in the loop of `parse` when the field `e` has been set. -/
structure Step (m : Msg) (rank : Field → Nat) (v : NVal) (e : Field) (fv : Field → FV) : Prop where
  vals : Values m v.st.fv
  map : e = INITIAL ∨ (m.newMapping fv = .ok v.st.mapping ∧ Values m fv ∧ ∀ g, rank g ≤ rank e → fv g = v.st.fv g)
  init : rank INITIAL ≤ rank e
  fresh : ∀ g, rank e < rank g → v.ref g = none ∧ v.nested g = none ∧ ((m.typeOf g).isOpaque = true → (v.st.fv g).value = none)

/-- Specification: the nested message of `f` is an instance of `c`, if any. -/
def IsA (v : NVal) (f : Field) : Option ID → Prop
  | none => v.nested f = none
  | some s => ∃ n, v.nested f = some n ∧ n.id = s

theorem Step.step (hr : Ranked m.links rank) (hsub : Good W sub) {v : NVal} {e : Field} {fv : Field → FV} (c : Step m rank v e fv) {f : Field}
    (hef : rank e < rank f) {σ : State} {b : Bitstring} {v' : NVal}
    (hset : W.setIn sub m (.mk v.id σ v.ref v.nested) f (.bits b) = (v', none)) (hk : Kept v.st σ) (hM : σ.mapping = v.st.mapping)
    (ho : ∀ g, g ≠ f → σ.fv g = v.st.fv g) :
    (∃ fv', Step m rank v' f fv') ∧ (∀ g, rank g ≤ rank e → v'.st.fv g = v.st.fv g ∧ v'.nested g = v.nested g) ∧
      ∀ g, rank e < rank g → rank g ≤ rank f → (m.typeOf g).isOpaque = true → (v'.st.fv g).value ≠ none →
        g = f ∧ ∃ c, Chosen W m v.id f v.st.mapping c ∧ IsA v' f c := by
  obtain ⟨a, y, ha, hst, hfin, hcase⟩ := setIn_ok hset
  simp only [NVal.st] at ha hst hfin
  have hvals : Values m (σ.upd f { a with value := some y }).fv := by
    refine (c.vals.kept hk).upd ?_
    intro s imp ht
    rcases hcase with ⟨_, h⟩ | ⟨_, h, _⟩
    · exact ⟨_, _, h⟩
    · rw [ht] at h; cases h
  have hfr := finish_frame hr _ f hfin
  have hkept := finish_kept (m := m) (σ.upd f { a with value := some y }) f
  have hst : v'.st = (m.finish (σ.upd f { a with value := some y }) f).1 := hst
  have hnest : ∀ g, g ≠ f → v'.nested g = v.nested g ∧ v'.ref g = v.ref g := by
    intro g hg
    have := setIn_nested (W := W) (sub := sub) (m := m) (.mk v.id σ v.ref v.nested) f (.bits b) hg
    rw [hset] at this
    exact this
  refine ⟨⟨(σ.upd f { a with value := some y }).fv, ?_, ?_, ?_, ?_⟩, ?_, ?_⟩
  · rw [hst]; exact hvals.kept hkept
  · refine .inr ⟨?_, hvals, ?_⟩
    · rw [hst]; exact finish_ok hr hfin
    · intro g hg
      rw [hst, hfr g hg]
  · have := c.init; omega
  · intro g hg
    have hgf : g ≠ f := by rintro rfl; omega
    obtain ⟨h1, h2, h3⟩ := c.fresh g (by omega)
    obtain ⟨h4, h5⟩ := hnest g hgf
    refine ⟨by rw [h5, h1], by rw [h4, h2], ?_⟩
    intro hop
    rw [hst]
    rcases hkept g with e | e
    · rw [e]
      simp only [State.upd, hgf, if_false]
      rw [ho g hgf]
      exact h3 hop
    · exact e
  · intro g hg
    have hgf : g ≠ f := by rintro rfl; omega
    refine ⟨?_, (hnest g hgf).1⟩
    rw [hst, hfr g (by omega)]
    simp only [State.upd, hgf, if_false]
    exact ho g hgf
  · intro g hg hgf hop hv
    have hgf : g = f := by
      apply Classical.byContradiction
      intro hgf
      apply hv
      rw [hst]
      rcases hkept g with e | e
      · rw [e]
        simp only [State.upd, hgf, if_false]
        rw [ho g hgf]
        exact (c.fresh g hg).2.2 hop
      · exact e
    subst hgf
    refine ⟨rfl, ?_⟩
    rcases hcase with ⟨h, _⟩ | ⟨k, _, hk, hc⟩
    · rw [hop] at h; cases h
    · obtain ⟨h1, h2, _⟩ := c.fresh g hg
      have hk : m.chooseRef σ.mapping g (W.refs v.id) (v.ref g) = .ok k := hk
      rw [h1, hM] at hk
      refine ⟨k, chosen_of hk, ?_⟩
      rcases hc with ⟨rfl, _, h⟩ | ⟨i, n, rfl, hn, h⟩
      · show v'.nested g = none
        rw [h]
        exact h2
      · obtain ⟨_, _, _, _, _, hp, _⟩ := nest_ok hn
        exact ⟨n, h, (hsub _ _ _ hp).1⟩

theorem Step.loop (w : Well m rank rest) (hsub : Good W sub) {value : Bitstring} : ∀ (k : Nat) (v : NVal) (nxt : Option Field) (last cur : Nat)
    (v' : NVal) (e : Field) (fv : Field → FV), Step m rank v e fv → m.nextField v.st.mapping e = .ok nxt →
    W.parseLoop sub m value k v nxt last cur = .ok v' →
    (∃ e' fv', Step m rank v' e' fv' ∧ rank e ≤ rank e') ∧ (∀ g, rank g ≤ rank e → v'.st.fv g = v.st.fv g ∧ v'.nested g = v.nested g) ∧
      ∀ g, rank e < rank g → (m.typeOf g).isOpaque = true → (∀ r ∈ W.refs v.id, r.field = g → Early m rank g r.condition) →
        (v'.st.fv g).value ≠ none → ∃ c, Chosen W m v.id g v'.st.mapping c ∧ IsA v' g c := by
  intro k
  induction k with
  | zero => intro v nxt last cur v' e fv _ _ h; cases nxt <;> cases h
  | succ k ih =>
    intro v nxt last cur v' e fv st hn h
    cases nxt with
    | none => cases h
    | some f =>
      simp only [World.parseLoop] at h
      split at h
      · cases h
        refine ⟨⟨e, fv, st, Nat.le_refl _⟩, fun _ _ => ⟨rfl, rfl⟩, ?_⟩
        intro g hg hop _ hv
        exact absurd ((st.fresh g hg).2.2 hop) hv
      rename_i hf
      obtain ⟨size, _, h⟩ := bind_ok h
      obtain ⟨r, hr', h⟩ := bind_ok h
      obtain ⟨nxt', hn', h⟩ := bind_ok h
      have hef := next_rank' w.ranked hn hf
      obtain ⟨σ, b, hset, hval, _, hM, ho⟩ := parseStep_ok hr'
      obtain ⟨⟨fv1, st1⟩, hfr1, hch1⟩ := st.step w.ranked hsub hef hset (fun g => .inl (hval g)) hM ho
      obtain ⟨⟨e', fv', st', hle⟩, hfr2, hch2⟩ := ih _ _ _ _ _ _ _ st1 hn' h
      have hid : r.1.id = v.id := by
        have := setIn_id (W := W) (sub := sub) (m := m) (.mk v.id σ v.ref v.nested) f (.bits b)
        rw [hset] at this
        exact this
      refine ⟨⟨e', fv', st', by omega⟩, ?_, ?_⟩
      · intro g hg
        obtain ⟨h1, h2⟩ := hfr1 g hg
        obtain ⟨h3, h4⟩ := hfr2 g (by omega)
        exact ⟨h3.trans h1, h4.trans h2⟩
      · intro g hg hop hearly hv
        by_cases hgf : rank g ≤ rank f
        · obtain ⟨h1, h2⟩ := hfr2 g hgf
          obtain ⟨rfl, c, hc, hisa⟩ := hch1 g hg hgf hop (by rw [← h1]; exact hv)
          refine ⟨c, hc.congr ?_, ?_⟩
          · intro r0 hr0 hrf
            rcases hearly r0 hr0 hrf with e1 | e1
            · rw [e1]; rfl
            · obtain ⟨l, hl, hls, hlt, _⟩ := w.next_holds hn
              obtain ⟨hl1, hl2⟩ := e1 l hl hlt
              rw [hls] at hl1 hl2
              rcases st.map with e2 | ⟨m1, m2, m3⟩
              · exact absurd e2 hl1
              rcases st'.map with e2 | ⟨m4, m5, m6⟩
              · have := st.init
                rw [e2] at hle
                omega
              have hag : ∀ k, rank k ≤ rank e → fv k = fv' k := by
                intro k hk
                rw [m3 k hk, m6 k (by omega), (hfr2 k (by omega)).1, (hfr1 k hk).1]
              unfold Msg.holds
              rw [w.congr m2 m1 m4 (rank e) (fun k _ hk => hag k hk) (hag _ st.init) hl2]
          · cases c with
            | none => exact h2.trans hisa
            | some s =>
              obtain ⟨n, hn1, hn2⟩ := hisa
              exact ⟨n, h2.trans hn1, hn2⟩
        · have := hch2 g (by omega) hop (by rw [hid]; exact hearly) hv
          rw [hid] at this
          exact this

theorem Step.new (hr : Ranked m.links rank) {i : ID} {σ : State} (h : m.new = .ok σ) :
    Step m rank (.mk i σ (fun _ => none) (fun _ => none)) INITIAL m.newFV := by
  have hk := preset_kept h
  refine ⟨?_, .inl rfl, Nat.le_refl _, ?_⟩
  · exact Values.kept (σ := ⟨m.newFV, [], _⟩) newFV_values hk
  · intro g hg
    have hgi : g ≠ INITIAL := by rintro rfl; omega
    refine ⟨rfl, rfl, ?_⟩
    intro hop
    show (σ.fv g).value = none
    rcases hk g with e | e
    · rw [e]
      have := opaque_type hop
      simp only [Msg.typeOf, if_neg hgi] at this
      simp [Msg.newFV, hgi, this]
    · exact e

end

end Verif.PyRFLX
