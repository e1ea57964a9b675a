import Verif.PyRFLX.Nested
import Verif.PyRFLX.MessageParseProps

/-! # Refinements of PyRFLX messages: lemmas -/

namespace Verif.PyRFLX

open Verif Verif.Types Verif.Bits Verif.Graph

section
variable {m : Msg}

theorem set_finish (σ : State) (f : Field) (x : Input) : m.set σ f x =
    if f ∉ σ.accessible then (σ, some .pyrflx)
    else
      match m.prepare σ f with
      | .error e => (σ, some e)
      | .ok v =>
        match assignValue (m.typeOf f) v.expected x with
        | .error e => (σ.upd f v, some e)
        | .ok value => m.finish (σ.upd f { v with value := some value }) f := rfl

/-- Values of fields are kept or cleared. -/
def Kept (σ σ' : State) : Prop := ∀ g, (σ'.fv g).value = (σ.fv g).value ∨ (σ'.fv g).value = none

theorem Kept.refl (σ : State) : Kept σ σ := fun _ => .inl rfl

theorem Kept.trans {σ σ1 σ2 : State} (h : Kept σ σ1) (h' : Kept σ1 σ2) : Kept σ σ2 := by
  intro g
  rcases h' g with e | e
  · rw [e]; exact h g
  · exact .inr e

theorem Kept.upd {σ : State} {f : Field} {v : FV} (h : v.value = (σ.fv f).value ∨ v.value = none) : Kept σ (σ.upd f v) := by
  intro g
  by_cases hg : g = f
  · subst hg
    simpa [State.upd] using h
  · simp [State.upd, hg]

theorem presetLoop_kept : ∀ (k : Nat) (σ : State) (nxt : Option Field) (fs : List Field) (σ' : State) (fs' : List Field),
    m.presetLoop k σ nxt fs = .ok (σ', fs') → Kept σ σ' := by
  intro k
  induction k with
  | zero =>
    intro σ nxt fs σ' fs' h
    cases nxt with
    | none => cases h; exact .refl _
    | some f => cases h
  | succ k ih =>
    intro σ nxt fs σ' fs' h
    cases nxt with
    | none => cases h; exact .refl _
    | some f =>
      simp only [Msg.presetLoop] at h
      split at h
      · cases h; exact .refl _
      obtain ⟨first, _, h⟩ := bind_ok h
      obtain ⟨size, _, h⟩ := bind_ok h
      cases first with
      | none => cases h; exact .refl _
      | some first =>
        simp only at h
        obtain ⟨acc, _, h⟩ := bind_ok h
        cases size with
        | none => cases h; exact .refl _
        | some size =>
          simp only at h
          obtain ⟨stop, _, h⟩ := bind_ok h
          split at h
          · cases h; exact .upd (.inr rfl)
          · obtain ⟨nxt', _, h⟩ := bind_ok h
            exact (Kept.upd (v := presetFV (m.typeOf f) (σ.fv f) first size) (.inl rfl)).trans (ih _ _ _ _ _ h)

theorem preset_kept {σ σ' : State} {f : Field} (h : m.preset σ f = .ok σ') : Kept σ σ' := by
  obtain ⟨nxt, _, h⟩ := bind_ok (h : (m.nextField _ _).bind _ = _)
  obtain ⟨⟨σ1, fs⟩, h1, rfl⟩ := map_ok h
  exact (presetLoop_kept _ _ _ _ _ _ h1 : Kept σ σ1)

theorem finish_kept (σ : State) (f : Field) : Kept σ (m.finish σ f).1 := by
  unfold Msg.finish
  split
  · exact .refl _
  · simp only
    split
    · exact .refl _
    · rename_i M _ _ _
      exact Kept.upd (σ := { σ with mapping := M }) (.inr rfl)
    · split
      · exact .refl _
      · rename_i h
        have := preset_kept h
        exact this

theorem finish_frame {rank : Field → Nat} (hr : Ranked m.links rank) (σ : State) (f : Field) (h : (m.finish σ f).2 = none) :
    ∀ g, rank g ≤ rank f → (m.finish σ f).1.fv g = σ.fv g := by
  intro g hg
  unfold Msg.finish at h ⊢
  split at h
  · cases h
  · rename_i M _
    simp only at h ⊢
    split at h
    · cases h
    · cases h
    · split at h
      · cases h
      · rename_i h'
        rw [(preset_frame hr h').1 g hg]

theorem prepare_value {σ : State} {f : Field} {a : FV} (h : m.prepare σ f = .ok a) : a.value = (σ.fv f).value := by
  obtain ⟨first, _, h⟩ := bind_ok (h : (m.getFirst _ _).bind _ = _)
  obtain ⟨size, _, h⟩ := bind_ok h
  cases first with
  | none => cases h
  | some first => cases h; rfl

theorem chooseRef_some {M : List (Expr × Expr)} {f : Field} : ∀ {xs : List RefValue} {r : Option ID} {r' : Option ID},
    m.chooseRef M f xs r = .ok r' → r' = r ∨ ∃ x ∈ xs, x.field = f ∧ r' = some x.sdu
  | [], r, r', h => by cases h; exact .inl rfl
  | x :: xs, r, r', h => by
    simp only [Msg.chooseRef] at h
    split at h
    · rename_i hf
      obtain ⟨b, _, h⟩ := bind_ok h
      rcases chooseRef_some h with e | ⟨y, hy, h⟩
      · cases b with
        | true => exact .inr ⟨x, List.mem_cons_self, hf, e⟩
        | false => exact .inl e
      · exact .inr ⟨y, List.mem_cons_of_mem _ hy, h⟩
    · rcases chooseRef_some h with e | ⟨y, hy, h⟩
      · exact .inl e
      · exact .inr ⟨y, List.mem_cons_of_mem _ hy, h⟩

theorem chooseRef_none {M : List (Expr × Expr)} {f : Field} {xs : List RefValue} {r : Option ID}
    (h : m.chooseRef M f xs r = .ok none) : r = none := by
  rcases chooseRef_some h with e | ⟨x, _, _, e⟩
  · exact e.symm
  · cases e

/-- The last refinement whose condition holds, if any. -/
theorem chooseRef_last {M : List (Expr × Expr)} {f : Field} : ∀ {xs : List RefValue} {r r' : Option ID},
    m.chooseRef M f xs r = .ok r' →
    (r' = r ∧ ∀ x ∈ xs, x.field = f → m.holds M x.condition = .ok false) ∨
    ∃ before x after, xs = before ++ x :: after ∧ x.field = f ∧ m.holds M x.condition = .ok true ∧ r' = some x.sdu ∧
      ∀ y ∈ after, y.field = f → m.holds M y.condition = .ok false
  | [], r, r', h => by cases h; exact .inl ⟨rfl, by simp⟩
  | x :: xs, r, r', h => by
    simp only [Msg.chooseRef] at h
    split at h
    · rename_i hf
      obtain ⟨b, hb, h⟩ := bind_ok h
      rcases chooseRef_last h with ⟨e, hn⟩ | ⟨bef, y, aft, e, hy⟩
      · cases b with
        | true => exact .inr ⟨[], x, xs, rfl, hf, hb, e, hn⟩
        | false =>
          refine .inl ⟨e, ?_⟩
          intro y hy hyf
          rcases List.mem_cons.mp hy with rfl | hy
          · exact hb
          · exact hn y hy hyf
      · exact .inr ⟨x :: bef, y, aft, by rw [e]; rfl, hy⟩
    · rename_i hf
      rcases chooseRef_last h with ⟨e, hn⟩ | ⟨bef, y, aft, e, hy⟩
      · refine .inl ⟨e, ?_⟩
        intro y hy hyf
        rcases List.mem_cons.mp hy with rfl | hy
        · exact absurd hyf hf
        · exact hn y hy hyf
      · exact .inr ⟨x :: bef, y, aft, by rw [e]; rfl, hy⟩

end

/-! ## Identifiers -/

section
variable {W : World} {sub : Parser} {m : Msg}

theorem setIn_id (v : NVal) (f : Field) (x : Input) : (W.setIn sub m v f x).1.id = v.id := by
  unfold World.setIn
  split
  · rfl
  split
  · rfl
  split
  · rfl
  · split <;> rfl
  · simp only
    split <;> rfl

theorem setIn!_ok {v v' : NVal} {f : Field} {x : Input} (h : W.setIn! sub m v f x = .ok v') : W.setIn sub m v f x = (v', none) := by
  unfold World.setIn! at h
  split at h
  · rename_i h'
    cases h
    exact h'
  · cases h

/-- What holds after a successful step of the loop of `parse`: it is a successful `set`. -/
theorem parseStep_ok {v : NVal} {f : Field} {size : Option Num} {last cur : Nat} {value : Bitstring} {r : NVal × Nat × Nat}
    (h : (match (m.typeOf f).isOpaque, size with
        | true, none => W.parseRest sub m v f last cur value
        | _, none => .error .assertion
        | _, some s => W.parseSized sub m v f s last cur value : Py (NVal × Nat × Nat)) = .ok r) :
    ∃ σ b, W.setIn sub m (.mk v.id σ v.ref v.nested) f (.bits b) = (r.1, none) ∧ (∀ g, (σ.fv g).value = (v.st.fv g).value) ∧
      (∃ a n, b.bits = (value.bits.drop a).take n) ∧ σ.mapping = v.st.mapping ∧ ∀ g, g ≠ f → σ.fv g = v.st.fv g := by
  have sized : ∀ {s : Num}, W.parseSized sub m v f s last cur value = .ok r →
      ∃ σ b, W.setIn sub m (.mk v.id σ v.ref v.nested) f (.bits b) = (r.1, none) ∧ (∀ g, (σ.fv g).value = (v.st.fv g).value) ∧
        (∃ a n, b.bits = (value.bits.drop a).take n) ∧ σ.mapping = v.st.mapping ∧ ∀ g, g ≠ f → σ.fv g = v.st.fv g := by
    intro s h
    obtain ⟨pos, _, h⟩ := bind_ok (h : (m.currentPos _ _ _ _).bind _ = _)
    split at h
    · cases h
    · split at h
      · cases h
      · rename_i b hb
        obtain ⟨v1, h1, rfl⟩ := map_ok h
        refine ⟨v.st, b, ?_, fun _ => rfl, ?_, rfl, fun _ _ => rfl⟩
        · have := setIn!_ok h1
          cases v
          exact this
        · simp only [Bitstring.slice] at hb
          split at hb
          · cases hb
          · cases hb
            exact ⟨pos, s.v.toNat, pySlice_eq _ _ _⟩
  match ho : (m.typeOf f).isOpaque, size with
  | true, none =>
    rw [ho] at h
    simp only at h
    obtain ⟨pos, _, h⟩ := bind_ok (h : (m.currentPos _ _ _ _).bind _ = _)
    obtain ⟨first, _, h⟩ := bind_ok h
    cases first with
    | none => cases h
    | some first =>
      simp only at h
      obtain ⟨b, hb, h⟩ := bind_ok h
      obtain ⟨v1, h1, rfl⟩ := map_ok h
      refine ⟨_, b, setIn!_ok h1, ?_, ?_, rfl, fun g hg => by simp [State.upd, hg]⟩
      · intro g
        by_cases hg : g = f
        · subst hg; simp [State.upd]
        · simp [State.upd, hg]
      · simp only [Bitstring.slice, Except.ok.injEq] at hb
        subst hb
        exact ⟨pos, (value.bits.drop pos).length, (List.take_length).symm⟩
  | false, none => rw [ho] at h; cases h
  | true, some s => rw [ho] at h; exact sized h
  | false, some s => rw [ho] at h; exact sized h

end

end Verif.PyRFLX
