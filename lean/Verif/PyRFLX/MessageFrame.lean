import Verif.PyRFLX.Message

/-! # Which fields an operation on a PyRFLX message touches -/

namespace Verif.PyRFLX

open Verif Verif.Types Verif.Bits Verif.Graph

/-- Specification: `rank` numbers the fields so that every link leads to a field with a greater number. Such numbers exist
exactly for structures without cycles. -/
def Ranked (links : List Link) (rank : Field → Nat) : Prop := ∀ l ∈ links, rank l.source < rank l.target

theorem bind_ok {α β : Type} {x : Py α} {f : α → Py β} {b : β} (h : x.bind f = .ok b) : ∃ a, x = .ok a ∧ f a = .ok b := by
  cases x with
  | error e => simp [Except.bind] at h
  | ok a => exact ⟨a, rfl, h⟩

theorem map_ok {α β : Type} {x : Py α} {f : α → β} {b : β} (h : x.map f = .ok b) : ∃ a, x = .ok a ∧ f a = b := by
  cases x with
  | error e => simp [Except.map] at h
  | ok a => exact ⟨a, rfl, by simpa [Except.map] using h⟩

variable {m : Msg} {rank : Field → Nat}

theorem mem_outgoing {s : List Link} {f : Field} {l : Link} (h : l ∈ outgoing s f) : l ∈ s ∧ l.source = f := by
  simpa [outgoing] using h

theorem mem_incoming {s : List Link} {f : Field} {l : Link} (h : l ∈ incoming s f) : l ∈ s ∧ l.target = f := by
  simpa [incoming] using h

/-- `_next_field` follows a link whose condition holds. -/
theorem firstTrue_some {M : List (Expr × Expr)} {ls : List Link} {g : Field} (h : m.firstTrue M ls = .ok (some g)) :
    ∃ l ∈ ls, l.target = g ∧ m.holds M l.condition = .ok true := by
  induction ls with
  | nil => simp [Msg.firstTrue] at h
  | cons l ls ih =>
    obtain ⟨b, hb, h⟩ := bind_ok (h : (m.holds M l.condition).bind _ = _)
    cases b with
    | true => exact ⟨l, by simp, by simpa using h, hb⟩
    | false =>
      obtain ⟨l', hm, h'⟩ := ih (by simpa using h)
      exact ⟨l', List.mem_cons_of_mem _ hm, h'⟩

theorem next_link {M : List (Expr × Expr)} {f g : Field} (h : m.nextField M f = .ok (some g)) :
    (f = INITIAL ∧ g = FINAL ∧ outgoing m.links INITIAL = []) ∨
    ∃ l ∈ m.links, l.source = f ∧ l.target = g ∧ (f = INITIAL ∨ m.holds M l.condition = .ok true) := by
  unfold Msg.nextField at h
  split at h
  · simp at h
  split at h
  · rename_i hf
    split at h
    · rename_i ho
      exact .inl ⟨hf, by simpa using h.symm, ho⟩
    · rename_i l ls ho
      have : l ∈ outgoing m.links INITIAL := by simp [ho]
      obtain ⟨h1, h2⟩ := mem_outgoing this
      exact .inr ⟨l, h1, by rw [h2, hf], by simpa using h, .inl hf⟩
  · obtain ⟨l, hm, h1, h2⟩ := firstTrue_some h
    obtain ⟨h3, h4⟩ := mem_outgoing hm
    exact .inr ⟨l, h3, h4, h1, .inr h2⟩

theorem next_rank (hr : Ranked m.links rank) {M : List (Expr × Expr)} {f g : Field}
    (h : m.nextField M f = .ok (some g)) : g = FINAL ∨ rank f < rank g := by
  rcases next_link h with ⟨_, h, _⟩ | ⟨l, hl, rfl, rfl, _⟩
  · exact .inl h
  · exact .inr (hr l hl)

/-- `_preset_fields` touches only fields after the given one, and it neither changes the mapping nor the list of accessible
fields on its way. -/
theorem presetLoop_frame (hr : Ranked m.links rank) {r : Nat} : ∀ (k : Nat) (σ : State) (nxt : Option Field) (fs : List Field)
    (σ' : State) (fs' : List Field), m.presetLoop k σ nxt fs = .ok (σ', fs') → (∀ f, nxt = some f → f = FINAL ∨ r < rank f) →
    (∀ g, rank g ≤ r → σ'.fv g = σ.fv g) ∧ σ'.mapping = σ.mapping ∧ σ'.accessible = σ.accessible := by
  intro k
  induction k with
  | zero =>
    intro σ nxt fs σ' fs' h _
    cases nxt with
    | none =>
      simp only [Msg.presetLoop, Except.ok.injEq, Prod.mk.injEq] at h
      obtain ⟨rfl, rfl⟩ := h
      simp
    | some f => simp [Msg.presetLoop] at h
  | succ k ih =>
    intro σ nxt fs σ' fs' h hn
    cases nxt with
    | none =>
      simp only [Msg.presetLoop, Except.ok.injEq, Prod.mk.injEq] at h
      obtain ⟨rfl, rfl⟩ := h
      simp
    | some f =>
      have hf := hn f rfl
      unfold Msg.presetLoop at h
      split at h
      · simp only [Except.ok.injEq, Prod.mk.injEq] at h
        obtain ⟨rfl, rfl⟩ := h
        simp
      · rename_i hne
        have hf : r < rank f := by
          rcases hf with h | h
          · exact absurd h hne
          · exact h
        obtain ⟨first, _, h⟩ := bind_ok h
        obtain ⟨size, _, h⟩ := bind_ok h
        cases first with
        | none =>
          simp only [Except.ok.injEq, Prod.mk.injEq] at h
          obtain ⟨rfl, rfl⟩ := h
          simp
        | some first =>
          obtain ⟨acc, _, h⟩ := bind_ok h
          cases size with
          | none =>
            simp only [Except.ok.injEq, Prod.mk.injEq] at h
            obtain ⟨rfl, rfl⟩ := h
            simp
          | some size =>
            obtain ⟨stop, _, h⟩ := bind_ok h
            have hupd : ∀ (v : FV) g, rank g ≤ r → (σ.upd f v).fv g = σ.fv g := by
              intro v g hg
              have : g ≠ f := by rintro rfl; omega
              simp [State.upd, this]
            cases stop with
            | true =>
              simp only [if_true, Except.ok.injEq, Prod.mk.injEq] at h
              obtain ⟨rfl, rfl⟩ := h
              exact ⟨hupd _, rfl, rfl⟩
            | false =>
              simp only [Bool.false_eq_true, if_false] at h
              obtain ⟨nxt, hnxt, h⟩ := bind_ok h
              obtain ⟨h1, h2, h3⟩ := ih _ _ _ _ _ h (by
                intro g hg
                subst hg
                rcases next_rank hr hnxt with h | h
                · exact .inl h
                · exact .inr (by omega))
              exact ⟨fun g hg => (h1 g hg).trans (hupd _ g hg), h2, h3⟩

theorem preset_frame (hr : Ranked m.links rank) {σ σ' : State} {f : Field} (h : m.preset σ f = .ok σ') :
    (∀ g, rank g ≤ rank f → σ'.fv g = σ.fv g) ∧ σ'.mapping = σ.mapping ∧
      ∃ fs, σ'.accessible = replaceAfter σ.accessible f fs := by
  obtain ⟨nxt, hn, h⟩ := bind_ok (h : (m.nextField _ _).bind _ = _)
  obtain ⟨⟨σ1, fs⟩, h1, rfl⟩ := map_ok h
  obtain ⟨h2, h3, h4⟩ := presetLoop_frame hr (r := rank f) _ _ _ _ _ _ h1 (by
    intro g hg
    subst hg
    exact next_rank hr hn)
  exact ⟨h2, h3, fs, by simp [h4]⟩

/-- What a successful `set` does. -/
theorem set_ok {σ σ' : State} {f : Field} {x : Input} (h : m.set σ f x = (σ', none)) :
    f ∈ σ.accessible ∧ ∃ v value M σ2, m.prepare σ f = .ok v ∧ assignValue (m.typeOf f) v.expected x = .ok value ∧
      σ2 = { σ.upd f { v with value := some value } with mapping := M } ∧
      m.newMapping σ2.fv = .ok M ∧ m.allFalse M (outgoing m.links f) = .ok false ∧ m.preset σ2 f = .ok σ' := by
  unfold Msg.set at h
  split at h
  · simp at h
  rename_i hacc
  refine ⟨by simpa using hacc, ?_⟩
  split at h
  · simp at h
  rename_i v hv
  split at h
  · simp at h
  rename_i value hvalue
  simp only at h
  split at h
  · simp at h
  rename_i M hM
  split at h
  · simp at h
  · simp at h
  rename_i hall
  split at h
  · simp at h
  rename_i σ4 hp
  simp only [Prod.mk.injEq, and_true] at h
  subst h
  exact ⟨v, value, M, _, hv, hvalue, rfl, hM, hall, hp⟩

/-- Whatever its outcome, `set` changes no field other than the given one and the fields after it. -/
theorem set_frame (hr : Ranked m.links rank) {σ σ' : State} {f : Field} {x : Input} {e : Option PyErr}
    (h : m.set σ f x = (σ', e)) : ∀ g, rank g ≤ rank f → g ≠ f → σ'.fv g = σ.fv g := by
  intro g hg hne
  have hupd : ∀ (σ : State) (v : FV), (σ.upd f v).fv g = σ.fv g := by
    intro σ v
    simp [State.upd, hne]
  unfold Msg.set at h
  split at h
  · simp only [Prod.mk.injEq] at h; rw [← h.1]
  split at h
  · simp only [Prod.mk.injEq] at h; rw [← h.1]
  split at h
  · simp only [Prod.mk.injEq] at h; rw [← h.1, hupd]
  simp only at h
  split at h
  · simp only [Prod.mk.injEq] at h; rw [← h.1, hupd]
  split at h
  · simp only [Prod.mk.injEq] at h; rw [← h.1]; exact hupd _ _
  · simp only [Prod.mk.injEq] at h; rw [← h.1, hupd]; exact hupd _ _
  split at h
  · simp only [Prod.mk.injEq] at h; rw [← h.1]; exact hupd _ _
  · rename_i hp
    simp only [Prod.mk.injEq] at h
    rw [← h.1, (preset_frame hr hp).1 g hg]
    exact hupd _ _

end Verif.PyRFLX
