import Verif.PyRFLX.MessageParse2

/-! # Presetting the fields after the walk -/

namespace Verif.PyRFLX

open Verif Verif.Types Verif.Bits Verif.Graph

variable {m : Msg} {rank : Field → Nat} {rest : Field → Bool}

/-! ## The end of the message -/

theorem withMessage_agree {bad : List ID} (hp : Proper bad) (hm : messageID ∈ bad) (last : Option Num) (M0 L : List (Expr × Expr))
    {n : Expr} (hn : Free bad n) : substitution (withMessage M0 last ++ L) n = substitution (M0 ++ L) n := by
  have drop : (withMessage M0 last).find? (fun kv => kv.1.eq n) = M0.find? (fun kv => kv.1.eq n) := by
    cases last with
    | none => rfl
    | some x =>
      have h1 : (Expr.attr false .last messageVar).eq n = false := key_free hp hm (.inr ⟨.last, by simp, rfl⟩) hn
      have h2 : (Expr.attr false .size messageVar).eq n = false := key_free hp hm (.inr ⟨.size, by simp, rfl⟩) hn
      simp [withMessage, List.find?, h1, h2]
  unfold substitution
  rw [List.find?_append, List.find?_append, drop]

/-- If the end of the message is known then the end of every field on the way is known. -/
theorem messageLast_some {fv : Field → FV} {M : List (Expr × Expr)} : ∀ (k : Nat) (c : Field) (n : Num),
    m.messageLast fv M k (some c) = .ok (some n) → ∀ p g, Walk m M c p g → ∃ x, (fv g).last (m.typeOf g) = .ok (some x) := by
  intro k
  induction k with
  | zero => intro c n h; simp [Msg.messageLast] at h
  | succ k ih =>
    intro c n h p g hw
    unfold Msg.messageLast at h
    obtain ⟨nxt, hnxt, h⟩ := bind_ok h
    split at h
    · cases h
    obtain ⟨last, hlast, h⟩ := bind_ok h
    split at h
    · cases h
    rename_i hnf
    cases last with
    | none => cases h
    | some x =>
      simp only at h
      cases hw with
      | nil => exact ⟨x, hlast⟩
      | cons h1 h2 hw =>
        rw [hnxt] at h1
        simp only [Except.ok.injEq] at h1
        subst h1
        exact ih _ _ (by simpa using h) _ _ hw

theorem Well.noEnd (w : Well m rank rest) {fv : Field → FV} (hv : Values m fv) {M : List (Expr × Expr)} (hM : m.newMapping fv = .ok M)
    {p : List Field} {g : Field} (hw : Walk m M INITIAL p g) (hg : g ≠ INITIAL) (hfirst : (fv g).first = none) :
    m.fieldMapping fv (INITIAL :: m.fields) = .ok M := by
  obtain ⟨M0, last, nxt, hM0, hnxt, hlast, rfl⟩ := newMapping_form hM
  cases last with
  | none => exact hM0
  | some n =>
    exfalso
    have hmo := newMapping_mem hM
    have hnext : ∀ f, m.nextField (withMessage M0 (some n)) f = m.nextField M0 f := by
      intro f
      refine next_congr fun l hl hs => ?_
      unfold Msg.holds
      obtain ⟨h1, h2⟩ := w.simple hv hmo (late m rank (rank l.source)) fun i hi => late_mem hi
      rw [simplifiedIn_congr m h1 h2 (fun n' hn' => ?_) (w.conditions l hl)]
      exact withMessage_agree (w.properLate _) (by simp [late]) _ _ _ hn'
    have hw' := hw.congr fun g _ => hnext g
    cases hw' with
    | nil => exact hg rfl
    | cons h1 h2 hw2 =>
      rw [hnxt] at h1
      simp only [Except.ok.injEq] at h1
      subst h1
      obtain ⟨x, hx⟩ := messageLast_some _ _ _ hlast _ _ hw2
      simp [FV.last, hfirst] at hx

/-! ## `_preset_fields` -/

/-- Specification: `g` is `f` or comes after the next field. -/
def After (m : Msg) (rank : Field → Nat) (M : List (Expr × Expr)) (f g : Field) : Prop :=
  g = f ∨ ∃ c, c ≠ FINAL ∧ m.nextField M f = .ok (some c) ∧ rank c ≤ rank g

theorem After.le (hr : Ranked m.links rank) {M : List (Expr × Expr)} {f g : Field} (h : After m rank M f g) :
    rank f ≤ rank g ∧ (g ≠ f → rank f < rank g) := by
  rcases h with rfl | ⟨c, hc, hn, hle⟩
  · exact ⟨Nat.le_refl _, fun h => absurd rfl h⟩
  · have := next_rank' hr hn hc
    exact ⟨by omega, fun _ => by omega⟩

theorem upd_self (σ : State) (f : Field) (v : FV) : (σ.upd f v).fv f = v := by simp [State.upd]

theorem upd_other (σ : State) {f g : Field} (v : FV) (h : g ≠ f) : (σ.upd f v).fv g = σ.fv g := by simp [State.upd, h]

theorem fresh_preset {t : FType} {v : FV} (h : Fresh t v) (a b : Num) : Fresh t (presetFV t v a b) := by
  cases t <;> simpa [Fresh, presetFV, FType.isOpaque] using h

/-- What the loop of `_preset_fields` does. -/
theorem presetLoop_spec (hr : Ranked m.links rank) : ∀ (k : Nat) (σ : State) (nxt : Option Field) (fs : List Field)
    (σ' : State) (fs' : List Field), m.presetLoop k σ nxt fs = .ok (σ', fs') →
    (∀ f, nxt = some f → f ≠ FINAL → ∀ p g τ s, Walk m σ.mapping f p g → rest g = true → τ.mapping = σ.mapping → m.getSize τ g = .ok s → s = none) →
    ∃ t, fs' = fs ++ t ∧ (∀ g ∈ t, ∃ f, nxt = some f ∧ f ≠ FINAL ∧ After m rank σ.mapping f g) ∧
      (∀ f, nxt = some f → f ∈ t → ∃ t', t = f :: t') ∧
      (∀ g, (σ'.fv g).value = (σ.fv g).value ∨ (σ'.fv g).value = none) ∧
      (∀ g, Fresh (m.typeOf g) (σ.fv g) → Fresh (m.typeOf g) (σ'.fv g)) ∧
      (∀ g, rest g = true → (σ.fv g).first = none → (σ'.fv g).first = none) := by
  intro k
  induction k with
  | zero =>
    intro σ nxt fs σ' fs' h _
    cases nxt with
    | none =>
      simp only [Msg.presetLoop, Except.ok.injEq, Prod.mk.injEq] at h
      obtain ⟨rfl, rfl⟩ := h
      exact ⟨[], by simp, by simp, by simp, fun g => .inl rfl, fun g h => h, fun g _ h => h⟩
    | some f => simp [Msg.presetLoop] at h
  | succ k ih =>
    intro σ nxt fs σ' fs' h hrest
    cases nxt with
    | none =>
      simp only [Msg.presetLoop, Except.ok.injEq, Prod.mk.injEq] at h
      obtain ⟨rfl, rfl⟩ := h
      exact ⟨[], by simp, by simp, by simp, fun g => .inl rfl, fun g h => h, fun g _ h => h⟩
    | some f =>
      unfold Msg.presetLoop at h
      split at h
      · simp only [Except.ok.injEq, Prod.mk.injEq] at h
        obtain ⟨rfl, rfl⟩ := h
        exact ⟨[], by simp, by simp, by simp, fun g => .inl rfl, fun g h => h, fun g _ h => h⟩
      rename_i hne
      obtain ⟨first, _, h⟩ := bind_ok h
      obtain ⟨size, hsize, h⟩ := bind_ok h
      have hown : ∀ acc : Bool, ∃ t : List Field, (if acc then fs ++ [f] else fs) = fs ++ t ∧ (t = [] ∨ t = [f]) := by
        intro acc
        cases acc
        · exact ⟨[], by simp, by simp⟩
        · exact ⟨[f], by simp, by simp⟩
      have hsmall : ∀ t : List Field, (t = [] ∨ t = [f]) →
          (∀ g ∈ t, ∃ f', some f = some f' ∧ f' ≠ FINAL ∧ After m rank σ.mapping f' g) ∧
          (∀ f', some f = some f' → f' ∈ t → ∃ t', t = f' :: t') := by
        rintro t (rfl | rfl)
        · simp
        · refine ⟨fun g hg => ⟨f, rfl, hne, .inl (by simpa using hg)⟩, fun f' hf' _ => ⟨[], ?_⟩⟩
          cases hf'
          rfl
      cases first with
      | none =>
        simp only [Except.ok.injEq, Prod.mk.injEq] at h
        obtain ⟨rfl, rfl⟩ := h
        exact ⟨[], by simp, by simp, by simp, fun g => .inl rfl, fun g h => h, fun g _ h => h⟩
      | some first =>
        obtain ⟨acc, _, h⟩ := bind_ok h
        obtain ⟨t0, ht0, ht0'⟩ := hown acc
        obtain ⟨hs1, hs2⟩ := hsmall t0 ht0'
        cases size with
        | none =>
          simp only [Except.ok.injEq, Prod.mk.injEq] at h
          obtain ⟨rfl, rfl⟩ := h
          exact ⟨t0, ht0, hs1, hs2, fun g => .inl rfl, fun g h => h, fun g _ h => h⟩
        | some size =>
          have hnr : rest f = false := by
            cases hrf : rest f with
            | false => rfl
            | true =>
              have := hrest f rfl hne [] f σ _ .nil hrf rfl hsize
              cases this
          obtain ⟨stop, hstop, h⟩ := bind_ok h
          have hval : ∀ (v : FV), (v.value = (σ.fv f).value ∨ v.value = none) → ∀ g, ((σ.upd f v).fv g).value = (σ.fv g).value ∨
              ((σ.upd f v).fv g).value = none := by
            intro v hv g
            by_cases hg : g = f
            · subst hg; rw [upd_self]; exact hv
            · rw [upd_other _ _ hg]; exact .inl rfl
          have hfr : ∀ (v : FV), (Fresh (m.typeOf f) (σ.fv f) → Fresh (m.typeOf f) v) → ∀ g, Fresh (m.typeOf g) (σ.fv g) →
              Fresh (m.typeOf g) ((σ.upd f v).fv g) := by
            intro v hv g
            by_cases hg : g = f
            · subst hg; rw [upd_self]; exact hv
            · rw [upd_other _ _ hg]; exact fun h => h
          have hrs : ∀ (v : FV) g, rest g = true → (σ.fv g).first = none → ((σ.upd f v).fv g).first = none := by
            intro v g hg
            have : g ≠ f := by rintro rfl; rw [hnr] at hg; cases hg
            rw [upd_other _ _ this]; exact fun h => h
          cases stop with
          | true =>
            simp only [if_true, Except.ok.injEq, Prod.mk.injEq] at h
            obtain ⟨rfl, rfl⟩ := h
            refine ⟨t0, ht0, hs1, hs2, hval _ (.inr rfl), hfr _ fun _ => ?_, hrs _⟩
            split at hstop
            · rename_i hop
              cases ht : m.typeOf f <;> simp [ht, FType.isOpaque] at hop
              simp [Fresh]
            · simp at hstop
          | false =>
            simp only [Bool.false_eq_true, if_false] at h
            obtain ⟨nxt, hnxt, h⟩ := bind_ok h
            have hmap : ∀ v, (σ.upd f v).mapping = σ.mapping := fun _ => rfl
            obtain ⟨t, h1, h2, h3, h4, h5, h6⟩ := ih _ _ _ _ _ h (by
              intro c hc hcf p g τ s hw hg hτ hs
              subst hc
              exact hrest f rfl hne (c :: p) g τ s (.cons hnxt hcf hw) hg hτ hs)
            refine ⟨t0 ++ t, by rw [h1, ht0]; simp, ?_, ?_, ?_, ?_, ?_⟩
            · intro g hg
              rcases List.mem_append.mp hg with hg | hg
              · exact hs1 g hg
              · obtain ⟨c, rfl, hc, ha⟩ := h2 g hg
                exact ⟨f, rfl, hne, .inr ⟨c, hc, hnxt, (ha.le hr).1⟩⟩
            · intro f' hf' hm
              cases hf'
              rcases ht0' with rfl | rfl
              · exfalso
                simp only [List.nil_append] at hm
                obtain ⟨c, rfl, hc, ha⟩ := h2 f hm
                have := next_rank' hr hnxt hc
                have := (ha.le hr).1
                omega
              · exact ⟨t, rfl⟩
            · intro g
              rcases h4 g with h | h
              · rw [h]
                exact hval (presetFV (m.typeOf f) (σ.fv f) first size) (.inl rfl) g
              · exact .inr h
            · intro g hg
              exact h5 g (hfr _ (fun h => fresh_preset h _ _) g hg)
            · intro g hg hf0
              exact h6 g hg (hrs _ g hg hf0)

end Verif.PyRFLX
