import Verif.PyRFLX.MessageParse3

/-! # What holds while a message is parsed -/

namespace Verif.PyRFLX

open Verif Verif.Types Verif.Bits Verif.Graph

variable {m : Msg} {rank : Field → Nat} {rest : Field → Bool}

/-- Specification: the field `g` is set to the `n` bits of the input at position `a`. -/
def At (m : Msg) (σ : State) (B : List Bool) (g : Field) (a n : Nat) : Prop :=
  ∃ x y v, (σ.fv g).first = some x ∧ x.v = a ∧ (σ.fv g).size (m.typeOf g) = .ok (some y) ∧ y.v = n ∧ (σ.fv g).value = some v ∧
    valBits (m.typeOf g) v = .ok ⟨(B.drop a).take n⟩ ∧ a + n ≤ B.length

/-- Specification: the given fields are set to consecutive parts of the input from position `a` to position `c`. -/
inductive Placed (m : Msg) (σ : State) (B : List Bool) : Nat → List Field → Nat → Prop
  | nil {a : Nat} : Placed m σ B a [] a
  | cons {a n c : Nat} {g : Field} {p : List Field} : At m σ B g a n → Placed m σ B (a + n) p c → Placed m σ B a (g :: p) c

theorem At.isSet {σ : State} {B : List Bool} {g : Field} {a n : Nat} (h : At m σ B g a n) :
    (σ.fv g).isSet (m.typeOf g) = .ok true := by
  obtain ⟨x, y, v, h1, _, h2, _, h3, _⟩ := h
  exact (isSet_true h3 h2 h1).1

theorem At.congr {σ σ' : State} {B : List Bool} {g : Field} {a n : Nat} (h : At m σ B g a n) (hg : σ'.fv g = σ.fv g) :
    At m σ' B g a n := by
  unfold At
  rw [hg]
  exact h

theorem Placed.mem {σ : State} {B : List Bool} {a c : Nat} {p : List Field} (h : Placed m σ B a p c) :
    ∀ g ∈ p, ∃ a n, At m σ B g a n := by
  induction h with
  | nil => simp
  | cons h1 _ ih =>
    intro g hg
    rcases List.mem_cons.mp hg with rfl | hg
    · exact ⟨_, _, h1⟩
    · exact ih g hg

theorem Placed.congr {σ σ' : State} {B : List Bool} {a c : Nat} {p : List Field} (h : Placed m σ B a p c)
    (hg : ∀ g ∈ p, σ'.fv g = σ.fv g) : Placed m σ' B a p c := by
  induction h with
  | nil => exact .nil
  | cons h1 _ ih =>
    exact .cons (h1.congr (hg _ List.mem_cons_self)) (ih fun g h => hg g (List.mem_cons_of_mem _ h))

theorem Placed.snoc {σ : State} {B : List Bool} {a c n : Nat} {p : List Field} {g : Field} (h : Placed m σ B a p c)
    (hg : At m σ B g c n) : Placed m σ B a (p ++ [g]) (c + n) := by
  induction h with
  | nil => exact .cons hg .nil
  | cons h1 _ ih => exact .cons h1 (ih hg)

theorem Placed.le {σ : State} {B : List Bool} {a c : Nat} {p : List Field} (h : Placed m σ B a p c) (ha : a ≤ B.length) :
    a ≤ c ∧ c ≤ B.length := by
  induction h with
  | nil => exact ⟨Nat.le_refl _, ha⟩
  | cons h1 _ ih =>
    obtain ⟨_, _, _, _, _, _, _, _, _, hle⟩ := h1
    have := ih hle
    omega

/-- Proof device: the state when the fields `p`, the last of which is `e`, have been parsed. The mapping was computed from the
values `fv`. -/
structure Core (m : Msg) (rank : Field → Nat) (rest : Field → Bool) (B : List Bool) (σ : State) (fv : Field → FV) (p : List Field)
    (e : Field) (last cur : Nat) : Prop where
  valuesM : Values m fv
  mapping : Mapping m fv σ.mapping
  initial : p ≠ [] → m.newMapping fv = .ok σ.mapping
  values : Values m σ.fv
  walk : Walk m σ.mapping INITIAL p e
  agree : ∀ g, rank g ≤ rank e → fv g = σ.fv g
  agreeNext : ∀ f, m.nextField σ.mapping e = .ok (some f) → f ≠ FINAL → ∀ g, rank g < rank f → fv g = σ.fv g
  init : σ.fv INITIAL = m.newFV INITIAL
  fresh : ∀ g, g ∉ p → g ≠ INITIAL → Fresh (m.typeOf g) (σ.fv g)
  freshM : ∀ g, g ∉ p → g ≠ INITIAL → Fresh (m.typeOf g) (fv g)
  restFirst : ∀ g, g ∉ p → rest g = true → (σ.fv g).first = none
  restFirstM : ∀ g, g ∉ p → rest g = true → (fv g).first = none
  placed : Placed m σ B 0 p cur
  pos : ∃ x y, (σ.fv e).first = some x ∧ (σ.fv e).size (m.typeOf e) = .ok (some y) ∧ x.v = last ∧ x.v + y.v = cur
  set : (σ.fv e).isSet (m.typeOf e) = .ok true

/-- Proof device: the list of accessible fields before `f` is parsed. -/
structure Acc (m : Msg) (rank : Field → Nat) (σ : State) (p : List Field) (f : Field) (cur : Nat) : Prop where
  acc : ∃ r, σ.accessible = p ++ r ∧ (∀ g ∈ r, After m rank σ.mapping f g) ∧ (f ∈ r → ∃ t, r = f :: t)
  own : ∀ b, (σ.fv f).first = some b → b.v = cur

theorem initial_lt (w : Well m rank rest) {M : List (Expr × Expr)} {p : List Field} {e f : Field} (hw : Walk m M INITIAL p e)
    (hn : m.nextField M e = .ok (some f)) (hf : f ≠ FINAL) : rank INITIAL < rank f := by
  have := (hw.rank_le w.ranked).1
  have := next_rank' w.ranked hn hf
  omega

theorem walk_append {M : List (Expr × Expr)} {a b c : Field} {p q : List Field} (h : Walk m M a p b) (h' : Walk m M b q c) :
    Walk m M a (p ++ q) c := by
  induction h with
  | nil => exact h'
  | cons h1 h2 _ ih => exact .cons h1 h2 (ih h')

/-- `_preset_fields` after the field `e` has been set. -/
theorem Core.preset (w : Well m rank rest) {B : List Bool} {σ σ' : State} {fv : Field → FV} {p : List Field} {e : Field}
    {last cur : Nat} (c : Core m rank rest B σ fv p e last cur)
    (hp : ∀ g ∈ p, g ∈ σ.accessible)
    (hacc : ∀ f, m.nextField σ.mapping e = .ok (some f) → f ≠ FINAL → ∀ g ∈ σ.accessible, g ∈ p ∨ rank f ≤ rank g)
    (hrep : ∀ fs, replaceAfter σ.accessible e fs = p ++ fs)
    (h : m.preset σ e = .ok σ') :
    Core m rank rest B σ' fv p e last cur ∧
      ∀ f, m.nextField σ'.mapping e = .ok (some f) → f ≠ FINAL → Acc m rank σ' p f cur := by
  obtain ⟨nxt, hn, h⟩ := bind_ok (h : (m.nextField _ _).bind _ = _)
  obtain ⟨⟨σ1, fs⟩, hloop, rfl⟩ := map_ok h
  obtain ⟨f1, f2, f3⟩ := presetLoop_frame w.ranked (r := rank e) _ _ _ _ _ _ hloop (by
    intro g hg
    subst hg
    exact next_rank w.ranked hn)
  have hpr := fun g hg => ((c.walk.rank_le w.ranked).2 g hg).2
  obtain ⟨t, h1, h2, h3, h4, h5, h6⟩ := presetLoop_spec (rest := rest) w.ranked _ _ _ _ _ _ hloop (by
    intro f hf hfin q g τ s hw hg hτ hs
    subst hf
    have hwalk := walk_append (c.walk.snoc hn hfin) hw
    have hlt := initial_lt w c.walk hn hfin
    have hgi : rank f ≤ rank g := (hw.rank_le w.ranked).1
    have hge : rank e < rank g := Nat.lt_of_lt_of_le (next_rank' w.ranked hn hfin) hgi
    have hgp : g ∉ p := fun hgp => by have := hpr g hgp; omega
    refine w.rest_size c.valuesM ?_ hg hs
    rw [hτ]
    rcases c.mapping with hM | ⟨hM, _⟩
    · exact .inl (w.noEnd c.valuesM hM hwalk (by rintro rfl; omega) (c.restFirstM g hgp hg))
    · exact .inr hM)
  simp only [List.nil_append] at h1
  subst h1
  have hfrange : ∀ f, m.nextField σ.mapping e = .ok (some f) → f ≠ FINAL → ∀ g, rank g < rank f → σ1.fv g = σ.fv g := by
    intro f hf hfin g hg
    rw [hf] at hn
    cases hn
    have := next_rank' w.ranked hf hfin
    exact (presetLoop_frame w.ranked (r := rank f - 1) _ _ _ _ _ _ hloop (by
      intro g hg
      cases hg
      exact .inr (by omega))).1 g (by omega)
  constructor
  · refine ⟨c.valuesM, ?_, ?_, ?_, ?_, ?_, ?_, ?_, ?_, c.freshM, ?_, c.restFirstM, ?_, ?_, ?_⟩
    · simpa [f2] using c.mapping
    · simpa [f2] using c.initial
    · intro g s imp x ht hx
      simp only at hx
      rcases h4 g with h | h
      · rw [h] at hx; exact c.values g s imp x ht hx
      · rw [h] at hx; cases hx
    · simpa [f2] using c.walk
    · intro g hg
      simp only [f1 g hg]
      exact c.agree g hg
    · intro f hf hfin g hg
      simp only [f2] at hf
      simp only [hfrange f hf hfin g hg]
      exact c.agreeNext f hf hfin g hg
    · simp only [f1 INITIAL (c.walk.rank_le w.ranked).1]
      exact c.init
    · intro g hg hgi
      exact h5 g (c.fresh g hg hgi)
    · intro g hg hgr
      exact h6 g hgr (c.restFirst g hg hgr)
    · exact c.placed.congr fun g hg => f1 g (hpr g hg)
    · simpa only [f1 e (Nat.le_refl _)] using c.pos
    · simpa only [f1 e (Nat.le_refl _)] using c.set
  · intro f hf hfin
    simp only [f2] at hf
    have hn' := hn
    rw [hf] at hn
    cases hn
    refine ⟨⟨fs, ?_, ?_, ?_⟩, ?_⟩
    · simp only [f3]
      exact hrep fs
    · intro g hg
      obtain ⟨f', hf', _, ha⟩ := h2 g hg
      cases hf'
      simpa [f2] using ha
    · exact h3 f rfl
    · intro b hb
      simp only at hb
      cases hk : m.fuel with
      | zero => rw [hk] at hloop; simp [Msg.presetLoop] at hloop
      | succ k =>
        rw [hk] at hloop
        unfold Msg.presetLoop at hloop
        rw [if_neg hfin] at hloop
        obtain ⟨first, hfirst, hloop⟩ := bind_ok hloop
        obtain ⟨size, hsize, hloop⟩ := bind_ok hloop
        obtain ⟨x, y, hx, hy, hxl, hxy⟩ := c.pos
        obtain ⟨z, rfl, hz⟩ := w.first c.valuesM c.mapping c.walk hf hfin hp (hacc f hf hfin) hx hy hfirst
        obtain ⟨acc, _, hloop⟩ := bind_ok hloop
        cases size with
        | none =>
          simp only [Except.ok.injEq, Prod.mk.injEq] at hloop
          rw [← hloop.1] at hb
          cases hrf : rest f with
          | true =>
            have hfp : f ∉ p := fun hfp => by
              have := hpr f hfp
              have := next_rank' w.ranked hf hfin
              omega
            rw [c.restFirst f hfp hrf] at hb
            cases hb
          | false =>
            have hset : ∀ g ∈ p, (fv g).isSet (m.typeOf g) = .ok true := by
              intro g hg
              obtain ⟨a, n, hat⟩ := c.placed.mem g hg
              rw [c.agree g (hpr g hg)]
              exact hat.isSet
            obtain ⟨n, hn, _⟩ := w.size c.valuesM c.mapping c.walk hf hfin hset c.set c.fresh hrf hsize
            cases hn
        | some size =>
          obtain ⟨stop, _, hloop⟩ := bind_ok hloop
          cases stop with
          | true =>
            simp only [if_true, Except.ok.injEq, Prod.mk.injEq] at hloop
            rw [← hloop.1, upd_self] at hb
            cases hb
          | false =>
            simp only [Bool.false_eq_true, if_false] at hloop
            obtain ⟨nxt, hnxt, hloop⟩ := bind_ok hloop
            have := (presetLoop_frame w.ranked (r := rank f) _ _ _ _ _ _ hloop (by
              intro g hg
              subst hg
              exact next_rank w.ranked hnxt)).1 f (Nat.le_refl _)
            rw [this, upd_self] at hb
            simp only [presetFV, Option.some.injEq] at hb
            rw [← hb, hz, hxy]

end Verif.PyRFLX
