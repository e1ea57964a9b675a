import Verif.PyRFLX.MessageParse4

/-! # Parsing one field -/

namespace Verif.PyRFLX

open Verif Verif.Types Verif.Bits Verif.Graph

variable {m : Msg} {rank : Field → Nat} {rest : Field → Bool}

theorem newFV_first {g : Field} (h : g ≠ INITIAL) : (m.newFV g).first = none := by
  unfold Msg.newFV
  rw [if_neg h]
  split <;> rfl

theorem newFV_fresh {g : Field} (h : g ≠ INITIAL) : Fresh (m.typeOf g) (m.newFV g) := by
  unfold Msg.newFV Msg.typeOf Fresh
  rw [if_neg h, if_neg h]
  cases m.types g <;> simp

theorem newFV_values : Values m m.newFV := by
  intro g s imp x ht hx
  unfold Msg.newFV at hx
  unfold Msg.typeOf at ht
  by_cases hg : g = INITIAL
  · simp [hg] at ht
  · simp [hg] at ht hx
    simp [ht] at hx

theorem Well.rest_initial (w : Well m rank rest) : rest INITIAL = false := by
  cases h : rest INITIAL with
  | false => rfl
  | true =>
    exfalso
    obtain ⟨l0, h1, _, h3, _⟩ := w.start
    obtain ⟨h4, h5⟩ := mem_outgoing (show l0 ∈ outgoing m.links INITIAL by simp [h1])
    exact h3 ((w.rests INITIAL h).2.1 l0 h4 h5)

/-- The state of a new message. -/
theorem Well.new (w : Well m rank rest) (B : List Bool) {σ : State} (h : m.new = .ok σ) :
    Core m rank rest B σ m.newFV [] INITIAL 0 0 ∧
      ∀ f, m.nextField σ.mapping INITIAL = .ok (some f) → f ≠ FINAL → Acc m rank σ [] f 0 := by
  have hti : m.typeOf INITIAL = .opaque := by simp [Msg.typeOf]
  have hfi : m.newFV INITIAL = ⟨some (.bytes []), none, some ⟨0, .b0⟩⟩ := by simp [Msg.newFV]
  have hsz : (m.newFV INITIAL).size (m.typeOf INITIAL) = .ok (some ⟨0, .b0⟩) := by
    rw [hti, hfi]
    simp [FV.size]
  have hrest : ∀ g, g ∉ ([] : List Field) → rest g = true → (m.newFV g).first = none := by
    intro g _ hg
    refine newFV_first ?_
    rintro rfl
    rw [w.rest_initial] at hg
    cases hg
  have c : Core m rank rest B ⟨m.newFV, [], initMapping⟩ m.newFV [] INITIAL 0 0 := by
    refine ⟨newFV_values, .inr ⟨rfl, rfl⟩, fun h => absurd rfl h, newFV_values, .nil, fun _ _ => rfl, fun _ _ _ _ _ => rfl, rfl,
      fun g _ hg => newFV_fresh hg, fun g _ hg => newFV_fresh hg, hrest, hrest, .nil, ?_, ?_⟩
    · exact ⟨⟨0, .b0⟩, ⟨0, .b0⟩, by simp [hfi], hsz, rfl, rfl⟩
    · exact (isSet_true (x := .bytes []) (f := ⟨0, .b0⟩) (by simp [hfi]) hsz (by simp [hfi])).1
  exact c.preset w (by simp) (by simp) (by simp [replaceAfter]) h

theorem idxOf_append {p t fs : List Field} {f : Field} (h : f ∉ p) : replaceAfter (p ++ f :: t) f fs = p ++ [f] ++ fs := by
  unfold replaceAfter
  rw [if_pos (by simp)]
  have hi : (p ++ f :: t).idxOf f = p.length := by
    simp [List.idxOf_append, h]
  rw [hi]
  have : p ++ f :: t = (p ++ [f]) ++ t := by simp
  rw [this, List.take_append_of_le_length (by simp)]
  rw [List.take_of_length_le (by simp)]

/-- The walk up to `f` does not depend on the value of `f` and the fields after it. -/
theorem Core.walk_new (w : Well m rank rest) {B : List Bool} {σ : State} {fv : Field → FV} {p : List Field} {e f : Field}
    {last cur : Nat} (c : Core m rank rest B σ fv p e last cur) (hn : m.nextField σ.mapping e = .ok (some f)) (hf : f ≠ FINAL)
    {fv' : Field → FV} (hfv : ∀ g, g ≠ f → fv' g = σ.fv g) {M : List (Expr × Expr)} (hM : m.newMapping fv' = .ok M) :
    Walk m M INITIAL (p ++ [f]) f := by
  have hlt := next_rank' w.ranked hn hf
  have hnext : ∀ g ∈ INITIAL :: p, m.nextField σ.mapping g = m.nextField M g := by
    intro g hg
    rcases List.mem_cons.mp hg with rfl | hg
    · obtain ⟨l0, _, _, _, _, h⟩ := w.initial_next
      rw [h, h]
    · have hne : p ≠ [] := by rintro rfl; simp at hg
      have hge := ((c.walk.rank_le w.ranked).2 g hg).2
      have key : ∀ g', rank g' ≤ rank e → fv g' = fv' g' := by
        intro g' hg'
        rw [c.agree g' hg', hfv g' (by rintro rfl; omega)]
      exact w.next c.valuesM (c.initial hne) hM g (fun g' hg' => key g' (by omega))
        (key INITIAL (c.walk.rank_le w.ranked).1)
  refine (c.walk.congr hnext).snoc ?_ hf
  rw [← hnext e ?_]
  · exact hn
  · rcases c.walk.mem_last with ⟨_, h⟩ | h
    · simp [h]
    · exact List.mem_cons_of_mem _ h

theorem Acc.facts (w : Well m rank rest) {σ : State} {p : List Field} {f : Field} {cur : Nat} (a : Acc m rank σ p f cur) :
    (∀ g ∈ p, g ∈ σ.accessible) ∧ ∀ g ∈ σ.accessible, g ∈ p ∨ rank f ≤ rank g := by
  obtain ⟨r, h1, h2, _⟩ := a.acc
  refine ⟨fun g hg => by rw [h1]; exact List.mem_append_left _ hg, fun g hg => ?_⟩
  rw [h1] at hg
  rcases List.mem_append.mp hg with hg | hg
  · exact .inl hg
  · exact .inr ((h2 g hg).le w.ranked).1

/-- One step of `parse` for a field of known size. -/
theorem Core.step (w : Well m rank rest) {B : List Bool} {σ σ' : State} {fv : Field → FV} {p : List Field} {e f : Field}
    {last cur : Nat} (c : Core m rank rest B σ fv p e last cur) (hn : m.nextField σ.mapping e = .ok (some f)) (hf : f ≠ FINAL)
    (a : Acc m rank σ p f cur) (hr : rest f = false) {n : Num} (hs : m.getSize σ f = .ok (some n))
    (hlen : cur + n.v.toNat ≤ B.length) (h : m.set σ f (.bits ⟨(B.drop cur).take n.v.toNat⟩) = (σ', none)) :
    ∃ fv', Core m rank rest B σ' fv' (p ++ [f]) f cur (cur + n.v.toNat) ∧
      ∀ f', m.nextField σ'.mapping f = .ok (some f') → f' ≠ FINAL → Acc m rank σ' (p ++ [f]) f' (cur + n.v.toNat) := by
  obtain ⟨hfacc, v, value, M, σ2, hprep, hval, hσ2, hM, _, hpreset⟩ := set_ok h
  have hlt := next_rank' w.ranked hn hf
  have hpr := fun g hg => ((c.walk.rank_le w.ranked).2 g hg).2
  have hfp : f ∉ p := fun hfp => by have := hpr f hfp; omega
  have hfi : f ≠ INITIAL := by rintro rfl; have := (c.walk.rank_le w.ranked).1; omega
  obtain ⟨ha1, ha2⟩ := a.facts w
  obtain ⟨x, y, hx, hy, hxl, hxy⟩ := c.pos
  have hset : ∀ g ∈ p, (fv g).isSet (m.typeOf g) = .ok true := by
    intro g hg
    obtain ⟨a, n, hat⟩ := c.placed.mem g hg
    rw [c.agree g (hpr g hg)]
    exact hat.isSet
  obtain ⟨n', hnn', hn0, hfits⟩ := w.size c.valuesM c.mapping c.walk hn hf hset c.set c.fresh hr hs
  cases hnn'
  -- the prepared field
  obtain ⟨first, hfirst, hprep⟩ := bind_ok (hprep : (m.getFirst σ f).bind _ = _)
  obtain ⟨z, rfl, hz⟩ := w.first c.valuesM c.mapping c.walk hn hf ha1 ha2 hx hy hfirst
  rw [hs] at hprep
  simp only [Except.bind, Except.ok.injEq, Option.isSome_some, Bool.and_true] at hprep
  have hblen : (⟨(B.drop cur).take n.v.toNat⟩ : Bitstring).len = n.v.toNat := by
    simp only [Bitstring.len, List.length_take, List.length_drop]
    omega
  obtain ⟨hbits, hsize⟩ := assign_bits (b := ⟨(B.drop cur).take n.v.toNat⟩) (by rw [hblen]; exact hfits) (by
    intro hc
    refine ⟨n, ?_, by rw [hblen]; omega⟩
    rw [← hprep]
    simp [hc]) hval
  have hσ2f : σ2.fv f = { v with value := some value } := by rw [hσ2]; simp [State.upd]
  have hσ2o : ∀ g, g ≠ f → σ2.fv g = σ.fv g := by
    intro g hg
    rw [hσ2]
    simp [State.upd, hg]
  have hσ2m : σ2.mapping = M := by rw [hσ2]
  have hσ2a : σ2.accessible = σ.accessible := by rw [hσ2]; rfl
  have hat : At m σ2 B f cur n.v.toNat := by
    obtain ⟨y', hy', hyv⟩ := hsize v.first
    refine ⟨z, y', value, ?_, by omega, ?_, by rw [hyv, hblen], ?_, hbits, hlen⟩
    · rw [hσ2f, ← hprep]
    · rw [hσ2f]; exact hy'
    · rw [hσ2f]
  have hvals : Values m σ2.fv := by
    intro g s imp x ht hx
    by_cases hg : g = f
    · subst hg
      rw [hσ2f] at hx
      simp only [Option.some.injEq] at hx
      subst hx
      exact ⟨_, _, hval⟩
    · rw [hσ2o g hg] at hx
      exact c.values g s imp x ht hx
  have hwalk := c.walk_new w hn hf hσ2o hM
  have hfr : ∀ g, g ∉ p ++ [f] → g ≠ INITIAL → Fresh (m.typeOf g) (σ2.fv g) := by
    intro g hg hgi
    simp only [List.mem_append, List.mem_singleton, not_or] at hg
    rw [hσ2o g hg.2]
    exact c.fresh g hg.1 hgi
  have hrs : ∀ g, g ∉ p ++ [f] → rest g = true → (σ2.fv g).first = none := by
    intro g hg hgr
    simp only [List.mem_append, List.mem_singleton, not_or] at hg
    rw [hσ2o g hg.2]
    exact c.restFirst g hg.1 hgr
  have c2 : Core m rank rest B σ2 σ2.fv (p ++ [f]) f cur (cur + n.v.toNat) := by
    refine ⟨hvals, .inl (hσ2m ▸ hM), fun _ => hσ2m ▸ hM, hvals, hσ2m ▸ hwalk, fun _ _ => rfl, fun _ _ _ _ _ => rfl, ?_, hfr, hfr,
      hrs, hrs, ?_, ?_, hat.isSet⟩
    · rw [hσ2o _ (Ne.symm hfi)]; exact c.init
    · refine Placed.snoc (c.placed.congr fun g hg => hσ2o g ?_) hat
      rintro rfl
      exact hfp hg
    · obtain ⟨x', y', _, h1, h2, h3, h4, _⟩ := hat
      exact ⟨x', y', h1, h3, h2, by omega⟩
  refine ⟨σ2.fv, c2.preset w ?_ ?_ ?_ hpreset⟩
  · intro g hg
    rw [hσ2a]
    rcases List.mem_append.mp hg with hg | hg
    · exact ha1 g hg
    · rw [List.mem_singleton.mp hg]; exact hfacc
  · intro f' hf' hfin' g hg
    rw [hσ2a] at hg
    rw [hσ2m] at hf'
    obtain ⟨r, hr1, hr2, _⟩ := a.acc
    rw [hr1] at hg
    rcases List.mem_append.mp hg with hg | hg
    · exact .inl (List.mem_append_left _ hg)
    · rcases hr2 g hg with rfl | ⟨c1, hc1, hnc1, hle⟩
      · exact .inl (by simp)
      · right
        obtain ⟨l, hl, hls, hlt', hlh⟩ := w.next_holds hnc1
        have hst := w.stable fv σ2.fv _ M c.valuesM hvals c.mapping hM l hl (by
          intro g hg
          rw [hls] at hg
          rw [c.agreeNext f hn hf g hg, hσ2o g (by rintro rfl; omega)]) (by rw [hls]; exact c.freshM f hfp hfi) hlh
        obtain ⟨l', hl', hls', hlt'', hlh'⟩ := w.next_holds hf'
        have := w.exclusive σ2.fv M hvals (.inl hM) l hl l' hl' (by rw [hls, hls']) hst hlh'
        rw [hlt', hlt''] at this
        rw [← this]
        exact hle
  · intro fs
    rw [hσ2a]
    obtain ⟨r, hr1, hr2, hr3⟩ := a.acc
    have hfr : f ∈ r := by
      rw [hr1] at hfacc
      rcases List.mem_append.mp hfacc with h | h
      · exact absurd h hfp
      · exact h
    obtain ⟨t, ht⟩ := hr3 hfr
    rw [hr1, ht]
    exact idxOf_append hfp

end Verif.PyRFLX
