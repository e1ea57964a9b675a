import Verif.PyRFLX.MsgArray
import Verif.PyRFLX.MessageParseProps

/-! # What a message reads of its input -/

namespace Verif.PyRFLX

open Verif Verif.Types Verif.Bits Verif.Graph

section
variable {m : Msg} {rank : Field → Nat} {rest : Field → Bool}

theorem pySlice_local {B B' : List Bool} {i n cur : Nat} (h : i + n ≤ cur) (hB : B'.take cur = B.take cur) :
    pySlice B' i (i + n) = pySlice B i (i + n) := by
  rw [pySlice_eq, pySlice_eq]
  have key : ∀ l : List Bool, (l.drop i).take n = ((l.take cur).drop i).take n := by
    intro l
    rw [List.drop_take, List.take_take, Nat.min_eq_left (by omega)]
  rw [key B', key B, hB]

/-- The loop of `parse` reads the input up to the end of the message only, unless a field extends to the end of the input. -/
theorem Well.loop_local (w : Well m rank rest) {B : List Bool} : ∀ (k : Nat) (σ : State) (nxt : Option Field) (fv : Field → FV)
    (p : List Field) (e : Field) (last cur : Nat) (σ' : State), Core m rank rest B σ fv p e last cur →
    m.nextField σ.mapping e = .ok nxt → (∀ f, nxt = some f → f ≠ FINAL → Acc m rank σ p f cur) →
    m.parseLoop ⟨B⟩ k σ nxt last cur = .ok σ' → ∃ p' e' cur', Walk m σ'.mapping INITIAL p' e' ∧
      m.nextField σ'.mapping e' = .ok (some FINAL) ∧
      ((Placed m σ' B 0 p' cur' ∧ cur ≤ cur' ∧ ∀ B', cur' ≤ B'.length → B'.take cur' = B.take cur' →
        m.parseLoop ⟨B'⟩ k σ nxt last cur = .ok σ') ∨
        ∃ q, p' = q ++ [e'] ∧ Placed m σ' B 0 q cur' ∧ AtEnd m σ' B e' cur' ∧ rest e' = true) := by
  intro k
  induction k with
  | zero =>
    intro σ nxt fv p e last cur σ' c hn ha h
    cases nxt <;> simp [Msg.parseLoop] at h
  | succ k ih =>
    intro σ nxt fv p e last cur σ' c hn ha h
    cases nxt with
    | none => simp [Msg.parseLoop] at h
    | some f =>
      have h0 := h
      unfold Msg.parseLoop at h
      split at h
      · rename_i hfin
        simp only [Except.ok.injEq] at h
        subst h
        refine ⟨p, e, cur, c.walk, by rw [← hfin]; exact hn, .inl ⟨c.placed, Nat.le_refl _, fun B' _ _ => ?_⟩⟩
        unfold Msg.parseLoop
        rw [if_pos hfin]
      rename_i hf
      have a := ha f rfl hf
      have hlt := next_rank' w.ranked hn hf
      have hpr := fun g hg => ((c.walk.rank_le w.ranked).2 g hg).2
      have hfp : f ∉ p := fun hfp => by have := hpr f hfp; omega
      have hfi : f ≠ INITIAL := by rintro rfl; have := (c.walk.rank_le w.ranked).1; omega
      obtain ⟨size, hsize, h⟩ := bind_ok h
      obtain ⟨r, hr, h⟩ := bind_ok h
      obtain ⟨nxt', hnxt', h⟩ := bind_ok h
      cases hrf : rest f with
      | true =>
        have hno : size = none := by
          refine w.rest_size c.valuesM ?_ hrf hsize
          rcases c.mapping with hM | ⟨hM, _⟩
          · exact .inl (w.noEnd c.valuesM hM (c.walk.snoc hn hf) hfi (c.restFirstM f hfp hrf))
          · exact .inr hM
        subst hno
        obtain ⟨ht, hlast, _⟩ := w.rests f hrf
        rw [ht] at hr
        simp only [FType.isOpaque] at hr
        obtain ⟨σ1, u, v⟩ := r
        obtain ⟨h1, h2, h3⟩ := c.last_step w hn hf a hrf hr
        simp only at hnxt' h
        cases nxt' with
        | none => cases k <;> simp [Msg.parseLoop] at h
        | some g =>
          have hg : g = FINAL := by
            rcases next_link hnxt' with ⟨h, _⟩ | ⟨l, hl, hls, hlt, _⟩
            · exact absurd h hfi
            · rw [← hlt]; exact hlast l hl hls
          subst hg
          cases k with
          | zero => simp [Msg.parseLoop] at h
          | succ k =>
            simp only [Msg.parseLoop, if_true, Except.ok.injEq] at h
            subst h
            exact ⟨p ++ [f], f, cur, h1, hnxt', .inr ⟨p, rfl, h2, h3, hrf⟩⟩
      | false =>
        have hset : ∀ g ∈ p, (fv g).isSet (m.typeOf g) = .ok true := by
          intro g hg
          obtain ⟨a, n, hat⟩ := c.placed.mem g hg
          rw [c.agree g (hpr g hg)]
          exact hat.isSet
        obtain ⟨n, rfl, hn0, hfits⟩ := w.size c.valuesM c.mapping c.walk hn hf hset c.set c.fresh hrf hsize
        have hop : ∀ B', (match (m.typeOf f).isOpaque, some n with
            | true, none => m.parseRest σ f last cur ⟨B'⟩
            | _, none => .error .assertion
            | _, some s => m.parseSized σ f s last cur ⟨B'⟩ : Py (State × Nat × Nat)) = m.parseSized σ f n last cur ⟨B'⟩ := by
          intro B'
          cases (m.typeOf f).isOpaque <;> rfl
        have hr' : m.parseSized σ f n last cur ⟨B⟩ = .ok r := by rw [← hop]; exact hr
        obtain ⟨pos, hpos, hr2⟩ := bind_ok (hr' : (m.currentPos σ f last cur).bind _ = _)
        have := c.currentPos w hn hf a hpos
        subst this
        rw [if_neg (by omega)] at hr2
        simp only [Bitstring.slice] at hr2
        split at hr2
        · cases hr2
        rename_i b hb
        split at hb
        · cases hb
        rename_i hlen
        simp only [Except.ok.injEq] at hb
        subst hb
        obtain ⟨σ1, hs1, rfl⟩ := map_ok hr2
        have hs0 := hs1
        rw [pySlice_eq] at hs1
        obtain ⟨fv', c', ha'⟩ := c.step w hn hf a hrf hsize (by omega) (set!_ok hs1)
        obtain ⟨p', e', cur', g1, g2, g3⟩ := ih σ1 nxt' fv' _ f pos _ σ' c' hnxt' (fun f' hf' hfin => ha' f' (by rw [← hf']; exact hnxt') hfin) h
        refine ⟨p', e', cur', g1, g2, ?_⟩
        rcases g3 with ⟨g3, g4, g5⟩ | g3
        · refine .inl ⟨g3, by omega, fun B' hB' hB => ?_⟩
          have hr3 : m.parseSized σ f n last pos ⟨B'⟩ = .ok (σ1, pos, pos + n.v.toNat) := by
            unfold Msg.parseSized
            rw [hpos]
            simp only [Except.bind]
            rw [if_neg (by omega)]
            simp only [Bitstring.slice]
            rw [if_neg (by omega), pySlice_local g4 hB]
            simp only
            rw [hs0]
            rfl
          unfold Msg.parseLoop
          rw [if_neg hf, hsize]
          simp only [Except.bind]
          rw [hr3]
          simp only
          rw [hnxt']
          exact g5 B' hB' hB
        · exact .inr g3

/-- A message reads its input up to the end of its last field only, and its encoding is what it has read, unless a field extends to
the end of the input. -/
theorem Well.parse_local (w : Well m rank rest) {B : List Bool} {σ σ' : State} {R : Bitstring} (h0 : m.new = .ok σ)
    (h : m.parse σ ⟨B⟩ = .ok σ') (hR : m.bitstring σ' = .ok R) :
    (R.bits = B.take R.len ∧ R.len ≤ B.length ∧ ∀ B', R.len ≤ B'.length → B'.take R.len = R.bits → m.parse σ ⟨B'⟩ = .ok σ') ∨
      ∃ cur f, rest f = true ∧ (σ'.fv f).value.isSome = true ∧ cur ≤ B.length ∧
        R.bits = B.take cur ++ (Bitstring.toBytes ⟨B.drop cur⟩).flatMap Spec.byteBits := by
  obtain ⟨c, a⟩ := w.new B h0
  obtain ⟨nxt, hn, h⟩ := bind_ok (h : (m.nextField _ _).bind _ = _)
  obtain ⟨p, e, cur, h1, h2, h3⟩ := w.loop_local _ _ _ _ _ _ _ _ _ c hn (fun f hf hfin => a f (by rw [← hf]; exact hn) hfin) h
  rcases h3 with ⟨h3, _, h4⟩ | ⟨q, rfl, h3, h4, h5⟩
  · have hcur := (h3.le (Nat.zero_le _)).2
    have hb := bits_placed h1 h2 h3 hR
    have hl : R.len = cur := by
      simp only [Bitstring.len, hb, List.length_take]
      omega
    refine .inl ⟨by rw [hl]; exact hb, by omega, fun B' hB' hB => ?_⟩
    unfold Msg.parse
    rw [hn]
    exact h4 B' (by omega) (by rw [← hl, hB, hb, hl])
  · have hcur := (h3.le (Nat.zero_le _)).2
    refine .inr ⟨cur, e, h5, ?_, hcur, bits_end h1 h2 h3 h4 hR⟩
    obtain ⟨_, _, _, _, h⟩ := h4
    simp [h]

end

theorem join_bits (l : List Bitstring) : (Bitstring.join l).bits = l.flatMap (·.bits) := by
  unfold Bitstring.join
  have : ∀ (l : List Bitstring) (a : Bitstring), (l.foldl Bitstring.add a).bits = a.bits ++ l.flatMap (·.bits) := by
    intro l
    induction l with
    | nil => intro a; simp
    | cons x xs ih => intro a; simp [ih, Bitstring.add]
  rw [this]
  rfl

end Verif.PyRFLX
