import Verif.PyRFLX.MessageParse5

/-! # Parsing all fields -/

namespace Verif.PyRFLX

open Verif Verif.Types Verif.Bits Verif.Graph

variable {m : Msg} {rank : Field → Nat} {rest : Field → Bool}

theorem set!_ok {σ σ' : State} {f : Field} {x : Input} (h : m.set! σ f x = .ok σ') : m.set σ f x = (σ', none) := by
  unfold Msg.set! at h
  split at h
  · rename_i heq
    simp only [Except.ok.injEq] at h
    rw [heq, h]
  · cases h

theorem pySlice_eq (l : List Bool) (i n : Nat) : pySlice l i (i + n) = (l.drop i).take n := by
  simp only [pySlice]
  first
    | rw [Nat.add_sub_cancel_left]
    | rw [List.drop_take, Nat.add_sub_cancel_left]

/-- `get_current_pos_in_bitstr` for the next field on the walk. -/
theorem Core.currentPos (w : Well m rank rest) {B : List Bool} {σ : State} {fv : Field → FV} {p : List Field} {e f : Field}
    {last cur : Nat} (c : Core m rank rest B σ fv p e last cur) (hn : m.nextField σ.mapping e = .ok (some f)) (hf : f ≠ FINAL)
    (a : Acc m rank σ p f cur) {pos : Nat} (h : m.currentPos σ f last cur = .ok pos) : pos = cur := by
  obtain ⟨ha1, ha2⟩ := a.facts w
  obtain ⟨prv, hprv, h⟩ := bind_ok (h : (m.prevField σ f).bind _ = _)
  have := w.prev c.valuesM c.mapping c.walk hn hf ha1 ha2 hprv
  subst this
  obtain ⟨x, y, hx, hy, hxl, hxy⟩ := c.pos
  simp only [hx] at h
  cases hb : (σ.fv f).first with
  | none => rw [hb] at h; simpa using h.symm
  | some b =>
    rw [hb] at h
    simp only [Except.ok.injEq] at h
    have := a.own b hb
    split at h <;> omega

/-- Specification: the field `g` starts at position `a` and is set to the rest of the input, filled up to whole bytes. -/
def AtEnd (m : Msg) (σ : State) (B : List Bool) (g : Field) (a : Nat) : Prop :=
  ∃ x, (σ.fv g).first = some x ∧ x.v = a ∧ m.typeOf g = .opaque ∧ (σ.fv g).value = some (.bytes (Bitstring.toBytes ⟨B.drop a⟩))

theorem AtEnd.isSet {σ : State} {B : List Bool} {g : Field} {a : Nat} (h : AtEnd m σ B g a) :
    (σ.fv g).isSet (m.typeOf g) = .ok true ∧
      (σ.fv g).size (m.typeOf g) = .ok (some ⟨(Bitstring.toBytes ⟨B.drop a⟩).length * 8, .b0⟩) := by
  obtain ⟨x, h1, _, h3, h4⟩ := h
  have hs : (σ.fv g).size (m.typeOf g) = .ok (some ⟨(Bitstring.toBytes ⟨B.drop a⟩).length * 8, .b0⟩) := by
    rw [h3]
    simp [FV.size, h4]
  exact ⟨(isSet_true h4 hs h1).1, hs⟩

/-- Specification: the message consists of the fields `p`, the last of which is `e`. They are set to consecutive parts of the
input up to position `cur`, except that the last field may be set to the rest of the input from there. -/
def Read (m : Msg) (σ : State) (B : List Bool) (p : List Field) (e : Field) (cur : Nat) : Prop :=
  Walk m σ.mapping INITIAL p e ∧ m.nextField σ.mapping e = .ok (some FINAL) ∧
    (Placed m σ B 0 p cur ∨ ∃ q, p = q ++ [e] ∧ Placed m σ B 0 q cur ∧ AtEnd m σ B e cur)

/-- The step of `parse` for a field that extends to the end. -/
theorem Core.last_step (w : Well m rank rest) {B : List Bool} {σ σ' : State} {fv : Field → FV} {p : List Field} {e f : Field}
    {last cur : Nat} (c : Core m rank rest B σ fv p e last cur) (hn : m.nextField σ.mapping e = .ok (some f)) (hf : f ≠ FINAL)
    (a : Acc m rank σ p f cur) (hr : rest f = true) {u v : Nat} (h : m.parseRest σ f last cur ⟨B⟩ = .ok (σ', u, v)) :
    Walk m σ'.mapping INITIAL (p ++ [f]) f ∧ Placed m σ' B 0 p cur ∧ AtEnd m σ' B f cur := by
  have hlt := next_rank' w.ranked hn hf
  have hpr := fun g hg => ((c.walk.rank_le w.ranked).2 g hg).2
  have hfp : f ∉ p := fun hfp => by have := hpr f hfp; omega
  have hfi : f ≠ INITIAL := by rintro rfl; have := (c.walk.rank_le w.ranked).1; omega
  have hef : e ≠ f := by rintro rfl; omega
  obtain ⟨ha1, ha2⟩ := a.facts w
  obtain ⟨pos, hpos, hq⟩ := bind_ok (h : (m.currentPos σ f last cur).bind _ = _)
  have := c.currentPos w hn hf a hpos
  subst this
  clear h
  obtain ⟨first, hfirst, h⟩ := bind_ok hq
  cases first with
  | none => cases h
  | some first =>
    simp only at h
    obtain ⟨b, hb, h⟩ := bind_ok h
    simp only [Bitstring.slice, Except.ok.injEq] at hb
    subst hb
    obtain ⟨σ'', hset, hσ⟩ := map_ok h
    simp only [Prod.mk.injEq] at hσ
    obtain ⟨rfl, -, -⟩ := hσ
    obtain ⟨hfacc, v, value, M, σ2, hprep, hval, hσ2, hM, _, hpreset⟩ := set_ok (set!_ok hset)
    obtain ⟨ht, _, _⟩ := w.rests f hr
    obtain ⟨x, y, hx, hy, hxl, hxy⟩ := c.pos
    obtain ⟨z', hz', hprep⟩ := bind_ok (hprep : (m.getFirst _ f).bind _ = _)
    obtain ⟨z, rfl, hz⟩ := w.first (σ := σ.upd f { σ.fv f with first := some first }) c.valuesM c.mapping c.walk hn hf ha1 ha2
      (by rw [upd_other _ _ hef]; exact hx) (by rw [upd_other _ _ hef]; exact hy) hz'
    obtain ⟨s, hs, hprep⟩ := bind_ok hprep
    simp only [Except.ok.injEq] at hprep
    rw [ht] at hval
    obtain ⟨_, _, rfl⟩ := map_ok (hval : (checkSize _ _).map _ = _)
    have hσ2f : σ2.fv f = { v with value := some (.bytes (Bitstring.toBytes ⟨B.drop pos⟩)) } := by rw [hσ2]; simp [State.upd]
    have hσ2o : ∀ g, g ≠ f → σ2.fv g = σ.fv g := by
      intro g hg
      rw [hσ2]
      simp [State.upd, hg]
    obtain ⟨h1, h2, _⟩ := preset_frame w.ranked hpreset
    have hm' : σ''.mapping = M := by rw [h2, hσ2]
    refine ⟨?_, ?_, ?_⟩
    · rw [hm']
      exact c.walk_new w hn hf hσ2o hM
    · refine c.placed.congr fun g hg => ?_
      have hle := hpr g hg
      rw [h1 g (by omega), hσ2o g (by rintro rfl; exact hfp hg)]
    · unfold AtEnd
      rw [h1 f (Nat.le_refl _), hσ2f, ht]
      have hv1 : v.first = some z := by rw [← hprep]
      exact ⟨z, hv1, by omega, rfl, rfl⟩

/-- The loop of `parse`. -/
theorem Well.loop (w : Well m rank rest) {B : List Bool} : ∀ (k : Nat) (σ : State) (nxt : Option Field) (fv : Field → FV)
    (p : List Field) (e : Field) (last cur : Nat) (σ' : State), Core m rank rest B σ fv p e last cur →
    m.nextField σ.mapping e = .ok nxt → (∀ f, nxt = some f → f ≠ FINAL → Acc m rank σ p f cur) →
    m.parseLoop ⟨B⟩ k σ nxt last cur = .ok σ' → ∃ p e cur, Read m σ' B p e cur := by
  intro k
  induction k with
  | zero =>
    intro σ nxt fv p e last cur σ' c hn ha h
    cases nxt <;> simp [Msg.parseLoop] at h
  | succ k ih =>
    intro σ nxt fv p e last cur σ' c hn ha h
    cases nxt with
    | none => simp [Msg.parseLoop] at h
    | some f =>
      unfold Msg.parseLoop at h
      split at h
      · rename_i hfin
        simp only [Except.ok.injEq] at h
        subst h
        exact ⟨p, e, cur, c.walk, by rw [← hfin]; exact hn, .inl c.placed⟩
      rename_i hf
      have a := ha f rfl hf
      have hlt := next_rank' w.ranked hn hf
      have hpr := fun g hg => ((c.walk.rank_le w.ranked).2 g hg).2
      have hfp : f ∉ p := fun hfp => by have := hpr f hfp; omega
      have hfi : f ≠ INITIAL := by rintro rfl; have := (c.walk.rank_le w.ranked).1; omega
      obtain ⟨size, hsize, h⟩ := bind_ok h
      obtain ⟨r, hr, h⟩ := bind_ok h
      obtain ⟨nxt', hnxt', h⟩ := bind_ok h
      cases hrf : rest f with
      | true =>
        have hno : size = none := by
          refine w.rest_size c.valuesM ?_ hrf hsize
          rcases c.mapping with hM | ⟨hM, _⟩
          · exact .inl (w.noEnd c.valuesM hM (c.walk.snoc hn hf) hfi (c.restFirstM f hfp hrf))
          · exact .inr hM
        subst hno
        obtain ⟨ht, hlast, _⟩ := w.rests f hrf
        rw [ht] at hr
        simp only [FType.isOpaque] at hr
        obtain ⟨σ1, u, v⟩ := r
        obtain ⟨h1, h2, h3⟩ := c.last_step w hn hf a hrf hr
        simp only at hnxt' h
        cases nxt' with
        | none => cases k <;> simp [Msg.parseLoop] at h
        | some g =>
          have hg : g = FINAL := by
            rcases next_link hnxt' with ⟨h, _⟩ | ⟨l, hl, hls, hlt, _⟩
            · exact absurd h hfi
            · rw [← hlt]; exact hlast l hl hls
          subst hg
          cases k with
          | zero => simp [Msg.parseLoop] at h
          | succ k =>
            simp only [Msg.parseLoop, if_true, Except.ok.injEq] at h
            subst h
            exact ⟨p ++ [f], f, cur, h1, hnxt', .inr ⟨p, rfl, h2, h3⟩⟩
      | false =>
        have hset : ∀ g ∈ p, (fv g).isSet (m.typeOf g) = .ok true := by
          intro g hg
          obtain ⟨a, n, hat⟩ := c.placed.mem g hg
          rw [c.agree g (hpr g hg)]
          exact hat.isSet
        obtain ⟨n, rfl, hn0, hfits⟩ := w.size c.valuesM c.mapping c.walk hn hf hset c.set c.fresh hrf hsize
        have hr' : m.parseSized σ f n last cur ⟨B⟩ = .ok r := by
          cases hop : (m.typeOf f).isOpaque <;> rw [hop] at hr <;> exact hr
        obtain ⟨pos, hpos, hr2⟩ := bind_ok (hr' : (m.currentPos σ f last cur).bind _ = _)
        have := c.currentPos w hn hf a hpos
        subst this
        rw [if_neg (by omega)] at hr2
        simp only [Bitstring.slice] at hr2
        split at hr2
        · cases hr2
        rename_i b hb
        split at hb
        · cases hb
        rename_i hlen
        simp only [Except.ok.injEq] at hb
        subst hb
        obtain ⟨σ1, hs1, rfl⟩ := map_ok hr2
        rw [pySlice_eq] at hs1
        obtain ⟨fv', c', ha'⟩ := c.step w hn hf a hrf hsize (by omega) (set!_ok hs1)
        exact ih σ1 nxt' fv' _ f pos _ σ' c' hnxt' (fun f' hf' hfin => ha' f' (by rw [← hf']; exact hnxt') hfin) h

/-- After parsing, the fields of the message are set to consecutive parts of the input. -/
theorem Well.parse (w : Well m rank rest) {B : List Bool} {σ σ' : State} (h0 : m.new = .ok σ) (h : m.parse σ ⟨B⟩ = .ok σ') :
    ∃ p e cur, Read m σ' B p e cur := by
  obtain ⟨c, a⟩ := w.new B h0
  obtain ⟨nxt, hn, h⟩ := bind_ok (h : (m.nextField _ _).bind _ = _)
  exact w.loop _ _ _ _ _ _ _ _ _ c hn (fun f hf hfin => a f (by rw [← hf]; exact hn) hfin) h

/-! ## Encoding -/

theorem take_append_slice (B : List Bool) (a n : Nat) : B.take a ++ (B.drop a).take n = B.take (a + n) := by
  rw [List.take_add]

theorem bits_walk {σ : State} {B : List Bool} {a e : Field} {q : List Field} (hw : Walk m σ.mapping a q e) :
    ∀ {pos cur : Nat} {nxt : Option Field} {k : Nat} {R : List Bool}, pos ≤ B.length → Placed m σ B pos q cur →
    m.nextField σ.mapping a = .ok nxt → m.bitsLoop σ k nxt (B.take pos) = .ok R →
    ∃ k' nxt', m.nextField σ.mapping e = .ok nxt' ∧ m.bitsLoop σ k' nxt' (B.take cur) = .ok R := by
  induction hw with
  | nil =>
    intro pos cur nxt k R _ hp hn h
    cases hp
    exact ⟨k, nxt, hn, h⟩
  | cons h1 h2 _ ih =>
    intro pos cur nxt k R hle hp hn h
    rw [h1] at hn
    cases hn
    cases hp with
    | cons hat hp =>
      have hset := hat.isSet
      obtain ⟨x, y, v, g1, g2, g3, g4, g5, g6, g7⟩ := hat
      cases k with
      | zero => simp [Msg.bitsLoop] at h
      | succ k =>
        unfold Msg.bitsLoop at h
        rw [if_neg h2, hset] at h
        simp only [Except.bind, g5, g1] at h
        rw [if_neg (by omega), if_neg (by simp only [List.length_take]; omega), g6] at h
        simp only at h
        obtain ⟨nxt', hn', h⟩ := bind_ok (h : (m.nextField _ _).bind _ = _)
        have hx : x.v.toNat = pos := by omega
        rw [hx, List.take_take, Nat.min_self, take_append_slice] at h
        exact ih g7 hp hn' h

theorem walk_last {M : List (Expr × Expr)} {a e : Field} {p : List Field} (h : Walk m M a p e) : ∀ q, p = q ++ [e] →
    ∃ e', Walk m M a q e' ∧ m.nextField M e' = .ok (some e) ∧ e ≠ FINAL := by
  induction h with
  | nil => intro q h; simp at h
  | @cons a b c p h1 h2 hw ih =>
    intro q hq
    cases q with
    | nil =>
      simp only [List.nil_append, List.cons.injEq] at hq
      obtain ⟨rfl, rfl⟩ := hq
      cases hw
      exact ⟨a, .nil, h1, h2⟩
    | cons d q =>
      simp only [List.cons_append, List.cons.injEq] at hq
      obtain ⟨rfl, rfl⟩ := hq
      obtain ⟨e', hw', h⟩ := ih q rfl
      exact ⟨e', .cons h1 h2 hw', h⟩

/-- The encoding of a message whose fields were all read. -/
theorem bits_placed {σ : State} {B : List Bool} {p : List Field} {e : Field} {cur : Nat} (hw : Walk m σ.mapping INITIAL p e)
    (hfin : m.nextField σ.mapping e = .ok (some FINAL)) (hp : Placed m σ B 0 p cur) {R : Bitstring}
    (hR : m.bitstring σ = .ok R) : R.bits = B.take cur := by
  obtain ⟨nxt, hn, hR⟩ := bind_ok (hR : (m.nextField _ _).bind _ = _)
  obtain ⟨bits, hbits, rfl⟩ := map_ok hR
  obtain ⟨k', nxt', hn', h⟩ := bits_walk (B := B) hw (Nat.zero_le _) hp hn (by simpa using hbits)
  rw [hfin] at hn'
  cases hn'
  cases k' <;> simp [Msg.bitsLoop] at h
  exact h.symm

/-- The encoding of a message whose last field extends to the end. -/
theorem bits_end {σ : State} {B : List Bool} {q : List Field} {e : Field} {cur : Nat} (hw : Walk m σ.mapping INITIAL (q ++ [e]) e)
    (hfin : m.nextField σ.mapping e = .ok (some FINAL)) (hp : Placed m σ B 0 q cur) (hat : AtEnd m σ B e cur) {R : Bitstring}
    (hR : m.bitstring σ = .ok R) : R.bits = B.take cur ++ (Bitstring.toBytes ⟨B.drop cur⟩).flatMap Spec.byteBits := by
  obtain ⟨nxt, hn, hR⟩ := bind_ok (hR : (m.nextField _ _).bind _ = _)
  obtain ⟨bits, hbits, rfl⟩ := map_ok hR
  have hcur := (hp.le (Nat.zero_le _)).2
  obtain ⟨e', hw', hn'', hne⟩ := walk_last hw q rfl
  obtain ⟨k', nxt', hn', h⟩ := bits_walk (B := B) hw' (Nat.zero_le _) hp hn (by simpa using hbits)
  rw [hn''] at hn'
  cases hn'
  have hset := hat.isSet.1
  obtain ⟨x, g1, g2, g3, g4⟩ := hat
  cases k' with
  | zero => simp [Msg.bitsLoop] at h
  | succ k =>
    unfold Msg.bitsLoop at h
    rw [if_neg hne, hset] at h
    simp only [Except.bind, g4, g1] at h
    rw [if_neg (by omega), if_neg (by simp only [List.length_take]; omega), g3, opaque_bits] at h
    simp only at h
    rw [hfin] at h
    simp only at h
    have hx : x.v.toNat = cur := by omega
    rw [hx, List.take_take, Nat.min_self] at h
    cases k <;> simp [Msg.bitsLoop] at h
    exact h.symm

end Verif.PyRFLX
