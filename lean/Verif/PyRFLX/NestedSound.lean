import Verif.PyRFLX.NestedLemmas

/-! # Refinements of PyRFLX messages: nested messages and values of fields agree -/

namespace Verif.PyRFLX

open Verif Verif.Types Verif.Bits Verif.Graph

/-- Specification: the refinement `sdu` of field `f` of message `i` is part of the model. -/
def Refines (W : World) (i : ID) (f : Field) (sdu : ID) : Prop :=
  ∃ e ∈ W.refinements, e.1.eq i = true ∧ e.2.field = f ∧ e.2.sdu = sdu

/-- Specification: at every depth, a nested message is one that the refinement of a field names, it was parsed, it is complete, and the
field has its encoding as value. -/
inductive Sound (W : World) : NVal → Prop
  | mk (v : NVal)
    (inner : ∀ f n, v.nested f = some n → Sound W n)
    (refined : ∀ f n, v.nested f = some n → Refines W v.id f n.id)
    (parsed : ∀ f n, v.nested f = some n → ∃ depth b, W.parse depth n.id b = .ok n)
    (valid : ∀ f n, v.nested f = some n → ∃ m, W.message n.id = .ok m ∧ m.validMessage n.st = .ok true)
    (value : ∀ f n x, v.nested f = some n → (v.st.fv f).value = some x → ∃ out, W.bytestring n = .ok out ∧ x = .bytes out) :
    Sound W v

/-- Specification: what a user can do with a new message `i`: set fields (with or without success) and parse. -/
inductive Reach (W : World) (i : ID) : NVal → Prop
  | new (v : NVal) : W.new i = .ok v → Reach W i v
  | set (v : NVal) (depth : Nat) (f : Field) (x : Input) : Reach W i v → Reach W i (W.set depth v f x).1
  | parse (v v' : NVal) (m : Msg) (depth : Nat) (b : Bitstring) : Reach W i v → W.message v.id = .ok m →
      W.parseIn (W.parse depth) m v b = .ok v' → Reach W i v'

/-- Proof device: what every step keeps. -/
structure Inv (W : World) (m : Msg) (v : NVal) : Prop where
  sound : Sound W v
  refs : ∀ f i, v.ref f = some i → Refines W v.id f i
  chosen : ∀ f n, v.nested f = some n → (m.typeOf f).isOpaque = true ∧ v.ref f ≠ none

/-- Proof device: what nested parsing gives. -/
def Good (W : World) (sub : Parser) : Prop :=
  ∀ i b n, sub i b = .ok n → n.id = i ∧ Sound W n ∧ ∃ d, W.parse d i b = .ok n

section
variable {W : World} {sub : Parser} {m : Msg}

theorem refs_mem {i : ID} {r : RefValue} (h : r ∈ W.refs i) : Refines W i r.field r.sdu := by
  obtain ⟨e, he, rfl⟩ := List.mem_map.mp h
  exact ⟨e, (List.mem_filter.mp he).1, (List.mem_filter.mp he).2, rfl, rfl⟩

/-- Proof device: the state changes, values are kept or cleared. -/
theorem Inv.kept {v : NVal} (h : Inv W m v) {σ : State} (hk : Kept v.st σ) : Inv W m (.mk v.id σ v.ref v.nested) := by
  obtain ⟨hs, hr, hc⟩ := h
  refine ⟨?_, hr, hc⟩
  cases hs with
  | mk _ h1 h2 h3 h4 h5 =>
    refine .mk _ h1 h2 h3 h4 ?_
    intro f n x hn hx
    have hx : (σ.fv f).value = some x := hx
    rcases hk f with e | e
    · exact h5 f n x hn (by rw [← e]; exact hx)
    · rw [hx] at e; cases e

theorem Inv.ref {v : NVal} (h : Inv W m v) {f : Field} {i : ID} (hi : Refines W v.id f i) :
    Inv W m (.mk v.id v.st (fun g => if g = f then some i else v.ref g) v.nested) := by
  obtain ⟨hs, hr, hc⟩ := h
  refine ⟨?_, ?_, ?_⟩
  · cases hs with
    | mk _ h1 h2 h3 h4 h5 => exact .mk _ h1 h2 h3 h4 h5
  · intro g j hj
    simp only [NVal.ref] at hj
    split at hj
    · rename_i hg; cases hj; rw [hg]; exact hi
    · exact hr g j hj
  · intro g n hn
    refine ⟨(hc g n hn).1, ?_⟩
    simp only [NVal.ref]
    split
    · simp
    · exact (hc g n hn).2

theorem nest_ok {ex : Option Num} {i : ID} {x : Input} {n : NVal} {y : Val} (h : W.nest sub ex i x = .ok (n, y)) :
    ∃ b size out, x.data = some (b, size) ∧ checkSize (ex.map Num.v) size = .ok () ∧ sub i b = .ok n ∧ W.encoded n = .ok out ∧ y = .bytes out := by
  unfold World.nest at h
  split at h
  · cases h
  · rename_i b size hd
    obtain ⟨_, hc, h⟩ := bind_ok h
    obtain ⟨n', hs, h⟩ := bind_ok h
    obtain ⟨out, ho, h⟩ := map_ok h
    cases h
    exact ⟨b, size, out, hd, hc, hs, ho, rfl⟩

theorem encoded_ok {n : NVal} {out : List Byte} (h : W.encoded n = .ok out) :
    (∃ m, W.message n.id = .ok m ∧ m.validMessage n.st = .ok true) ∧ W.bytestring n = .ok out := by
  obtain ⟨m, hm, h⟩ := bind_ok (h : (W.message _).bind _ = _)
  obtain ⟨b, hb, h⟩ := bind_ok h
  cases b with
  | false => cases h
  | true =>
    refine ⟨⟨m, hm, hb⟩, ?_⟩
    unfold World.bytestring
    rw [hm]
    exact h

theorem Inv.nest {v : NVal} (h : Inv W m v) (hsub : Good W sub) {ex : Option Num} {f : Field} {i : ID} {x : Input} {n : NVal} {y : Val}
    (hf : (m.typeOf f).isOpaque = true) (hi : Refines W v.id f i) (hn : W.nest sub ex i x = .ok (n, y)) {σ : State}
    (hk : Kept v.st (σ.upd f (v.st.fv f))) (hv : (σ.fv f).value = some y ∨ (σ.fv f).value = none) :
    Inv W m (.mk v.id σ (fun g => if g = f then some i else v.ref g) (fun g => if g = f then some n else v.nested g)) := by
  obtain ⟨b, size, out, _, _, hp, ho, rfl⟩ := nest_ok hn
  obtain ⟨hid, hsn, d, hd⟩ := hsub _ _ _ hp
  obtain ⟨hval, hout⟩ := encoded_ok ho
  obtain ⟨hs, hr, hc⟩ := h
  refine ⟨?_, ?_, ?_⟩
  · cases hs with
    | mk _ h1 h2 h3 h4 h5 =>
      refine .mk _ ?_ ?_ ?_ ?_ ?_
      · intro g k hk
        simp only [NVal.nested] at hk
        split at hk
        · cases hk; exact hsn
        · exact h1 g k hk
      · intro g k hk
        simp only [NVal.nested] at hk
        split at hk
        · rename_i hg
          cases hk; rw [hg, hid]; exact hi
        · exact h2 g k hk
      · intro g k hk
        simp only [NVal.nested] at hk
        split at hk
        · cases hk; exact ⟨d, b, by rw [hid]; exact hd⟩
        · exact h3 g k hk
      · intro g k hk
        simp only [NVal.nested] at hk
        split at hk
        · cases hk; exact hval
        · exact h4 g k hk
      · intro g k z hk' hz
        simp only [NVal.nested] at hk'
        have hz : (σ.fv g).value = some z := hz
        split at hk'
        · rename_i hg
          cases hk'
          rw [hg] at hz
          rcases hv with e | e
          · rw [hz] at e
            cases e
            exact ⟨out, hout, rfl⟩
          · rw [hz] at e; cases e
        · rename_i hg
          refine h5 g k z hk' ?_
          have := hk g
          simp only [State.upd, hg, if_false] at this
          rcases this with e | e
          · rw [← e]; exact hz
          · rw [hz] at e; cases e
  · intro g j hj
    simp only [NVal.ref] at hj
    split at hj
    · rename_i hg; cases hj; rw [hg]; exact hi
    · exact hr g j hj
  · intro g k hk
    simp only [NVal.nested] at hk
    simp only [NVal.ref]
    split at hk
    · rename_i hg
      rw [hg]
      exact ⟨hf, by simp⟩
    · rename_i hg
      rw [if_neg hg]
      exact hc g k hk

theorem Inv.setIn {v : NVal} (h : Inv W m v) (hsub : Good W sub) (f : Field) (x : Input) : Inv W m (W.setIn sub m v f x).1 := by
  unfold World.setIn
  split
  · exact h
  split
  · exact h
  rename_i a ha
  have hka : Kept v.st (v.st.upd f a) := .upd (.inl (prepare_value ha))
  split
  · exact h.kept hka
  · rename_i hnone
    split
    · exact h.kept hka
    · rename_i y hy
      have hno : v.nested f = none := by
        cases hn : v.nested f with
        | none => rfl
        | some n =>
          exfalso
          obtain ⟨h1, h2⟩ := h.chosen f n hn
          rw [if_pos h1] at hnone
          exact h2 (chooseRef_none hnone)
      obtain ⟨hs, hr, hc⟩ := h
      refine ⟨?_, hr, hc⟩
      cases hs with
      | mk _ h1 h2 h3 h4 h5 =>
        refine .mk _ h1 h2 h3 h4 ?_
        intro g n z hn hz
        have hg : g ≠ f := by
          rintro rfl
          rw [show v.nested g = some n from hn] at hno
          cases hno
        have hz : ((m.finish (v.st.upd f { a with value := some y }) f).1.fv g).value = some z := hz
        refine h5 g n z hn ?_
        rcases finish_kept (m := m) (v.st.upd f { a with value := some y }) f g with e | e
        · rw [e] at hz
          simpa [State.upd, hg] using hz
        · rw [hz] at e; cases e
  · rename_i i hi
    simp only
    have ho : (m.typeOf f).isOpaque = true := by
      cases ho : (m.typeOf f).isOpaque with
      | true => rfl
      | false => rw [ho] at hi; cases hi
    rw [if_pos ho] at hi
    have hri : Refines W v.id f i := by
      rcases chooseRef_some hi with e | ⟨r, hr, rfl, e⟩
      · exact h.refs f i e.symm
      · cases e; exact refs_mem hr
    split
    · exact (h.kept hka).ref hri
    · rename_i n y hn
      refine h.nest hsub ho hri hn ?_ ?_
      · intro g
        by_cases hg : g = f
        · subst hg; simp [State.upd]
        · simp only [State.upd, hg, if_false]
          rcases finish_kept (m := m) (v.st.upd f { a with value := some y }) f g with e | e
          · rw [show (v.st.upd f { a with value := some y }).fv g = v.st.fv g by simp [State.upd, hg]] at e
            exact .inl e
          · exact .inr e
      · rcases finish_kept (m := m) (v.st.upd f { a with value := some y }) f f with e | e
        · rw [show (v.st.upd f { a with value := some y }).fv f = { a with value := some y } by simp [State.upd]] at e
          exact .inl e
        · exact .inr e

theorem Inv.step {v : NVal} (h : Inv W m v) (hsub : Good W sub) {f : Field} {size : Option Num} {last cur : Nat} {value : Bitstring}
    {r : NVal × Nat × Nat}
    (hr : (match (m.typeOf f).isOpaque, size with
        | true, none => W.parseRest sub m v f last cur value
        | _, none => .error .assertion
        | _, some s => W.parseSized sub m v f s last cur value : Py (NVal × Nat × Nat)) = .ok r) : Inv W m r.1 := by
  obtain ⟨σ, b, hset, hv, _⟩ := parseStep_ok hr
  have := (h.kept (σ := σ) (fun g => .inl (hv g))).setIn hsub f (.bits b)
  rw [hset] at this
  exact this

theorem Inv.loop (hsub : Good W sub) {value : Bitstring} : ∀ (k : Nat) (v : NVal) (nxt : Option Field) (last cur : Nat) (v' : NVal),
    Inv W m v → W.parseLoop sub m value k v nxt last cur = .ok v' → Inv W m v' ∧ v'.id = v.id := by
  intro k
  induction k with
  | zero =>
    intro v nxt last cur v' h hp
    cases nxt <;> cases hp
  | succ k ih =>
    intro v nxt last cur v' h hp
    cases nxt with
    | none => cases hp
    | some f =>
      simp only [World.parseLoop] at hp
      split at hp
      · cases hp; exact ⟨h, rfl⟩
      obtain ⟨size, _, hp⟩ := bind_ok hp
      obtain ⟨r, hr, hp⟩ := bind_ok hp
      obtain ⟨nxt', _, hp⟩ := bind_ok hp
      obtain ⟨h', hid⟩ := ih _ _ _ _ _ (h.step hsub hr) hp
      refine ⟨h', hid.trans ?_⟩
      obtain ⟨σ, b, hset, _⟩ := parseStep_ok hr
      have := setIn_id (W := W) (sub := sub) (m := m) (.mk v.id σ v.ref v.nested) f (.bits b)
      rw [hset] at this
      exact this

theorem Inv.parseIn {v v' : NVal} (h : Inv W m v) (hsub : Good W sub) {value : Bitstring} (hp : W.parseIn sub m v value = .ok v') :
    Inv W m v' ∧ v'.id = v.id := by
  obtain ⟨nxt, _, hp⟩ := bind_ok (hp : (m.nextField _ _).bind _ = _)
  exact Inv.loop hsub _ _ _ _ _ _ h hp

theorem new_ok {i : ID} {v : NVal} (h : W.new i = .ok v) :
    ∃ m σ, W.message i = .ok m ∧ m.new = .ok σ ∧ v = .mk i σ (fun _ => none) (fun _ => none) := by
  obtain ⟨m, hm, h⟩ := bind_ok (h : (W.message _).bind _ = _)
  obtain ⟨σ, hσ, rfl⟩ := map_ok h
  exact ⟨m, σ, hm, hσ, rfl⟩

theorem Inv.new {i : ID} {v : NVal} (h : W.new i = .ok v) (m : Msg) : Inv W m v := by
  obtain ⟨m', σ, _, _, rfl⟩ := new_ok h
  exact ⟨.mk _ (by simp [NVal.nested]) (by simp [NVal.nested]) (by simp [NVal.nested]) (by simp [NVal.nested])
    (by simp [NVal.nested]), by simp [NVal.ref], by simp [NVal.nested]⟩

theorem parse_good (W : World) : ∀ d, Good W (W.parse d) := by
  intro d
  induction d with
  | zero => intro i b n h; cases h
  | succ d ih =>
    intro i b n h
    have h0 := h
    obtain ⟨m, hm, h⟩ := bind_ok (h : (W.message _).bind _ = _)
    obtain ⟨v, hv, h⟩ := bind_ok h
    obtain ⟨hi, hid⟩ := (Inv.new hv m).parseIn ih h
    obtain ⟨_, _, _, _, rfl⟩ := new_ok hv
    exact ⟨hid, hi.sound, d + 1, h0⟩

theorem set_id (depth : Nat) (v : NVal) (f : Field) (x : Input) : (W.set depth v f x).1.id = v.id := by
  unfold World.set
  split
  · rfl
  · exact setIn_id _ _ _

theorem reach_inv {i : ID} {v : NVal} (h : Reach W i v) : v.id = i ∧ ∃ m, W.message i = .ok m ∧ Inv W m v := by
  induction h with
  | new v hv =>
    obtain ⟨m, _, hm, _, e⟩ := new_ok hv
    exact ⟨by rw [e]; rfl, m, hm, .new hv m⟩
  | set v depth f x _ ih =>
    obtain ⟨hid, m, hm, hi⟩ := ih
    refine ⟨(set_id _ _ _ _).trans hid, m, hm, ?_⟩
    unfold World.set
    rw [hid, hm]
    exact hi.setIn (parse_good W depth) f x
  | parse v v' m' depth b _ hm' hp ih =>
    obtain ⟨hid, m, hm, hi⟩ := ih
    rw [hid, hm] at hm'
    cases hm'
    obtain ⟨h1, h2⟩ := hi.parseIn (parse_good W depth) hp
    exact ⟨h2.trans hid, _, hm, h1⟩

end

end Verif.PyRFLX
