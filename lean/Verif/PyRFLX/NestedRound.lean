import Verif.PyRFLX.NestedSound

/-! # Refinements of PyRFLX messages: encoding after parsing -/

namespace Verif.PyRFLX

open Verif Verif.Types Verif.Bits Verif.Graph

/-- Specification: a field was parsed from the part `b` of the input as message `n`, and the encoding of `n` is not `b`. -/
def Lossy (W : World) (depth : Nat) (B : List Bool) (v : NVal) : Prop :=
  ∃ f n b out, v.nested f = some n ∧ (∃ a k, b.bits = (B.drop a).take k) ∧ W.parse depth n.id b = .ok n ∧ W.bytestring n = .ok out ∧
    out ≠ b.toBytes

section
variable {W : World} {m : Msg} {rank : Field → Nat}

/-- Only the field that is set changes its nested message. -/
theorem setIn_nested {sub : Parser} (v : NVal) (f : Field) (x : Input) {g : Field} (hg : g ≠ f) :
    (W.setIn sub m v f x).1.nested g = v.nested g ∧ (W.setIn sub m v f x).1.ref g = v.ref g := by
  unfold World.setIn
  split
  · exact ⟨rfl, rfl⟩
  split
  · exact ⟨rfl, rfl⟩
  split
  · exact ⟨rfl, rfl⟩
  · split <;> exact ⟨rfl, rfl⟩
  · simp only
    split <;> simp [NVal.nested, NVal.ref, hg]

theorem opaque_type {t : FType} (h : t.isOpaque = true) : t = .opaque := by
  cases t <;> simp_all [FType.isOpaque]

theorem setIn_sim {d : Nat} {v v' : NVal} {f : Field} {b : Bitstring} (h : W.setIn (W.parse d) m v f (.bits b) = (v', none)) :
    m.set v.st f (.bits b) = (v'.st, none) ∨
    ∃ n out, v'.nested f = some n ∧ W.parse d n.id b = .ok n ∧ W.bytestring n = .ok out ∧ out ≠ b.toBytes := by
  rw [set_finish]
  unfold World.setIn at h
  split at h
  · cases h
  rename_i hacc
  rw [if_neg hacc]
  cases hp : m.prepare v.st f with
  | error e => rw [hp] at h; cases h
  | ok a =>
    rw [hp] at h
    simp only at h ⊢
    split at h
    · cases h
    · cases ha : assignValue (m.typeOf f) a.expected (.bits b) with
      | error e => rw [ha] at h; cases h
      | ok y =>
        rw [ha] at h
        simp only [Prod.mk.injEq] at h
        obtain ⟨h1, h2⟩ := h
        refine .inl ?_
        simp only
        rw [← h1, ← h2]
        rfl
    · rename_i i hi
      have ho : (m.typeOf f).isOpaque = true := by
        cases ho : (m.typeOf f).isOpaque with
        | true => rfl
        | false => rw [ho] at hi; cases hi
      cases hn : W.nest (W.parse d) a.expected i (.bits b) with
      | error e => rw [hn] at h; cases h
      | ok r =>
        obtain ⟨n, y⟩ := r
        rw [hn] at h
        simp only [Prod.mk.injEq] at h
        obtain ⟨h1, h2⟩ := h
        obtain ⟨b', size, out, hd, hc, hs, ho', rfl⟩ := nest_ok hn
        simp only [Input.data, Option.some.injEq, Prod.mk.injEq] at hd
        obtain ⟨rfl, rfl⟩ := hd
        have hid := (parse_good W d i b n hs).1
        by_cases hout : out = b.toBytes
        · refine .inl ?_
          have : assignValue (m.typeOf f) a.expected (.bits b) = .ok (.bytes out) := by
            rw [opaque_type ho, hout]
            simp only [assignValue, hc, Except.map]
          rw [this]
          simp only
          rw [← h1, ← h2]
          rfl
        · refine .inr ⟨n, out, ?_, by rw [hid]; exact hs, (encoded_ok ho').2, hout⟩
          rw [← h1]
          simp [NVal.nested]

theorem setIn!_sim {d : Nat} {v v' : NVal} {f : Field} {b : Bitstring} (h : W.setIn! (W.parse d) m v f (.bits b) = .ok v') :
    m.set! v.st f (.bits b) = .ok v'.st ∨
    ∃ n out, v'.nested f = some n ∧ W.parse d n.id b = .ok n ∧ W.bytestring n = .ok out ∧ out ≠ b.toBytes := by
  rcases setIn_sim (setIn!_ok h) with h | h
  · refine .inl ?_
    unfold Msg.set!
    rw [h]
  · exact .inr h

theorem bind_eq {α β : Type} {x : Py α} {a : α} (h : x = .ok a) (f : α → Py β) : x.bind f = f a := by
  rw [h]; rfl

/-- The later steps of `parse` do not change nested messages of earlier fields. -/
theorem loop_nested {sub : Parser} (hr : Ranked m.links rank) {value : Bitstring} : ∀ (k : Nat) (v : NVal) (nxt : Option Field) (last cur : Nat)
    (v' : NVal), W.parseLoop sub m value k v nxt last cur = .ok v' → ∀ g, (∀ f, nxt = some f → f ≠ FINAL → rank g < rank f) →
    v'.nested g = v.nested g := by
  intro k
  induction k with
  | zero => intro v nxt last cur v' h; cases nxt <;> cases h
  | succ k ih =>
    intro v nxt last cur v' h g hg
    cases nxt with
    | none => cases h
    | some f =>
      simp only [World.parseLoop] at h
      split at h
      · cases h; rfl
      rename_i hf
      obtain ⟨size, _, h⟩ := bind_ok h
      obtain ⟨r, hr', h⟩ := bind_ok h
      obtain ⟨nxt', hn, h⟩ := bind_ok h
      have hlt := hg f rfl hf
      rw [ih _ _ _ _ _ h g ?_]
      · obtain ⟨σ, b, hset, _⟩ := parseStep_ok hr'
        have := (setIn_nested (W := W) (sub := sub) (m := m) (.mk v.id σ v.ref v.nested) f (.bits b) (g := g) (by rintro rfl; omega)).1
        rw [hset] at this
        exact this
      · intro f' hf' hfin
        rw [hf'] at hn
        have := next_rank' hr hn hfin
        omega

theorem step_sim {d : Nat} {B : List Bool} {v : NVal} {f : Field} {size : Option Num} {last cur : Nat} {r : NVal × Nat × Nat}
    (hr' : (match (m.typeOf f).isOpaque, size with
        | true, none => W.parseRest (W.parse d) m v f last cur ⟨B⟩
        | _, none => .error .assertion
        | _, some s => W.parseSized (W.parse d) m v f s last cur ⟨B⟩ : Py (NVal × Nat × Nat)) = .ok r) :
    (match (generalizing := false) (m.typeOf f).isOpaque, size with
      | true, none => m.parseRest v.st f last cur ⟨B⟩
      | _, none => .error .assertion
      | _, some s => m.parseSized v.st f s last cur ⟨B⟩ : Py (State × Nat × Nat)) = .ok (r.1.st, r.2.1, r.2.2) ∨
    ∃ n b out, r.1.nested f = some n ∧ (∃ a k, b.bits = (B.drop a).take k) ∧ W.parse d n.id b = .ok n ∧ W.bytestring n = .ok out ∧
      out ≠ b.toBytes := by
  have sized : ∀ {s : Num}, W.parseSized (W.parse d) m v f s last cur ⟨B⟩ = .ok r →
      m.parseSized v.st f s last cur ⟨B⟩ = .ok (r.1.st, r.2.1, r.2.2) ∨
      ∃ n b out, r.1.nested f = some n ∧ (∃ a k, b.bits = (B.drop a).take k) ∧ W.parse d n.id b = .ok n ∧ W.bytestring n = .ok out ∧
        out ≠ b.toBytes := by
    intro s h
    obtain ⟨pos, hpos, h⟩ := bind_ok (h : (m.currentPos _ _ _ _).bind _ = _)
    unfold Msg.parseSized
    rw [hpos]
    simp only [Except.bind]
    split at h
    · cases h
    rename_i hneg
    rw [if_neg hneg]
    split at h
    · cases h
    · rename_i b hb
      rw [hb]
      simp only
      obtain ⟨v1, h1, rfl⟩ := map_ok h
      rcases setIn!_sim h1 with h1 | ⟨n, out, h2, h3, h4, h5⟩
      · rw [h1]; exact .inl rfl
      · refine .inr ⟨n, b, out, h2, ?_, h3, h4, h5⟩
        simp only [Bitstring.slice] at hb
        split at hb
        · cases hb
        · cases hb
          exact ⟨pos, s.v.toNat, pySlice_eq _ _ _⟩
  match ho : (m.typeOf f).isOpaque, size with
  | true, none =>
    rw [ho] at hr'
    simp only at hr' ⊢
    obtain ⟨pos, hpos, h⟩ := bind_ok (hr' : (m.currentPos _ _ _ _).bind _ = _)
    unfold Msg.parseRest
    rw [hpos]
    simp only [Except.bind]
    obtain ⟨first, hfirst, h⟩ := bind_ok h
    rw [hfirst]
    cases first with
    | none => cases h
    | some first =>
      simp only at h ⊢
      obtain ⟨b, hb, h⟩ := bind_ok h
      rw [hb]
      obtain ⟨v1, h1, rfl⟩ := map_ok h
      simp only
      rcases setIn!_sim h1 with h1 | ⟨n, out, h2, h3, h4, h5⟩
      · rw [show NVal.st (.mk v.id (v.st.upd f { v.st.fv f with first := some first }) v.ref v.nested) =
          v.st.upd f { v.st.fv f with first := some first } from rfl] at h1
        rw [h1]; exact .inl rfl
      · refine .inr ⟨n, b, out, h2, ?_, h3, h4, h5⟩
        simp only [Bitstring.slice, Except.ok.injEq] at hb
        subst hb
        exact ⟨pos, (B.drop pos).length, (List.take_length).symm⟩
  | false, none => rw [ho] at hr'; cases hr'
  | true, some s => rw [ho] at hr'; exact sized hr'
  | false, some s => rw [ho] at hr'; exact sized hr'

theorem loop_sim (hr : Ranked m.links rank) {d : Nat} {B : List Bool} : ∀ (k : Nat) (v : NVal) (nxt : Option Field) (last cur : Nat)
    (v' : NVal), W.parseLoop (W.parse d) m ⟨B⟩ k v nxt last cur = .ok v' →
    m.parseLoop ⟨B⟩ k v.st nxt last cur = .ok v'.st ∨ Lossy W d B v' := by
  intro k
  induction k with
  | zero => intro v nxt last cur v' h; cases nxt <;> cases h
  | succ k ih =>
    intro v nxt last cur v' h
    cases nxt with
    | none => cases h
    | some f =>
      simp only [World.parseLoop] at h
      simp only [Msg.parseLoop]
      split at h
      · rename_i hf
        rw [if_pos hf]
        cases h; exact .inl rfl
      rename_i hf
      rw [if_neg hf]
      obtain ⟨size, hsz, h⟩ := bind_ok h
      obtain ⟨r, hr', h⟩ := bind_ok h
      obtain ⟨nxt', hn, h⟩ := bind_ok h
      have key := step_sim hr'
      rcases key with key | ⟨n, b, out, h2, h3, h4⟩
      · have hb := bind_eq hn (fun nxt => m.parseLoop ⟨B⟩ k r.1.st nxt r.2.1 r.2.2)
        rcases ih _ _ _ _ _ h with h | h
        · refine .inl ?_
          rw [hsz]
          exact (bind_eq key _).trans (hb.trans h)
        · exact .inr h
      · refine .inr ⟨f, n, b, out, ?_, h3, h4⟩
        rw [loop_nested hr _ _ _ _ _ _ h f ?_, h2]
        intro f' hf' hfin
        rw [hf'] at hn
        exact next_rank' hr hn hfin

theorem parse_sim {i : ID} (hm : W.message i = .ok m) (hr : Ranked m.links rank) {d : Nat} {B : List Bool} {v : NVal}
    (h : W.parse (d + 1) i ⟨B⟩ = .ok v) : v.id = i ∧ ((∃ σ, m.new = .ok σ ∧ m.parse σ ⟨B⟩ = .ok v.st) ∨ Lossy W d B v) := by
  refine ⟨(parse_good W (d + 1) i _ v h).1, ?_⟩
  obtain ⟨m', hm', h⟩ := bind_ok (h : (W.message _).bind _ = _)
  rw [hm] at hm'
  cases hm'
  obtain ⟨v0, hv0, h⟩ := bind_ok h
  obtain ⟨m', σ, hm', hσ, rfl⟩ := new_ok hv0
  rw [hm] at hm'
  cases hm'
  obtain ⟨nxt, hn, h⟩ := bind_ok (h : (m.nextField _ _).bind _ = _)
  rcases loop_sim hr _ _ _ _ _ _ h with h | h
  · refine .inl ⟨σ, hσ, ?_⟩
    unfold Msg.parse
    rw [show m.nextField σ.mapping INITIAL = .ok nxt from hn]
    exact h
  · exact .inr h

end

end Verif.PyRFLX
