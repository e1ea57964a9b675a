import Verif.PyRFLX.MsgArrayLemmas

/-! # PyRFLX arrays of messages (C70)

The specification is `Parsed`, `Delimited` and `Split`: an array of messages is a list of messages, its encoding is the concatenation
of their encodings, and each element is the message that is read from its own encoding. -/

namespace Verif.PyRFLX

open Verif Verif.Types Verif.Bits Verif.Graph

/-- Specification: `σ` is a valid message with the encoding `R`, and the message that is read from `R`. -/
structure Parsed (m : Msg) (σ : State) (R : List Bool) : Prop where
  read : ∃ σ0, m.new = .ok σ0 ∧ m.parse σ0 ⟨R⟩ = .ok σ
  valid : m.validMessage σ = .ok true
  bits : m.bitstring σ = .ok ⟨R⟩

/-- Specification: `σ` is read from `R`, whatever follows `R`. -/
def Delimited (m : Msg) (σ : State) (R : List Bool) : Prop := ∃ σ0, m.new = .ok σ0 ∧ ∀ C, m.parse σ0 ⟨R ++ C⟩ = .ok σ

/-- Specification: `B` is the concatenation of the encodings of the elements `L`, none of which is empty; only the last element may
extend to the end of the input. -/
def Split (m : Msg) (B : List Bool) (L : List (State × List Bool)) : Prop :=
  L.flatMap (·.2) = B ∧ (∀ x ∈ L, Parsed m x.1 x.2 ∧ x.2 ≠ []) ∧ ∀ x ∈ L.dropLast, Delimited m x.1 x.2

/-- The elements of an array of messages `id`. -/
def items (id : ID) (m : Msg) (L : List (State × List Bool)) : List Item := L.map fun x => .message id m x.1

section
variable {m : Msg} {rank : Field → Nat} {rest : Field → Bool} {id : ID}

/-! ## The loop -/

theorem step_ok {k : Nat} {old : List Item} {bits : List Bool} {σ0 σ : State} {R : List Bool} (hne : bits ≠ []) (h0 : m.new = .ok σ0)
    (h1 : m.parse σ0 ⟨bits⟩ = .ok σ) (h2 : m.validMessage σ = .ok true) (h3 : m.bitstring σ = .ok ⟨R⟩) :
    MsgArray.parseLoop id m (k + 1) old bits = MsgArray.parseLoop id m k (old ++ [.message id m σ]) (bits.drop R.length) := by
  cases bits with
  | nil => exact absurd rfl hne
  | cons x xs =>
    conv => lhs; unfold MsgArray.parseLoop
    rw [h0]
    simp only [Except.bind]
    rw [h1]
    simp only
    rw [h2]
    simp only
    rw [h3]
    rfl

theorem step_inv {k : Nat} {old vs : List Item} {bits : List Bool} (hne : bits ≠ []) (h : MsgArray.parseLoop id m (k + 1) old bits = (vs, none)) :
    ∃ σ0 σ R, m.new = .ok σ0 ∧ m.parse σ0 ⟨bits⟩ = .ok σ ∧ m.validMessage σ = .ok true ∧ m.bitstring σ = .ok ⟨R⟩ ∧
      MsgArray.parseLoop id m k (old ++ [.message id m σ]) (bits.drop R.length) = (vs, none) := by
  cases bits with
  | nil => exact absurd rfl hne
  | cons x xs =>
    unfold MsgArray.parseLoop at h
    split at h
    · cases h
    rename_i σ hσ
    obtain ⟨σ0, h0, h1⟩ := bind_ok hσ
    split at h
    · cases h
    · cases h
    rename_i hv
    split at h
    · cases h
    rename_i b hb
    exact ⟨σ0, σ, b.bits, h0, h1, hv, hb, h⟩

/-- If the first message that is read has an empty encoding, the loop does not end. -/
theorem loop_diverges {bits : List Bool} {σ0 σ : State} (hne : bits ≠ []) (h0 : m.new = .ok σ0) (h1 : m.parse σ0 ⟨bits⟩ = .ok σ)
    (h2 : m.validMessage σ = .ok true) (h3 : m.bitstring σ = .ok ⟨[]⟩) : ∀ (k : Nat) (old : List Item),
    (MsgArray.parseLoop id m k old bits).2 = some .fuel := by
  intro k
  induction k with
  | zero =>
    intro old
    cases bits with
    | nil => exact absurd rfl hne
    | cons x xs => rfl
  | succ k ih =>
    intro old
    rw [step_ok hne h0 h1 h2 h3]
    exact ih _

theorem loop_nil (k : Nat) (old : List Item) : MsgArray.parseLoop id m k old [] = (old, none) := by cases k <;> rfl

/-- Elements stay in the array. -/
theorem loop_keeps : ∀ (k : Nat) (o : List Item) (b : List Bool) (u : List Item), MsgArray.parseLoop id m k o b = (u, none) →
    ∀ v ∈ o, v ∈ u := by
  intro k
  induction k with
  | zero =>
    intro o b u h v hv
    cases b with
    | nil => rw [loop_nil] at h; cases h; exact hv
    | cons x xs => cases h
  | succ k ih =>
    intro o b u h v hv
    by_cases hb : b = []
    · subst hb; rw [loop_nil] at h; cases h; exact hv
    · obtain ⟨_, _, _, _, _, _, _, h⟩ := step_inv hb h
      exact ih _ _ _ h v (List.mem_append_left _ hv)

theorem loop_split (w : Well m rank rest) : ∀ (k : Nat) (old vs : List Item) (bits : List Bool),
    MsgArray.parseLoop id m k old bits = (vs, none) →
    ((∀ f, rest f = false) ∨ (bits.length % 8 = 0 ∧ ∀ v ∈ vs, ∀ R, v.bitstring = .ok R → R.len % 8 = 0)) →
    ∃ L, vs = old ++ items id m L ∧ Split m bits L := by
  intro k
  induction k with
  | zero =>
    intro old vs bits h _
    cases bits with
    | nil =>
      rw [loop_nil] at h
      cases h
      exact ⟨[], by simp [items], rfl, by simp, by simp⟩
    | cons x xs => cases h
  | succ k ih =>
    intro old vs bits h hal
    by_cases hne : bits = []
    · subst hne
      rw [loop_nil] at h
      cases h
      exact ⟨[], by simp [items], rfl, by simp, by simp⟩
    obtain ⟨σ0, σ, R, h0, h1, h2, h3, h4⟩ := step_inv hne h
    have hR : R ≠ [] := by
      rintro rfl
      have := loop_diverges (id := id) hne h0 h1 h2 h3 k (old ++ [.message id m σ])
      simp only [List.length_nil, List.drop_zero] at h4
      rw [h4] at this
      cases this
    rcases w.parse_local h0 h1 h3 with ⟨g1, g2, g3⟩ | ⟨cur, f, hf, _, g2, g3⟩
    · simp only [Bitstring.len] at g1 g2 g3
      have hdel : ∀ C, m.parse σ0 ⟨R ++ C⟩ = .ok σ := fun C => g3 (R ++ C) (by simp) (by simp)
      have hself : m.parse σ0 ⟨R⟩ = .ok σ := g3 R (Nat.le_refl _) (by simp)
      have hvs : ∃ L, vs = old ++ [.message id m σ] ++ items id m L ∧ Split m (bits.drop R.length) L := by
        refine ih _ _ _ h4 ?_
        rcases hal with hal | ⟨ha1, ha2⟩
        · exact .inl hal
        · refine .inr ⟨?_, ha2⟩
          have hmem : Item.message id m σ ∈ vs := loop_keeps _ _ _ _ h4 _ (by simp)
          have := ha2 _ hmem ⟨R⟩ h3
          simp only [Bitstring.len] at this
          simp only [List.length_drop]
          omega
      obtain ⟨L, rfl, hs1, hs2, hs3⟩ := hvs
      refine ⟨(σ, R) :: L, by simp [items], ?_, ?_, ?_⟩
      · simp only [List.flatMap_cons, hs1]
        conv => lhs; arg 1; rw [g1]
        rw [List.take_append_drop]
      · intro x hx
        rcases List.mem_cons.mp hx with rfl | hx
        · exact ⟨⟨⟨σ0, h0, hself⟩, h2, h3⟩, hR⟩
        · exact hs2 x hx
      · intro x hx
        cases L with
        | nil => simp at hx
        | cons y L =>
          rw [List.dropLast_cons_cons] at hx
          rcases List.mem_cons.mp hx with rfl | hx
          · exact ⟨σ0, h0, hdel⟩
          · exact hs3 x hx
    · rcases hal with hal | ⟨ha1, ha2⟩
      · rw [hal f] at hf; cases hf
      simp only at g3
      have hb : R = bits := by
        have hmem : R.length % 8 = 0 := by
          exact ha2 (.message id m σ) (loop_keeps _ _ _ _ h4 _ (by simp)) ⟨R⟩ h3
        have hl : R.length = cur + 8 * (Bitstring.toBytes ⟨bits.drop cur⟩).length := by
          rw [g3, List.length_append, List.length_take, length_flatMap_byteBits]
          omega
        rw [opaque_roundtrip _ (by simp only [Bitstring.len, List.length_drop]; omega)] at g3
        rw [g3, List.take_append_drop]
      subst hb
      rw [List.drop_length, loop_nil] at h4
      cases h4
      refine ⟨[(σ, R)], rfl, by simp, ?_, by simp⟩
      intro x hx
      rw [List.mem_singleton] at hx
      subst hx
      exact ⟨⟨⟨σ0, h0, h1⟩, h2, h3⟩, hR⟩

theorem loop_elements : ∀ (L : List (State × List Bool)) (k : Nat) (old : List Item) (B : List Bool), Split m B L → L.length ≤ k →
    MsgArray.parseLoop id m k old B = (old ++ items id m L, none) := by
  intro L
  induction L with
  | nil =>
    intro k old B h _
    obtain ⟨rfl, _⟩ := h
    rw [List.flatMap_nil, loop_nil]
    simp [items]
  | cons x L ih =>
    intro k old B h hk
    obtain ⟨rfl, h2, h3⟩ := h
    obtain ⟨⟨⟨σ0, h0, hself⟩, hv, hb⟩, hne⟩ := h2 x (by simp)
    cases k with
    | zero => simp at hk
    | succ k =>
      simp only [List.flatMap_cons]
      have hp : m.parse σ0 ⟨x.2 ++ L.flatMap (·.2)⟩ = .ok x.1 := by
        cases L with
        | nil => simpa using hself
        | cons y L =>
          obtain ⟨σ0', h0', hd⟩ := h3 x (by simp)
          obtain rfl : σ0' = σ0 := Except.ok.inj (h0'.symm.trans h0)
          exact hd _
      rw [step_ok (by simp [hne]) h0 hp hv hb, List.drop_left, ih k _ _ ⟨rfl, fun y hy => h2 y (by simp [hy]), ?_⟩ (by simpa using hk)]
      · simp [items]
      · intro y hy
        cases L with
        | nil => simp at hy
        | cons z L => exact h3 y (by rw [List.dropLast_cons_cons]; exact List.mem_cons_of_mem _ hy)

/-! ## Properties -/

/-- C70: a new array of messages reads exactly the inputs that are concatenations of encodings of messages, and then has these
messages as its elements, in this order. The number of iterations is not bounded. The input is as long as expected, if its size is
known.

Missing: messages outside of `Well` (see C22), messages with checksums. -/
theorem C70_parse_partial (w : Well m rank rest) (expected : Option Int) (b : Bitstring) (vs : List Item)
    (hex : ∀ n, expected = some n → n = b.len)
    (hal : (∀ f, rest f = false) ∨ (b.len % 8 = 0 ∧ ∀ v ∈ vs, ∀ R, v.bitstring = .ok R → R.len % 8 = 0)) :
    (∃ fuel, MsgArray.parse fuel id m expected [] b = (vs, none)) ↔ ∃ L, vs = items id m L ∧ Split m b.bits L := by
  have hc : checkSize expected b.len = .ok () := by
    unfold checkSize
    cases expected with
    | none => rfl
    | some n => simp [hex n rfl]
  constructor
  · rintro ⟨fuel, h⟩
    unfold MsgArray.parse at h
    rw [hc] at h
    obtain ⟨L, rfl, hs⟩ := loop_split w _ _ _ _ h hal
    exact ⟨L, by simp, hs⟩
  · rintro ⟨L, rfl, hs⟩
    refine ⟨L.length, ?_⟩
    unfold MsgArray.parse
    rw [hc]
    simpa using loop_elements (id := id) L L.length [] b.bits hs (Nat.le_refl _)

/-- C70: the number of iterations of a successful run does not matter. -/
theorem C70_runs (expected : Option Int) (b : Bitstring) {vs ws : List Item} {k l : Nat}
    (h : MsgArray.parse k id m expected [] b = (vs, none)) (h' : MsgArray.parse l id m expected [] b = (ws, none)) : vs = ws := by
  unfold MsgArray.parse at h h'
  cases hc : checkSize expected b.len with
  | error e => rw [hc] at h; cases h
  | ok _ =>
    rw [hc] at h h'
    simp only at h h'
    have key : ∀ (k l : Nat) (old vs ws : List Item) (bits : List Bool), MsgArray.parseLoop id m k old bits = (vs, none) →
        MsgArray.parseLoop id m l old bits = (ws, none) → vs = ws := by
      intro k
      induction k with
      | zero =>
        intro l old vs ws bits h h'
        cases bits with
        | nil => rw [loop_nil] at h h'; cases h; cases h'; rfl
        | cons x xs => cases h
      | succ k ih =>
        intro l old vs ws bits h h'
        by_cases hne : bits = []
        · subst hne; rw [loop_nil] at h h'; cases h; cases h'; rfl
        cases l with
        | zero =>
          cases bits with
          | nil => exact absurd rfl hne
          | cons x xs => cases h'
        | succ l =>
          obtain ⟨σ0, σ, R, h0, h1, h2, h3, h4⟩ := step_inv hne h
          rw [step_ok hne h0 h1 h2 h3] at h'
          exact ih _ _ _ _ _ h4 h'
    exact key _ _ _ _ _ _ h h'

/-- C70: the encoding of the array is the input it has read. -/
theorem C70_encoding_partial (w : Well m rank rest) {fuel : Nat} {expected : Option Int} {b : Bitstring} {vs : List Item}
    (hal : (∀ f, rest f = false) ∨ (b.len % 8 = 0 ∧ ∀ v ∈ vs, ∀ R, v.bitstring = .ok R → R.len % 8 = 0))
    (h : MsgArray.parse fuel id m expected [] b = (vs, none)) : itemBits vs = .ok b := by
  have hex : ∀ n, expected = some n → n = b.len := by
    intro n hn
    subst hn
    unfold MsgArray.parse checkSize at h
    by_cases hl : (b.len : Int) = n
    · exact hl.symm
    · simp [hl] at h
  obtain ⟨L, rfl, hb, h2, _⟩ := (C70_parse_partial w expected b vs hex hal).mp ⟨fuel, h⟩
  have key : ∀ L : List (State × List Bool), (∀ x ∈ L, Parsed m x.1 x.2 ∧ x.2 ≠ []) →
      (items id m L).mapM Item.bitstring = .ok (L.map fun x => ⟨x.2⟩) := by
    intro L
    induction L with
    | nil => intro _; rfl
    | cons x L ih =>
      intro h
      have := ih fun y hy => h y (by simp [hy])
      simp only [items, List.map_cons, List.mapM_cons] at this ⊢
      rw [this]
      simp only [Item.bitstring]
      rw [(h x (by simp)).1.bits]
      rfl
  unfold itemBits
  rw [key L h2]
  simp only [Except.map]
  have hj : (Bitstring.join (L.map fun x => ⟨x.2⟩)).bits = b.bits := by
    rw [join_bits, List.flatMap_map]
    exact hb
  generalize Bitstring.join (L.map fun x => ⟨x.2⟩) = j at hj ⊢
  cases j
  cases b
  simp only at hj
  rw [hj]

/-- C70: an input of the wrong size is rejected, and the array keeps its value. -/
theorem C70_size {fuel : Nat} {n : Int} {old : List Item} {b : Bitstring} (h : (b.len : Int) ≠ n) :
    MsgArray.parse fuel id m (some n) old b = (old, some .pyrflx) := by
  unfold MsgArray.parse checkSize
  simp [h]

/-- C70: a list is accepted if and only if its encoding has the expected size, and all elements are valid messages of the element
type; then it is the value of the array. -/
theorem C70_assign (expected : Option Int) (vs ws : List Item) :
    MsgArray.assign id expected vs true = .ok ws ↔ ws = vs ∧ (∃ R, itemBits vs = .ok R ∧ ∀ n, expected = some n → (R.len : Int) = n) ∧
      ∀ v ∈ vs, ∃ i m' σ, v = .message i m' σ ∧ i.eq id = true ∧ m'.validMessage σ = .ok true := by
  have hitem : ∀ v, checkItem id v = .ok () ↔ ∃ i m' σ, v = .message i m' σ ∧ i.eq id = true ∧ m'.validMessage σ = .ok true := by
    intro v
    cases v with
    | other b =>
      constructor
      · intro h; cases h
      · rintro ⟨_, _, _, h, _⟩; cases h
    | message i m' σ =>
      simp only [checkItem]
      constructor
      · intro h
        split at h
        · rename_i hi
          obtain ⟨x, hx, h⟩ := bind_ok h
          cases x with
          | true => exact ⟨i, m', σ, rfl, hi, hx⟩
          | false => cases h
        · cases h
      · rintro ⟨_, _, _, h, hi, hv⟩
        cases h
        rw [if_pos hi, hv]
        rfl
  have hall : ∀ vs : List Item, vs.forM (checkItem id) = .ok () ↔
      ∀ v ∈ vs, ∃ i m' σ, v = .message i m' σ ∧ i.eq id = true ∧ m'.validMessage σ = .ok true := by
    intro vs
    induction vs with
    | nil => simp [pure, Except.pure]
    | cons v vs ih =>
      rw [List.forall_mem_cons, ← ih, ← hitem]
      show ((checkItem id v).bind fun _ => vs.forM (checkItem id)) = _ ↔ _
      cases checkItem id v with
      | error e => exact ⟨fun h => (by cases h), fun h => (by cases h.1)⟩
      | ok u => exact ⟨fun h => ⟨rfl, h⟩, fun h => h.2⟩
  rw [← hall]
  unfold MsgArray.assign itemBits
  simp only [if_true, bind, Except.bind, pure, Except.pure]
  cases hb : vs.mapM Item.bitstring with
  | error e => exact ⟨fun h => (by cases h), fun ⟨_, ⟨_, h, _⟩, _⟩ => (by cases h)⟩
  | ok bs =>
    simp only [Except.map, Except.ok.injEq]
    cases hc : checkSize expected (Bitstring.join bs).len with
    | error e =>
      refine ⟨fun h => (by cases h), ?_⟩
      rintro ⟨_, ⟨R, rfl, h⟩, _⟩
      unfold checkSize at hc
      cases expected with
      | none => cases hc
      | some n => simp [h n rfl] at hc
    | ok u =>
      have : ∀ n, expected = some n → ((Bitstring.join bs).len : Int) = n := by
        intro n hn
        subst hn
        unfold checkSize at hc
        by_cases h : ((Bitstring.join bs).len : Int) = n
        · exact h
        · simp [h] at hc
      simp only
      cases hf : vs.forM (checkItem id) with
      | error e => exact ⟨fun h => (by cases h), fun h => (by cases h.2.2)⟩
      | ok u => exact ⟨fun h => ⟨(Except.ok.inj h).symm, ⟨_, rfl, this⟩, rfl⟩, fun h => by rw [h.1]⟩

/-- C70: a message whose fields do not extend to the end of the input is read from its encoding, whatever follows. -/
theorem C70_delimited_partial (w : Well m rank rest) {σ : State} {R : List Bool} (h : Parsed m σ R)
    (hc : ∀ f, rest f = true → (σ.fv f).value = none) : Delimited m σ R := by
  obtain ⟨⟨σ0, h0, h1⟩, _, h3⟩ := h
  refine ⟨σ0, h0, fun C => ?_⟩
  rcases w.parse_local h0 h1 h3 with ⟨_, _, g⟩ | ⟨_, f, hf, hv, _⟩
  · exact g (R ++ C) (by simp [Bitstring.len]) (by simp [Bitstring.len])
  · rw [hc f hf] at hv
    cases hv

/-- C70: messages that have been assigned to an array are read back from its encoding by another array: the same messages in the same
order. -/
theorem C70_roundtrip {expected expected' : Option Int} {L : List (State × List Bool)} {vs : List Item} {R : Bitstring}
    (hL : ∀ x ∈ L, Parsed m x.1 x.2 ∧ x.2 ≠ []) (hd : ∀ x ∈ L.dropLast, Delimited m x.1 x.2)
    (ha : MsgArray.assign id expected (items id m L) true = .ok vs) (hR : itemBits vs = .ok R)
    (hex : ∀ n, expected' = some n → n = R.len) {fuel : Nat} (hf : R.len ≤ fuel) :
    MsgArray.parse fuel id m expected' [] R = (vs, none) := by
  obtain ⟨rfl, _⟩ := (C70_assign expected (items id m L) vs).mp ha
  have key : ∀ L : List (State × List Bool), (∀ x ∈ L, Parsed m x.1 x.2 ∧ x.2 ≠ []) →
      (items id m L).mapM Item.bitstring = .ok (L.map fun x => ⟨x.2⟩) ∧ L.length ≤ (L.flatMap (·.2)).length := by
    intro L
    induction L with
    | nil => intro _; exact ⟨rfl, Nat.le_refl _⟩
    | cons x L ih =>
      intro h
      obtain ⟨h1, h2⟩ := ih fun y hy => h y (by simp [hy])
      constructor
      · simp only [items, List.map_cons, List.mapM_cons] at h1 ⊢
        rw [h1]
        simp only [Item.bitstring]
        rw [(h x (by simp)).1.bits]
        rfl
      · have := List.length_pos_iff.mpr (h x (by simp)).2
        simp only [List.flatMap_cons, List.length_append, List.length_cons]
        omega
  obtain ⟨hk, hlen⟩ := key L hL
  unfold itemBits at hR
  rw [hk] at hR
  simp only [Except.map, Except.ok.injEq] at hR
  have hbits : R.bits = L.flatMap (·.2) := by
    rw [← hR, join_bits, List.flatMap_map]
  have hc : checkSize expected' R.len = .ok () := by
    unfold checkSize
    cases expected' with
    | none => rfl
    | some n => simp [hex n rfl]
  unfold MsgArray.parse
  rw [hc]
  simpa using loop_elements (id := id) L fuel [] R.bits ⟨hbits.symm, hL, hd⟩ (by rw [← hbits] at hlen; exact Nat.le_trans hlen hf)

end

end Verif.PyRFLX
