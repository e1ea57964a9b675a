import Verif.PyRFLX.MessageChecksum
import Verif.PyRFLX.MessageParseProps

/-! # Lemmas about checksums of PyRFLX messages -/

namespace Verif.PyRFLX

open Verif Verif.Types Verif.Bits Verif.Graph

/-! ## Validity -/

/-- Specification: what a checksum function is told about a parameter: the bounds of a range, or the value of an expression,
which is a number or the value of a field. All with the current values of the fields. -/
def ArgOf (m : Msg) (σ : State) : Param → Arg → Prop
  | .range l u, a => ∃ x y b b', m.simplifiedIn σ.mapping l = .ok (.num x b) ∧ m.simplifiedIn σ.mapping u = .ok (.num y b') ∧
      a = .range x y
  | .expr e, a => (∃ v b, m.simplifiedIn σ.mapping e = .ok (.num v b) ∧ a = .int v) ∨
      ∃ ng imm i g v, m.simplifiedIn σ.mapping e = .ok (.var ng imm i) ∧ g ∈ m.fields ∧ g.eq i = true ∧
        (σ.fv g).value = some v ∧ a = .value v

/-- Specification: the arguments of a checksum function, one for each parameter. -/
def ArgsOf (m : Msg) (σ : State) : List Param → List (Param × Arg) → Prop
  | [], as => as = []
  | p :: ps, as => ∃ a as', as = (p, a) :: as' ∧ ArgOf m σ p a ∧ ArgsOf m σ ps as'

/-- Specification: a result of a checksum function is the value of a field. -/
def SameValue : Input → Val → Prop
  | .int i, v => v = .scalar (.int i)
  | .str s, v => ∃ n, v = .scalar (.enum s n)
  | .bytes b, v => v = .bytes b
  | _, _ => False

theorem eqVal_same {x : Input} {v : Val} : x.eqVal v = .ok true ↔ SameValue x v := by
  cases x <;> cases v <;> (try rename_i v <;> cases v) <;> simp [Input.eqVal, SameValue] <;> exact eq_comm

theorem asNum_some {e : Expr} {n : Num} (h : asNum e = some n) : e = .num n.v n.base := by
  unfold asNum at h
  split at h
  · cases h; rfl
  · cases h

variable {m : Msg} {names : List Field} {σ : State}

theorem arg_spec {p e : Param} {a : Arg} (he : m.evalParam σ.mapping p = .ok e) (ha : m.argument σ e = .ok a) : ArgOf m σ p a := by
  cases p with
  | range l u =>
    obtain ⟨l', hl, he⟩ := bind_ok (he : (m.simplifiedIn _ _).bind _ = _)
    obtain ⟨u', hu, rfl⟩ := map_ok he
    simp only [Msg.argument] at ha
    split at ha
    · rename_i x y hx hy
      rw [asNum_some hx] at hl
      rw [asNum_some hy] at hu
      exact ⟨_, _, _, _, hl, hu, by simpa using ha.symm⟩
    · cases ha
  | expr e0 =>
    obtain ⟨e', hs, rfl⟩ := map_ok (he : (m.simplifiedIn _ _).map _ = _)
    unfold Msg.argument at ha
    split at ha
    · rename_i h; cases h
    · rename_i i h
      cases h
      split at ha
      · cases ha
      · rename_i g hg
        obtain ⟨b, _, ha⟩ := bind_ok ha
        split at ha
        · rename_i v hv _
          have := List.find?_some hg
          exact .inr ⟨_, _, i, g, v, hs, List.mem_of_find?_eq_some hg, by simpa using this, hv, by simpa using ha.symm⟩
        · cases ha
    · rename_i h
      cases h
      split at ha
      · rename_i n hn
        rw [asNum_some hn] at hs
        exact .inl ⟨_, _, hs, by simpa using ha.symm⟩
      · cases ha

/-- The parameters are kept, and if the checksum can be set they are evaluated with the current values. -/
theorem settable_spec {ps r : List (Param × Param)} {b : Bool} (h : m.paramsSettable names σ ps = .ok (r, b)) :
    r.map Prod.fst = ps.map Prod.fst ∧ (b = true → ∀ p e, (p, e) ∈ r → m.evalParam σ.mapping p = .ok e) := by
  induction ps generalizing r b with
  | nil =>
    simp only [Msg.paramsSettable, Except.ok.injEq, Prod.mk.injEq] at h
    obtain ⟨rfl, rfl⟩ := h
    simp
  | cons q ps ih =>
    obtain ⟨p, e0⟩ := q
    obtain ⟨e, he, h⟩ := bind_ok (h : (m.evalParam _ _).bind _ = _)
    obtain ⟨c, _, h⟩ := bind_ok h
    cases c with
    | true =>
      simp only [if_true] at h
      obtain ⟨⟨r', b'⟩, hr, h⟩ := map_ok h
      simp only [Prod.mk.injEq] at h
      obtain ⟨rfl, rfl⟩ := h
      obtain ⟨h1, h2⟩ := ih hr
      refine ⟨by simp [h1], fun hb p' e' hm => ?_⟩
      rcases List.mem_cons.mp hm with hm | hm
      · cases hm; exact he
      · exact h2 hb _ _ hm
    | false =>
      simp only [Bool.false_eq_true, if_false, Except.ok.injEq, Prod.mk.injEq] at h
      obtain ⟨rfl, rfl⟩ := h
      simp

theorem args_spec {ps : List (Param × Param)} (he : ∀ p e, (p, e) ∈ ps → m.evalParam σ.mapping p = .ok e) {as : List (Param × Arg)}
    (h : m.arguments σ ps = .ok as) : ArgsOf m σ (ps.map Prod.fst) as := by
  induction ps generalizing as with
  | nil => simpa [Msg.arguments, ArgsOf] using h.symm
  | cons q ps ih =>
    obtain ⟨p, e⟩ := q
    obtain ⟨a, ha, h⟩ := bind_ok (h : (m.argument _ _).bind _ = _)
    obtain ⟨as', has, rfl⟩ := map_ok h
    exact ⟨a, as', rfl, arg_spec (he p e (by simp)) ha, ih (fun p e hm => he p e (by simp [hm])) has⟩

/-- What a successful calculation is. -/
theorem calculate_spec {c c' : Check} {x : Input} (h : m.settable names σ c = .ok (c', true)) (hx : m.calculate σ c' = .ok x) :
    ∃ f as bs, c.function = some f ∧ ArgsOf m σ (c.params.map Prod.fst) as ∧ m.uncheckedBytes σ = .ok bs ∧ f bs as = .ok x := by
  obtain ⟨⟨ps, b⟩, hp, hc⟩ := map_ok (h : (m.paramsSettable _ _ _).map _ = _)
  simp only [Prod.mk.injEq] at hc
  obtain ⟨rfl, rfl⟩ := hc
  obtain ⟨h1, h2⟩ := settable_spec hp
  unfold Msg.calculate at hx
  split at hx
  · cases hx
  · rename_i f hf
    obtain ⟨as, ha, hx⟩ := bind_ok hx
    obtain ⟨bs, hb, hx⟩ := bind_ok hx
    refine ⟨f, as, bs, hf, ?_, hb, hx⟩
    rw [← h1]
    exact args_spec (h2 rfl) ha

theorem right_spec {c c' : Check} (h : m.checksumRight names σ c = .ok (c', true)) :
    ∃ f as bs x v, c.function = some f ∧ ArgsOf m σ (c.params.map Prod.fst) as ∧ m.uncheckedBytes σ = .ok bs ∧
      f bs as = .ok x ∧ m.get σ c.field = .ok v ∧ SameValue x v := by
  obtain ⟨⟨c1, b⟩, h1, h⟩ := bind_ok (h : (m.settable _ _ _).bind _ = _)
  cases b with
  | false => simp at h
  | true =>
    simp only [if_true] at h
    obtain ⟨x, hx, h⟩ := bind_ok h
    obtain ⟨v, hv, h⟩ := bind_ok h
    obtain ⟨b, hb, h⟩ := map_ok h
    simp only [Prod.mk.injEq] at h
    obtain ⟨rfl, rfl⟩ := h
    obtain ⟨f, as, bs, g1, g2, g3, g4⟩ := calculate_spec h1 hx
    exact ⟨f, as, bs, x, v, g1, g2, g3, g4, hv, eqVal_same.mp hb⟩

theorem rights_spec {cs cs' : List Check} (h : m.checksumsRight names σ cs = .ok (cs', true)) :
    ∀ c ∈ cs, ∃ c', m.checksumRight names σ c = .ok (c', true) := by
  induction cs generalizing cs' with
  | nil => simp
  | cons c cs ih =>
    obtain ⟨⟨c1, b⟩, h1, h⟩ := bind_ok (h : (m.checksumRight _ _ _).bind _ = _)
    cases b with
    | false => simp at h
    | true =>
      simp only [if_true] at h
      obtain ⟨⟨cs1, b⟩, h2, h⟩ := map_ok h
      simp only [Prod.mk.injEq] at h
      obtain ⟨_, rfl⟩ := h
      intro d hd
      rcases List.mem_cons.mp hd with rfl | hd
      · exact ⟨c1, h1⟩
      · exact ih h2 d hd

/-! ## Setting -/

theorem set_setOnly {f : Field} {x : Input} : m.set σ f x =
    match m.setOnly σ f x with
    | (σ, some e) => (σ, some e)
    | (σ, none) => match m.preset σ f with
      | .error e => (σ, some e)
      | .ok σ => (σ, none) := by
  unfold Msg.set Msg.setOnly
  split
  · rfl
  cases hp : m.prepare σ f with
  | error e => rfl
  | ok v =>
    simp only
    cases ha : assignValue (m.typeOf f) v.expected x with
    | error e => rfl
    | ok value =>
      simp only
      cases hn : m.newMapping (σ.upd f { v with value := some value }).fv with
      | error e => rfl
      | ok M =>
        simp only
        cases hf : m.allFalse M (outgoing m.links f) with
        | error e => rfl
        | ok b => cases b <;> rfl

/-- Setting a field without the following steps changes this field only. -/
theorem setOnly_frame {f : Field} {x : Input} {σ' : State} {e : Option PyErr} (h : m.setOnly σ f x = (σ', e)) :
    (∀ g, g ≠ f → σ'.fv g = σ.fv g) ∧ σ'.accessible = σ.accessible := by
  have hupd : ∀ (σ : State) (v : FV) (g : Field), g ≠ f → (σ.upd f v).fv g = σ.fv g := by
    intro σ v g hne
    simp [State.upd, hne]
  unfold Msg.setOnly at h
  split at h
  · simp only [Prod.mk.injEq] at h; rw [← h.1]; exact ⟨fun _ _ => rfl, rfl⟩
  split at h
  · simp only [Prod.mk.injEq] at h; rw [← h.1]; exact ⟨fun _ _ => rfl, rfl⟩
  split at h
  · simp only [Prod.mk.injEq] at h; rw [← h.1]; exact ⟨hupd _ _, rfl⟩
  simp only at h
  split at h
  · simp only [Prod.mk.injEq] at h; rw [← h.1]; exact ⟨hupd _ _, rfl⟩
  split at h
  · simp only [Prod.mk.injEq] at h; rw [← h.1]; exact ⟨hupd _ _, rfl⟩
  · simp only [Prod.mk.injEq] at h; rw [← h.1]; exact ⟨fun g hg => (hupd _ _ g hg).trans (hupd _ _ g hg), rfl⟩
  · simp only [Prod.mk.injEq] at h; rw [← h.1]; exact ⟨hupd _ _, rfl⟩

theorem setOnly_value {f : Field} {x : Input} {σ' : State} (h : m.setOnly σ f x = (σ', none)) :
    f ∈ σ.accessible ∧ ∃ v, Stands (m.typeOf f) x v ∧ (σ'.fv f).value = some v := by
  unfold Msg.setOnly at h
  split at h
  · simp at h
  rename_i hacc
  refine ⟨by simpa using hacc, ?_⟩
  split at h
  · simp at h
  split at h
  · simp at h
  rename_i value hvalue
  simp only at h
  split at h
  · simp at h
  split at h
  · simp at h
  · simp at h
  simp only [Prod.mk.injEq] at h
  obtain ⟨rfl, _⟩ := h
  exact ⟨value, assign_stands hvalue, by simp [State.upd]⟩

/-- A checksum that has been calculated once stays so. -/
theorem auto_calculated {c c' : Check} {σ' : State} {e : Option PyErr} (h : m.autoChecksum names σ c = (σ', c', e)) :
    (c.calculated = true → c'.calculated = true) ∧ (c'.calculated = false → σ' = σ) := by
  unfold Msg.autoChecksum at h
  split at h
  · cases h; simp
  split at h
  case isFalse => cases h; simp
  split at h
  · cases h; simp
  · rename_i c1 h1
    cases h
    obtain ⟨r, _, hc⟩ := map_ok (h1 : (m.paramsSettable _ _ _).map _ = _)
    cases r
    simp only [Prod.mk.injEq] at hc
    obtain ⟨rfl, _⟩ := hc
    exact ⟨fun h => h, fun _ => rfl⟩
  · rename_i c1 h1
    obtain ⟨r, _, hc⟩ := map_ok (h1 : (m.paramsSettable _ _ _).map _ = _)
    cases r
    simp only [Prod.mk.injEq] at hc
    obtain ⟨rfl, _⟩ := hc
    unfold Msg.setChecksum at h
    split at h
    · cases h; exact ⟨fun h => h, fun _ => rfl⟩
    · simp only at h
      split at h
      · cases h; simp
      · cases h; simp

theorem autos_calculated {cs cs' : List Check} {σ' : State} {e : Option PyErr} (h : m.autoChecksums names σ cs = (σ', cs', e)) :
    ((∃ c ∈ cs, c.calculated = true) → ∃ c ∈ cs', c.calculated = true) ∧
      ((∀ c ∈ cs', c.calculated = false) → σ' = σ) := by
  induction cs generalizing σ cs' σ' e with
  | nil =>
    simp only [Msg.autoChecksums, Prod.mk.injEq] at h
    obtain ⟨rfl, rfl, _⟩ := h
    simp
  | cons c cs ih =>
    unfold Msg.autoChecksums at h
    split at h
    · rename_i s c1 e1 h1
      cases h
      obtain ⟨a1, a2⟩ := auto_calculated h1
      constructor
      · rintro ⟨d, hd, hc⟩
        rcases List.mem_cons.mp hd with rfl | hd
        · exact ⟨c1, by simp, a1 hc⟩
        · exact ⟨d, by simp [hd], hc⟩
      · intro hall
        exact a2 (hall c1 (by simp))
    · rename_i s c1 h1
      cases h
      obtain ⟨a1, a2⟩ := auto_calculated h1
      obtain ⟨i1, i2⟩ := ih (σ := s) rfl
      constructor
      · rintro ⟨d, hd, hc⟩
        rcases List.mem_cons.mp hd with rfl | hd
        · exact ⟨c1, by simp, a1 hc⟩
        · obtain ⟨d', hd', hc'⟩ := i1 ⟨d, hd, hc⟩
          exact ⟨d', by simp [hd'], hc'⟩
      · intro hall
        rw [i2 fun d hd => hall d (by simp [hd]), a2 (hall c1 (by simp))]

/-! ## Encodings that differ in one field -/

/-- Specification: two bit strings of the same length that agree except for `n` bits from position `a` on. -/
def AgreeOutside (a n : Nat) (x y : List Bool) : Prop := x.length = y.length ∧ ∀ i, i < a ∨ a + n ≤ i → x[i]? = y[i]?

theorem AgreeOutside.append {a n : Nat} {x y : List Bool} (h : AgreeOutside a n x y) (p : Nat) (b : List Bool) :
    AgreeOutside a n (x.take p ++ b) (y.take p ++ b) := by
  obtain ⟨h1, h2⟩ := h
  refine ⟨by simp [h1], fun i hi => ?_⟩
  have := h2 i hi
  have hl : (x.take p).length = (y.take p).length := by simp [h1]
  by_cases hp : i < (x.take p).length
  · rw [List.getElem?_append_left hp, List.getElem?_append_left (by omega)]
    simp only [List.length_take] at hp
    rw [List.getElem?_take, List.getElem?_take, this]
  · rw [List.getElem?_append_right (by omega), List.getElem?_append_right (by omega), hl]

theorem AgreeOutside.field {a n : Nat} {x y : List Bool} (h : AgreeOutside a n x y) (ha : a ≤ x.length) {b c : List Bool}
    (hb : b.length = n) (hc : c.length = n) : AgreeOutside a n (x.take a ++ b) (y.take a ++ c) := by
  obtain ⟨h1, h2⟩ := h
  refine ⟨by simp [h1, hb, hc], fun i hi => ?_⟩
  rcases hi with hi | hi
  · rw [List.getElem?_append_left (by simp; omega), List.getElem?_append_left (by simp; omega), List.getElem?_take,
      List.getElem?_take, h2 i (.inl hi)]
  · rw [List.getElem?_eq_none (by simp; omega), List.getElem?_eq_none (by simp; omega)]

/-- Two states that differ in the value of one field only. -/
structure Differ (m : Msg) (σ τ : State) (c : Field) (a n : Nat) : Prop where
  mapping : σ.mapping = τ.mapping
  others : ∀ g, g ≠ c → σ.fv g = τ.fv g
  set₁ : (σ.fv c).isSet (m.typeOf c) = .ok true
  set₂ : (τ.fv c).isSet (m.typeOf c) = .ok true
  first₁ : ∃ b, (σ.fv c).first = some ⟨a, b⟩
  first₂ : ∃ b, (τ.fv c).first = some ⟨a, b⟩
  bits₁ : ∃ v b, (σ.fv c).value = some v ∧ valBits (m.typeOf c) v = .ok b ∧ b.bits.length = n
  bits₂ : ∃ v b, (τ.fv c).value = some v ∧ valBits (m.typeOf c) v = .ok b ∧ b.bits.length = n

theorem Differ.isSet {τ : State} {c : Field} {a n : Nat} (d : Differ m σ τ c a n) (g : Field) :
    (σ.fv g).isSet (m.typeOf g) = (τ.fv g).isSet (m.typeOf g) := by
  by_cases hg : g = c
  · subst hg; rw [d.set₁, d.set₂]
  · rw [d.others g hg]

theorem Differ.loop {τ : State} {c : Field} {a n : Nat} (d : Differ m σ τ c a n) : ∀ (k : Nat) (nxt : Option Field)
    (x y r : List Bool), AgreeOutside a n x y → m.bitsLoop σ k nxt x = .ok r →
    ∃ r', m.bitsLoop τ k nxt y = .ok r' ∧ AgreeOutside a n r r' := by
  intro k
  induction k with
  | zero =>
    intro nxt x y r hxy h
    cases nxt with
    | none =>
      simp only [Msg.bitsLoop, Except.ok.injEq] at h ⊢
      subst h
      exact ⟨y, rfl, hxy⟩
    | some f => simp [Msg.bitsLoop] at h
  | succ k ih =>
    intro nxt x y r hxy h
    cases nxt with
    | none =>
      simp only [Msg.bitsLoop, Except.ok.injEq] at h ⊢
      subst h
      exact ⟨y, rfl, hxy⟩
    | some f =>
      rw [Msg.bitsLoop] at h ⊢
      by_cases hF : f = FINAL
      · simp only [hF, if_true, Except.ok.injEq] at h ⊢
        subst h
        exact ⟨y, rfl, hxy⟩
      · simp only [hF, if_false] at h ⊢
        obtain ⟨s, hs, h⟩ := bind_ok h
        rw [← d.isSet f, hs]
        by_cases hc : f = c
        · subst hc
          rw [d.set₁] at hs
          cases hs
          obtain ⟨b₁, e₁⟩ := d.first₁
          obtain ⟨b₂, e₂⟩ := d.first₂
          obtain ⟨v₁, w₁, g₁, i₁, l₁⟩ := d.bits₁
          obtain ⟨v₂, w₂, g₂, i₂, l₂⟩ := d.bits₂
          rw [e₁, g₁] at h
          simp only [Except.bind] at h ⊢
          rw [e₂, g₂]
          simp only [show ¬((a : Int) < 0) by omega, if_false] at h ⊢
          by_cases hlt : (x.length : Int) < a
          · simp only [hlt, if_true, Except.ok.injEq] at h
            subst h
            rw [if_pos (by rw [← hxy.1]; exact hlt)]
            exact ⟨y, rfl, hxy⟩
          · simp only [hlt, if_false, i₁] at h
            rw [if_neg (by rw [← hxy.1]; exact hlt)]
            simp only [i₂]
            rw [← d.mapping]
            cases hn : m.nextField σ.mapping f with
            | error e => rw [hn] at h; cases h
            | ok nxt =>
              rw [hn] at h
              simp only at h ⊢
              exact ih nxt _ _ r (by simpa using hxy.field (by omega) l₁ l₂) h
        · rw [← d.others f hc, ← d.mapping]
          simp only [Except.bind] at h ⊢
          split at h
          · rename_i v first _ _
            by_cases hneg : first.v < 0
            · rw [if_pos hneg] at h; cases h
            · rw [if_neg hneg] at h ⊢
              by_cases hlt : (x.length : Int) < first.v
              · rw [if_pos hlt] at h
                rw [if_pos (by rw [← hxy.1]; exact hlt)]
                simp only [Except.ok.injEq] at h
                subst h
                exact ⟨y, rfl, hxy⟩
              · rw [if_neg hlt] at h
                rw [if_neg (by rw [← hxy.1]; exact hlt)]
                split at h
                · cases h
                · rename_i w hw
                  split at h
                  · cases h
                  · exact ih _ _ _ _ (hxy.append _ _) h
          · simp only [Except.ok.injEq] at h
            subst h
            exact ⟨y, rfl, hxy⟩

theorem Differ.bitstring {τ : State} {c : Field} {a n : Nat} (d : Differ m σ τ c a n) {b : Bitstring} (h : m.bitstring σ = .ok b) :
    ∃ b', m.bitstring τ = .ok b' ∧ AgreeOutside a n b.bits b'.bits := by
  obtain ⟨nxt, hn, h⟩ := bind_ok (h : (m.nextField _ _).bind _ = _)
  obtain ⟨r, hr, rfl⟩ := map_ok h
  obtain ⟨r', hr', ha⟩ := d.loop _ _ [] [] r ⟨rfl, fun _ _ => rfl⟩ hr
  refine ⟨⟨r'⟩, ?_, ha⟩
  unfold Msg.bitstring
  rw [← d.mapping, hn]
  simp [Except.bind, hr', Except.map]

theorem Differ.bytes {τ : State} {c : Field} {a n : Nat} (d : Differ m σ τ c a n) {bs : List Byte}
    (h : m.uncheckedBytes σ = .ok bs) : ∃ x y, AgreeOutside a n x y ∧ x.length % 8 = 0 ∧ bs = Bitstring.toBytes ⟨x⟩ ∧
      m.uncheckedBytes τ = .ok (Bitstring.toBytes ⟨y⟩) := by
  obtain ⟨b, hb, h⟩ := bind_ok (h : (m.bitstring _).bind _ = _)
  split at h
  case isFalse => cases h
  rename_i h8
  obtain ⟨b', hb', ha⟩ := d.bitstring hb
  refine ⟨b.bits, b'.bits, ha, h8, by simpa using h.symm, ?_⟩
  unfold Msg.uncheckedBytes
  rw [hb']
  simp only [Except.bind]
  rw [if_pos (by unfold Bitstring.len; rw [← ha.1]; exact h8)]

theorem Differ.pathLoop {τ : State} {c : Field} {a n : Nat} (d : Differ m σ τ c a n) (up : Option Field) : ∀ (k : Nat) (f : Field),
    m.pathLoop names σ up k f = m.pathLoop names τ up k f := by
  intro k
  induction k with
  | zero => intro f; rfl
  | succ k ih =>
    intro f
    unfold Msg.pathLoop
    simp only [d.mapping, d.isSet, ih]

theorem Differ.paramSettable {τ : State} {c : Field} {a n : Nat} (d : Differ m σ τ c a n) (p e : Param) :
    m.paramSettable names σ p e = m.paramSettable names τ p e := by
  unfold Msg.paramSettable Msg.validPath Msg.namedSet
  simp only [d.mapping, d.isSet, d.pathLoop]

theorem Differ.settable {τ : State} {c : Field} {a n : Nat} (d : Differ m σ τ c a n) (ps : List (Param × Param)) :
    m.paramsSettable names σ ps = m.paramsSettable names τ ps := by
  induction ps with
  | nil => rfl
  | cons q ps ih =>
    obtain ⟨p, e⟩ := q
    unfold Msg.paramsSettable
    simp only [d.mapping, d.paramSettable, ih]

theorem Differ.arguments {τ : State} {c : Field} {a n : Nat} (d : Differ m σ τ c a n) (ps : List (Param × Param))
    (hself : ∀ p e, (p, e) ∈ ps → ∀ ng imm i, e = .expr (.var ng imm i) → c.eq i = false) :
    m.arguments σ ps = m.arguments τ ps := by
  induction ps with
  | nil => rfl
  | cons q ps ih =>
    obtain ⟨p, e⟩ := q
    unfold Msg.arguments
    rw [ih fun p e h => hself p e (by simp [h])]
    congr 1
    unfold Msg.argument
    split
    · rfl
    · rename_i ng imm i
      cases hf : m.fields.find? fun f => f.eq i with
      | none => rfl
      | some g =>
        have hg : g ≠ c := by
          rintro rfl
          have h1 := List.find?_some hf
          rw [hself p (.expr (.var ng imm i)) (by simp) ng imm i rfl] at h1
          cases h1
        simp only [d.others g hg]
    · rfl

end Verif.PyRFLX
