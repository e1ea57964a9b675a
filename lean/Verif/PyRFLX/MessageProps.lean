import Verif.PyRFLX.MessageValues
import Verif.PyRFLX.EnumProps

/-! # Setting and reading fields of a PyRFLX message (C23)

The statements hold for every state, so in particular after every history of calls. -/

namespace Verif.PyRFLX

open Verif Verif.Types Verif.Bits Verif.Graph

/-- Specification: the field `g` comes before the field `f` on some way through the message. -/
inductive Before (links : List Link) : Field → Field → Prop
  | link {l : Link} : l ∈ links → Before links l.source l.target
  | step {l : Link} {f : Field} : l ∈ links → Before links l.target f → Before links l.source f

theorem Before.rank {links : List Link} {rank : Field → Nat} (hr : Ranked links rank) {g f : Field} (h : Before links g f) :
    rank g < rank f := by
  induction h with
  | link hl => exact hr _ hl
  | step hl _ ih => exact Nat.lt_trans (hr _ hl) ih

/-- Specification: the value a field of this type has after the assignment of the input: integers, bytes and lists as they
are, literals of enumerations by their meaning, bit strings by their encoding. -/
def Stands (t : FType) (x : Input) (v : Val) : Prop :=
  match t, x with
  | .scalar (.int _) _, .int i => v = .scalar (.int i)
  | .scalar (.enum t) imp, .str s => Plain t →
      ∃ i n txt, EnumValue.resolve t.package imp s = .ok i ∧ t.Visible (!imp) i.key n ∧ v = .scalar (.enum txt n)
  | .opaque, .bytes b => v = .bytes b
  | .array .., .list es => v = .elems es
  | t, .bits b => Fits t b.len → valBits t v = .ok b
  | _, _ => False

theorem intAssign_ok {t : IntType} {i v : Int} (h : IntegerValue.assign t i true = .ok v) : v = i := by
  unfold IntegerValue.assign at h
  obtain ⟨_, _, h⟩ := bind_ok h
  obtain ⟨_, _, h⟩ := bind_ok h
  obtain ⟨_, _, h⟩ := bind_ok h
  obtain ⟨e, _, h⟩ := bind_ok h
  split at h
  · simpa [pure, Except.pure] using h.symm
  · simp at h

theorem arrayAssign_ok {s : Scalar} {ex : Option Int} {es r : List Elem} (h : ArrayValue.assign s ex es true = .ok r) : r = es := by
  unfold ArrayValue.assign at h
  obtain ⟨_, _, h⟩ := bind_ok h
  obtain ⟨_, _, h⟩ := bind_ok h
  split at h
  · simpa [pure, Except.pure] using h.symm
  · simp at h

theorem assign_stands {t : FType} {ex : Option Num} {x : Input} {v : Val} (h : assignValue t ex x = .ok v) : Stands t x v := by
  unfold assignValue at h
  split at h
  · obtain ⟨e, he, rfl⟩ := map_ok h
    rename_i s imp b
    have : assignValue (.scalar s imp) ex (.bits b) = .ok (.scalar e.value) := by simp [assignValue, he, Except.map]
    cases s <;> exact fun hf => assign_valBits hf this
  · obtain ⟨e, he, rfl⟩ := map_ok h
    rw [intAssign_ok he]
    rfl
  · rename_i t imp s
    obtain ⟨r, hr, rfl⟩ := map_ok h
    intro hp
    have h1 : ∃ i, EnumValue.resolve t.package imp s = .ok i := by
      obtain ⟨p1, p2, p3⟩ := package_facts hp
      have hr' := hr
      unfold EnumValue.assign at hr'
      rw [p1] at hr'
      obtain ⟨_, he, hr'⟩ := bind_ok hr'
      cases he
      obtain ⟨_, _, hr'⟩ := bind_ok hr'
      obtain ⟨i, hi, _⟩ := bind_ok hr'
      exact ⟨i, hi⟩
    obtain ⟨i, hi⟩ := h1
    obtain ⟨c1, c2⟩ := C04_assign_partial t hp imp true s i hi
    by_cases hv : ∃ n, t.Visible (!imp) i.key n
    · obtain ⟨n, hn⟩ := hv
      rw [c1 n hn] at hr
      cases hr
      exact ⟨i, n, _, hi, hn, rfl⟩
    · rw [c2 fun n hn => hv ⟨n, hn⟩] at hr
      cases hr
  · rename_i b
    exact fun hf => assign_valBits hf h
  · obtain ⟨_, _, rfl⟩ := map_ok h
    rfl
  · rename_i s imp b
    exact fun hf => assign_valBits hf h
  · obtain ⟨_, he, rfl⟩ := map_ok h
    rw [arrayAssign_ok he]
    rfl
  · cases h

theorem get_value {m : Msg} {σ : State} {f : Field} {v w : Val} (hv : (σ.fv f).value = some v) (h : m.get σ f = .ok w) : w = v := by
  unfold Msg.get at h
  obtain ⟨fs, _, h⟩ := bind_ok h
  split at h
  · rw [hv] at h
    simpa using h.symm
  · cases h

theorem get_some {m : Msg} {σ : State} {f : Field} {w : Val} (h : m.get σ f = .ok w) : (σ.fv f).value = some w := by
  unfold Msg.get at h
  obtain ⟨fs, _, h⟩ := bind_ok h
  split at h
  · split at h
    · rename_i v hv
      rw [hv]
      simpa using h
    · cases h
  · cases h

theorem replaceAfter_mem {l : List Field} {f : Field} {fs : List Field} (h : f ∈ l) : f ∈ replaceAfter l f fs := by
  unfold replaceAfter
  rw [if_pos h]
  have hi : l.idxOf f < l.length := List.idxOf_lt_length_iff.mpr h
  refine List.mem_append_left _ ?_
  rw [List.mem_take_iff_getElem]
  exact ⟨l.idxOf f, by omega, List.getElem_idxOf hi⟩

/-- The calls of `set` in a history; calls that raise an exception included. -/
def sets (m : Msg) : State → List (Field × Input) → State
  | σ, [] => σ
  | σ, (f, x) :: r => sets m (m.set σ f x).1 r

theorem set_value {m : Msg} {rank : Field → Nat} (hr : Ranked m.links rank) {σ σ' : State} {f : Field} {x : Input}
    (h : m.set σ f x = (σ', none)) :
    f ∈ σ.accessible ∧ f ∈ σ'.accessible ∧ ∃ v, Stands (m.typeOf f) x v ∧ (σ'.fv f).value = some v := by
  obtain ⟨hacc, v, value, M, σ2, _, hval, hσ2, _, _, hp⟩ := set_ok h
  obtain ⟨h1, _, fs, h3⟩ := preset_frame hr hp
  refine ⟨hacc, ?_, value, assign_stands hval, ?_⟩
  · rw [h3, hσ2]
    exact replaceAfter_mem hacc
  · rw [h1 f (Nat.le_refl _), hσ2]
    simp [State.upd]

/-- C23, first clause: if setting a field succeeds then the field was accessible, is still accessible, has the value that was
set, and reading it gives this value (or an exception, if the field is not valid in the message). After further calls of
`set` for other fields that do not come before it, successful or not, this is still so. -/
theorem C23_read_back_partial (m : Msg) (rank : Field → Nat) (hr : Ranked m.links rank) (σ σ' : State) (f : Field) (x : Input)
    (h : m.set σ f x = (σ', none)) (later : List (Field × Input)) (hl : ∀ c ∈ later, c.1 ≠ f ∧ rank f ≤ rank c.1) :
    f ∈ σ.accessible ∧ f ∈ σ'.accessible ∧
      ∃ v, Stands (m.typeOf f) x v ∧ ((sets m σ' later).fv f).value = some v ∧
        ∀ w, m.get (sets m σ' later) f = .ok w → w = v := by
  obtain ⟨h1, h2, v, h3, h4⟩ := set_value hr h
  have key : ∀ (later : List (Field × Input)) (τ : State), (∀ c ∈ later, c.1 ≠ f ∧ rank f ≤ rank c.1) →
      (sets m τ later).fv f = τ.fv f := by
    intro later
    induction later with
    | nil => intros; rfl
    | cons c r ih =>
      intro τ hc
      obtain ⟨g, y⟩ := c
      obtain ⟨hg1, hg2⟩ := hc (g, y) (by simp)
      rw [sets, ih _ fun c hc' => hc c (List.mem_cons_of_mem _ hc')]
      exact set_frame hr (σ' := (m.set τ g y).1) (e := (m.set τ g y).2) rfl f hg2 (Ne.symm hg1)
  have hval : ((sets m σ' later).fv f).value = some v := by rw [key later σ' hl, h4]
  exact ⟨h1, h2, v, h3, hval, fun w hw => get_value hval hw⟩

/-- C23, first clause: a field that is not accessible cannot be set, the attempt changes nothing. -/
theorem C23_not_accessible (m : Msg) (σ : State) (f : Field) (x : Input) (h : f ∉ σ.accessible) :
    m.set σ f x = (σ, some .pyrflx) := by
  unfold Msg.set
  rw [if_pos h]

/-- C23, second clause: whether it succeeds or not, setting a field leaves the value, the size and the position of every
field before it as they are. If such a field can be read before and after, it reads the same. -/
theorem C23_preceding_unchanged (m : Msg) (rank : Field → Nat) (hr : Ranked m.links rank) (σ σ' : State) (f : Field)
    (x : Input) (e : Option PyErr) (h : m.set σ f x = (σ', e)) (g : Field) (hg : Before m.links g f) :
    (σ'.fv g).value = (σ.fv g).value ∧ (σ'.fv g).size (m.typeOf g) = (σ.fv g).size (m.typeOf g) ∧
      (σ'.fv g).first = (σ.fv g).first ∧ ∀ v w, m.get σ g = .ok v → m.get σ' g = .ok w → v = w := by
  have hlt := hg.rank hr
  have key := set_frame hr h g (Nat.le_of_lt hlt) (by rintro rfl; omega)
  refine ⟨by rw [key], by rw [key], by rw [key], fun v w hv hw => ?_⟩
  have h1 := get_some hv
  have h2 := get_some hw
  rw [key, h1] at h2
  simpa using h2

theorem mem_validFields {m : Msg} {σ : State} {f : Field} : ∀ {l fs : List Field}, m.validFields σ l = .ok fs → f ∈ fs →
    f ∈ l ∧ m.isValid σ f = .ok true := by
  intro l
  induction l with
  | nil => intro fs h hf; simp only [Msg.validFields, Except.ok.injEq] at h; subst h; simp at hf
  | cons g l ih =>
    intro fs h hf
    obtain ⟨b, hb, h⟩ := bind_ok h
    cases hr : m.validFields σ l with
    | error e => rw [hr] at h; cases h
    | ok r =>
      rw [hr] at h
      simp only [Except.map, Except.ok.injEq] at h
      subst h
      cases b with
      | true =>
        simp only [if_true, List.mem_cons] at hf
        rcases hf with rfl | hf
        · exact ⟨List.mem_cons_self, hb⟩
        · exact ⟨List.mem_cons_of_mem _ (ih hr hf).1, (ih hr hf).2⟩
      | false =>
        simp only [Bool.false_eq_true, if_false] at hf
        exact ⟨List.mem_cons_of_mem _ (ih hr hf).1, (ih hr hf).2⟩

theorem anyTrue_mem {m : Msg} {M : List (Expr × Expr)} : ∀ {ls : List Link}, m.anyTrue M ls = .ok true →
    ∃ l ∈ ls, m.holds M l.condition = .ok true := by
  intro ls
  induction ls with
  | nil => intro h; simp [Msg.anyTrue] at h
  | cons l ls ih =>
    intro h
    obtain ⟨b, hb, h⟩ := bind_ok h
    cases b with
    | true => exact ⟨l, List.mem_cons_self, hb⟩
    | false =>
      simp only [Bool.false_eq_true, if_false] at h
      obtain ⟨x, hx, hh⟩ := ih h
      exact ⟨x, List.mem_cons_of_mem _ hx, hh⟩

/-- C23, first clause: a field can be read only if it is accessible and set, its field condition is true with the current
values of the fields, and the condition of a link that leaves it is true as well. What is read is the value of the field. -/
theorem C23_get_valid (m : Msg) (σ : State) (f : Field) (v : Val) (h : m.get σ f = .ok v) :
    f ∈ σ.accessible ∧ (σ.fv f).value = some v ∧ (σ.fv f).isSet (m.typeOf f) = .ok true ∧
      (∃ c, fieldCondition m.links m.fuel f = .ok c ∧ m.holds σ.mapping c = .ok true) ∧
      ∃ l ∈ m.links, l.source = f ∧ m.holds σ.mapping l.condition = .ok true := by
  have hv := get_some h
  unfold Msg.get at h
  obtain ⟨fs, hfs, h⟩ := bind_ok h
  split at h
  case isFalse => cases h
  case isTrue hf =>
  obtain ⟨h1, h2⟩ := mem_validFields hfs hf
  unfold Msg.isValid at h2
  obtain ⟨a, ha, h2⟩ := bind_ok h2
  cases a with
  | false => simp at h2
  | true =>
    simp only [if_true] at h2
    obtain ⟨c, hc, h2⟩ := bind_ok h2
    obtain ⟨b, hb, h2⟩ := bind_ok h2
    cases b with
    | false => simp at h2
    | true =>
      simp only [if_true] at h2
      obtain ⟨l, hl, hh⟩ := anyTrue_mem h2
      simp only [outgoing, List.mem_filter] at hl
      exact ⟨h1, hv, ha, ⟨c, hc, hb⟩, l, hl.1, by simpa using hl.2, hh⟩

/-! ### Examples -/

/-- The field `a` of the examples. -/
def exA : Field := ⟨[['a']]⟩

/-- The field `b` of the examples. -/
def exB : Field := ⟨[['b']]⟩

/-- A message of two bytes `a` and `b`. -/
def exTwo : Msg where
  links := [⟨INITIAL, exA, .tru, .undefined, .undefined⟩, ⟨exA, exB, .tru, .undefined, .undefined⟩,
    ⟨exB, FINAL, .tru, .undefined, .undefined⟩]
  fields := [exA, exB]
  types := fun _ => .scalar (.int exByte) false
  lits := []
  fuel := 10

/-- Numbers for the fields of `exTwo`. -/
def exTwoRank (f : Field) : Nat := if f = INITIAL then 0 else if f = exA then 1 else if f = exB then 2 else 3

theorem exTwo_ranked : Ranked exTwo.links exTwoRank := by
  intro l hl
  simp only [exTwo, List.mem_cons, List.not_mem_nil, or_false] at hl
  rcases hl with rfl | rfl | rfl <;> decide

/-- The state after `m.set(a, 1)`, `m.set(b, 7)` on a new message of two bytes. -/
example : ∃ σ σ', exTwo.new = .ok σ ∧ exTwo.set σ exA (.int 1) = (σ', none) ∧
    exTwo.get (sets exTwo σ' [(exB, .int 7)]) exA = .ok (.scalar (.int 1)) ∧
    exTwo.get (sets exTwo σ' [(exB, .int 7)]) exB = .ok (.scalar (.int 7)) ∧
    exTwoRank exA ≤ exTwoRank exB ∧ exB ≠ exA := by
  exact ⟨_, _, rfl, rfl, rfl, rfl, by decide, by decide⟩

example : Before exTwo.links exA exB :=
  Before.link (l := ⟨exA, exB, .tru, .undefined, .undefined⟩) (by simp [exTwo])

/-- `C23_get_valid` applies: after setting both fields the first can be read. -/
example : ∃ σ σ₁ σ₂, exTwo.new = .ok σ ∧ exTwo.set σ exA (.int 5) = (σ₁, none) ∧ exTwo.set σ₁ exB (.int 7) = (σ₂, none) ∧
    exTwo.get σ₂ exA = .ok (.scalar (.int 5)) := ⟨_, _, _, rfl, rfl, rfl, rfl⟩

/-- C23, third clause, is false: after setting only the second of two fields without conditions the message counts as valid
though the first field, which every such message contains, is not set. Its encoding is empty. -/
theorem C23_unset_field_counterexample : ∃ σ σ', exTwo.new = .ok σ ∧ exTwo.set σ exB (.int 7) = (σ', none) ∧
    exTwo.validMessage σ' = .ok true ∧ (σ'.fv exA).value = none ∧ exTwo.bitstring σ' = .ok ⟨[]⟩ := by
  exact ⟨_, _, rfl, rfl, rfl, rfl, rfl⟩

end Verif.PyRFLX
