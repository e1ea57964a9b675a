import Verif.PyRFLX.MessageValues

/-! # Messages that PyRFLX parses as expected: the class of messages and the way through them -/

namespace Verif.PyRFLX

open Verif Verif.Types Verif.Bits Verif.Graph

/-- The mapping of a new message, `rflx/pyrflx/typevalue.py:558-565`. -/
def initMapping : List (Expr × Expr) :=
  [(.attr false .size (.var false false INITIAL), .n 0), (.attr false .last (.var false false INITIAL), .n 0),
   (.attr false .first (.var false false INITIAL), .n 0), (.attr false .first messageVar, .n 0)]

/-- Specification: the values of the scalar fields are the result of assignments. -/
def Values (m : Msg) (fv : Field → FV) : Prop :=
  ∀ f s imp x, m.typeOf f = .scalar s imp → (fv f).value = some x → ∃ ex inp, assignValue (m.typeOf f) ex inp = .ok x

/-- Specification: the mapping that belongs to the values of the fields. -/
def Mapping (m : Msg) (fv : Field → FV) (M : List (Expr × Expr)) : Prop :=
  m.newMapping fv = .ok M ∨ (M = initMapping ∧ fv = m.newFV)

/-- Specification: the fields after `r`, and the message as a whole. -/
def late (m : Msg) (rank : Field → Nat) (r : Nat) : List ID := messageID :: m.fields.filter fun f => r < rank f

/-- Specification: the way through the message along `_next_field` from `a` over the given fields to `b`. -/
inductive Walk (m : Msg) (M : List (Expr × Expr)) : Field → List Field → Field → Prop
  | nil {a : Field} : Walk m M a [] a
  | cons {a b c : Field} {p : List Field} : m.nextField M a = .ok (some b) → b ≠ FINAL → Walk m M b p c → Walk m M a (b :: p) c

/-- Specification: a field that has not been set yet. An array is empty then. -/
def Fresh (t : FType) (v : FV) : Prop :=
  match t with
  | .array .. => v.value = some (.elems []) ∧ v.expected = none
  | _ => v.value = none

/-- Specification: messages which PyRFLX parses field by field. `rank` orders the fields, `rest` are the fields that extend to
the end of the message. -/
structure Well (m : Msg) (rank : Field → Nat) (rest : Field → Bool) : Prop where
  ranked : Ranked m.links rank
  /-- there is one first field, and it only follows `INITIAL` -/
  start : ∃ l0, outgoing m.links INITIAL = [l0] ∧ l0.condition = .tru ∧ l0.target ≠ FINAL ∧
    ∀ l ∈ m.links, l.target = l0.target → l.source = INITIAL
  links : ∀ l ∈ m.links, (l.source = INITIAL ∨ l.source ∈ m.fields) ∧ (l.target = FINAL ∨ l.target ∈ m.fields)
  noInitial : INITIAL ∉ m.fields
  noFinal : FINAL ∉ m.fields
  /-- no field has a `First` aspect -/
  noFirst : ∀ l ∈ m.links, l.first = .undefined
  /-- the names of fields are no numbers -/
  proper : Proper (messageID :: m.fields)
  /-- the literals stand for numbers, other names stand for truth -/
  lits : ∀ kv ∈ m.lits, (∃ v b, kv.2 = .num v b) ∨ (kv.2 = .tru ∧ ∀ id, kv.1.eq (.var false false id) = false)
  /-- the texts of enumeration values are no names of fields -/
  apart : ∀ f ∈ m.fields, ∀ ex inp txt n i, assignValue (m.typeOf f) ex inp = .ok (.scalar (.enum txt n)) →
    ID.ofStr txt = .ok i → Apart (messageID :: m.fields) i
  /-- conditions only refer to the source of the link and fields before it -/
  conditions : ∀ l ∈ m.links, FreeOf (late m rank (rank l.source)) l.condition
  /-- two links from the same field do not hold together, unless they lead to the same field -/
  exclusive : ∀ fv M, Values m fv → Mapping m fv M → ∀ l ∈ m.links, ∀ l' ∈ m.links, l.source = l'.source →
    m.holds M l.condition = .ok true → m.holds M l'.condition = .ok true → l.target = l'.target
  /-- a condition that holds before the source of the link is set still holds when it has been set -/
  stable : ∀ fv fv' M M', Values m fv → Values m fv' → Mapping m fv M → m.newMapping fv' = .ok M' → ∀ l ∈ m.links,
    (∀ g, rank g < rank l.source → fv g = fv' g) → Fresh (m.typeOf l.source) (fv l.source) →
    m.holds M l.condition = .ok true → m.holds M' l.condition = .ok true
  /-- scalar types are legal -/
  scalars : ∀ f ∈ m.fields, ∀ s imp, m.typeOf f = .scalar s imp → s.Fine
  /-- the size of a composite field that does not extend to the end is a fitting number when the fields before it are set -/
  sizes : ∀ l ∈ m.links, l.target ∈ m.fields → (m.typeOf l.target).isComposite = true → rest l.target = false →
    l.size.eq .undefined = false ∧
    ∀ fv M p, Values m fv → Mapping m fv M → Walk m M INITIAL p l.source →
      (∀ g ∈ p, (fv g).isSet (m.typeOf g) = .ok true) → m.holds M l.condition = .ok true →
      ∃ e n, m.simplifiedIn M l.size = .ok e ∧ asNum e = some n ∧ 0 ≤ n.v ∧ Fits (m.typeOf l.target) n.v.toNat
  /-- fields that extend to the end are opaque and the last ones, their size depends on the end of the message -/
  rests : ∀ f, rest f = true → m.typeOf f = .opaque ∧ (∀ l ∈ m.links, l.source = f → l.target = FINAL) ∧
    ∀ l ∈ m.links, l.target = f → ∀ fv M e, Values m fv →
      m.fieldMapping fv (INITIAL :: m.fields) = .ok M ∨ M = initMapping → m.simplifiedIn M l.size = .ok e → asNum e = none

section
variable {m : Msg} {rank : Field → Nat} {rest : Field → Bool}

/-! ## Equal results with equal values -/

theorem late_mem {r : Nat} {f : ID} (h : f ∈ late m rank r) : f ∈ messageID :: m.fields := by
  simp only [late, List.mem_cons, List.mem_filter] at h ⊢
  rcases h with h | h
  · exact .inl h
  · exact .inr h.1

theorem Well.properLate (w : Well m rank rest) (r : Nat) : Proper (late m rank r) := fun f hf => w.proper f (late_mem hf)

theorem sval_expr {x : SVal} {e : Expr} (h : x.expr = .ok e) : (∃ v, e = .n v) ∨ ∃ txt n i, x = .enum txt n ∧ ID.ofStr txt = .ok i ∧ e = .var false false i := by
  cases x with
  | int v => exact .inl ⟨v, by simpa [SVal.expr] using h.symm⟩
  | enum txt n =>
    obtain ⟨i, hi, rfl⟩ := map_ok (h : (ID.ofStr txt).map _ = _)
    exact .inr ⟨txt, n, i, rfl, hi, rfl⟩

theorem Well.simple (w : Well m rank rest) {fv : Field → FV} (hv : Values m fv) {M : List (Expr × Expr)} (hM : MappingOf m fv M)
    (bad : List ID) (hb : ∀ i ∈ bad, i ∈ messageID :: m.fields) : Simple (M ++ m.lits) ∧ ValuesApart bad (M ++ m.lits) := by
  have key : ∀ kv ∈ M ++ m.lits, ((∃ v b, kv.2 = .num v b) ∨ (kv.2 = .tru ∧ ∀ id, kv.1.eq (.var false false id) = false)) ∨
      ∃ i, kv.2 = .var false false i ∧ Apart bad i := by
    intro kv hkv
    rcases List.mem_append.mp hkv with hkv | hkv
    · rcases hM kv hkv with ⟨f, hf, hE⟩ | ⟨a, n, _, rfl⟩
      · rcases hE with ⟨s, imp, x, ht, hx, _, he⟩ | ⟨a, n, _, rfl⟩
        · rcases sval_expr he with ⟨v, h⟩ | ⟨txt, n, i, rfl, hi, h⟩
          · exact .inl (.inl ⟨v, .b0, h⟩)
          · refine .inr ⟨i, h, ?_⟩
            obtain ⟨ex, inp, ha⟩ := hv f _ _ _ ht hx
            have hf' : f ∈ m.fields := by
              rcases List.mem_cons.mp hf with rfl | hf
              · simp [Msg.typeOf] at ht
              · exact hf
            exact fun g hg => w.apart f hf' ex inp txt n i ha hi g (hb g hg)
        · exact .inl (.inl ⟨n.v, n.base, rfl⟩)
      · exact .inl (.inl ⟨n.v, n.base, rfl⟩)
    · exact .inl (w.lits kv hkv)
  refine ⟨fun kv hkv => ?_, fun kv hkv ng imm id h => ?_⟩
  · rcases key kv hkv with (h | h) | ⟨i, h, _⟩
    · exact .inl h
    · exact .inr (.inr h)
    · exact .inr (.inl ⟨i, h⟩)
  · rcases key kv hkv with (⟨v, b, h'⟩ | ⟨h', _⟩) | ⟨i, h', ha⟩
    · rw [h'] at h; cases h
    · rw [h'] at h; cases h
    · rw [h'] at h; cases h; exact ha

/-- The value of an expression that only refers to fields up to `r` depends on the values of these fields only. -/
theorem Well.congr (w : Well m rank rest) {fv fv' : Field → FV} (hv : Values m fv) {M M' : List (Expr × Expr)}
    (hM : m.newMapping fv = .ok M) (hM' : m.newMapping fv' = .ok M') (r : Nat)
    (heq : ∀ g ∈ INITIAL :: m.fields, rank g ≤ r → fv g = fv' g) (hi : fv INITIAL = fv' INITIAL) {e : Expr} (he : FreeOf (late m rank r) e) :
    m.simplifiedIn M e = m.simplifiedIn M' e := by
  obtain ⟨h1, h2⟩ := w.simple hv (newMapping_mem hM) (late m rank r) fun i hi => late_mem hi
  refine simplifiedIn_congr m h1 h2 (fun n hn => ?_) he
  refine newMapping_agree (w.properLate r) (by simp [late]) hM hM' (fun f hf => ?_) hn
  by_cases hr : rank f ≤ r
  · exact .inl (heq f hf hr)
  · rcases List.mem_cons.mp hf with rfl | hf
    · exact .inl hi
    · exact .inr (by simp [late, hf]; omega)

theorem firstTrue_congr {M M' : List (Expr × Expr)} {ls : List Link} (h : ∀ l ∈ ls, m.holds M l.condition = m.holds M' l.condition) :
    m.firstTrue M ls = m.firstTrue M' ls := by
  induction ls with
  | nil => rfl
  | cons l ls ih =>
    simp only [Msg.firstTrue]
    rw [h l (by simp), ih fun l hl => h l (List.mem_cons_of_mem _ hl)]

theorem next_congr {M M' : List (Expr × Expr)} {f : Field} (h : ∀ l ∈ m.links, l.source = f → m.holds M l.condition = m.holds M' l.condition) :
    m.nextField M f = m.nextField M' f := by
  unfold Msg.nextField
  split
  · rfl
  split
  · rfl
  · exact firstTrue_congr fun l hl => h l (mem_outgoing hl).1 (mem_outgoing hl).2

theorem Well.next (w : Well m rank rest) {fv fv' : Field → FV} (hv : Values m fv) {M M' : List (Expr × Expr)}
    (hM : m.newMapping fv = .ok M) (hM' : m.newMapping fv' = .ok M') (f : Field)
    (heq : ∀ g, rank g ≤ rank f → fv g = fv' g) (hi : fv INITIAL = fv' INITIAL) : m.nextField M f = m.nextField M' f := by
  refine next_congr fun l hl hs => ?_
  unfold Msg.holds
  rw [w.congr hv hM hM' (rank f) (fun g _ => heq g) hi (hs ▸ w.conditions l hl)]

/-! ## Walks -/

theorem Walk.snoc {M : List (Expr × Expr)} {a b c : Field} {p : List Field} (h : Walk m M a p b)
    (hn : m.nextField M b = .ok (some c)) (hc : c ≠ FINAL) : Walk m M a (p ++ [c]) c := by
  induction h with
  | nil => exact .cons hn hc .nil
  | cons h1 h2 _ ih => exact .cons h1 h2 (ih hn)

theorem Walk.mem_last {M : List (Expr × Expr)} {a b : Field} {p : List Field} (h : Walk m M a p b) : (p = [] ∧ a = b) ∨ b ∈ p := by
  induction h with
  | nil => exact .inl ⟨rfl, rfl⟩
  | cons _ _ _ ih =>
    rcases ih with ⟨rfl, rfl⟩ | h
    · exact .inr (by simp)
    · exact .inr (List.mem_cons_of_mem _ h)

theorem next_rank' (hr : Ranked m.links rank) {M : List (Expr × Expr)} {f g : Field}
    (h : m.nextField M f = .ok (some g)) (hg : g ≠ FINAL) : rank f < rank g := by
  rcases next_rank hr h with h | h
  · exact absurd h hg
  · exact h

theorem Walk.rank_le (hr : Ranked m.links rank) {M : List (Expr × Expr)} {a b : Field} {p : List Field} (h : Walk m M a p b) :
    rank a ≤ rank b ∧ ∀ g ∈ p, rank a < rank g ∧ rank g ≤ rank b := by
  induction h with
  | nil => simp
  | cons h1 h2 _ ih =>
    have := next_rank' hr h1 h2
    refine ⟨by omega, fun g hg => ?_⟩
    rcases List.mem_cons.mp hg with rfl | hg
    · exact ⟨this, ih.1⟩
    · have := ih.2 g hg
      omega

theorem Walk.not_final {M : List (Expr × Expr)} {a b : Field} {p : List Field} (h : Walk m M a p b) : ∀ g ∈ p, g ≠ FINAL := by
  induction h with
  | nil => simp
  | cons h1 h2 _ ih =>
    intro g hg
    rcases List.mem_cons.mp hg with rfl | hg
    · exact h2
    · exact ih g hg

/-- A field on the walk other than the last one is followed by a field on the walk. -/
theorem Walk.succ {M : List (Expr × Expr)} {a b : Field} {p : List Field} (h : Walk m M a p b) :
    ∀ g ∈ a :: p, g = b ∨ ∃ c ∈ p, m.nextField M g = .ok (some c) := by
  induction h with
  | nil => intro g hg; simp at hg; exact .inl hg
  | cons h1 h2 _ ih =>
    intro g hg
    rcases List.mem_cons.mp hg with rfl | hg
    · exact .inr ⟨_, by simp, h1⟩
    · rcases ih g hg with h | ⟨c, hc, h⟩
      · exact .inl h
      · exact .inr ⟨c, List.mem_cons_of_mem _ hc, h⟩

theorem Walk.congr {M M' : List (Expr × Expr)} {a b : Field} {p : List Field} (h : Walk m M a p b)
    (heq : ∀ g ∈ a :: p, m.nextField M g = m.nextField M' g) : Walk m M' a p b := by
  induction h with
  | nil => exact .nil
  | cons h1 h2 _ ih =>
    exact .cons ((heq _ List.mem_cons_self).symm.trans h1) h2 (ih fun g hg => heq g (List.mem_cons_of_mem _ hg))

theorem Well.initial_next (w : Well m rank rest) : ∃ l0, outgoing m.links INITIAL = [l0] ∧ l0.condition = .tru ∧ l0.target ≠ FINAL ∧
    (∀ l ∈ m.links, l.target = l0.target → l = l0) ∧ ∀ M, m.nextField M INITIAL = .ok (some l0.target) := by
  obtain ⟨l0, h1, h2, h3, h4⟩ := w.start
  refine ⟨l0, h1, h2, h3, fun l hl ht => ?_, fun M => ?_⟩
  · have hs := h4 l hl ht
    have : l ∈ outgoing m.links INITIAL := by simp [outgoing, hl, hs]
    rw [h1] at this
    simpa using this
  · unfold Msg.nextField
    rw [if_neg (by decide), if_pos rfl, h1]

theorem holds_tru (M : List (Expr × Expr)) : m.holds M .tru = .ok true := rfl

/-- The link that `_next_field` follows holds. -/
theorem Well.next_holds (w : Well m rank rest) {M : List (Expr × Expr)} {f g : Field} (h : m.nextField M f = .ok (some g)) :
    ∃ l ∈ m.links, l.source = f ∧ l.target = g ∧ m.holds M l.condition = .ok true := by
  by_cases hf : f = INITIAL
  · subst hf
    obtain ⟨l0, h1, h2, _, _, h5⟩ := w.initial_next
    rw [h5] at h
    have : l0 ∈ outgoing m.links INITIAL := by simp [h1]
    obtain ⟨h6, h7⟩ := mem_outgoing this
    exact ⟨l0, h6, h7, by simpa using h, by rw [h2]; rfl⟩
  · rcases next_link h with ⟨h, _⟩ | ⟨l, h1, h2, h3, h4 | h4⟩
    · exact absurd h hf
    · exact absurd h4 hf
    · exact ⟨l, h1, h2, h3, h4⟩

/-! ## The previous field -/

theorem trueSources_mem {M : List (Expr × Expr)} {ls : List Link} {fs : List Field} (h : m.trueSources M ls = .ok fs) (g : Field) :
    g ∈ fs ↔ ∃ l ∈ ls, l.source = g ∧ m.holds M l.condition = .ok true := by
  induction ls generalizing fs with
  | nil =>
    simp only [Msg.trueSources, Except.ok.injEq] at h
    subst h
    simp
  | cons l ls ih =>
    obtain ⟨b, hb, h⟩ := bind_ok (h : (m.holds M l.condition).bind _ = _)
    obtain ⟨fs', hfs, rfl⟩ := map_ok h
    cases b with
    | true => simp [ih hfs, hb, eq_comm]
    | false => simp [ih hfs, hb]

theorem trueSources_single {M : List (Expr × Expr)} {l : Link} {fs : List Field} (h : m.trueSources M [l] = .ok fs)
    (hl : m.holds M l.condition = .ok true) : fs = [l.source] := by
  simpa [Msg.trueSources, hl, Except.bind, Except.map, eq_comm] using h

/-- `_prev_field` of the next field on the walk. -/
theorem Well.prev (w : Well m rank rest) {fv : Field → FV} {σ : State} (hv : Values m fv) (hM : Mapping m fv σ.mapping)
    {p : List Field} {e f : Field} (hw : Walk m σ.mapping INITIAL p e) (hn : m.nextField σ.mapping e = .ok (some f)) (hf : f ≠ FINAL)
    (hp : ∀ g ∈ p, g ∈ σ.accessible) (hacc : ∀ g ∈ σ.accessible, g ∈ p ∨ rank f ≤ rank g) {r : Option Field}
    (h : m.prevField σ f = .ok r) : r = some e := by
  have hrk := next_rank' w.ranked hn hf
  have hfi : f ≠ INITIAL := by
    rintro rfl
    have := (hw.rank_le w.ranked).1
    omega
  unfold Msg.prevField at h
  rw [if_neg hfi] at h
  obtain ⟨fs, hfs, hr⟩ := map_ok h
  clear h
  obtain ⟨l, hl, hls, hlt, hlh⟩ := w.next_holds hn
  have hmem := trueSources_mem hfs
  have he : e ∈ fs := (hmem e).mpr ⟨l, by simp [incoming, hl, hlt], hls, hlh⟩
  by_cases hei : e = INITIAL
  · subst hei
    obtain ⟨l0, h1, h2, h3, h4, h5⟩ := w.initial_next
    rw [h5] at hn
    simp only [Except.ok.injEq, Option.some.injEq] at hn
    subst hn
    have hin : incoming m.links l0.target = [l0] := by
      rw [← h1]
      refine List.filter_congr fun l hl => ?_
      have : l.target = l0.target ↔ l.source = INITIAL := by
        constructor
        · intro ht
          rw [h4 l hl ht]
          exact (mem_outgoing (show l0 ∈ outgoing m.links INITIAL by simp [h1])).2
        · intro hs
          have : l ∈ outgoing m.links INITIAL := by simp [outgoing, hl, hs]
          rw [h1] at this
          rw [List.mem_singleton.mp this]
      rw [Bool.eq_iff_iff, beq_iff_eq, beq_iff_eq]
      exact this
    rw [hin] at hfs
    rw [trueSources_single hfs (by rw [h2]; rfl)] at hr
    rw [← hr, (mem_outgoing (show l0 ∈ outgoing m.links INITIAL by simp [h1])).2]
  · have hep : e ∈ p := by
      rcases hw.mem_last with ⟨_, h⟩ | h
      · exact absurd h.symm hei
      · exact h
    have huniq : ∀ g ∈ fs, g ∈ σ.accessible → g = e := by
      intro g hg hga
      obtain ⟨l', hl', hs', hh'⟩ := (hmem g).mp hg
      obtain ⟨hl'1, hl'2⟩ := mem_incoming hl'
      rcases hacc g hga with hgp | hgr
      · rcases hw.succ g (List.mem_cons_of_mem _ hgp) with h | ⟨c, hc, hgc⟩
        · exact h
        · obtain ⟨l2, hl2, hs2, ht2, hh2⟩ := w.next_holds hgc
          have hfc := w.exclusive fv _ hv hM l' hl'1 l2 hl2 (by rw [hs', hs2]) hh' hh2
          rw [hl'2, ht2] at hfc
          have := (hw.rank_le w.ranked).2 c hc
          rw [hfc] at hrk
          omega
      · have := w.ranked l' hl'1
        rw [hs', hl'2] at this
        omega
    have hfind : fs.find? (fun g => σ.accessible.contains g) = some e := by
      cases hfd : fs.find? (fun g => σ.accessible.contains g) with
      | none =>
        rw [List.find?_eq_none] at hfd
        exact absurd (by simpa using hp e hep) (hfd e he)
      | some g =>
        have h1 := List.mem_of_find?_eq_some hfd
        have h2 := List.find?_some hfd
        rw [huniq g h1 (by simpa using h2)]
    rw [← hr]
    split
    · simp only [List.mem_singleton] at he
      rw [he]
    · exact hfind

end
end Verif.PyRFLX
