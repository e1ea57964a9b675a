import Verif.Refine.Guards

/-! # The generated function after any history of a context -/

namespace Verif.Refine
open Verif Verif.Graph Verif.Verify Verif.Types Verif.Gen Verif.Spark Verif.Ctx

section
variable {r : Ref} {c : Context} {b : Bytes} {lo hi : Int} {es : List Item} {p : Field} {pos : Int}

/-- The context holds the fields `es`, and no others are valid; the buffer may have been taken. -/
structure Holding (P : Pkg) (lo hi : Int) (c : Context) (b : Bytes) (es : List Item) (p : Field) (pos : Int) : Prop where
  buffer : c.buffer = some b ∨ c.buffer = none
  holds : Contains P b lo hi { c with buffer := some b } es p pos
  chained : Chained c es
  others : Others P c es

theorem Holding.sv {P : Pkg} (V : Holding P lo hi c b es p pos) {f : Field} (hf : f ∈ P.m.msg.fields) : (c.cursors f).sv = true ↔ f ∈ es.map (·.f) := by
  constructor
  · intro h
    by_cases hm : f ∈ es.map (·.f)
    · exact hm
    · have := V.others f hf hm
      simp only [Cursor.sv, Cursor.inv, Bool.or_eq_true, decide_eq_true_eq] at h this
      rcases h with h | h <;> rw [h] at this <;> rcases this with this | this <;> cases this
  · intro h
    obtain ⟨e, he, rfl⟩ := List.mem_map.mp h
    exact V.holds.cursors.sv e he

theorem field_ext {f g : Field} (h : f.parts = g.parts) : f = g := by cases f; cases g; simp_all

theorem comparable_scalar (N : Names r.pdu.m opts) {a d : Expr} (h : Comparable r a d) {f : Field} {t : FTy} (hf : (f, t) ∈ r.pdu.m.msg.types)
    (hn : ∃ id ∈ namesOf a ++ namesOf d, id.key = f.parts) : Scalar t := by
  have hfield : ∀ {e : Expr} {g : Field} {u : FTy}, IsField r e g u → (∃ id ∈ namesOf e, id.key = f.parts) → Scalar t := by
    rintro e g u ⟨id, rfl, hk, hg, hs⟩ ⟨id', hm, hk'⟩
    simp only [namesOf, Expr.v, List.mem_singleton] at hm
    subst hm
    obtain rfl : g = f := field_ext (hk.symm.trans hk')
    rw [nodup_pair N.once hf hg]; exact hs
  obtain ⟨id, hm, hk⟩ := hn
  rcases List.mem_append.1 hm with hm | hm
  · cases h with
    | number h1 => exact hfield h1 ⟨id, hm, hk⟩
    | literal h1 => exact hfield h1 ⟨id, hm, hk⟩
    | fields h1 => exact hfield h1 ⟨id, hm, hk⟩
  · cases h with
    | number _ h2 => rw [namesOf_const d h2.1] at hm; cases hm
    | @literal g u h1 h2 =>
      obtain ⟨_, _, _, hg, _⟩ := h1
      obtain ⟨id', rfl, l, hl, hlen, hk'⟩ := h2
      simp only [namesOf, Expr.v, List.mem_singleton] at hm
      subst hm
      have := (N.literal id ⟨u, mem_enums hg, l, hl, hk'.imp (·.1) fun h => h⟩).1
      rw [hk] at this
      exact absurd (N.typed _ hf) this
    | fields _ h2 => exact hfield h2 ⟨id, hm, hk⟩

/-- Fields in conditions are scalars. -/
theorem cond_scalar (N : Names r.pdu.m opts) {f : Field} {t : FTy} (hf : (f, t) ∈ r.pdu.m.msg.types) (e : Expr) : Cond r e → Occurs f e → Scalar t := by
  induction e using Expr.ind with
  | rel op x y =>
    intro h ho
    simp only [Cond] at h
    rcases h.2 with h | h
    · exact comparable_scalar N h hf (by simpa only [Occurs, namesOf] using ho)
    · refine comparable_scalar N h hf ?_
      obtain ⟨id, h1, h2⟩ := ho
      simp only [namesOf, List.mem_append] at h1 ⊢
      exact ⟨id, h1.symm, h2⟩
  | bool op ts ih =>
    intro h ho
    simp only [Cond, condL_iff] at h
    obtain ⟨id, h1, h2⟩ := ho
    simp only [namesOf] at h1
    obtain ⟨u, hu, h1⟩ := namesOfL_mem.1 h1
    exact ih u hu (h u hu) ⟨id, h1, h2⟩
  | tru => rintro _ ⟨id, h, _⟩; simp [namesOf] at h
  | fls => rintro _ ⟨id, h, _⟩; simp [namesOf] at h
  | _ => intro h; simp [Cond] at h

variable (W : WellFormed r.pdu) (V : Holding r.pdu lo hi c b es p pos)
include W V

theorem sv_iff {f : Field} (hf : f ∈ r.pdu.m.msg.fields) : (c.cursors f).sv = true ↔ ∃ e ∈ es, e.f = f := by
  rw [V.sv hf, List.mem_map]

/-- `Present`. -/
theorem present_iff {f : Field} (hf : f ∈ r.pdu.m.msg.fields) : present c f = true ↔ ∃ e ∈ es, e.f = f ∧ e.first ≤ e.last := by
  simp only [present, Bool.and_eq_true, decide_eq_true_eq, sv_iff W V hf]
  have hc := V.holds.cursors
  constructor
  · rintro ⟨⟨e, he, rfl⟩, h⟩
    have h1 := hc.first e he
    have h2 := hc.last e he
    simp only at h1 h2
    exact ⟨e, he, rfl, by omega⟩
  · rintro ⟨e, he, rfl, h⟩
    have h1 := hc.first e he
    have h2 := hc.last e he
    simp only at h1 h2
    exact ⟨⟨e, he, rfl⟩, by omega⟩

/-- `Valid` of a scalar. -/
theorem valid_iff {f : Field} {t : FTy} (hf : (f, t) ∈ r.pdu.m.msg.types) (hs : Scalar t) : valid c f = true ↔ ∃ e ∈ es, e.f = f := by
  have hm := W.names.typed _ hf
  have hc := V.holds.cursors
  constructor
  · intro h
    rw [← sv_iff W V hm]
    simp only [valid, Bool.and_eq_true, Cursor.ok, decide_eq_true_eq] at h
    simp [Cursor.sv, h.1]
  · rintro ⟨e, he, rfl⟩
    obtain ⟨t', ht', _, h2⟩ := follows_type V.holds.follows he
    obtain rfl := nodup_pair W.names.once hf ht'
    obtain ⟨n, hn, _, hl, _⟩ := h2 hs
    obtain ⟨n', hn', h1⟩ := W.sized _ _ hf hs
    rw [hn] at hn'; cases hn'
    have h3 := hc.ok e he (by rw [isComposite_iff W.names hf, (scalar_iff t).2 hs]; rfl)
    have h4 := hc.first e he
    have h5 := hc.last e he
    simp only at h3 h4 h5
    simp only [valid, h3, h4, h5, Bool.true_and, decide_eq_true_eq]
    omega

theorem fieldNumber_eq {e : Item} (he : e ∈ es) : fieldNumber es e.f = e.value := by
  unfold fieldNumber
  have := find_item (follows_nodup W V.holds.follows) he (k := e.f.parts) rfl
  rw [show es.find? (fun e' => e'.f == e.f) = some e from this]

/-- `Get_X`. -/
theorem get_ok {e : Item} (he : e ∈ es) {t : FTy} (hf : (e.f, t) ∈ r.pdu.m.msg.types) (hs : Scalar t) :
    r.get c e.f t = .ok (match t with
      | .enum t => if t.alwaysValid then (if t.literals.any (fun l => l.2 == e.value) then .known e.value else .raw e.value) else .num e.value
      | _ => .num e.value) := by
  have hv := (valid_iff W V hf hs).2 ⟨e, he, rfl⟩
  have hval : (c.cursors e.f).value = e.value := V.holds.cursors.value e he
  obtain ⟨t', ht', _, h2⟩ := follows_type V.holds.follows he
  obtain rfl := nodup_pair W.names.once hf ht'
  obtain ⟨n, hn, hb, _, hin⟩ := h2 hs
  have hlt := bitsAt_lt b e.first n.v.toNat
  obtain ⟨x, hx, hiff⟩ := validValue_ok W hf hs hn (v := e.value) (by rw [hb]; omega) (by rw [hb]; exact_mod_cast hlt)
  rw [hiff.2 hin] at hx
  simp only [Ref.get, hv, hval, hx, need, if_true]
  cases t <;> rfl

omit W V in
theorem any_known {t : Enum} {v : Int} : t.literals.any (fun l => l.2 == v) = true ↔ IsKnown (.enum t) v := by
  simp [IsKnown]

/-- Replaced fields have the values of the fields. -/
theorem fieldValue_exec {e : Item} (he : e ∈ es) {t : FTy} (hf : (e.f, t) ∈ r.pdu.m.msg.types) (hs : Scalar t) (hk : IsKnown t e.value) :
    r.exec c (r.fieldValue e.f t) = .ok (.num e.value) := by
  have hg := (getter_exec W.names hf hs c).trans (get_ok W V he hf hs)
  unfold Ref.fieldValue
  cases t with
  | int t => rw [if_neg (by simp [alwaysValid])]; exact hg
  | enum t =>
    have hk' := any_known.2 hk
    by_cases ha : t.alwaysValid = true
    · rw [if_pos (by exact ha)]
      simp only [ha, hk', if_true] at hg
      have : ENUM.key ≠ KNOWN.key := by decide
      rw [Ref.exec, hg]
      simp [bind, Except.bind, component, this]
    · rw [if_neg (by exact ha)]
      simpa only [ha, Bool.false_eq_true, if_false] using hg
  | _ => exact hs.elim

/-- `Known`. -/
theorem known_exec {e : Item} (he : e ∈ es) {t : FTy} (hf : (e.f, t) ∈ r.pdu.m.msg.types) (ha : alwaysValid t = true) :
    ∃ x, r.exec c (r.known e.f) = .ok (.bool x) ∧ (x = true ↔ IsKnown t e.value) := by
  cases t <;> simp only [alwaysValid, Bool.false_eq_true] at ha
  rename_i t
  have hg := (getter_exec W.names hf trivial c).trans (get_ok W V he hf trivial)
  simp only [ha, if_true] at hg
  refine ⟨t.literals.any (fun l => l.2 == e.value), ?_, any_known⟩
  unfold Ref.known
  rw [Ref.exec, hg]
  cases t.literals.any (fun l => l.2 == e.value) <;> simp [bind, Except.bind, component]

/-- The guards for always valid enumerations, given that the fields are valid. -/
theorem knowns_exec (hv : ∀ f t, (f, t) ∈ r.conditionFields → ∃ e ∈ es, e.f = f) :
    ∃ y, r.execThen c r.knowns = .ok y ∧ (y = true ↔ ∀ f t, (f, t) ∈ r.conditionFields → alwaysValid t = true → ∀ e ∈ es, e.f = f → IsKnown t e.value) := by
  have one : ∀ d : Field × FTy, d ∈ r.conditionFields → alwaysValid d.2 = true →
      ∃ x, r.exec c (r.known d.1) = .ok (.bool x) ∧ (x = true ↔ ∀ e ∈ es, e.f = d.1 → IsKnown d.2 e.value) := by
    rintro ⟨f, t⟩ hd ha
    obtain ⟨e, he, rfl⟩ := hv f t hd
    obtain ⟨x, h1, h2⟩ := known_exec W V he (conditionFields_mem W.names hd).1 ha
    refine ⟨x, h1, h2.trans ⟨fun hk e' he' hf => ?_, fun h => h e he rfl⟩⟩
    have h3 := fieldNumber_eq W V he
    have h4 := fieldNumber_eq W V he'
    simp only at hf
    rw [hf, h3] at h4
    rw [← h4]; exact hk
  have main : ∀ L : List (Field × FTy), (∀ d ∈ L, d ∈ r.conditionFields ∧ alwaysValid d.2 = true) →
      ∃ ts : List (Expr × Bool), L.map (fun e => r.known e.1) = ts.map (·.1) ∧ (∀ p ∈ ts, r.exec c p.1 = .ok (.bool p.2)) ∧
        ((∀ p ∈ ts, p.2 = true) ↔ ∀ d ∈ L, ∀ e ∈ es, e.f = d.1 → IsKnown d.2 e.value) := by
    intro L
    induction L with
    | nil => intro _; exact ⟨[], rfl, by simp, by simp⟩
    | cons d L ih =>
      intro h
      obtain ⟨ts, h1, h2, h3⟩ := ih fun d hd => h d (List.mem_cons_of_mem _ hd)
      obtain ⟨x, h4, h5⟩ := one d (h d List.mem_cons_self).1 (h d List.mem_cons_self).2
      refine ⟨(r.known d.1, x) :: ts, by simp [h1], ?_, ?_⟩
      · intro p hp
        rcases List.mem_cons.1 hp with rfl | hp
        · exact h4
        · exact h2 p hp
      · simp only [List.forall_mem_cons, h3, h5]
  obtain ⟨ts, h1, h2, h3⟩ := main (r.conditionFields.filter fun e => alwaysValid e.2) fun d hd => List.mem_filter.1 hd
  have h4 : r.knowns = ts.reverse.map (·.1) := by rw [Ref.knowns, h1, List.map_reverse]
  refine ⟨_, by rw [h4]; exact execThen_ok fun p hp => h2 p (List.mem_reverse.1 hp), ?_⟩
  have h5 : (ts.reverse.map (·.2)).all id = true ↔ ∀ p ∈ ts, p.2 = true := by simp
  rw [h5, h3]
  constructor
  · intro h f t hd ha e he hf
    exact h (f, t) (List.mem_filter.2 ⟨hd, ha⟩) e he hf
  · intro h d hd e he hf
    have := List.mem_filter.1 hd
    exact h d.1 d.2 this.1 this.2 e he hf

/-- The value of the function. -/
theorem contains_ok (S : Supported r) :
    ∃ x, r.contains c = .ok x ∧ (x = true ↔ c.buffer = some b ∧ Applies r b lo hi es) := by
  have N := W.names
  obtain ⟨ft, hft, hfs⟩ := S.field
  have hff : r.field ∈ r.pdu.m.msg.fields := N.typed _ hft
  have hcf : ∀ {f t}, (f, t) ∈ r.conditionFields ↔ (f, t) ∈ r.pdu.m.msg.types ∧ Occurs f r.condition := fun {f t} => conditionFields_iff N S.condition
  have hsc : ∀ {f t}, (f, t) ∈ r.conditionFields → Scalar t := fun h => cond_scalar N (hcf.1 h).1 _ S.condition (hcf.1 h).2
  let Safe : Prop := ∀ f t, (f, t) ∈ r.conditionFields → ∃ e ∈ es, e.f = f ∧ IsKnown t e.value
  have R : Readable r c es Safe := ⟨N, S, fun s f t hd hs => by
    obtain ⟨e, he, rfl, hk⟩ := s f t hd
    rw [fieldNumber_eq W V he]
    exact fieldValue_exec W V he (hcf.1 hd).1 hs hk⟩
  obtain ⟨e', D, hr⟩ := cond_replaced (b := b) (lo := lo) (hi := hi) R r.condition S.condition fun f t hf hn => hcf.2 ⟨hf, hn⟩
  obtain ⟨g, hg, G⟩ := expression_ok N (D := D) ⟨by simp, e', hr.subst, .inl ⟨rfl, hr.cond⟩⟩
  obtain ⟨ts, t1, t2, t3⟩ := conditions_exec (c := c) N hff r.nullSdu
  have hty : r.ty g = some .bool := G.ty fun g hg => by
    rcases List.mem_append.1 hg with hg | hg
    · exact conditions_ty N hff _ g hg
    · exact knowns_ty N g hg
  have hD : D = true ↔ IsTrue r.pdu.m.msg b lo hi es r.condition := by
    rw [IsTrue, hr.eval]; simp
  have hfield : (if r.nullSdu then (c.cursors r.field).sv = true ∧ present c r.field = false else present c r.field = true) ↔
      ∃ e ∈ es, e.f = r.field ∧ (r.sdu.m.msg.fields ≠ [] → e.first ≤ e.last) ∧ (r.sdu.m.msg.fields = [] → e.last < e.first) := by
    unfold Ref.nullSdu
    cases hn : r.sdu.m.msg.fields with
    | nil =>
      rw [List.isEmpty_nil, if_pos rfl, sv_iff W V hff, Bool.eq_false_iff, Ne, present_iff W V hff]
      constructor
      · rintro ⟨⟨e, he, hf⟩, h⟩
        refine ⟨e, he, hf, by simp, fun _ => ?_⟩
        apply Classical.byContradiction
        intro hle
        exact h ⟨e, he, hf, by omega⟩
      · rintro ⟨e, he, hf, _, h⟩
        refine ⟨⟨e, he, hf⟩, ?_⟩
        rintro ⟨e2, he2, hf2, hle⟩
        have hc := V.holds.cursors
        have a1 : (c.cursors e.f).first = e.first := hc.first e he
        have a2 : (c.cursors e.f).last = e.last := hc.last e he
        have a3 : (c.cursors e2.f).first = e2.first := hc.first e2 he2
        have a4 : (c.cursors e2.f).last = e2.last := hc.last e2 he2
        rw [hf] at a1 a2
        rw [hf2] at a3 a4
        have := h rfl
        omega
    | cons x xs =>
      simp only [List.isEmpty_cons, Bool.false_eq_true, if_false, present_iff W V hff]
      simp
  have hbuf : c.hasBuffer = true ↔ c.buffer = some b := by
    rcases V.buffer with h | h <;> simp [Context.hasBuffer, h]
  have hcont : ∀ x, r.exec c g = .ok (.bool x) → r.contains c = .ok x := by
    intro x hx
    simp only [Ref.contains, hg, ofPy, bind, Except.bind, hty, allTy, ATy.isBool, Bool.and_self, if_true, hx, AV.truth]
  by_cases hall : (ts.map (·.2)).all id = true
  · obtain ⟨h1, h2, h3⟩ := t3.1 hall
    have hv : ∀ f t, (f, t) ∈ r.conditionFields → ∃ e ∈ es, e.f = f := fun f t hd =>
      (valid_iff W V (hcf.1 hd).1 (hsc hd)).1 (h3 _ hd)
    obtain ⟨y, hy, hyk⟩ := knowns_exec W V hv
    have hg1 : r.execThen c (r.conditions r.nullSdu ++ r.knowns) = .ok y := by
      rw [execThen_append (by rw [t1]; exact execThen_ok t2), if_pos hall, hy]
    have hsafe : y = true ↔ Safe := by
      rw [hyk]
      constructor
      · intro h f t hd
        obtain ⟨e, he, rfl⟩ := hv f t hd
        refine ⟨e, he, rfl, ?_⟩
        by_cases ha : alwaysValid t = true
        · exact h _ _ hd ha e he rfl
        · cases t with
          | enum t =>
            obtain ⟨t', ht', _, h4⟩ := follows_type V.holds.follows he
            obtain rfl := nodup_pair N.once (hcf.1 hd).1 ht'
            obtain ⟨_, _, _, _, h5⟩ := h4 trivial
            rcases h5 with h5 | h5
            · exact absurd h5 ha
            · obtain ⟨l, hl, hlv⟩ := List.mem_map.1 h5
              exact ⟨l, hl, hlv⟩
          | _ => trivial
      · intro h f t hd _ e he hf
        obtain ⟨e2, he2, hf2, hk⟩ := h f t hd
        have h3 := fieldNumber_eq W V he
        have h4 := fieldNumber_eq W V he2
        rw [hf] at h3
        rw [hf2, h3] at h4
        rw [h4]; exact hk
    refine ⟨_, hcont _ (G.exec hg1 hsafe.1), ?_⟩
    rw [Bool.and_eq_true, hsafe, hD, ← hbuf]
    constructor
    · rintro ⟨h4, h5⟩
      exact ⟨h1, hfield.1 h2, fun f t hf ho => h4 f t (hcf.2 ⟨hf, ho⟩), h5⟩
    · rintro ⟨_, A⟩
      exact ⟨fun f t hd => A.fields f t (hcf.1 hd).1 (hcf.1 hd).2, A.condition⟩
  · have hg1 : r.execThen c (r.conditions r.nullSdu ++ r.knowns) = .ok false := by
      rw [execThen_append (by rw [t1]; exact execThen_ok t2), if_neg hall]
    refine ⟨_, hcont _ (G.exec hg1 (by simp)), ?_⟩
    simp only [Bool.false_and, Bool.false_eq_true, false_iff]
    rintro ⟨h1, A⟩
    refine hall (t3.2 ⟨hbuf.2 h1, hfield.2 A.field, fun d hd => ?_⟩)
    obtain ⟨e, he, hf, _⟩ := A.fields d.1 d.2 (hcf.1 hd).1 (hcf.1 hd).2
    exact (valid_iff W V (hcf.1 hd).1 (hsc hd)).2 ⟨e, he, hf⟩

end

end Verif.Refine
