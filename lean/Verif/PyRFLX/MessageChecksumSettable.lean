import Verif.PyRFLX.MessageChecksumExample

/-! # Property C55: when a checksum is calculated -/

namespace Verif.PyRFLX

open Verif Verif.Types Verif.Bits Verif.Graph

/-! ## Specification -/

/-- `X'First` or `X'Last`. -/
inductive BoundaryOf : Expr → Field → Prop
  | first {ng a b i} : BoundaryOf (.attr ng .first (.var a b i)) i
  | last {ng a b i} : BoundaryOf (.attr ng .last (.var a b i)) i

/-- The field whose boundary a bound of a range is relative to. -/
inductive Bounds : Expr → Field → Prop
  | plain {e i} : BoundaryOf e i → Bounds e i
  | minus {e r i} : BoundaryOf e i → Bounds (.bin .sub e r) i
  | plus {e ts i} : e ∈ ts → BoundaryOf e i → Bounds (.add ts) i

/-- From `f` on, all fields up to the field `stop` are set, apart from checksums. -/
inductive SetUpTo (m : Msg) (names : List Field) (σ : State) (stop : Field) : Field → Prop
  | here : SetUpTo m names σ stop stop
  | next {f g} : m.nextField σ.mapping f = .ok (some g) → (g = FINAL ∨ g ∈ names ∨ (σ.fv g).isSet (m.typeOf g) = .ok true) →
      SetUpTo m names σ stop g → SetUpTo m names σ stop f

/-- The name `Message`. -/
def messageName : Field := ⟨[['M', 'e', 's', 's', 'a', 'g', 'e']]⟩

/-- Everything a range depends on is known: its bounds are numbers, and the fields of the range after its first one are set. -/
def RangeKnown (m : Msg) (names : List Field) (σ : State) (l u : Expr) : Prop :=
  (∃ a b, m.simplifiedIn σ.mapping l = .ok (.num a b)) ∧ (∃ a b, m.simplifiedIn σ.mapping u = .ok (.num a b)) ∧
  ∃ initial l' lo up stop, m.nextField σ.mapping INITIAL = .ok (some initial) ∧
    l.substituted [(.attr false .first messageVar, .attr false .first (.var false false initial))] = .ok l' ∧
    Bounds l' lo ∧ Bounds u up ∧ (up = messageName ∧ stop = FINAL ∨ up ≠ messageName ∧ stop = up) ∧ SetUpTo m names σ stop lo

/-! ## Lemmas -/

theorem foldl_boundary {ts : List Expr} {r : Option Field} {i : Field}
    (h : ts.foldl (fun r t => match t with
      | .attr _ .first (.var _ _ i) => some i
      | .attr _ .last (.var _ _ i) => some i
      | _ => r) r = some i) : r = some i ∨ ∃ e ∈ ts, BoundaryOf e i := by
  induction ts generalizing r with
  | nil => exact .inl h
  | cons t ts ih =>
    rw [List.foldl_cons] at h
    rcases ih h with h | ⟨e, he, hb⟩
    · split at h
      · cases h; exact .inr ⟨_, List.mem_cons_self, .first⟩
      · cases h; exact .inr ⟨_, List.mem_cons_self, .last⟩
      · exact .inl h
    · exact .inr ⟨e, by simp [he], hb⟩

theorem boundField_spec {e : Expr} {i : Field} (h : boundField e = .ok (some i)) : Bounds e i := by
  unfold boundField at h
  split at h <;> try (cases h; done)
  · cases h; exact .minus .first
  · cases h; exact .minus .last
  · rcases foldl_boundary (Except.ok.inj h) with h | ⟨e, he, hb⟩
    · cases h
    · exact .plus he hb
  · cases h; exact .plain .first
  · cases h; exact .plain .last

theorem pathLoop_spec {m : Msg} {names : List Field} {σ : State} {upper : Option Field} : ∀ {k : Nat} {f : Field},
    m.pathLoop names σ upper k f = .ok true → ∃ stop, upper = some stop ∧ SetUpTo m names σ stop f
  | 0, f, h => by
    unfold Msg.pathLoop at h
    split at h
    · rename_i hf; exact ⟨f, hf.symm, .here⟩
    · cases h
  | k + 1, f, h => by
    unfold Msg.pathLoop at h
    split at h
    · rename_i hf; exact ⟨f, hf.symm, .here⟩
    · obtain ⟨n, hn, h⟩ := bind_ok h
      cases n with
      | none => cases h
      | some g =>
        simp only at h
        split at h
        · rename_i hg
          obtain ⟨stop, h1, h2⟩ := pathLoop_spec h
          exact ⟨stop, h1, .next hn (hg.elim .inl fun h => .inr (.inl h)) h2⟩
        · obtain ⟨b, hb, h⟩ := bind_ok h
          cases b with
          | false => cases h
          | true =>
            obtain ⟨stop, h1, h2⟩ := pathLoop_spec (f := g) h
            exact ⟨stop, h1, .next hn (.inr (.inr hb)) h2⟩

theorem asNum_num {e : Expr} {n : Num} (h : asNum e = some n) : ∃ a b, e = .num a b := by
  unfold asNum at h
  split at h
  · exact ⟨_, _, rfl⟩
  · cases h

theorem paramsSettable_spec {m : Msg} {names : List Field} {σ : State} : ∀ {ps qs : List (Param × Param)},
    m.paramsSettable names σ ps = .ok (qs, true) → ∀ p ∈ ps, ∃ e, m.evalParam σ.mapping p.1 = .ok e ∧ m.paramSettable names σ p.1 e = .ok true
  | [], _, _, p, hp => by cases hp
  | (q, x) :: ps, qs, h, p, hp => by
    unfold Msg.paramsSettable at h
    obtain ⟨e, he, h⟩ := bind_ok h
    obtain ⟨b, hb, h⟩ := bind_ok h
    cases b with
    | false => simp at h
    | true =>
      simp only [if_true] at h
      obtain ⟨r, hr, h⟩ := map_ok h
      rcases List.mem_cons.mp hp with rfl | hp
      · exact ⟨e, he, hb⟩
      · obtain ⟨r1, r2⟩ := r
        simp only [Prod.mk.injEq] at h
        obtain ⟨_, rfl⟩ := h
        exact paramsSettable_spec hr p hp

/-! ## The property -/

/-- C55: a checksum is calculated automatically, or found to be right, only if everything its ranges depend on is known. Missing:
the first field of a range need not be set, see `C55_first_counterexample`. -/
theorem C55_known_partial (m : Msg) (names : List Field) (σ : State) (k k' : Check) (h : m.settable names σ k = .ok (k', true)) (l u : Expr)
    (x : Param) (hp : (Param.range l u, x) ∈ k.params) : RangeKnown m names σ l u := by
  obtain ⟨⟨qs, b⟩, hq, h⟩ := map_ok (h : (m.paramsSettable _ _ _).map _ = _)
  simp only [Prod.mk.injEq] at h
  obtain ⟨_, rfl⟩ := h
  obtain ⟨e, he, hs⟩ := paramsSettable_spec hq _ hp
  obtain ⟨l', hl, he⟩ := bind_ok (he : (m.simplifiedIn _ l).bind _ = _)
  obtain ⟨u', hu, rfl⟩ := map_ok he
  unfold Msg.paramSettable at hs
  simp only at hs
  split at hs
  · rename_i n n' hn hn'
    obtain ⟨a, b, rfl⟩ := asNum_num hn
    obtain ⟨a', b', rfl⟩ := asNum_num hn'
    unfold Msg.validPath at hs
    obtain ⟨g, hg, hs⟩ := bind_ok hs
    cases g with
    | none => cases hs
    | some g =>
      obtain ⟨lx, hlx, hs⟩ := bind_ok hs
      obtain ⟨lo, hlo, hs⟩ := bind_ok hs
      obtain ⟨up, hup, hs⟩ := bind_ok hs
      cases lo with
      | none => cases hs
      | some lo =>
        simp only at hs
        obtain ⟨stop, h1, h2⟩ := pathLoop_spec hs
        refine ⟨⟨a, b, hl⟩, ⟨a', b', hu⟩, g, lx, lo, ?_⟩
        split at h1
        · rename_i hm
          subst hm
          exact ⟨messageName, stop, hg, hlx, boundField_spec hlo, boundField_spec hup, .inl ⟨rfl, (Option.some.inj h1).symm⟩, h2⟩
        · rename_i hm
          subst h1
          exact ⟨stop, stop, hg, hlx, boundField_spec hlo, boundField_spec hup, .inr ⟨fun e => hm (by rw [e]; rfl), rfl⟩, h2⟩
  · cases hs

/-- C55: a parameter that still is a variable or an attribute after the values of all fields have been inserted belongs to a
field that is set. -/
theorem C55_known_value (m : Msg) (names : List Field) (σ : State) (k k' : Check) (h : m.settable names σ k = .ok (k', true))
    (e x : Param) (hp : (e, x) ∈ k.params) {ng imm i} (a : Option AttrKind) (he : m.evalParam σ.mapping e =
      .ok (.expr (match a with | none => .var ng imm i | some a => .attr false a (.var ng imm i)))) :
    ∃ f ∈ INITIAL :: m.fields, f.eq i = true ∧ (σ.fv f).isSet (m.typeOf f) = .ok true := by
  obtain ⟨⟨qs, b⟩, hq, h⟩ := map_ok (h : (m.paramsSettable _ _ _).map _ = _)
  simp only [Prod.mk.injEq] at h
  obtain ⟨_, rfl⟩ := h
  obtain ⟨e', he', hs⟩ := paramsSettable_spec hq _ hp
  rw [he] at he'
  cases he'
  have hs : m.namedSet σ i = .ok true := by cases a <;> cases e <;> exact hs
  unfold Msg.namedSet Msg.fieldNamed at hs
  cases hf : (INITIAL :: m.fields).find? fun f => f.eq i with
  | none => rw [hf] at hs; cases hs
  | some f =>
    rw [hf] at hs
    exact ⟨f, List.mem_of_find?_eq_some hf, List.find?_some (p := fun f : ID => f.eq i) hf, hs⟩

/-- The hypotheses of `C55_known_partial`: the checksum `a` of `b`, both set. -/
example : ∃ k' x, exLead.msg.settable exLead.names exLead57.st exLeadCheck = .ok (k', true) ∧
    (Param.range (.attr false .first (.var false false exB)) (.attr false .last (.var false false exB)), x) ∈ exLeadCheck.params :=
  ⟨_, _, by with_unfolding_all rfl, List.mem_singleton.mpr rfl⟩

/-- A message of three bytes `a`, `b` and `Tag`; `Tag` is a checksum of the range from `b` to `b`. -/
def exLate : CMsg where
  base :=
    { links := [⟨INITIAL, exA, .tru, .undefined, .undefined⟩, ⟨exA, exB, .tru, .undefined, .undefined⟩,
        ⟨exB, exTag, .tru, .undefined, .undefined⟩,
        ⟨exTag, FINAL, .attr false .validChecksum (.var false false exTag), .undefined, .undefined⟩]
      fields := [exA, exB, exTag]
      types := fun _ => .scalar (.int exByte) false
      lits := []
      fuel := 10 }
  names := [exTag]

/-- The checksum of `exLate`: `lo'First .. up'Last`. -/
def exLateCheck (lo up : Field) : Check :=
  { Check.new exTag [.range (.attr false .first (.var false false lo)) (.attr false .last (.var false false up))] with
    function := some exSum }

/-- The first field of a range is not looked at: the checksum of `b` is calculated, from wrong data, as soon as the place of `b` is
known, although `b` is not set. -/
theorem C55_first_counterexample : ∃ σ, crun exLate [exLateCheck exB exB] [(exA, 1)] = some σ ∧
    (σ.st.fv exB).isSet (exLate.msg.typeOf exB) = .ok false ∧ valueOf σ exTag = some 0 :=
  ⟨_, by with_unfolding_all rfl, by with_unfolding_all rfl, by with_unfolding_all rfl⟩

/-- The checksum of `a` and `b` is not calculated before `b` is set. -/
example : ∃ σ, crun exLate [exLateCheck exA exB] [(exA, 1)] = some σ ∧ valueOf σ exTag = none :=
  ⟨_, by with_unfolding_all rfl, by with_unfolding_all rfl⟩

/-- A message of a byte `a` and an opaque field `b` of one byte. -/
def exTail : Msg where
  links := [⟨INITIAL, exA, .tru, .undefined, .undefined⟩, ⟨exA, exB, .tru, .num 8 .b0, .undefined⟩,
    ⟨exB, FINAL, .tru, .undefined, .undefined⟩]
  fields := [exA, exB]
  types := fun f => if f = exA then .scalar (.int exByte) false else .opaque
  lits := []
  fuel := 10

/-- The state of `exTail` after both fields have been set. -/
def exTailSet : Py State :=
  exTail.new.bind fun σ =>
  match exTail.set σ exA (.int 1) with
  | (_, some e) => .error e
  | (σ, none) =>
    match exTail.set σ exB (.bytes [7]) with
    | (_, some e) => .error e
    | (σ, none) => .ok σ

/-- The hypotheses of `C55_known_value`: the parameter is an opaque field. -/
example : ∃ σ k' x, exTailSet = .ok σ ∧ exTail.settable [exA] σ (Check.new exA [.expr (.var false false exB)]) = .ok (k', true) ∧
    (Param.expr (.var false false exB), x) ∈ (Check.new exA [.expr (.var false false exB)]).params ∧
    exTail.evalParam σ.mapping (.expr (.var false false exB)) = .ok (.expr (.var false false exB)) :=
  ⟨_, _, _, by with_unfolding_all rfl, by with_unfolding_all rfl, List.mem_singleton.mpr rfl, by with_unfolding_all rfl⟩

end Verif.PyRFLX
