import Verif.Expr.Stable
import Verif.Verify.PathFacts

/-! # C73: checksums of accepted messages are defined, and checked -/

namespace Verif.Verify
open Verif Verif.Graph Verif.Types

/-! ## Specification -/

/-- The condition contains the attribute `Valid_Checksum` of the name (or of an expression with the name). -/
def Checks (i : ID) (e : Expr) : Prop :=
  ∃ ng pre, Subexpr (.attr ng .validChecksum pre) e ∧ ∃ n im j, Subexpr (.var n im j) pre ∧ j.key = i.key

/-- The lower bounds of a range: `X'First` and `X'Last + 1`. -/
inductive Lower (x : ID) : Expr → Prop
  | first {ng n im} : Lower x (.attr ng .first (.var n im x))
  | behind {ng n im b} : Lower x (.add [.attr ng .last (.var n im x), .num 1 b])

/-- The upper bounds of a range: `X'Last` and `X'First - 1`. -/
inductive Upper (x : ID) : Expr → Prop
  | last {ng n im} : Upper x (.attr ng .last (.var n im x))
  | before {ng n im b} : Upper x (.bin .sub (.attr ng .first (.var n im x)) (.num 1 b))

/-- What a checksum may cover: a field, the size of a field, and a range between two fields. -/
inductive Covers (m : Msg) : ChkExpr → Prop
  | field {ng im x} : (⟨x.key⟩ : Field) ∈ m.fields → Covers m (.plain (.var ng im x))
  | size {ng n im x} : (⟨x.key⟩ : Field) ∈ m.fields → Covers m (.plain (.attr ng .size (.var n im x)))
  | range {lower upper x y} : Lower x lower → Upper y upper → Covers m (.range lower upper)

/-- Attributes are attributes of names, as all attributes in specifications. -/
def ChkExpr.Named : ChkExpr → Prop
  | .plain e => ∀ ng a pre, e = .attr ng a pre → ∃ n im x, pre = .var n im x
  | .range l u => ∀ ng a pre, Subexpr (.attr ng a pre) l ∨ Subexpr (.attr ng a pre) u → ∃ n im x, pre = .var n im x

/-- The start of a range: `Message` stands for the beginning of the message. -/
def startOf (x : ID) : Field := if x.key = MESSAGE.key then INITIAL else ⟨x.key⟩

/-- The end of a range: `Message` stands for the end of the message. -/
def endOf (x : ID) : Field := if x.key = MESSAGE.key then FINAL else ⟨x.key⟩

variable {m : Msg}

/-! ## Lemmas -/

theorem accepted_checksums {s : Solver} (h : m.Accepted s) (hne : m.links ≠ []) : ∃ k, m.verifyChecksums k = .ok false := by
  obtain ⟨ty, k, h⟩ := h
  refine ⟨k, ?_⟩
  unfold Msg.new at h
  by_cases hid : m.id.parts.length ≤ 1
  · rw [if_pos hid] at h; cases h
  rw [if_neg hid] at h
  obtain ⟨pk, _, h⟩ := bind_ok (h : Except.bind _ _ = _)
  obtain ⟨ls, _, h⟩ := bind_ok (h : Except.bind _ _ = _)
  obtain ⟨fields, hf, h⟩ := bind_ok (h : Except.bind _ _ = _)
  obtain ⟨_, hv, h⟩ := bind_ok (h : Except.bind _ _ = _)
  have h : (Msg.mk m.id m.links fields m.types m.checksums) = m := by
    have := Except.ok.inj h
    exact this
  rw [h] at hv
  unfold Msg.verify at hv
  rw [if_neg (by cases hl : m.links <;> simp_all)] at hv
  obtain ⟨e1, h1, hv⟩ := bind_ok (hv : Except.bind _ _ = _)
  obtain ⟨e2, h2, hv⟩ := bind_ok (hv : Except.bind _ _ = _)
  obtain ⟨e3, h3, hv⟩ := bind_ok (hv : Except.bind _ _ = _)
  by_cases he : (e1 || e2 || e3) = true
  · rw [if_pos he] at hv; cases hv
  simp only [Bool.or_eq_true, not_or, Bool.not_eq_true] at he
  rw [h3, he.2]

/-- What the check of the checksums says. -/
theorem verifyChecksums_ok {k : Nat} (h : m.verifyChecksums k = .ok false) :
    (∀ c ∈ m.checksums, (⟨c.1.key⟩ : Field) ∈ m.fields ∧ ∀ e ∈ c.2, m.checkRange k e = .ok false ∧ e.supported = true ∧
      ∀ v ∈ e.variables, ∃ id, varId v = some id ∧ (⟨id.key⟩ : Field) ∈ m.fields) ∧
    ∃ cond, fieldCondition m.links k FINAL = .ok cond ∧
      (∀ c ∈ m.checksums, ∃ x ∈ findall isValidChecksum cond, ∃ i, checkedId x = some i ∧ i.key = c.1.key) ∧
      ∀ x ∈ findall isValidChecksum cond, ∀ i, checkedId x = some i → ∃ c ∈ m.checksums, i.key = c.1.key := by
  unfold Msg.verifyChecksums at h
  obtain ⟨a, ha, h⟩ := bind_ok (h : Except.bind _ _ = _)
  obtain ⟨cond, hcond, h⟩ := bind_ok (h : Except.bind _ _ = _)
  have h := Except.ok.inj h
  simp only [Bool.or_eq_false_iff] at h
  obtain ⟨⟨rfl, h1⟩, h2⟩ := h
  constructor
  · intro c hc
    have hc' := anyM_false ha c hc
    obtain ⟨bad, hbad, hc'⟩ := bind_ok (hc' : Except.bind _ _ = _)
    have hc' := Except.ok.inj hc'
    simp only [Bool.or_eq_false_iff, Bool.not_eq_false'] at hc'
    obtain ⟨hf, rfl⟩ := hc'
    refine ⟨by simpa using hf, fun e he => ?_⟩
    have he' := anyM_false hbad e he
    obtain ⟨r, hr, he'⟩ := bind_ok (he' : Except.bind _ _ = _)
    have he' := Except.ok.inj he'
    simp only [Bool.or_eq_false_iff, Bool.not_eq_false'] at he'
    obtain ⟨⟨hs, hv⟩, rfl⟩ := he'
    refine ⟨hr, hs, fun v hv' => ?_⟩
    have := List.any_eq_false.mp hv v hv'
    cases hid : varId v with
    | none => simp [hid] at this
    | some id => exact ⟨id, rfl, by simpa [hid] using this⟩
  · refine ⟨cond, hcond, fun c hc => ?_, fun x hx i hi => ?_⟩
    · have := List.any_eq_false.mp h1 c hc
      simp only [Bool.not_eq_true', Bool.not_eq_false, List.any_eq_true, List.mem_filterMap] at this
      obtain ⟨i, ⟨x, hx, hi⟩, he⟩ := this
      exact ⟨x, hx, i, hi, (ID.eq_iff_key _ _).mp he⟩
    · have := List.any_eq_false.mp h2 i (List.mem_filterMap.mpr ⟨x, hx, hi⟩)
      simp only [Bool.not_eq_true', Bool.not_eq_false, List.any_eq_true] at this
      obtain ⟨c, hc, he⟩ := this
      exact ⟨c, hc, (ID.eq_iff_key _ _).mp he⟩

/-! ### Simplification adds no checks -/

/-- Proof device: the name is not used. -/
def NoName (i : ID) (e : Expr) : Prop := ∀ n im j, Subexpr (.var n im j) e → j.key ≠ i.key

theorem noName_stable (i : ID) : Stable (NoName i) where
  tru := fun _ _ _ h => by cases h
  fls := fun _ _ _ h => by cases h
  num := fun _ _ _ _ _ h => by cases h
  var := fun ng im id h n' im' j hs => by
    cases hs
    exact h ng im id .refl
  flip := fun ng a pre h n im j hs => by
    cases hs with | attr hs => exact h n im j (.attr hs)
  sel := fun ng pre s h n im j hs => by
    cases hs with | sel hs => exact h n im j (.sel hs)
  call := fun ng id args h n im j hs => by
    cases hs with | call ha hs => exact h n im j (.call ha hs)
  attr := fun ng a pre pre' k h _ hp n im j hs => by
    cases hs with | attr hs => exact hp (fun n im j hs => h n im j (.attr hs)) n im j hs
  not := fun e => ⟨fun h n im j hs => h n im j (.not hs), fun h n im j hs => by cases hs with | not hs => exact h n im j hs⟩
  bool := fun op ts => ⟨fun h t ht n im j hs => h n im j (.bool ht hs),
    fun h n im j hs => by cases hs with | bool ht hs => exact h _ ht n im j hs⟩
  add := fun ts => ⟨fun h t ht n im j hs => h n im j (.add ht hs),
    fun h n im j hs => by cases hs with | add ht hs => exact h _ ht n im j hs⟩
  mul := fun ts => ⟨fun h t ht n im j hs => h n im j (.mul ht hs),
    fun h n im j hs => by cases hs with | mul ht hs => exact h _ ht n im j hs⟩
  agg := fun ts => ⟨fun h t ht n im j hs => h n im j (.agg ht hs),
    fun h n im j hs => by cases hs with | agg ht hs => exact h _ ht n im j hs⟩
  bin := fun op l r => ⟨fun h => ⟨fun n im j hs => h n im j (.binL hs), fun n im j hs => h n im j (.binR hs)⟩,
    fun h n im j hs => by
      cases hs with
      | binL hs => exact h.1 n im j hs
      | binR hs => exact h.2 n im j hs⟩
  rel := fun op l r => ⟨fun h => ⟨fun n im j hs => h n im j (.relL hs), fun n im j hs => h n im j (.relR hs)⟩,
    fun h n im j hs => by
      cases hs with
      | relL hs => exact h.1 n im j hs
      | relR hs => exact h.2 n im j hs⟩
  quant := fun q p l r => ⟨fun h => ⟨fun n im j hs => h n im j (.quantL hs), fun n im j hs => h n im j (.quantR hs)⟩,
    fun h n im j hs => by
      cases hs with
      | quantL hs => exact h.1 n im j hs
      | quantR hs => exact h.2 n im j hs⟩

theorem checks_iff {i : ID} {e : Expr} : ¬ Checks i e ↔ ∀ ng pre, Subexpr (.attr ng .validChecksum pre) e → NoName i pre :=
  ⟨fun h ng pre hs n im j hv he => h ⟨ng, pre, hs, n, im, j, hv, he⟩, fun h ⟨ng, pre, hs, n, im, j, hv, he⟩ => h ng pre hs n im j hv he⟩

/-- Proof device: the negation of `Checks`. -/
def NoCheck (i : ID) (e : Expr) : Prop := ∀ ng pre, Subexpr (.attr ng .validChecksum pre) e → NoName i pre

theorem noCheck_stable (i : ID) : Stable (NoCheck i) where
  tru := fun _ _ h => by cases h
  fls := fun _ _ h => by cases h
  num := fun _ _ _ _ h => by cases h
  var := fun _ _ _ _ _ _ h => by cases h
  flip := fun ng a pre h ng' p hs => by
    cases hs with
    | refl => exact h _ _ .refl
    | attr hs => exact h _ _ (.attr hs)
  sel := fun ng pre s h ng' p hs => by
    cases hs with | sel hs => exact h _ _ (.sel hs)
  call := fun ng id args h ng' p hs => by
    cases hs with | call ha hs => exact h _ _ (.call ha hs)
  attr := fun ng a pre pre' k h hk hp ng' p hs => by
    cases hs with
    | refl => exact (stableOK (noName_stable i) k).simp _ _ (h _ _ .refl) hk
    | attr hs => exact hp (fun ng p hs => h ng p (.attr hs)) _ _ hs
  not := fun e => ⟨fun h n p hs => h n p (.not hs), fun h n p hs => by cases hs with | not hs => exact h n p hs⟩
  bool := fun op ts => ⟨fun h t ht n p hs => h n p (.bool ht hs),
    fun h n p hs => by cases hs with | bool ht hs => exact h _ ht n p hs⟩
  add := fun ts => ⟨fun h t ht n p hs => h n p (.add ht hs),
    fun h n p hs => by cases hs with | add ht hs => exact h _ ht n p hs⟩
  mul := fun ts => ⟨fun h t ht n p hs => h n p (.mul ht hs),
    fun h n p hs => by cases hs with | mul ht hs => exact h _ ht n p hs⟩
  agg := fun ts => ⟨fun h t ht n p hs => h n p (.agg ht hs),
    fun h n p hs => by cases hs with | agg ht hs => exact h _ ht n p hs⟩
  bin := fun op l r => ⟨fun h => ⟨fun n p hs => h n p (.binL hs), fun n p hs => h n p (.binR hs)⟩,
    fun h n p hs => by
      cases hs with
      | binL hs => exact h.1 n p hs
      | binR hs => exact h.2 n p hs⟩
  rel := fun op l r => ⟨fun h => ⟨fun n p hs => h n p (.relL hs), fun n p hs => h n p (.relR hs)⟩,
    fun h n p hs => by
      cases hs with
      | relL hs => exact h.1 n p hs
      | relR hs => exact h.2 n p hs⟩
  quant := fun q x l r => ⟨fun h => ⟨fun n p hs => h n p (.quantL hs), fun n p hs => h n p (.quantR hs)⟩,
    fun h n p hs => by
      cases hs with
      | quantL hs => exact h.1 n p hs
      | quantR hs => exact h.2 n p hs⟩

theorem mapM_links {Q : Expr → Prop} {f : Link → Py Expr} : ∀ {ls : List Link} {us : List Expr}, ls.mapM f = .ok us →
    (∀ t ∈ ls, ∀ u, f t = .ok u → Q u) → ∀ u ∈ us, Q u
  | [], us, h, _ => by cases h; simp
  | t :: ts, us, h, hq => by
    rw [List.mapM_cons] at h
    obtain ⟨u, ht, h⟩ := py_bind h
    obtain ⟨vs, hts, h⟩ := py_bind h
    cases h
    intro x hx
    rcases List.mem_cons.mp hx with rfl | hx
    · exact hq t (by simp) _ ht
    · exact mapM_links hts (fun t' ht' => hq t' (by simp [ht'])) x hx

theorem stable_condition {Q : Expr → Prop} (h : Stable Q) {links : List Link} (hl : ∀ l ∈ links, Q l.condition) :
    ∀ (k : Nat) (f : Field) (e : Expr), computeFieldCondition links k f = .ok e → Q e
  | 0, _, _, he => by cases he
  | k + 1, f, e, he => by
    unfold computeFieldCondition at he
    split at he
    · cases he; exact h.tru
    · obtain ⟨ts, hts, he⟩ := py_bind he
      cases he
      refine (h.bool _ _).mpr (mapM_links hts fun l hl' u hu => ?_)
      obtain ⟨x, hx, hu⟩ := py_bind hu
      cases hu
      refine (h.bool _ _).mpr fun t ht => ?_
      simp only [List.mem_cons, List.not_mem_nil, or_false] at ht
      rcases ht with rfl | rfl
      · exact stable_condition h hl k _ _ hx
      · exact hl l (by simp only [incoming, List.mem_filter] at hl'; exact hl'.1)

theorem var_key {n n' im im' : Bool} {i j : ID} (h : (Expr.var n im i).eq (.var n' im' j) = true) : i.key = j.key := by
  simp only [Expr.eq, Bool.and_eq_true] at h
  exact (ID.eq_iff_key _ _).mp h.2.2

theorem one_eq {e : Expr} (h : e.eq (.n 1) = true) : ∃ b, e = .num 1 b := by
  cases e <;> simp [Expr.eq, Expr.cls, Expr.Cls.sub, Expr.n] at h
  rename_i v b
  exact ⟨b, by rw [h]⟩

theorem lower_vars {x : ID} {e : Expr} (h : Lower x e) : ∃ n im, findall isVar e = [.var n im x] := by
  cases h with
  | @first _ n im => exact ⟨n, im, by simp [findall, isVar]⟩
  | @behind _ n im => exact ⟨n, im, by simp [findall, findallL, isVar]⟩

theorem upper_vars {x : ID} {e : Expr} (h : Upper x e) : ∃ n im, findall isVar e = [.var n im x] := by
  cases h with
  | @last _ n im => exact ⟨n, im, by simp [findall, isVar]⟩
  | @before _ n im => exact ⟨n, im, by simp [findall, isVar]⟩

/-! ## C73 -/

/-- C73 (definition): every checksum of an accepted message belongs to a field of the message, and covers fields, sizes of fields and
ranges between fields only. -/
theorem C73_defined {s : Solver} (h : m.Accepted s) (hne : m.links ≠ []) : ∀ c ∈ m.checksums,
    (⟨c.1.key⟩ : Field) ∈ m.fields ∧ ∀ e ∈ c.2, e.Named → Covers m e := by
  obtain ⟨k, hk⟩ := accepted_checksums h hne
  intro c hc
  obtain ⟨hf, he⟩ := (verifyChecksums_ok hk).1 c hc
  refine ⟨hf, fun e hem hn => ?_⟩
  obtain ⟨_, hs, hv⟩ := he e hem
  cases e with
  | plain e =>
    unfold ChkExpr.supported at hs
    split at hs
    · rename_i ng im x heq
      cases heq
      obtain ⟨id, h1, h2⟩ := hv (.var ng im x) (by simp [ChkExpr.variables, findall, isVar])
      cases h1
      exact .field h2
    · rename_i ng pre heq
      cases heq
      obtain ⟨n, im, x, rfl⟩ := hn _ _ _ rfl
      obtain ⟨id, h1, h2⟩ := hv (.var n im x) (by simp [ChkExpr.variables, findall, isVar])
      cases h1
      exact .size h2
    · cases hs
    · rename_i heq; cases heq
  | range l u =>
    simp only [ChkExpr.supported, Bool.and_eq_true] at hs
    have h1 : ∃ x, Lower x l := by
      have hl := hs.1
      unfold validLower at hl
      split at hl
      · obtain ⟨n, im, x, rfl⟩ := hn _ _ _ (.inl .refl)
        exact ⟨x, .first⟩
      · obtain ⟨b, rfl⟩ := one_eq hl
        obtain ⟨n, im, x, rfl⟩ := hn _ _ _ (.inl (.add (List.mem_cons_self ..) .refl))
        exact ⟨x, .behind⟩
      · cases hl
    have h2 : ∃ x, Upper x u := by
      have hl := hs.2
      unfold validUpper at hl
      split at hl
      · obtain ⟨n, im, x, rfl⟩ := hn _ _ _ (.inr .refl)
        exact ⟨x, .last⟩
      · obtain ⟨b, rfl⟩ := one_eq hl
        obtain ⟨n, im, x, rfl⟩ := hn _ _ _ (.inr (.binL .refl))
        exact ⟨x, .before⟩
      · cases hl
    obtain ⟨x, h1⟩ := h1
    obtain ⟨y, h2⟩ := h2
    exact .range h1 h2

/-- C73 (ranges): whenever a message contains the field at the end of a range, it contains the field at the start of the range before. -/
theorem C73_range_partial {s : Solver} (h : m.Accepted s) (hr : m.Regular) (hne : m.links ≠ []) {c : ID × List ChkExpr} (hc : c ∈ m.checksums)
    {l u : Expr} (he : ChkExpr.range l u ∈ c.2) {x y : ID} (hx : Lower x l) (hy : Upper y u) (hxy : x.key ≠ y.key) {p : List Link}
    (hp : Path m.links INITIAL p (endOf y)) (hpn : p ≠ []) : ∃ k ∈ p, k.source = startOf x := by
  obtain ⟨k, hk⟩ := accepted_checksums h hne
  have hcr := (((verifyChecksums_ok hk).1 c hc).2 _ he).1
  obtain ⟨n, im, hl⟩ := lower_vars hx
  obtain ⟨n', im', hu⟩ := upper_vars hy
  simp only [Msg.checkRange, hl, hu] at hcr
  split at hcr
  · rename_i heq
    exact absurd (var_key heq) hxy
  · simp only [varId] at hcr
    obtain ⟨ps, hps, hcr⟩ := py_bind hcr
    have hcr := Except.ok.inj hcr
    have := List.any_eq_false.mp hcr p ((mem_paths h hr hps p).mpr ⟨hpn, hp⟩)
    simp only [Bool.not_eq_true', Bool.not_eq_false, List.any_eq_true, beq_iff_eq] at this
    obtain ⟨l', hl', he'⟩ := this
    exact ⟨l', hl', he'.symm⟩

/-- C73 (check): for every checksum of an accepted message there is a link whose condition checks it. -/
theorem C73_checked_partial {s : Solver} (h : m.Accepted s) (hne : m.links ≠ []) : ∀ c ∈ m.checksums, ∃ l ∈ m.links, Checks c.1 l.condition := by
  obtain ⟨k, hk⟩ := accepted_checksums h hne
  intro c hc
  obtain ⟨_, cond, hcond, h1, _⟩ := verifyChecksums_ok hk
  obtain ⟨x, hx, i, hi, hk⟩ := h1 c hc
  refine Classical.byContradiction fun hno => ?_
  have hQ : ∀ l ∈ m.links, NoCheck c.1 l.condition := fun l hl => checks_iff.mp fun hch => hno ⟨l, hl, hch⟩
  obtain ⟨e, he, hs⟩ := py_bind hcond
  have hce := (noCheck_stable c.1).simplified (stable_condition (noCheck_stable c.1) hQ k FINAL e he) hs
  obtain ⟨hsub, hv⟩ := C12_findall_sound _ _ _ hx
  unfold checkedId at hi
  split at hi
  · cases hi
    exact hce _ _ hsub _ _ _ .refl hk
  · cases hi

end Verif.Verify
