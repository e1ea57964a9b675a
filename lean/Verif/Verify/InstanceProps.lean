import Verif.Verify.Instances
import Verif.Verify.Example

/-! # C72: fields and instances of accepted messages -/

namespace Verif.Verify
open Verif Verif.Graph Verif.Types

set_option linter.unusedSimpArgs false

/-! ## Specification -/

/-- The conditions and aspects of a link are conditions on numbers, and numbers. -/
def SimpleLink (l : Link) : Prop :=
  Condition l.condition ∧ (l.size ≠ .undefined → Numeric l.size) ∧ (l.first ≠ .undefined → Numeric l.first)

/-- Messages of this kind: in addition to the above, moduli are numbers. -/
structure Msg.Simple (m : Msg) : Prop where
  link : ∀ l ∈ m.links, SimpleLink l
  modulus : ∀ e ∈ m.types, ∀ t, e.2 = .int (.modular t) → Numeric t.modulus

/-- All fields have values of their types (in particular, one of the literals of an enumeration), and the message starts and ends at
byte boundaries. -/
structure Valued (m : Msg) (ρ : Env) : Prop where
  start : ∃ F, ρ.attr .first MESSAGE.key = .int F ∧ F % 8 = 1
  total : ∃ S, ρ.attr .size MESSAGE.key = .int S ∧ S % 8 = 0
  value : ∀ e ∈ m.types, e.2.isScalar = true → e.1.key ≠ MESSAGE.key → e.1 ≠ FINAL →
    ∃ v, ρ.var e.1.key = .int v ∧ e.2.Contains v

variable {D : Division} {M : ZModel} {m : Msg}

/-! ## Lemmas -/

/-- The size of the target of a link is known: by an aspect or by its type. -/
def Sized (m : Msg) (l : Link) : Prop :=
  l.size ≠ .undefined ∨ l.target = FINAL ∨ ∀ t, m.type? l.target = some t → t.isScalar = true

theorem simple_targetFirst {l : Link} (h : SimpleLink l) : Numeric (targetFirst l) := by
  unfold targetFirst
  split
  · exact numeric_at (by simp) _
  · split
    · rename_i hu
      exact h.2.2 fun hh => by simp [(undef_eq l.first).mpr hh] at hu
    · simp [Numeric, NumericL, at', Expr.n]

theorem starts_back {l : Link} {a : Int} (h : eval D (envOf M) (targetFirst l) = some (.int a)) :
    Starts D (envOf M) (M.name (.attr .first false MESSAGE.key)) l a := by
  unfold targetFirst at h
  split at h
  · rename_i hi
    rw [eval_at_env (by simp)] at h
    simp only [Option.some.injEq, Val.int.injEq] at h
    exact .inl ⟨hi, h.symm⟩
  · rename_i hi
    split at h
    · rename_i hu
      exact .inr (.inr ⟨hi, fun hh => by simp [(undef_eq l.first).mpr hh] at hu, h⟩)
    · rename_i hu
      have hu : l.first = .undefined := (undef_eq l.first).mp (by simpa using hu)
      refine .inr (.inl ⟨hi, hu, _, attr_env (by simp) _, ?_⟩)
      simp only [eval, evalL, eval_at_env (k := .last) (by simp), Expr.n, Option.bind_some, allSome, Val.int?, intSum,
        Option.some.injEq, Val.int.injEq] at h
      omega

theorem spans_back {l : Link} {e : Expr} {n : Int} (hs : Sized m l) (ht : m.targetSize l = .ok e)
    (h : eval D (envOf M) e = some (.int n)) : Spans D m (envOf M) l n := by
  unfold Msg.targetSize at ht
  split at ht
  · rename_i hu
    cases ht
    exact .inl ⟨fun hh => by simp [(undef_eq l.size).mpr hh] at hu, h⟩
  · rename_i hu
    have hu : l.size = .undefined := (undef_eq l.size).mp (by simpa using hu)
    unfold Msg.fieldSize at ht
    split at ht
    · rename_i hf
      cases ht
      simp only [eval, Expr.n, Option.some.injEq, Val.int.injEq] at h
      exact .inr (.inl ⟨hu, hf, h.symm⟩)
    · rename_i hf
      split at ht
      · split at ht
        · cases ht
        · rename_i t htt
          have hsc : t.isScalar = true := by
            rcases hs with hs | hs | hs
            · exact absurd hu hs
            · exact absurd hs hf
            · exact hs t htt
          rw [if_pos hsc] at ht
          obtain ⟨s, hsz, ht⟩ := bind_ok (ht : (t.size).bind _ = _)
          cases ht
          simp only [eval, Num.expr, Option.some.injEq, Val.int.injEq] at h
          exact .inr (.inr ⟨hu, hf, t, s, htt, hsz, h.symm⟩)
      · cases ht

theorem simple_targetSize {l : Link} {e : Expr} (h : SimpleLink l) (hs : Sized m l) (ht : m.targetSize l = .ok e) :
    Numeric e ∧ e ≠ .undefined := by
  unfold Msg.targetSize at ht
  split at ht
  · rename_i hu
    cases ht
    have hu : l.size ≠ .undefined := fun hh => by simp [(undef_eq l.size).mpr hh] at hu
    exact ⟨h.2.1 hu, hu⟩
  · rename_i hu
    have hu : l.size = .undefined := (undef_eq l.size).mp (by simpa using hu)
    unfold Msg.fieldSize at ht
    split at ht
    · cases ht
      simp [Numeric, Expr.n]
    · rename_i hf
      split at ht
      · split at ht
        · cases ht
        · rename_i t htt
          have hsc : t.isScalar = true := by
            rcases hs with hs | hs | hs
            · exact absurd hu hs
            · exact absurd hs hf
            · exact hs t htt
          rw [if_pos hsc] at ht
          obtain ⟨s, hsz, ht⟩ := bind_ok (ht : (t.size).bind _ = _)
          cases ht
          simp [Numeric, Num.expr]
      · cases ht

/-- If the facts about a path hold then the interpretation describes a message that follows the path. -/
theorem layout_back (hD : Floors D) {p : List Link} (hne : p ≠ []) (hsl : ∀ l ∈ p, SimpleLink l ∧ Sized m l) {fs : List Expr}
    (hfs : m.pathFacts p = .ok fs) (h : Holds M fs) :
    Layout D m (envOf M) (M.name (.attr .first false MESSAGE.key)) (M.name (.attr .last false MESSAGE.key)) p := by
  have hn : ∀ {k : AttrKind} {x : ID}, k ≠ .validChecksum → Numeric (at' k x) := fun hk => numeric_at hk _
  have link : ∀ l ∈ p, ∃ gs, m.linkExpression l = .ok gs ∧ ∀ c ∈ gs, zeval M c = .ok (.bool true) := by
    intro l hl
    obtain ⟨gs, hgs⟩ := concatM_ok hfs l hl
    exact ⟨gs, hgs, fun c hc => h c ((concatM_mem hfs c).mpr ⟨l, hl, gs, hgs, hc⟩)⟩
  have msg : ∀ l ∈ p, ∀ c ∈ messageFacts l.target, zeval M c = .ok (.bool true) := by
    intro l hl c hc
    obtain ⟨gs, hgs, hg⟩ := link l hl
    obtain ⟨_, _, _, _, hm⟩ := linkExpression_mem hgs
    exact hg c ((hm c).mpr (.inr (.inr (.inl hc))))
  obtain ⟨l₀, hl₀⟩ := List.exists_mem_of_ne_nil p hne
  have F0 : 0 ≤ M.name (.attr .first false MESSAGE.key) := by
    obtain ⟨i, j, hi, hj, hij⟩ := ge_back (D := D) hD (hn (by simp)) (by simp [Numeric, Expr.n])
      (msg l₀ hl₀ (.rel .ge (at' .first MESSAGE) (.n 0)) (by simp [messageFacts]))
    rw [eval_at_env (by simp)] at hi
    cases hi; cases hj
    exact hij
  have FL : M.name (.attr .first false MESSAGE.key) ≤ M.name (.attr .last false MESSAGE.key) := by
    obtain ⟨i, j, hi, hj, hij⟩ := ge_back (D := D) hD (hn (by simp)) (hn (by simp))
      (msg l₀ hl₀ (.rel .ge (at' .last MESSAGE) (at' .first MESSAGE)) (by simp [messageFacts]))
    rw [eval_at_env (by simp)] at hi hj
    cases hi; cases hj
    exact hij
  have SZ : M.name (.attr .size false MESSAGE.key) = M.name (.attr .last false MESSAGE.key) - M.name (.attr .first false MESSAGE.key) + 1 := by
    obtain ⟨i, hi, hj⟩ := eq_back (D := D) hD (hn (by simp)) (by simp [Numeric, NumericL, at', Expr.n])
      (msg l₀ hl₀ (.rel .eq (at' .size MESSAGE) (.add [.bin .sub (at' .last MESSAGE) (at' .first MESSAGE), .n 1])) (by simp [messageFacts]))
    rw [eval_at_env (by simp)] at hi
    cases hi
    simp only [eval, evalL, eval_at_env (k := .last) (by simp), eval_at_env (k := .first) (by simp), ArithOp.eval, Option.map_some, Expr.n,
      Option.bind_some, allSome, Val.int?, intSum, Option.some.injEq, Val.int.injEq] at hj
    omega
  refine ⟨attr_env (by simp) _, attr_env (by simp) _, by rw [attr_env (by simp), SZ], F0, FL, ?_, ?_⟩
  · intro l hl
    obtain ⟨gs, hgs, hg⟩ := link l hl
    obtain ⟨size, last, h1, h2, hm⟩ := linkExpression_mem hgs
    obtain ⟨hsim, hsz⟩ := hsl l hl
    obtain ⟨hnum, hundef⟩ := simple_targetSize hsim hsz h1
    have hfirst := simple_targetFirst hsim
    obtain ⟨a, ha, ha'⟩ := eq_back (D := D) hD (hn (by simp)) hfirst (hg _ ((hm _).mpr (.inl rfl)))
    obtain ⟨n, hn1, hn2⟩ := eq_back (D := D) hD (hn (by simp)) hnum (hg _ ((hm _).mpr (.inr (.inl ⟨hundef, .inl rfl⟩))))
    have hlast : last = .bin .sub (.add [targetFirst l, size]) (.n 1) := by
      unfold Msg.targetLast at h2
      rw [h1] at h2
      cases h2; rfl
    have hln : Numeric last := by
      rw [hlast]; simp [Numeric, NumericL, hfirst, hnum, Expr.n]
    obtain ⟨z, hz1, hz2⟩ := eq_back (D := D) hD (hn (by simp)) hln (hg _ ((hm _).mpr (.inr (.inl ⟨hundef, .inr rfl⟩))))
    rw [eval_at_env (by simp)] at ha hn1 hz1
    cases ha; cases hn1; cases hz1
    rw [hlast] at hz2
    simp only [eval, evalL, ha', hn2, ArithOp.eval, Option.map_some, Expr.n, Option.bind_some, allSome, Val.int?, intSum,
      Option.some.injEq, Val.int.injEq] at hz2
    refine ⟨_, _, ⟨starts_back ha', spans_back hsz h1 hn2, attr_env (by simp) _, attr_env (by simp) _, ?_⟩, ?_⟩
    · rw [attr_env (by simp), ← hz2]; simp
    · obtain ⟨i, j, hi, hj, hij⟩ := ge_back (D := D) hD (hn (by simp)) (hn (by simp))
        (msg l hl (.rel .ge (at' .last MESSAGE) (at' .last l.target)) (by simp [messageFacts]))
      rw [eval_at_env (by simp)] at hi hj
      cases hi; cases hj
      omega
  · intro l hl
    obtain ⟨gs, hgs, hg⟩ := link l hl
    obtain ⟨_, _, _, _, hm⟩ := linkExpression_mem hgs
    have := expressionList_holds (M := M) (e := l.condition) fun c hc => hg c ((hm c).mpr (.inr (.inr (.inr hc))))
    obtain ⟨b, hb, he⟩ := condition_back (D := D) hD l.condition (hsl l hl).1.1 this
    cases hb
    exact he

/-- The values of an integer field. -/
theorem int_back (hD : Floors D) (t : IntType) (hok : (FTy.int t).Ok) (hm : ∀ u, t = .modular u → Numeric u.modulus) (name : ID)
    {cs : List Expr} (h : t.proofConstraints name = .ok cs) (hc : Holds M cs) : (FTy.int t).Contains (M.name (.var name.key)) := by
  obtain ⟨h1, h2, _⟩ := hok
  cases t with
  | modular t =>
    obtain ⟨s, hsz, h⟩ := bind_ok (h : (scalarSize t.size).bind _ = _)
    cases h
    obtain ⟨l, hl, hev⟩ := modulus_value t h1 h2 D (envOf M)
    have e1 := hc _ (List.mem_cons_self ..)
    have e2 := hc _ (List.mem_cons_of_mem _ (List.mem_cons_self ..))
    obtain ⟨x, y, hx, hy, e1⟩ := zeval_rel_inv e1
    obtain ⟨j, rfl, hj⟩ := numeric_back hD _ (hm t rfl) hy
    rw [hev] at hj
    cases hj; cases hx
    obtain ⟨x, y, hx, hy, e2⟩ := zeval_rel_inv e2
    cases hx; cases hy
    simp [zRel] at e1 e2
    refine ⟨Num.n 0, l, rfl, hl, ?_, ?_⟩
    · simpa [Num.n] using e2
    · omega
  | range t =>
    obtain ⟨s, hsz, h⟩ := bind_ok (h : (scalarSize t.size).bind _ = _)
    cases h
    have e1 := hc _ (List.mem_cons_self ..)
    have e2 := hc _ (List.mem_cons_of_mem _ (List.mem_cons_self ..))
    obtain ⟨x, y, hx, hy, e1⟩ := zeval_rel_inv e1
    cases hx; cases hy
    obtain ⟨x, y, hx, hy, e2⟩ := zeval_rel_inv e2
    cases hx; cases hy
    simp [zRel] at e1 e2
    exact ⟨_, _, rfl, rfl, by omega, by omega⟩

/-- The values of an enumeration field. -/
theorem enum_back (t : Enum) (hok : (FTy.enum t).Ok) (name : ID) (same : Bool) {cs : List Expr}
    (h : t.proofConstraints name same = .ok cs) (hc : Holds M cs) : (FTy.enum t).Contains (M.name (.var name.key)) := by
  obtain ⟨h1, h2⟩ := hok
  obtain ⟨s, hsz, hcs⟩ := constraints_eq t h1 h2 name same
  rw [hcs] at h
  cases h
  have eqs : ∀ kv : ID × Int, zeval M (.rel .eq (.var false false name) (.var false false kv.1)) =
      .ok (.bool (M.name (.var name.key) == M.name (.var kv.1.key))) := fun kv => rfl
  have e1 := hc _ (List.mem_cons_self ..)
  obtain ⟨x, hx, e1⟩ := (zeval_or (fun x hx => by
    obtain ⟨kv, _, rfl⟩ := List.mem_map.mp hx
    exact ⟨_, eqs kv⟩)).mp e1
  obtain ⟨kv, hkv, rfl⟩ := List.mem_map.mp hx
  rw [eqs] at e1
  have e2 := hc (.rel .eq (.var false false kv.1) (.n kv.2))
    (List.mem_cons_of_mem _ (List.mem_append_left _ (List.mem_map.mpr ⟨kv, hkv, rfl⟩)))
  obtain ⟨x, y, hx, hy, e2⟩ := zeval_rel_inv e2
  cases hx; cases hy
  have e1 : M.name (.var name.key) = M.name (.var kv.1.key) := by simpa using e1
  have e2 : M.name (.var kv.1.key) = kv.2 := by simpa [zRel, zEqual, ZVal.cast] using e2
  obtain ⟨l, hl, _⟩ := (visible_iff t same kv.1.key kv.2).mpr ⟨kv, hkv, rfl, rfl⟩
  exact ⟨l, by rw [e1, e2]; exact hl⟩

/-- Fields of accepted messages are not named like literals. -/
theorem accepted_literals {s : Solver} (h : m.Accepted s) (hne : m.links ≠ []) {package : ID} {ls : List ID}
    (hp : m.package = .ok package) (hls : enumLiterals package (m.types.map (·.2)) = .ok ls) :
    ∀ e ∈ m.types, ls.any (fun l => l.eq e.1) = false := by
  obtain ⟨ty, k, h⟩ := h
  unfold Msg.new at h
  by_cases hid : m.id.parts.length ≤ 1
  · rw [if_pos hid] at h; cases h
  rw [if_neg hid] at h
  obtain ⟨pk, hpk, h⟩ := bind_ok (h : Except.bind _ _ = _)
  have hpk : m.package = .ok pk := hpk
  rw [hp] at hpk; cases hpk
  obtain ⟨ls', hls', h⟩ := bind_ok (h : Except.bind _ _ = _)
  rw [hls] at hls'; cases hls'
  obtain ⟨fields, hf, h⟩ := bind_ok (h : Except.bind _ _ = _)
  rcases accepted_checked ⟨k, hf⟩ with ⟨h1, _⟩ | ⟨R, V, hc⟩
  · exact absurd h1 hne
  · have hv := hc.valid
    unfold Def.validate1 at hv
    split at hv
    · cases hv
    · simp only [Except.ok.injEq, Bool.or_eq_false_iff, List.any_eq_false] at hv
      intro e he
      rw [List.any_eq_false]
      intro l hl hle
      have := hv.2 e.1 (List.mem_append_left _ (List.mem_map.mpr ⟨e, he, rfl⟩))
      rw [List.any_eq_true] at this
      exact this ⟨l, hl, (ID.eq_iff_key _ _).mpr ((ID.eq_iff_key _ _).mp hle).symm⟩

/-- If the facts about types hold then all fields have values of their types. -/
theorem valued_back {s : Solver} (hD : Floors D) (h : m.Accepted s) (hne : m.links ≠ []) (hok : ∀ e ∈ m.types, e.2.Ok)
    (hmod : ∀ e ∈ m.types, ∀ t, e.2 = .int (.modular t) → Numeric t.modulus) {e : Expr} {cs : List Expr}
    (hcs : m.typeConstraints e = .ok cs) (hh : Holds M cs) : Valued m (envOf M) := by
  obtain ⟨package, hp, hcs⟩ := bind_ok (hcs : (m.package).bind _ = _)
  obtain ⟨scalars, hsc, hcs⟩ := bind_ok (hcs : (m.scalarTypes).bind _ = _)
  obtain ⟨agg, hag, hcs⟩ := bind_ok (hcs : (concatM _ _).bind _ = _)
  obtain ⟨scal, hscal, hcs⟩ := bind_ok (hcs : (concatM _ _).bind _ = _)
  obtain ⟨sizes, hsizes, hcs⟩ := bind_ok (hcs : (m.typeSizeConstraints).bind _ = _)
  cases hcs
  have hmem : ∀ c ∈ messageConstraints, zeval M c = .ok (.bool true) := fun c hc => hh c (by simp [hc])
  have e1 := hmem _ (List.mem_cons_self ..)
  have e2 := hmem _ (List.mem_cons_of_mem _ (List.mem_cons_self ..))
  refine ⟨⟨_, attr_env (by simp) _, ?_⟩, ⟨_, attr_env (by simp) _, ?_⟩, ?_⟩
  · obtain ⟨i, hi, hj⟩ := eq_back (D := D) hD (by simp [Numeric, at', Expr.n]) (by simp [Numeric, Expr.n]) e1
    cases hj
    have hf : Int.fmod (M.name (.attr .first false MESSAGE.key)) 8 = 1 := by
      simpa [eval, eval_at_env, ArithOp.eval, Expr.n] using hi
    rwa [Int.fmod_eq_emod_of_nonneg _ (by decide)] at hf
  · obtain ⟨i, hi, hj⟩ := eq_back (D := D) hD (by simp [Numeric, at', Expr.n]) (by simp [Numeric, Expr.n]) e2
    cases hj
    have hf : Int.fmod (M.name (.attr .size false MESSAGE.key)) 8 = 0 := by
      simpa [eval, eval_at_env, ArithOp.eval, Expr.n] using hi
    rwa [Int.fmod_eq_emod_of_nonneg _ (by decide)] at hf
  · intro x hx hs h1 h2
    obtain ⟨_, hp', hsc⟩ := bind_ok (hsc : (m.package).bind _ = _)
    rw [hp] at hp'; cases hp'
    obtain ⟨ls, hls, hsc⟩ := bind_ok (hsc : (enumLiterals _ _).bind _ = _)
    cases hsc
    have hxs : x ∈ m.types.filter fun e => e.2.isScalar && !ls.any (fun l => l.eq e.1) && !reserved e.1 := by
      refine List.mem_filter.mpr ⟨hx, ?_⟩
      have hr : reserved x.1 = false := by
        simp only [reserved, Bool.or_eq_false_iff, beq_eq_false_iff_ne, ne_eq]
        refine ⟨fun hh => h1 ?_, h2⟩
        rw [hh]; decide
      rw [hs, accepted_literals h hne hp hls x hx, hr]
      rfl
    obtain ⟨gs, hgs⟩ := concatM_ok hscal x hxs
    have hg : Holds M gs := fun c hc => hh c (by
      simp only [List.mem_append]
      exact .inl (.inr ((concatM_mem hscal c).mpr ⟨x, hxs, gs, hgs, hc⟩)))
    obtain ⟨tp, htp, hgs⟩ := bind_ok (hgs : (x.2.id.parent).bind _ = _)
    obtain ⟨f, t⟩ := x
    refine ⟨_, rfl, ?_⟩
    cases t with
    | int t => exact int_back hD t (hok _ hx) (fun u hu => hmod _ hx u (by rw [hu])) f hgs hg
    | enum t => exact enum_back t (hok _ hx) f _ hgs hg
    | _ => cases hs

theorem anyM_true {α : Type} {f : α → Py Bool} : ∀ {as : List α}, anyM' f as = .ok true → ∃ a ∈ as, f a = .ok true
  | [], h => by cases h
  | b :: as, h => by
    obtain ⟨x, hx, h⟩ := bind_ok (h : (f b).bind _ = _)
    obtain ⟨y, hy, h⟩ := bind_ok (h : (anyM' f as).bind _ = _)
    cases x with
    | true => exact ⟨b, List.mem_cons_self .., hx⟩
    | false =>
      cases y with
      | false => cases h
      | true =>
        obtain ⟨a, ha, h⟩ := anyM_true hy
        exact ⟨a, List.mem_cons_of_mem _ ha, h⟩

theorem existsM_true {α : Type} {f : α → Py Bool} : ∀ {as : List α}, existsM f as = .ok true → ∃ a ∈ as, f a = .ok true
  | [], h => by cases h
  | b :: as, h => by
    obtain ⟨x, hx, h⟩ := bind_ok (h : (f b).bind _ = _)
    cases x with
    | true => exact ⟨b, List.mem_cons_self .., hx⟩
    | false =>
      obtain ⟨a, ha, h⟩ := existsM_true h
      exact ⟨a, List.mem_cons_of_mem _ ha, h⟩

theorem path_cons {s : List Link} {l : Link} {p : List Link} {b : Field} (hl : l ∈ s) (hp : Path s l.target p b) :
    Path s l.source (l :: p) b := by
  induction hp with
  | nil => exact Path.snoc (p := []) .nil hl
  | snoc _ hm ih => exact Path.snoc (p := l :: _) ih hm

theorem hasFinal_path {s : List Link} : ∀ {k : Nat} {f : Field}, hasFinal s k f = .ok true → ∃ p, Path s f p FINAL
  | 0, f, h => by cases h
  | k + 1, f, h => by
    unfold hasFinal at h
    split at h
    · rename_i hf
      exact ⟨[], by rw [hf]; exact .nil⟩
    · obtain ⟨l, hl, h⟩ := existsM_true h
      obtain ⟨p, hp⟩ := hasFinal_path h
      obtain ⟨hl, hs⟩ := List.mem_filter.mp hl
      have hs : l.source = f := by simpa using hs
      exact ⟨l :: p, hs ▸ path_cons hl hp⟩

theorem path_mem {s : List Link} {a b : Field} {p : List Link} (h : Path s a p b) : ∀ l ∈ p, l ∈ s := by
  induction h with
  | nil => intro l hl; cases hl
  | snoc _ hm ih =>
    intro l hl
    rcases List.mem_append.mp hl with hl | hl
    · exact ih l hl
    · rw [List.mem_singleton.mp hl]; exact hm

theorem satOrCore_true {s : Solver} {es : List Expr} {r : ProofResult} (h : s.check es = .ok r) (hr : satOrCore r = .ok true) :
    ∃ M, Holds M es := by
  cases r with
  | sat => exact s.sat es h
  | unsat => cases hr
  | unknown => cases hr

/-! ## Properties -/

/-- C72 (every field is followed by the end): from the start of an accepted message and from each of its fields, the links lead to the
end. -/
theorem C72_leads_to_end {s : Solver} (h : m.Accepted s) (hne : m.links ≠ []) (f : Field) (hf : f ∈ INITIAL :: m.fields) :
    ∃ p, Path m.links f p FINAL := by
  obtain ⟨k, hv⟩ := (accepted_verified h).2 hne
  obtain ⟨a, ha, hr⟩ := bind_ok (hv.reachability : Except.bind _ _ = _)
  obtain ⟨b, hb, hr⟩ := bind_ok (hr : Except.bind _ _ = _)
  have hab : (a || b) = false := Except.ok.inj hr
  obtain ⟨rfl, rfl⟩ := Bool.or_eq_false_iff.mp hab
  obtain ⟨x, hx, hh⟩ := bind_ok (anyM_false ha f hf : Except.bind _ _ = _)
  have hx' : (!x) = false := Except.ok.inj hh
  cases x with
  | false => cases hx'
  | true => exact hasFinal_path hx

theorem path_append {s : List Link} {a b c : Field} {p q : List Link} (h1 : Path s a p b) (h2 : Path s b q c) : Path s a (p ++ q) c := by
  induction h2 with
  | nil => simpa using h1
  | snoc _ hm ih => rw [← List.append_assoc]; exact Path.snoc ih hm

theorem path_source {s : List Link} {a b : Field} {p : List Link} (h : Path s a p b) : ∀ l ∈ p, ∃ q, Path s a q l.source := by
  induction h with
  | nil => intro l hl; cases hl
  | @snoc p l hp hm ih =>
    intro l' hl'
    rcases List.mem_append.mp hl' with hl' | hl'
    · exact ih l' hl'
    · rw [List.mem_singleton.mp hl']; exact ⟨p, hp⟩

/-- The solver can read the size of the target of each link on a path: there is a size. -/
theorem sized {s : Solver} (h : m.Accepted s) (hr : m.Regular) {l : Link} (hl : l ∈ m.links) {q : List Link}
    (hq : Path m.links INITIAL q l.source) : Sized m l := by
  by_cases hf : l.target = FINAL
  · exact .inr (.inl hf)
  have hne : m.links ≠ [] := List.ne_nil_of_mem hl
  obtain ⟨k, hv⟩ := (accepted_verified h).2 hne
  have ht : l.target ∈ m.fields := by
    rcases List.mem_append.mp (target_mem h hr hl) with ht | ht
    · exact ht
    · exact absurd (List.mem_singleton.mp ht) hf
  obtain ⟨r, hr'⟩ := C72_leads_to_end h hne _ (List.mem_cons_of_mem _ ht)
  have hrne : r ≠ [] := by
    intro hnil
    have : ∀ (q : List Link) (b : Field), Path m.links l.target q b → q = [] → b = l.target := by
      intro q b hq hq'
      cases hq with
      | nil => rfl
      | snoc _ _ => simp at hq'
    exact hf (this _ _ hr' hnil).symm
  have hfull := path_append hq (path_cons hl hr')
  obtain ⟨ps, hps, hc⟩ := bind_ok (hv.coverage : Except.bind _ _ = _)
  have hin := (mem_paths h hr hps (q ++ l :: r)).mpr ⟨by simp, hfull⟩
  have hcov := existsM_false hc _ hin
  have hmem : l ∈ (q ++ l :: r).dropLast := by
    rw [List.dropLast_append_of_ne_nil (by simp), List.dropLast_cons_of_ne_nil hrne]
    simp
  unfold Msg.coverage1 at hcov
  split at hcov
  · cases hcov
  · obtain ⟨holes, hh, hcov⟩ := bind_ok (hcov : Except.bind _ _ = _)
    obtain ⟨facts, _, hcov⟩ := bind_ok (hcov : Except.bind _ _ = _)
    obtain ⟨last, _, hcov⟩ := bind_ok (hcov : Except.bind _ _ = _)
    obtain ⟨res, hchk, hcov⟩ := bind_ok (hcov : Except.bind _ _ = _)
    obtain ⟨gs, hgs⟩ := concatM_ok hh l hmem
    obtain ⟨tl, htl, hgs'⟩ := bind_ok (hgs : Except.bind _ _ = _)
    obtain ⟨sz, hsz, htl⟩ := bind_ok (htl : Except.bind _ _ = _)
    cases htl; cases hgs'
    have hz : ∀ M, ∃ b, zeval M (.not (.bool .and [.rel .ge bitVar (targetFirst l),
        .rel .le bitVar (.bin .sub (.add [targetFirst l, sz]) (.n 1))])) = .ok (.bool b) := by
      refine s.translated _ _ hchk _ ?_
      have : Expr.not (.bool .and [.rel .ge bitVar (targetFirst l), .rel .le bitVar (.bin .sub (.add [targetFirst l, sz]) (.n 1))]) ∈ holes :=
        (concatM_mem hh _).mpr ⟨l, hmem, _, hgs, by simp⟩
      simp [this]
    have hsu : sz ≠ .undefined := by
      rintro rfl
      obtain ⟨b, hb⟩ := hz ⟨fun _ => 0, fun _ => 0, fun _ => 0, fun _ _ => 0⟩
      simp only [zeval] at hb
      obtain ⟨x, hx, _⟩ := bind_ok (hb : Except.bind _ _ = _)
      obtain ⟨vs, hvs, _⟩ := bind_ok (hx : Except.bind _ _ = _)
      obtain ⟨_, _, hvs⟩ := bind_ok (hvs : Except.bind _ _ = _)
      obtain ⟨_, hvs, _⟩ := bind_ok (hvs : Except.bind _ _ = _)
      obtain ⟨x, hx, _⟩ := bind_ok (hvs : Except.bind _ _ = _)
      simp only [zeval] at hx
      obtain ⟨_, _, hx⟩ := bind_ok (hx : Except.bind _ _ = _)
      obtain ⟨_, hx, _⟩ := bind_ok (hx : Except.bind _ _ = _)
      obtain ⟨_, hx, _⟩ := bind_ok (hx : Except.bind _ _ = _)
      obtain ⟨_, hx, _⟩ := bind_ok (hx : Except.bind _ _ = _)
      obtain ⟨_, _, hx⟩ := bind_ok (hx : Except.bind _ _ = _)
      obtain ⟨_, hx, _⟩ := bind_ok (hx : Except.bind _ _ = _)
      cases hx
    by_cases hls : l.size = .undefined
    · refine .inr (.inr fun t htt => ?_)
      unfold Msg.targetSize at hsz
      rw [if_neg (by simp [(undef_eq l.size).mpr hls])] at hsz
      unfold Msg.fieldSize at hsz
      rw [if_neg hf] at hsz
      split at hsz
      · rw [htt] at hsz
        cases hsc : t.isScalar with
        | true => rfl
        | false =>
          simp only [hsc] at hsz
          exact absurd (Except.ok.inj hsz).symm hsu
      · cases hsz
    · exact .inl hls

/-- C72 (every field occurs): for each field of an accepted message there are values of the types of all fields, a sequence of links
from the start to the field and a link that leaves the field such that all conditions are true and all fields lie one after another
within a message of whole bytes. -/
theorem C72_field_occurs_partial {s : Solver} (h : m.Accepted s) (hr : m.Regular) (hok : ∀ e ∈ m.types, e.2.Ok) (hs : m.Simple)
    (hD : Floors D) (f : Field) (hf : f ∈ m.fields) :
    ∃ p l ρ F L, Path m.links INITIAL p f ∧ l ∈ m.links ∧ l.source = f ∧ Layout D m ρ F L p ∧
      eval D ρ l.condition = some (.bool true) ∧ Valued m ρ := by
  obtain ⟨⟨lits, hacc⟩, hver⟩ := accepted_verified h
  obtain ⟨_, hfield, _⟩ := C14_order_partial ⟨m.links, m.types.map (·.1), lits⟩ hr m.fields hacc
  obtain ⟨⟨l₁, hl₁, _⟩, hfi, hff⟩ := (hfield f).mp hf
  have hne : m.links ≠ [] := List.ne_nil_of_mem hl₁
  obtain ⟨k, hv⟩ := hver hne
  have hc := anyM_false hv.contradictions f (List.mem_cons_of_mem _ hf)
  obtain ⟨ps, hps, hc⟩ := bind_ok (hc : Except.bind _ _ = _)
  obtain ⟨found, hfound, hc⟩ := bind_ok (hc : Except.bind _ _ = _)
  have hpaths := mem_paths h hr hps
  obtain ⟨p₀, hp₀⟩ := (C14_reachable ⟨m.links, m.types.map (·.1), lits⟩ m.fields hacc).1 f hf
  have hp₀n : p₀ ≠ [] := by
    intro hnil
    have : ∀ (q : List Link) (b : Field), Path m.links INITIAL q b → q = [] → b = INITIAL := by
      intro q b hq hq'
      cases hq with
      | nil => rfl
      | snoc _ _ => simp at hq'
    exact hfi (this _ _ hp₀ hnil)
  obtain ⟨q₀, hq₀⟩ := C72_leads_to_end h hne f (List.mem_cons_of_mem _ hf)
  have hout : ∃ l, l ∈ outgoing m.links f := by
    have : ∀ (b : Field) (q : List Link), Path m.links f q b → b = f ∨ ∃ l, l ∈ outgoing m.links f := by
      intro b q hq
      induction hq with
      | nil => exact .inl rfl
      | @snoc p l _ hm ih =>
        rcases ih with ih | ih
        · exact .inr ⟨l, List.mem_filter.mpr ⟨hm, by simpa using ih⟩⟩
        · exact .inr ih
    rcases this _ _ hq₀ with hh | hh
    · exact absurd hh.symm hff
    · exact hh
  obtain ⟨l₀, hl₀⟩ := hout
  have hpc : (p₀, l₀) ∈ ps.flatMap fun p => (outgoing m.links f).map fun c => (p, c) :=
    List.mem_flatMap.mpr ⟨p₀, (hpaths p₀).mpr ⟨hp₀n, hp₀⟩, List.mem_map.mpr ⟨l₀, hl₀, rfl⟩⟩
  have hfd : found = true := by
    have hc : (!(ps.flatMap fun p => (outgoing m.links f).map fun c => (p, c)).isEmpty && !found) = false := Except.ok.inj hc
    have : (ps.flatMap fun p => (outgoing m.links f).map fun c => (p, c)).isEmpty = false := by
      cases hl : (ps.flatMap fun p => (outgoing m.links f).map fun c => (p, c)) with
      | nil => rw [hl] at hpc; cases hpc
      | cons _ _ => rfl
    rw [this] at hc
    cases found with
    | true => rfl
    | false => cases hc
  rw [hfd] at hfound
  obtain ⟨⟨p, l⟩, hpl, hsat⟩ := anyM_true hfound
  obtain ⟨p', hp', hpl⟩ := List.mem_flatMap.mp hpl
  obtain ⟨l', hl', heq⟩ := List.mem_map.mp hpl
  cases heq
  obtain ⟨hpne, hpath⟩ := (hpaths p).mp hp'
  obtain ⟨hlm, hls⟩ := List.mem_filter.mp hl'
  obtain ⟨facts, hfacts, hsat⟩ := bind_ok (hsat : Except.bind _ _ = _)
  obtain ⟨cs, hcs, hsat⟩ := bind_ok (hsat : Except.bind _ _ = _)
  obtain ⟨r, hchk, hsat⟩ := bind_ok (hsat : Except.bind _ _ = _)
  obtain ⟨M, hM⟩ := satOrCore_true hchk hsat
  have hsl : ∀ l ∈ p, SimpleLink l ∧ Sized m l := fun l hl =>
    ⟨hs.link l (path_mem hpath l hl), (path_source hpath l hl).elim fun _ hq => sized h hr (path_mem hpath l hl) hq⟩
  refine ⟨p, l, envOf M, _, _, hpath, hlm, by simpa using hls,
    layout_back hD hpne hsl hfacts (fun c hc => hM c (by simp [hc])), ?_,
    valued_back hD h hne hok hs.modulus hcs (fun c hc => hM c (by simp [hc]))⟩
  obtain ⟨b, hb, he⟩ := condition_back (D := D) hD l.condition (hs.link l hlm).1 (hM _ (List.mem_cons_self ..))
  cases hb
  exact he

/-- C72 (a message has an instance): for an accepted message with fields there are values of the types of all fields and a sequence of
links from the start to the end such that all conditions are true and all fields lie one after another within a message of whole bytes. -/
theorem C72_instance_partial {s : Solver} (h : m.Accepted s) (hr : m.Regular) (hok : ∀ e ∈ m.types, e.2.Ok) (hs : m.Simple)
    (hD : Floors D) (hf : m.fields ≠ []) :
    ∃ p l ρ F L, Path m.links INITIAL (p ++ [l]) FINAL ∧ Layout D m ρ F L p ∧ eval D ρ l.condition = some (.bool true) ∧ Valued m ρ := by
  obtain ⟨⟨lits, hacc⟩, _⟩ := accepted_verified h
  obtain ⟨hnd, hfield, hbefore⟩ := C14_order_partial ⟨m.links, m.types.map (·.1), lits⟩ hr m.fields hacc
  obtain ⟨p, l, ρ, F, L, h1, h2, h3, h4, h5, h6⟩ := C72_field_occurs_partial h hr hok hs hD (m.fields.getLast hf) (List.getLast_mem hf)
  refine ⟨p, l, ρ, F, L, ?_, h4, h5, h6⟩
  have ht : l.target = FINAL := by
    rcases List.mem_append.mp (target_mem h hr h2) with ht | ht
    · exfalso
      have hsrc := (hfield l.source).mp (by rw [h3]; exact List.getLast_mem hf)
      obtain ⟨xs, ys, zs, hb⟩ := hbefore l h2 hsrc ((hfield _).mp ht)
      have hlast : m.fields.getLast hf ∈ l.target :: zs := by
        have : m.fields.getLast hf = (l.target :: zs).getLast (by simp) := by
          simp only [hb]
          rw [List.getLast_append_of_ne_nil]
        rw [this]; exact List.getLast_mem _
      rw [hb] at hnd
      have hd := (List.nodup_append.mp hnd).2.2 l.source (by simp) (m.fields.getLast hf) hlast
      exact hd h3
    · exact List.mem_singleton.mp ht
  rw [← ht]
  exact Path.snoc (by rw [h3]; exact h1) h2

/-! ### The hypotheses can be met -/

theorem floors_floor : Floors .floor := fun a b h => by
  show Int.fdiv a b = a / b
  rw [Int.fdiv_eq_ediv_of_nonneg a (by omega)]

theorem exMsg_simple : exMsg.Simple where
  link := by
    intro l hl
    simp only [exMsg, exLinks, List.mem_cons, List.not_mem_nil, or_false] at hl
    rcases hl with rfl | rfl | rfl | rfl
    · exact ⟨trivial, fun h => absurd rfl h, fun h => absurd rfl h⟩
    · exact ⟨by simp [Condition, Numeric, exL, Expr.v, Expr.n], fun _ => by simp [Numeric, NumericL, exL, Expr.v, Expr.n],
        fun h => absurd rfl h⟩
    · exact ⟨by simp [lnk, Condition, Numeric, exL, Expr.v, Expr.n], fun h => absurd rfl h, fun h => absurd rfl h⟩
    · exact ⟨trivial, fun h => absurd rfl h, fun h => absurd rfl h⟩
  modulus := by
    intro e he t ht
    simp only [exMsg, List.mem_cons, List.not_mem_nil, or_false] at he
    rcases he with rfl | rfl
    · cases ht; simp [Numeric, Expr.n]
    · cases ht

example : ∃ p, Path exMsg.links (fld 'l') p FINAL :=
  C72_leads_to_end exMsg_accepted (by simp [exMsg, exLinks]) _ (by simp [exMsg])

/-- The payload of the example occurs, for some length from 0 to 255 that is greater than 0. -/
example : ∃ p l ρ F L, Path exMsg.links INITIAL p (fld 'v') ∧ l ∈ exMsg.links ∧ l.source = fld 'v' ∧ Layout .floor exMsg ρ F L p ∧
    eval .floor ρ l.condition = some (.bool true) ∧ Valued exMsg ρ :=
  C72_field_occurs_partial exMsg_accepted exMsg_regular exMsg_types exMsg_simple floors_floor _ (by simp [exMsg])

example : ∃ p l ρ F L, Path exMsg.links INITIAL (p ++ [l]) FINAL ∧ Layout .floor exMsg ρ F L p ∧
    eval .floor ρ l.condition = some (.bool true) ∧ Valued exMsg ρ :=
  C72_instance_partial exMsg_accepted exMsg_regular exMsg_types exMsg_simple floors_floor (by simp [exMsg])

end Verif.Verify
