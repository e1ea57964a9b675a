import Verif.ModelPkg.Model

/-! # Property C35: names in a model are unique -/

namespace Verif.ModelPkg
open Verif

/-! ## Specification -/

/-- Two names are the same up to upper and lower case. -/
abbrev Same (a b : ID) : Prop := ID.Spec.sameName a b

/-- The two parts of the name of a type. -/
def Ty.Named (t : Ty) (pkg n : ID) : Prop :=
  t.identifier.parts = pkg.parts ++ n.parts ∧ pkg.Valid ∧ n.Valid ∧ n.parts.length = 1

/-- What the constructors of types guarantee: names have the form `Package::Name`, literals are simple names. -/
def Ty.WellFormed (t : Ty) : Prop :=
  (∃ pkg n, t.Named pkg n) ∧ ∀ ls, t.literals = some ls → ∀ l ∈ ls, l.Valid ∧ l.parts.length = 1

/-- The package of predefined types, `__BUILTINS__`. -/
def predefined : ID := ⟨[['_', '_', 'B', 'U', 'I', 'L', 'T', 'I', 'N', 'S', '_', '_']]⟩

/-- `t` is the predefined type `Boolean`. -/
def Ty.Builtin (t : Ty) : Prop := Same t.identifier ⟨predefined.parts ++ [['B', 'o', 'o', 'l', 'e', 'a', 'n']]⟩

/-- The literals of two enumerations are visible to each other: same package, or one of them is predefined. -/
def Visible (p1 p2 : ID) : Prop := Same p1 p2 ∨ Same p1 predefined ∨ Same p2 predefined

/-- No two declarations of the model are in conflict. -/
structure NoConflict (types : List Ty) (sessions : List ID) : Prop where
  /-- No two types have the same name. -/
  typeNames : types.Pairwise fun a b => ¬ Same a.identifier b.identifier
  /-- No two sessions have the same name. -/
  sessionNames : sessions.Pairwise fun a b => ¬ Same a b
  /-- No session has the name of a type. -/
  mixed : ∀ t ∈ types, ∀ s ∈ sessions, ¬ Same t.identifier s
  /-- No two enumerations visible to each other share a literal. -/
  literals : types.Pairwise fun a b => ∀ la lb pa na pb nb, a.literals = some la → b.literals = some lb →
    a.Named pa na → b.Named pb nb → Visible pa pb → ∀ x ∈ la, ∀ y ∈ lb, ¬ Same x y
  /-- No literal has the name of a type of its package or of a predefined type. -/
  names : ∀ e ∈ types, ∀ le pe ne, e.literals = some le → e.Named pe ne → ∀ l ∈ le,
    ∀ t ∈ types, ∀ pt nt, t.Named pt nt → (Same pe pt ∨ t.Builtin) → ¬ Same l nt

/-! ## Lemmas -/

theorem eq_same {a b : ID} : a.eq b = true ↔ Same a b := ID.C38_eq_iff a b

theorem same_iff {a b : ID} : Same a b ↔ a.key = b.key := by
  rw [← eq_same, ID.eq_iff_key]

theorem Same.symm {a b : ID} (h : Same a b) : Same b a := by rw [same_iff] at h ⊢; exact h.symm

theorem isIn_iff {i : ID} {l : List ID} : isIn i l = true ↔ ∃ j ∈ l, Same i j := by
  simp [isIn, List.any_eq_true, eq_same]

theorem checkTypes_spec (ts : List Ty) : ∀ keys,
    ((checkTypes ts keys).1 = [] ↔ ts.Pairwise (fun a b => ¬ Same a.identifier b.identifier) ∧
      ∀ t ∈ ts, ∀ k ∈ keys, ¬ Same t.identifier k) ∧
    (checkTypes ts keys).2 = keys ++ ts.map Ty.identifier := by
  induction ts with
  | nil => intro keys; simp [checkTypes]
  | cons t ts ih =>
    intro keys
    obtain ⟨h1, h2⟩ := ih (keys ++ [t.identifier])
    simp only [checkTypes]
    constructor
    · split
      · rename_i h
        rw [isIn_iff] at h
        obtain ⟨k, hk, hs⟩ := h
        simp only [reduceCtorEq, false_iff]
        rintro ⟨_, h⟩
        exact h t (by simp) k hk hs
      · rename_i h
        rw [isIn_iff] at h
        rw [h1]
        simp only [List.pairwise_cons, List.mem_append, List.mem_singleton, List.forall_mem_cons]
        constructor
        · rintro ⟨h3, h4⟩
          exact ⟨⟨fun t' ht' hs => h4 t' ht' _ (.inr rfl) hs.symm, h3⟩, fun k hk hs => h ⟨k, hk, hs⟩,
            fun t' ht' k hk => h4 t' ht' k (.inl hk)⟩
        · rintro ⟨⟨h3, h4⟩, h5, h6⟩
          refine ⟨h4, fun t' ht' k hk => ?_⟩
          rcases hk with hk | rfl
          · exact h6 t' ht' k hk
          · exact fun hs => h3 t' ht' hs.symm
    · split <;> simp [h2]

theorem checkSessions_spec (types : List ID) (ss : List ID) : ∀ sessions,
    checkSessions types ss sessions = [] ↔ ss.Pairwise (fun a b => ¬ Same a b) ∧
      (∀ s ∈ ss, ∀ k ∈ types, ¬ Same s k) ∧ ∀ s ∈ ss, ∀ k ∈ sessions, ¬ Same s k := by
  induction ss with
  | nil => intro sessions; simp [checkSessions]
  | cons s ss ih =>
    intro sessions
    simp only [checkSessions, List.append_eq_nil_iff, ih]
    have : ((if (isIn s types || isIn s sessions) = true then [Err.sessionConflict s] else []) = []) ↔
        (∀ k ∈ types, ¬ Same s k) ∧ ∀ k ∈ sessions, ¬ Same s k := by
      split
      · rename_i h
        rw [Bool.or_eq_true, isIn_iff, isIn_iff] at h
        simp only [List.cons_ne_nil, false_iff]
        rintro ⟨h1, h2⟩
        rcases h with ⟨k, hk, hs⟩ | ⟨k, hk, hs⟩
        · exact h1 k hk hs
        · exact h2 k hk hs
      · rename_i h
        rw [Bool.or_eq_true, isIn_iff, isIn_iff] at h
        simp only [true_iff]
        exact ⟨fun k hk hs => h (.inl ⟨k, hk, hs⟩), fun k hk hs => h (.inr ⟨k, hk, hs⟩)⟩
    rw [this]
    simp only [List.pairwise_cons, List.mem_append, List.mem_singleton, List.forall_mem_cons]
    constructor
    · rintro ⟨⟨h1, h2⟩, h3, h4, h5⟩
      exact ⟨⟨fun t ht hs => h5 t ht _ (.inr rfl) hs.symm, h3⟩, ⟨h1, h4⟩, h2, fun t ht k hk => h5 t ht k (.inl hk)⟩
    · rintro ⟨⟨h6, h3⟩, ⟨h1, h4⟩, h2, h5⟩
      refine ⟨⟨h1, h2⟩, h3, h4, fun t ht k hk => ?_⟩
      rcases hk with hk | rfl
      · exact h5 t ht k hk
      · exact fun hs => h6 t ht hs.symm

theorem Ty.Named.package {t : Ty} {pkg n : ID} (h : t.Named pkg n) : t.package = .ok pkg ∧ t.identifier.name = .ok n := by
  obtain ⟨h1, h2, h3, h4⟩ := h
  obtain ⟨c, hc, hp, hn⟩ := ID.C38_parent_name pkg n h2 h3 h4
  obtain ⟨c', hc', _, hparts⟩ := ID.C38_mul pkg n h2 h3
  rw [hc] at hc'
  have hcc : c = c' := by injection hc'
  have : t.identifier = c := by
    cases hid : t.identifier with
    | mk ps =>
      cases c with
      | mk qs =>
        rw [hid] at h1
        simp only [ID.mk.injEq]
        rw [← hcc] at hparts
        exact h1.trans hparts.symm
  rw [Ty.package, this]
  exact ⟨hp, hn⟩

theorem Ty.Named.unique {t : Ty} {p n p' n' : ID} (h : t.Named p n) (h' : t.Named p' n') : p = p' ∧ n = n' := by
  have h1 := h.package
  have h2 := h'.package
  rw [h1.1, h1.2] at h2
  simpa using h2

theorem related_iff {p1 p2 : ID} : related p1 p2 = true ↔ Visible p1 p2 := by
  have h : predefined = BUILTINS := rfl
  simp [related, Visible, h, eq_same, or_assoc]

theorem common_nil {l1 l2 : List ID} : commonLiterals l1 l2 = [] ↔ ∀ x ∈ l1, ∀ y ∈ l2, ¬ Same x y := by
  simp only [commonLiterals, List.filter_eq_nil_iff, isIn_iff]
  constructor
  · intro h x hx y hy hs
    exact h y hy ⟨x, hx, hs.symm⟩
  · rintro h y hy ⟨x, hx, hs⟩
    exact h x hx y hy hs.symm

/-- The condition on two enumerations. -/
def LitOK (a b : Ty) : Prop := ∀ la lb pa na pb nb, a.literals = some la → b.literals = some lb →
    a.Named pa na → b.Named pb nb → Visible pa pb → ∀ x ∈ la, ∀ y ∈ lb, ¬ Same x y

theorem literalConflicts_spec {e : Ty} (he : e.WellFormed) (ts : List Ty) (hts : ∀ t ∈ ts, t.WellFormed) :
    ∃ es, literalConflicts e ts = .ok es ∧ (es = [] ↔ ∀ t ∈ ts, LitOK e t) := by
  induction ts with
  | nil => exact ⟨[], rfl, by simp⟩
  | cons t ts ih =>
    obtain ⟨es, h1, h2⟩ := ih (fun t ht => hts t (by simp [ht]))
    obtain ⟨⟨pe, ne, hne⟩, _⟩ := he
    obtain ⟨⟨pt, nt, hnt⟩, _⟩ := hts t (by simp)
    cases hle : e.literals with
    | none =>
      refine ⟨es, by simp only [literalConflicts, hle]; exact h1, ?_⟩
      rw [h2]
      simp only [List.forall_mem_cons]
      refine ⟨fun h => ⟨?_, h⟩, fun h => h.2⟩
      intro la lb _ _ _ _ h; rw [hle] at h; cases h
    | some le =>
      cases hlt : t.literals with
      | none =>
        refine ⟨es, by simp only [literalConflicts, hle, hlt]; exact h1, ?_⟩
        rw [h2]
        simp only [List.forall_mem_cons]
        refine ⟨fun h => ⟨?_, h⟩, fun h => h.2⟩
        intro la lb _ _ _ _ _ h; rw [hlt] at h; cases h
      | some lt =>
        have hok : LitOK e t ↔ (Visible pe pt → ∀ x ∈ le, ∀ y ∈ lt, ¬ Same x y) := by
          constructor
          · intro h; exact h le lt pe ne pt nt hle hlt hne hnt
          · intro h la lb pa na pb nb h1 h2 h3 h4
            rw [hle] at h1; rw [hlt] at h2
            cases h1; cases h2
            rw [← (hne.unique h3).1, ← (hnt.unique h4).1]
            exact h
        have hrun : literalConflicts e (t :: ts) =
            .ok (if related pe pt && !(commonLiterals le lt).isEmpty then .literals (commonLiterals le lt) :: es else es) := by
          simp only [literalConflicts, hle, hlt, hne.package.1, hnt.package.1, h1]
          show (if _ then _ else _) = _
          split <;> rfl
        refine ⟨_, hrun, ?_⟩
        simp only [List.forall_mem_cons, hok, ← h2]
        split
        · rename_i h
          simp only [Bool.and_eq_true, related_iff, Bool.not_eq_true', List.isEmpty_eq_false_iff, ne_eq, common_nil] at h
          simp only [List.cons_ne_nil, false_iff]
          rintro ⟨h3, _⟩
          exact h.2 (h3 h.1)
        · rename_i h
          simp only [Bool.and_eq_true, related_iff, Bool.not_eq_true', List.isEmpty_eq_false_iff, ne_eq, common_nil] at h
          refine ⟨fun h' => ⟨fun hv => ?_, h'⟩, fun h' => h'.2⟩
          exact Classical.not_not.mp fun hn => h ⟨hv, hn⟩

theorem allLiteralConflicts_spec (ts : List Ty) (hts : ∀ t ∈ ts, t.WellFormed) :
    ∃ es, allLiteralConflicts ts = .ok es ∧ (es = [] ↔ ts.Pairwise LitOK) := by
  induction ts with
  | nil => exact ⟨[], rfl, by simp⟩
  | cons t ts ih =>
    obtain ⟨es, h1, h2⟩ := ih (fun t ht => hts t (by simp [ht]))
    obtain ⟨es', h3, h4⟩ := literalConflicts_spec (hts t (by simp)) ts (fun t ht => hts t (by simp [ht]))
    refine ⟨es' ++ es, ?_, ?_⟩
    · simp only [allLiteralConflicts, h1, h3]; rfl
    · rw [List.append_eq_nil_iff, h2, h4, List.pairwise_cons]

theorem mapM_spec {α β : Type} {f : α → Py β} {R : α → β → Prop} (ls : List α) (h : ∀ l ∈ ls, ∃ y, f l = .ok y ∧ R l y) :
    ∃ ys, ls.mapM f = .ok ys ∧ (∀ l ∈ ls, ∃ y ∈ ys, R l y) ∧ ∀ y ∈ ys, ∃ l ∈ ls, R l y := by
  induction ls with
  | nil => exact ⟨[], rfl, by simp, by simp⟩
  | cons l ls ih =>
    obtain ⟨y, h1, h2⟩ := h l (by simp)
    obtain ⟨ys, h3, h4, h5⟩ := ih (fun l hl => h l (by simp [hl]))
    refine ⟨y :: ys, ?_, ?_, ?_⟩
    · rw [List.mapM_cons, h1, h3]; rfl
    · intro l' hl'
      rcases List.mem_cons.mp hl' with rfl | hl'
      · exact ⟨y, by simp, h2⟩
      · obtain ⟨y', hy, hr⟩ := h4 l' hl'
        exact ⟨y', by simp [hy], hr⟩
    · intro y' hy'
      rcases List.mem_cons.mp hy' with rfl | hy'
      · exact ⟨l, by simp, h2⟩
      · obtain ⟨l', hl, hr⟩ := h5 y' hy'
        exact ⟨l', by simp [hl], hr⟩

/-- `q` is the literal `l` of an enumeration in the package `p`. -/
def Qual (ts : List Ty) (q p l : ID) : Prop :=
  q.parent = .ok p ∧ q.name = .ok l ∧ ∃ e ∈ ts, ∃ le ne, e.literals = some le ∧ e.Named p ne ∧ l ∈ le

theorem qualifiedLiterals_spec (ts : List Ty) (hts : ∀ t ∈ ts, t.WellFormed) :
    ∃ qs, qualifiedLiterals ts = .ok qs ∧ (∀ q ∈ qs, ∃ p l, Qual ts q p l) ∧
      ∀ e ∈ ts, ∀ le p ne, e.literals = some le → e.Named p ne → ∀ l ∈ le, ∃ q ∈ qs, q.parent = .ok p ∧ q.name = .ok l := by
  induction ts with
  | nil => exact ⟨[], rfl, by simp, by simp⟩
  | cons t ts ih =>
    obtain ⟨qs, h1, h2, h3⟩ := ih (fun t ht => hts t (by simp [ht]))
    obtain ⟨⟨p, n, hn⟩, hl⟩ := hts t (by simp)
    have weaken : ∀ q p l, Qual ts q p l → Qual (t :: ts) q p l := by
      rintro q p l ⟨h1, h2, e, he, h3⟩
      exact ⟨h1, h2, e, by simp [he], h3⟩
    cases hlit : t.literals with
    | none =>
      refine ⟨qs, ?_, ?_, ?_⟩
      · simp only [qualifiedLiterals, hlit, h1]; rfl
      · intro q hq
        obtain ⟨p, l, h⟩ := h2 q hq
        exact ⟨p, l, weaken _ _ _ h⟩
      · intro e he le p ne h4 h5
        rcases List.mem_cons.mp he with rfl | he
        · rw [hlit] at h4; cases h4
        · exact h3 e he le p ne h4 h5
    | some ls =>
      have hm := mapM_spec (f := fun l => p.mul l) (R := fun l q => q.parent = .ok p ∧ q.name = .ok l) ls (by
        intro l hll
        obtain ⟨hv, h1p⟩ := hl ls hlit l hll
        obtain ⟨c, hc, hc'⟩ := ID.C38_parent_name p l hn.2.1 hv h1p
        exact ⟨c, hc, hc'⟩)
      obtain ⟨ys, hm1, hm2, hm3⟩ := hm
      have hpk : (fun l => do (← t.package).mul l) = (fun l => p.mul l) := by
        funext l
        rw [hn.package.1]; rfl
      refine ⟨ys ++ qs, ?_, ?_, ?_⟩
      · simp only [qualifiedLiterals, hlit, h1, hpk, hm1]; rfl
      · intro q hq
        rcases List.mem_append.mp hq with hq | hq
        · obtain ⟨l, hll, hr1, hr2⟩ := hm3 q hq
          exact ⟨p, l, hr1, hr2, t, by simp, ls, n, hlit, hn, hll⟩
        · obtain ⟨p, l, h⟩ := h2 q hq
          exact ⟨p, l, weaken _ _ _ h⟩
      · intro e he le p' ne h4 h5 l hl'
        rcases List.mem_cons.mp he with rfl | he
        · rw [hlit] at h4; cases h4
          obtain ⟨q, hq, hr⟩ := hm2 l hl'
          rw [← (hn.unique h5).1]
          exact ⟨q, by simp [hq], hr⟩
        · obtain ⟨q, hq, hr⟩ := h3 e he le p' ne h4 h5 l hl'
          exact ⟨q, by simp [hq], hr⟩

theorem builtin_iff {t : Ty} {p n : ID} (h : t.Named p n) : isBuiltinType t.identifier = true ↔ t.Builtin := by
  simp only [isBuiltinType, Bool.or_eq_true, eq_same, Ty.Builtin]
  refine ⟨fun h' => h'.resolve_right ?_, .inl⟩
  intro hs
  have hl := hs.1
  have h1 : p.parts.length ≠ 0 := by
    have := h.2.1.1
    simpa using this
  rw [h.1, List.length_append, h.2.2.2] at hl
  simp only [List.length_cons, List.length_nil] at hl
  omega

theorem literalTypeConflicts_spec {q : ID} {P : Ty → Prop} (ts : List Ty)
    (h : ∀ t ∈ ts, ∃ b, nameConflict q t = .ok b ∧ (b = true ↔ P t)) :
    ∃ ys, literalTypeConflicts q ts = .ok ys ∧ (ys = [] ↔ ∀ t ∈ ts, ¬ P t) := by
  induction ts with
  | nil => exact ⟨[], rfl, by simp⟩
  | cons t ts ih =>
    obtain ⟨b, h1, h2⟩ := h t (by simp)
    obtain ⟨ys, h3, h4⟩ := ih (fun l hl => h l (by simp [hl]))
    refine ⟨if b then .literalType q t.identifier :: ys else ys, ?_, ?_⟩
    · simp only [literalTypeConflicts, h1, h3]; rfl
    · rw [List.forall_mem_cons, ← h4, ← h2]
      cases b <;> simp

theorem nameConflicts_spec {types : List Ty} (hts : ∀ t ∈ types, t.WellFormed) (qs : List ID)
    (hqs : ∀ q ∈ qs, ∃ p l, q.parent = .ok p ∧ q.name = .ok l) :
    ∃ es, nameConflicts types qs = .ok es ∧
      (es = [] ↔ ∀ q ∈ qs, ∀ p l, q.parent = .ok p → q.name = .ok l →
        ∀ t ∈ types, ∀ pt nt, t.Named pt nt → (Same p pt ∨ t.Builtin) → ¬ Same l nt) := by
  induction qs with
  | nil => exact ⟨[], rfl, by simp⟩
  | cons q qs ih =>
    obtain ⟨es, h1, h2⟩ := ih (fun q hq => hqs q (by simp [hq]))
    obtain ⟨p, l, hp, hl⟩ := hqs q (by simp)
    obtain ⟨ys, h3, h4⟩ := literalTypeConflicts_spec (q := q)
      (P := fun t => ∃ pt nt, t.Named pt nt ∧ (Same p pt ∨ t.Builtin) ∧ Same l nt) types (by
        intro t ht
        obtain ⟨⟨pt, nt, hnt⟩, _⟩ := hts t ht
        have hrun : nameConflict q t =
            .ok (if p.eq pt || isBuiltinType t.identifier then l.eq nt else false) := by
          simp only [nameConflict, hp, hl, hnt.package.1, hnt.package.2]
          show (if _ then _ else _) = _
          split <;> rfl
        refine ⟨_, hrun, ?_⟩
        have hiff : (∃ pt nt, t.Named pt nt ∧ (Same p pt ∨ t.Builtin) ∧ Same l nt) ↔
            (Same p pt ∨ t.Builtin) ∧ Same l nt := by
          constructor
          · rintro ⟨pt', nt', h, h'⟩
            rw [← (hnt.unique h).1, ← (hnt.unique h).2] at h'
            exact h'
          · intro h; exact ⟨pt, nt, hnt, h⟩
        rw [hiff, ← eq_same, ← eq_same, ← builtin_iff hnt, ← Bool.or_eq_true]
        split <;> simp_all)
    refine ⟨ys ++ es, ?_, ?_⟩
    · simp only [nameConflicts, h3, h1]; rfl
    · rw [List.append_eq_nil_iff, h4, h2, List.forall_mem_cons]
      refine and_congr ?_ Iff.rfl
      constructor
      · intro h p' l' hp' hl' t ht pt nt hnt hv hs
        rw [hp] at hp'; rw [hl] at hl'
        cases hp'; cases hl'
        exact h t ht ⟨pt, nt, hnt, hv, hs⟩
      · rintro h t ht ⟨pt, nt, hnt, hv, hs⟩
        exact h p l hp hl t ht pt nt hnt hv hs

/-! ## C35 -/

/-- A model is accepted exactly if its declarations are not in conflict; otherwise `RecordFluxError` is raised. -/
theorem C35_accepted_iff (types : List Ty) (sessions : List ID) (hts : ∀ t ∈ types, t.WellFormed) :
    (new types sessions = .ok () ↔ NoConflict types sessions) ∧
    (new types sessions = .error .recordFlux ↔ ¬ NoConflict types sessions) := by
  obtain ⟨h1, h2⟩ := checkTypes_spec types []
  have h3 := checkSessions_spec (types.map Ty.identifier) sessions []
  obtain ⟨es, h4, h5⟩ := allLiteralConflicts_spec types hts
  obtain ⟨qs, h6, h7, h8⟩ := qualifiedLiterals_spec types hts
  obtain ⟨ns, h9, h10⟩ := nameConflicts_spec hts qs (fun q hq => by
    obtain ⟨p, l, h, h', _⟩ := h7 q hq
    exact ⟨p, l, h, h'⟩)
  have hrun : validate types sessions = .ok (checkDuplicates types sessions ++ es ++ ns) := by
    simp only [validate, h4, h6, Bind.bind, Except.bind, h9]; rfl
  have hd : checkDuplicates types sessions = (checkTypes types []).1 ++ checkSessions (types.map Ty.identifier) sessions [] := by
    simp only [checkDuplicates, h2, List.nil_append]
  have hiff : checkDuplicates types sessions ++ es ++ ns = [] ↔ NoConflict types sessions := by
    rw [List.append_eq_nil_iff, List.append_eq_nil_iff, hd, List.append_eq_nil_iff, h1, h3, h5, h10]
    constructor
    · rintro ⟨⟨⟨⟨a1, _⟩, b1, b2, _⟩, c⟩, d⟩
      refine ⟨a1, b1, ?_, c, ?_⟩
      · intro t ht s hs h
        exact b2 s hs _ (List.mem_map.mpr ⟨t, ht, rfl⟩) h.symm
      · intro e he le pe ne h11 h12 l hl t ht pt nt h13 h14
        obtain ⟨q, hq, hqp, hqn⟩ := h8 e he le pe ne h11 h12 l hl
        exact d q hq pe l hqp hqn t ht pt nt h13 h14
    · rintro ⟨a1, b1, b2, c, d⟩
      refine ⟨⟨⟨⟨a1, by simp⟩, b1, ?_, by simp⟩, c⟩, ?_⟩
      · intro s hs k hk h
        obtain ⟨t, ht, rfl⟩ := List.mem_map.mp hk
        exact b2 t ht s hs h.symm
      · intro q hq p l hp hl t ht pt nt h13 h14
        obtain ⟨p', l', hp', hl', e, he, le, ne, h15, h16, h17⟩ := h7 q hq
        rw [hp] at hp'; rw [hl] at hl'
        cases hp'; cases hl'
        exact d e he le p ne h15 h16 l h17 t ht pt nt h13 h14
  have hnew : new types sessions = if (checkDuplicates types sessions ++ es ++ ns).isEmpty then .ok () else .error .recordFlux := by
    simp only [new, hrun]
    show (if _ then _ else _) = _
    split <;> rfl
  rw [hnew, ← hiff]
  cases checkDuplicates types sessions ++ es ++ ns <;> simp

/-! ## Example -/

/-- `P::E` with literals `A`, `B`, `Q::E` with literals `a`, `C`, the predefined `Boolean`, and a session `P::S`. -/
def exTypes : List Ty :=
  [⟨⟨[['P'], ['E']]⟩, some [⟨[['A']]⟩, ⟨[['B']]⟩]⟩, ⟨⟨[['Q'], ['E']]⟩, some [⟨[['a']]⟩, ⟨[['C']]⟩]⟩,
   ⟨⟨BUILTINS.parts ++ [BOOLEAN]⟩, some [⟨[['F']]⟩, ⟨[['T']]⟩]⟩]

example : (∀ t ∈ exTypes, t.WellFormed) ∧ new exTypes [⟨[['P'], ['S']]⟩] = .ok () ∧
    new exTypes [⟨[['p'], ['e']]⟩] = .error .recordFlux := by
  refine ⟨?_, rfl, rfl⟩
  have hv : ∀ a : ID, ID.checked a.parts = .ok a → a.Valid := fun a h => ((ID.checked_ok_iff _ _).mp h).2
  simp only [exTypes, List.mem_cons, List.not_mem_nil, or_false, forall_eq_or_imp, forall_eq]
  refine ⟨⟨⟨⟨[['P']]⟩, ⟨[['E']]⟩, rfl, hv _ rfl, hv _ rfl, rfl⟩, ?_⟩, ⟨⟨⟨[['Q']]⟩, ⟨[['E']]⟩, rfl, hv _ rfl, hv _ rfl, rfl⟩, ?_⟩,
    ⟨⟨BUILTINS, ⟨[BOOLEAN]⟩, rfl, hv _ rfl, hv _ rfl, rfl⟩, ?_⟩⟩
  all_goals
    intro ls h l hl
    cases h
    simp only [List.mem_cons, List.not_mem_nil, or_false] at hl
    rcases hl with rfl | rfl <;> exact ⟨hv _ rfl, rfl⟩

end Verif.ModelPkg
