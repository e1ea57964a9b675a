import Verif.PyRFLX.ScalarProps

/-! # Property C04: encoding and decoding of enumeration values in PyRFLX -/

namespace Verif.PyRFLX

open Verif Verif.Types Verif.Bits

/-- Enumerations as specifications give them; no literal is called `__VALUE__`. -/
structure Plain (t : Enum) : Prop where
  accepted : t.Accepted
  simple : t.Simple
  names : ∀ kv ∈ t.literals, kv.1.key ≠ valueID.key

/-- The value objects can be encoded: the size is positive and written without base. -/
def EnumSized (t : Enum) : Prop := ∃ s, scalarSize t.size = .ok ⟨s, .b0⟩ ∧ 0 < s

/-- The spelling of a literal: qualified by the package outside of the package, except for builtin types. -/
def spelled (t : Enum) (imported : Bool) (l : ID) : PyStr :=
  if imported = true ∧ t.package.key ≠ builtinsPackage.key then (⟨t.package.parts ++ l.parts⟩ : ID).str else l.str

/-! ## Lemmas -/

/-- The dictionary of `EnumValue` as a list. -/
def litList (pkg : ID) (imported : Bool) (l : List (ID × Int)) : List (ID × Int) :=
  l.flatMap fun kv => (if isBuiltin pkg || !imported then [kv] else []) ++
    if isBuiltin pkg then [] else [qualified pkg kv]

theorem literals_eq {pkg : ID} (hp : pkg.Valid) {imported : Bool} {l d : List (ID × Int)}
    (hv : ∀ kv ∈ l, kv.1.Valid) (h : Distinct (d ++ litList pkg imported l)) :
    EnumValue.literals pkg imported l d = .ok (d ++ litList pkg imported l) := by
  induction l generalizing d with
  | nil => simp [EnumValue.literals, litList]
  | cons a l ih =>
    obtain ⟨k, v⟩ := a
    have hnew : ∀ {d : List (ID × Int)} {x : ID × Int} {r : List (ID × Int)}, Distinct (d ++ x :: r) →
        dictSet d x.1 x.2 = d ++ [x] := by
      intro d x r h
      apply dictSet_new
      intro kv hkv
      unfold Distinct at h
      rw [List.pairwise_append] at h
      exact h.2.2 kv hkv x (by simp)
    obtain ⟨c, hc, hcp, _⟩ := ID.C38_mul pkg k hp (hv (k, v) (by simp))
    obtain rfl : c = ⟨pkg.parts ++ k.parts⟩ := by cases c; simp_all
    have ih' := fun {d} => ih (d := d) (fun kv hkv => hv kv (by simp [hkv]))
    simp only [EnumValue.literals, hc, bind, Except.bind]
    have hl : litList pkg imported ((k, v) :: l) = ((if isBuiltin pkg || !imported then [(k, v)] else []) ++
      if isBuiltin pkg then [] else [qualified pkg (k, v)]) ++ litList pkg imported l := by
      simp [litList]
    rw [hl] at h ⊢
    cases hb : isBuiltin pkg <;> cases imported <;> simp only [hb, Bool.false_eq_true, if_false, if_true, Bool.or_false,
      Bool.or_true, Bool.not_true, Bool.not_false, Bool.or_self, List.nil_append, List.append_nil, List.cons_append] at h ⊢
    · have h1 := hnew h
      have h2 : dictSet (dictSet d k v) ⟨pkg.parts ++ k.parts⟩ v = d ++ [(k, v), qualified pkg (k, v)] := by
        rw [show dictSet d k v = d ++ [(k, v)] from h1]
        have := hnew (d := d ++ [(k, v)]) (x := qualified pkg (k, v)) (by simpa using h)
        simpa [qualified] using this
      rw [h2, ih' (by simpa using h)]
      simp
    · have h1 := hnew h
      rw [show dictSet d ⟨pkg.parts ++ k.parts⟩ v = d ++ [qualified pkg (k, v)] from h1, ih' (by simpa using h)]
      simp
    · have h1 := hnew h
      rw [show dictSet d k v = d ++ [(k, v)] from h1, ih' (by simpa using h)]
      simp
    · have h1 := hnew h
      rw [show dictSet d k v = d ++ [(k, v)] from h1, ih' (by simpa using h)]
      simp

theorem litList_distinct {pkg : ID} (hp : pkg.parts ≠ []) (imported : Bool) {l : List (ID × Int)} (h : Distinct l)
    (h1 : ∀ kv ∈ l, kv.1.parts.length = 1) : Distinct (litList pkg imported l) := by
  have hpos := List.length_pos_iff.mpr hp
  have hkey : ∀ {a b : ID}, a.parts.length = 1 → b.parts.length = 1 → a.key ≠ pkg.key ++ b.key := by
    intro a b ha hb he
    have e := congrArg List.length he
    simp only [ID.key, List.length_append, List.length_map] at e
    omega
  unfold Distinct litList
  rw [List.pairwise_flatMap]
  refine ⟨?_, ?_⟩
  · intro a ha
    cases isBuiltin pkg <;> cases imported <;>
      simp [qualified, key_append, hkey (h1 a ha) (h1 a ha)]
  · refine List.Pairwise.imp_of_mem ?_ h
    intro a b ha hb hab x hx y hy
    have hx' : ∀ {x a : ID × Int}, x ∈ (if isBuiltin pkg || !imported then [a] else []) ++
        (if isBuiltin pkg then [] else [qualified pkg a]) → x = a ∨ x = qualified pkg a := by
      intro x a hx
      rcases List.mem_append.mp hx with hk | hk <;> split at hk <;> simp at hk <;> simp [hk]
    have hy' := hx' hy
    have hx' := hx' hx
    rcases hx' with rfl | rfl <;> rcases hy' with rfl | rfl
    · exact hab
    · simpa [qualified, key_append] using hkey (h1 _ ha) (h1 b hb)
    · have := hkey (h1 _ hb) (h1 a ha)
      simpa [qualified, key_append] using fun he => this he.symm
    · simpa [qualified, key_append] using hab

theorem litList_visible (t : Enum) (imported : Bool) (n : List PyStr) (v : Int) :
    (∃ kv ∈ litList t.package imported t.literals, kv.1.key = n ∧ kv.2 = v) ↔ t.Visible (!imported) n v := by
  unfold litList Enum.Visible
  have hb : isBuiltin t.package = true ↔ t.package.key = builtinsPackage.key := ID.eq_iff_key _ _
  simp only [List.mem_flatMap]
  constructor
  · rintro ⟨kv, ⟨a, ha, hkv⟩, rfl, rfl⟩
    rcases List.mem_append.mp hkv with hk | hk
    · split at hk
      · rename_i hc
        simp only [List.mem_singleton] at hk
        subst hk
        refine ⟨kv.1, ha, .inl ⟨rfl, ?_⟩⟩
        rw [Bool.or_eq_true, hb] at hc
        exact hc
      · simp at hk
    · split at hk
      · simp at hk
      · rename_i hc
        simp only [List.mem_singleton] at hk
        subst hk
        exact ⟨a.1, ha, .inr ⟨key_append _ _, fun h => hc (hb.mpr h)⟩⟩
  · rintro ⟨l, hl, ⟨rfl, hc⟩ | ⟨rfl, hc⟩⟩
    · refine ⟨(l, v), ⟨(l, v), hl, List.mem_append_left _ ?_⟩, rfl, rfl⟩
      rw [if_pos]
      · simp
      · rw [Bool.or_eq_true, hb]; exact hc
    · refine ⟨qualified t.package (l, v), ⟨(l, v), hl, List.mem_append_right _ ?_⟩, key_append _ _, rfl⟩
      rw [if_neg (fun h => hc (hb.mp h))]
      simp

/-- Lookup in a dictionary. -/
theorem dictGet_iff {d : List (ID × Int)} (h : Distinct d) (i : ID) (v : Int) :
    dictGet d i = some v ↔ ∃ kv ∈ d, kv.1.key = i.key ∧ kv.2 = v := by
  induction d with
  | nil => simp [dictGet]
  | cons a d ih =>
    unfold Distinct at h ih
    rw [List.pairwise_cons] at h
    simp only [dictGet, List.find?_cons]
    cases he : a.1.eq i with
    | true =>
      have hk := (ID.eq_iff_key _ _).mp he
      simp only [Option.map_some, Option.some.injEq, List.mem_cons, exists_eq_or_imp, hk, true_and]
      constructor
      · exact Or.inl
      · rintro (h' | ⟨kv, h1, h2, _⟩)
        · exact h'
        · exact absurd (hk.trans h2.symm) (h.1 kv h1)
    | false =>
      have hk : a.1.key ≠ i.key := fun h' => by rw [(ID.eq_iff_key _ _).mpr h'] at he; cases he
      have := ih h.2
      simp only [dictGet] at this
      simp only [this, List.mem_cons, exists_eq_or_imp, hk, false_and, false_or]

/-- The substitution maps every visible literal to its number. -/
theorem subst_literal {d : List (ID × Int)} (h : Distinct d) (hn : ∀ kv ∈ d, kv.1.key ≠ valueID.key)
    (value : Int) (size : Num) (k : Nat) (l : ID) (v : Int) (hl : ∃ kv ∈ d, kv.1.key = l.key ∧ kv.2 = v) :
    subst (k + 1) (substitution (intMap value size ++ d.map fun kv => (.var false false kv.1, .n kv.2)))
      (.var false false l) = .ok (.n v) := by
  have hne : valueID.key ≠ l.key := by
    obtain ⟨kv, h1, h2, _⟩ := hl
    rw [← h2]; exact fun he => hn kv h1 he.symm
  have e1 : (Expr.var false false valueID).eq (.var false false l) = false := by
    rw [← Bool.not_eq_true, var_eq]; exact hne
  have e2 : (Expr.attr false .size (.var false false valueID)).eq (.var false false l) = false := by
    simp [Expr.eq, Expr.cls, Expr.Cls.sub]
  rw [subst_var]
  congr 1
  have hg := (dictGet_iff h l v).mpr hl
  have hf : (d.map fun kv => ((Expr.var false false kv.1, Expr.n kv.2) : Expr × Expr)).find?
      (fun kv => kv.1.eq (.var false false l)) = (d.find? (fun kv => kv.1.eq l)).map
        (fun kv => (.var false false kv.1, .n kv.2)) := by
    rw [List.find?_map]
    have : (fun kv : Expr × Expr => kv.1.eq (.var false false l)) ∘
        (fun kv : ID × Int => (Expr.var false false kv.1, Expr.n kv.2)) = fun kv => kv.1.eq l := by
      funext kv
      simp [Expr.eq, Expr.cls, Expr.Cls.sub]
    rw [this]
  simp only [dictGet] at hg
  simp only [substitution, Expr.isName, if_true, intMap, List.cons_append, List.nil_append, List.find?_cons, e1, e2, hf]
  cases hx : d.find? (fun kv => kv.1.eq l) with
  | none => simp [hx] at hg
  | some kv => simp [hx] at hg ⊢; exact hg

/-- A conjunction of terms that all become true. -/
theorem and_true {m : List (Expr × Expr)} {cs : List Expr} {k : Nat}
    (h : ∀ c ∈ cs, ∃ c', subst k (substitution m) c = .ok c' ∧ c'.simplified = .ok .tru) :
    ∃ e, subst (k + 1) (substitution m) (.bool .and cs) = .ok e ∧ e.simplified = .ok .tru := by
  let g : Expr → Expr := fun c => match subst k (substitution m) c with | .ok c' => c' | .error _ => c
  have hg : ∀ c ∈ cs, subst k (substitution m) c = .ok (g c) ∧ (g c).simplified = .ok .tru := by
    intro c hc
    obtain ⟨c', h1, h2⟩ := h c hc
    simp only [g, h1]
    exact ⟨trivial, h2⟩
  refine ⟨_, subst_bool (fun t ht => (hg t ht).1), ?_⟩
  have := simp_bool (o := .and) (ts := cs.map g) (f := fun _ => true) (by
    intro t ht
    obtain ⟨c, hc, rfl⟩ := List.mem_map.mp ht
    exact (hg c hc).2)
  rw [this]
  simp [BoolOp.isAnd, lit]

theorem package_facts {t : Enum} (h : Plain t) :
    t.id.parent = .ok t.package ∧ t.package.Valid ∧ t.package.parts ≠ [] := by
  have h2 : t.id.parts.length = 2 := by
    obtain ⟨id, l, size, av, hh⟩ := h.accepted
    obtain ⟨h2, _, _, _, _, _, _, rfl⟩ := (new_iff id l size av t).mp hh
    exact h2
  exact package_ok t h2 h.simple.id

theorem lits_facts {t : Enum} (h : Plain t) (imported : Bool) :
    EnumValue.literals t.package imported t.literals [] = .ok (litList t.package imported t.literals) ∧
    Distinct (litList t.package imported t.literals) ∧ Distinct t.literals ∧
    t.literals.Pairwise (fun a b => a.2 ≠ b.2) := by
  obtain ⟨_, p2, p3⟩ := package_facts h
  obtain ⟨s, _, _, hd, hdv, _⟩ := C06_accepted t h.accepted
  have hd' := litList_distinct p3 imported hd (fun kv hkv => (h.simple.single kv hkv).2)
  have := literals_eq (d := []) p2 (fun kv hkv => (h.simple.single kv hkv).1) (by simpa using hd')
  exact ⟨by simpa using this, hd', hd, hdv⟩

theorem litList_names {t : Enum} (h : Plain t) (imported : Bool) :
    ∀ kv ∈ litList t.package imported t.literals, kv.1.key ≠ valueID.key := by
  obtain ⟨_, p2, p3⟩ := package_facts h
  intro kv hkv he
  obtain ⟨l, hl, ⟨h1, _⟩ | ⟨h1, _⟩⟩ := (litList_visible t imported kv.1.key kv.2).mp ⟨kv, hkv, rfl, rfl⟩
  · exact h.names _ hl (h1.symm.trans he)
  · have e := congrArg List.length (he.symm.trans h1)
    have := List.length_pos_iff.mpr p3
    have := (h.simple.single _ hl).2
    simp only [ID.key, valueID, List.length_append, List.length_map, List.length_cons, List.length_nil] at e this
    omega

/-- The check of `assign` never fails for a literal. -/
theorem check_ok {t : Enum} (h : Plain t) (imported : Bool) (number : Int) (hl : ∃ l, (l, number) ∈ t.literals) :
    ∃ cs size e, t.proofConstraints valueID (!imported) = .ok cs ∧ scalarSize t.size = .ok size ∧
      (Expr.bool .and cs).substituted (intMap number size ++
        (litList t.package imported t.literals).map fun kv => (.var false false kv.1, .n kv.2)) = .ok e ∧
      e.simplified = .ok .tru := by
  obtain ⟨_, hd', hd, _⟩ := lits_facts h imported
  have hn := litList_names h imported
  obtain ⟨s, hs, hc⟩ := constraints_eq t h.accepted h.simple valueID (!imported)
  have hvis : ∀ kv ∈ t.visibleList (!imported), ∃ kv' ∈ litList t.package imported t.literals,
      kv'.1.key = kv.1.key ∧ kv'.2 = kv.2 := fun kv hkv =>
    (litList_visible t imported _ _).mpr ((visible_iff t _ _ _).mpr ⟨kv, hkv, rfl, rfl⟩)
  rw [hc]
  simp only [Except.ok.injEq, hs]
  have hex : ∃ kv ∈ t.visibleList (!imported), kv.2 = number := by
    obtain ⟨l, hl⟩ := hl
    by_cases hb : t.package.key = builtinsPackage.key
    · obtain ⟨kv, g1, _, g3⟩ := (visible_iff t (!imported) _ _).mp ⟨l, hl, .inl ⟨rfl, .inl hb⟩⟩
      exact ⟨kv, g1, g3⟩
    · obtain ⟨kv, g1, _, g3⟩ := (visible_iff t (!imported) _ _).mp ⟨l, hl, .inr ⟨rfl, hb⟩⟩
      exact ⟨kv, g1, g3⟩
  suffices hsuff : ∀ k, ∃ e, subst (k + 4) (substitution (intMap number s ++
        (litList t.package imported t.literals).map fun kv => (.var false false kv.1, .n kv.2))) (.bool .and
        (.bool .or ((t.visibleList !imported).map fun kv => .rel .eq (.var false false valueID) (.var false false kv.1)) ::
          (t.visibleList !imported).map (fun kv => .rel .eq (.var false false kv.1) (.n kv.2)) ++
          [.rel .eq (.attr false .size (.var false false valueID)) s.expr])) = .ok e ∧ e.simplified = .ok .tru by
    have hdep : ∃ k, depth (.bool .and
        (.bool .or ((t.visibleList !imported).map fun kv => .rel .eq (.var false false valueID) (.var false false kv.1)) ::
          (t.visibleList !imported).map (fun kv => .rel .eq (.var false false kv.1) (.n kv.2)) ++
          [.rel .eq (.attr false .size (.var false false valueID)) s.expr])) + 1 = k + 4 := by
      obtain ⟨kv, hkv, _⟩ := hex
      cases hv : t.visibleList !imported with
      | nil => rw [hv] at hkv; simp at hkv
      | cons a l =>
        simp only [List.map_cons, List.cons_append, depth, depthL]
        exact ⟨_, by rw [show ∀ x y : Nat, 1 + max (1 + max (1 + max 1 1) x) y + 1 =
          (max (1 + max (1 + max 1 1) x) y - 2) + 4 from fun x y => by omega]⟩
    obtain ⟨k, hk⟩ := hdep
    obtain ⟨e, h1, h2⟩ := hsuff k
    refine ⟨_, s, e, rfl, rfl, ?_, h2⟩
    unfold Expr.substituted
    rw [hk]
    exact h1
  intro k
  apply and_true
  intro c hc
  simp only [List.cons_append, List.mem_cons, List.mem_append, List.not_mem_nil, or_false] at hc
  rcases hc with rfl | hc | rfl
  · refine ⟨_, subst_bool (g := fun e => match e with
        | .rel _ _ (.var _ _ l) => .rel .eq (.n number) (.n ((dictGet (litList t.package imported t.literals) l).getD 0))
        | e => e) ?_, ?_⟩
    · intro e he
      obtain ⟨kv, hkv, rfl⟩ := List.mem_map.mp he
      refine subst_rel (subst_value k _ _ _) (subst_literal hd' hn _ _ k _ _ ?_)
      have := hvis kv hkv
      rw [(dictGet_iff hd' kv.1 kv.2).mpr this]
      exact this
    · have := simp_bool (o := .or) (ts := ((t.visibleList !imported).map fun kv => Expr.rel .eq (.n number)
          (.n ((dictGet (litList t.package imported t.literals) kv.1).getD 0))))
          (f := fun e => match e with | .rel _ _ (.num w _) => number == w | _ => false) (by
        intro e he
        obtain ⟨kv, hkv, rfl⟩ := List.mem_map.mp he
        exact simp_rel (op := .eq) rfl (simp_n _) (simp_n _))
      simp only [List.map_map] at this ⊢
      refine Eq.trans this ?_
      congr 1
      have : ((t.visibleList !imported).map fun kv => Expr.rel .eq (.n number)
          (.n ((dictGet (litList t.package imported t.literals) kv.1).getD 0))).any
          (fun e => match e with | .rel _ _ (.num w _) => number == w | _ => false) = true := by
        obtain ⟨kv, hkv, rfl⟩ := hex
        rw [List.any_eq_true]
        refine ⟨_, List.mem_map.mpr ⟨kv, hkv, rfl⟩, ?_⟩
        rw [(dictGet_iff hd' kv.1 kv.2).mpr (hvis kv hkv)]
        simp
      simp only [BoolOp.isAnd, Bool.false_eq_true, if_false, this]
      rfl
  · obtain ⟨kv, hkv, rfl⟩ := List.mem_map.mp hc
    refine ⟨_, subst_rel (subst_literal hd' hn _ _ (k + 1) _ _ (hvis kv hkv)) (subst_num _ _), ?_⟩
    rw [simp_rel (op := .eq) rfl (simp_n _) (simp_n _)]
    simp [RelOp.intOp, lit]
  · refine ⟨_, subst_rel (subst_size (k + 1) _ _ _) (subst_num _ _), ?_⟩
    have := simp_rel (op := .eq) rfl (simp_num s) (simp_num s)
    refine Eq.trans this ?_
    simp [RelOp.intOp, lit]

theorem ofStr_valid {s : PyStr} {i : ID} (h : ID.ofStr s = .ok i) : i.Valid := by
  obtain ⟨rfl, h'⟩ := (ID.checked_ok_iff _ _).mp h
  exact h'

theorem resolve_valid {pkg : ID} (hp : pkg.Valid) {imported : Bool} {s : PyStr} {i : ID}
    (h : EnumValue.resolve pkg imported s = .ok i) : i.Valid := by
  unfold EnumValue.resolve at h
  split at h
  · exact ofStr_valid h
  · unfold ID.mulStr at h
    split at h
    · obtain ⟨rfl, h'⟩ := (ID.checked_ok_iff _ _).mp h
      exact h'
    · exact ofStr_valid h

/-- The last part of an identifier is its name. -/
theorem name_key {i l pkg : ID} (hi : i.Valid) (hl : l.parts.length = 1)
    (h : i.key = l.key ∨ i.key = pkg.key ++ l.key) : ∃ n, i.name = .ok n ∧ n.key = l.key ∧ n.parts = [i.parts.getLastD []] := by
  obtain ⟨p, hp⟩ : ∃ p, l.parts = [p] := by
    cases hh : l.parts with
    | nil => simp [hh] at hl
    | cons a as => cases as with
      | nil => exact ⟨a, rfl⟩
      | cons b bs => simp [hh] at hl
  have hlast : i.key.getLast? = some p.lower := by
    rcases h with h | h <;> rw [h] <;> simp [ID.key, hp]
  simp only [ID.key, List.getLast?_map] at hlast
  cases hq : i.parts.getLast? with
  | none => simp [hq] at hlast
  | some q =>
    simp only [hq, Option.map_some, Option.some.injEq] at hlast
    have hqm : q ∈ i.parts := List.mem_of_getLast? hq
    have hqv := hi.2 q hqm
    refine ⟨⟨[q]⟩, ?_, ?_, ?_⟩
    · simp only [ID.name, hq]
      rw [ID.ofStr, splitSep_noColon q hqv.2.2.2]
      exact ID.checked_ok ⟨[q]⟩ ⟨by simp, by simpa using hqv⟩
    · simp [ID.key, hp, hlast]
    · simp [List.getLastD_eq_getLast?, hq]

/-! ## C04 -/

/-- Assigning a name succeeds exactly if it names a literal that is visible; the value then is the number of the
literal. Other names raise `PyRFLXError`; the check (`check=True`) never fails. -/
theorem C04_assign_partial (t : Enum) (h : Plain t) (imported check : Bool) (s : PyStr) (i : ID)
    (hi : EnumValue.resolve t.package imported s = .ok i) :
    (∀ v, t.Visible (!imported) i.key v → EnumValue.assign t imported s check =
      .ok (if imported = true ∧ t.package.key ≠ builtinsPackage.key then i.str else i.parts.getLastD [], v)) ∧
    ((∀ v, ¬ t.Visible (!imported) i.key v) → EnumValue.assign t imported s check = .error .pyrflx) := by
  obtain ⟨p1, p2, p3⟩ := package_facts h
  obtain ⟨g1, g2, g3, g4⟩ := lits_facts h imported
  constructor
  · intro v hv
    have hget := (dictGet_iff g2 i v).mpr ((litList_visible t imported _ _).mpr hv)
    have hv' := hv
    obtain ⟨l, hl, hk⟩ := hv'
    obtain ⟨n, hn1, hn2, hn3⟩ := name_key (pkg := t.package) (resolve_valid p2 hi) (h.simple.single _ hl).2
      (by rcases hk with ⟨hk, _⟩ | ⟨hk, _⟩ <;> simp [hk])
    have hget' : dictGet t.literals n = some v := (dictGet_iff g3 n v).mpr ⟨_, hl, hn2.symm, rfl⟩
    obtain ⟨cs, size, e, c1, c2, c3, c4⟩ := check_ok h imported v ⟨l, hl⟩
    have hstr : n.str = i.parts.getLastD [] := by simp [ID.str, hn3, joinSep]
    have hbi : (imported && !isBuiltin t.package) = true ↔ imported = true ∧ t.package.key ≠ builtinsPackage.key := by
      rw [Bool.and_eq_true, Bool.not_eq_true', ← Bool.not_eq_true, isBuiltin, ID.eq_iff_key]
    simp only [EnumValue.assign, p1, bind, Except.bind, g1, hi, hget, Option.isNone_some, Bool.false_eq_true, if_false,
      hn1, hget', pure, Except.pure]
    simp only [intMap, List.cons_append, List.nil_append] at c3
    have hfin : (if (imported && !isBuiltin t.package) = true then i.str else n.str) =
        if imported = true ∧ t.package.key ≠ builtinsPackage.key then i.str else i.parts.getLastD [] := by
      rw [hstr]; simp only [hbi]
    cases check with
    | false => rw [← hfin]; rfl
    | true => rw [← hfin]; simp only [c1, c2, c3, c4, if_true]; rfl
  · intro hv
    have hget : dictGet (litList t.package imported t.literals) i = none := by
      cases hg : dictGet (litList t.package imported t.literals) i with
      | none => rfl
      | some v => exact absurd ((litList_visible t imported _ _).mp ((dictGet_iff g2 i v).mp hg)) (hv v)
    simp [EnumValue.assign, p1, bind, Except.bind, g1, hi, hget]

theorem search_eq {imported : Bool} {n : Int} {d : List (ID × Int)} {T : PyStr} (r : Option (PyStr × Int))
    (h : ∀ kv ∈ d, kv.2 = n → (if imported then .ok kv.1.str else kv.1.name.map ID.str : Py PyStr) = .ok T) :
    EnumValue.search imported n d r = .ok (if (d.map (·.2)).contains n then some (T, n) else r) := by
  induction d generalizing r with
  | nil => simp [EnumValue.search]
  | cons a d ih =>
    obtain ⟨k, v⟩ := a
    have ih' := fun r => ih r (fun kv hkv => h kv (by simp [hkv]))
    simp only [EnumValue.search]
    by_cases hv : v = n
    · subst hv
      have := h (k, v) (by simp) rfl
      simp only at this
      simp only [beq_self_eq_true, if_true, this, bind, Except.bind, ih']
      simp
    · have hv' : (n == v) = false := by simpa using fun h => hv h.symm
      simp only [beq_iff_eq, hv, if_false, ih', List.map_cons, List.contains_cons, hv', Bool.false_or]

/-- Parsing: a number some literal has gives this literal; any other number is an error unless the enumeration is always
valid. -/
theorem C04_parse_partial (t : Enum) (h : Plain t) (imported : Bool) (b : Bitstring) (hb : b.bits ≠ []) :
    (∀ l, (l, (bitsToNat b.bits : Int)) ∈ t.literals →
      EnumValue.parse t imported b = .ok (spelled t imported l, bitsToNat b.bits)) ∧
    ((∀ l, (l, (bitsToNat b.bits : Int)) ∉ t.literals) →
      EnumValue.parse t imported b = if t.alwaysValid then .ok (unknown, bitsToNat b.bits) else .error .pyrflx) := by
  obtain ⟨p1, p2, p3⟩ := package_facts h
  obtain ⟨g1, g2, g3, g4⟩ := lits_facts h imported
  have hmem : ((litList t.package imported t.literals).map (·.2)).contains (bitsToNat b.bits : Int) = true ↔
      ∃ l, (l, (bitsToNat b.bits : Int)) ∈ t.literals := by
    rw [List.contains_iff_mem, List.mem_map]
    constructor
    · rintro ⟨kv, hkv, hv⟩
      obtain ⟨l, hl, _⟩ := (litList_visible t imported kv.1.key kv.2).mp ⟨kv, hkv, rfl, rfl⟩
      exact ⟨l, by rw [← hv]; exact hl⟩
    · rintro ⟨l, hl⟩
      by_cases hb : t.package.key = builtinsPackage.key
      · obtain ⟨kv, e1, _, e3⟩ := (litList_visible t imported _ _).mpr ⟨l, hl, .inl ⟨rfl, .inl hb⟩⟩
        exact ⟨kv, e1, e3⟩
      · obtain ⟨kv, e1, _, e3⟩ := (litList_visible t imported _ _).mpr ⟨l, hl, .inr ⟨rfl, hb⟩⟩
        exact ⟨kv, e1, e3⟩
  constructor
  · intro l hl
    have hl1 := h.simple.single _ hl
    have hs := search_eq (imported := imported) (n := bitsToNat b.bits) (d := litList t.package imported t.literals)
      (T := spelled t imported l) none (by
      intro kv hkv hv
      simp only [litList, List.mem_flatMap] at hkv
      obtain ⟨a, ha, hkv⟩ := hkv
      have hbk : isBuiltin t.package = true ↔ t.package.key = builtinsPackage.key := ID.eq_iff_key _ _
      have hal : kv.2 = a.2 := by
        rcases List.mem_append.mp hkv with hk | hk <;> split at hk <;> simp at hk <;> simp [hk, qualified]
      have : a = (l, (bitsToNat b.bits : Int)) := by
        apply Classical.byContradiction
        intro hne
        have : ∀ x ∈ t.literals, ∀ y ∈ t.literals, x ≠ y → x.2 ≠ y.2 := by
          intro x hx y hy hxy
          exact List.Pairwise.forall_of_forall_of_flip (R := fun x y => x ≠ y → x.2 ≠ y.2) (by simp)
            (g4.imp (fun {a b} h (_ : a ≠ b) => h)) (g4.imp (fun {a b} h (_ : b ≠ a) => Ne.symm h)) hx hy hxy
        exact this a ha _ hl hne (by simp [← hal, hv])
      subst this
      have hnm : ∀ {pk : ID}, pk.key = t.package.key → (ID.mk (pk.parts ++ l.parts)).Valid →
          (ID.mk (pk.parts ++ l.parts)).name.map ID.str = .ok l.str := by
        intro pk _ hval
        obtain ⟨n, e1, _, e3⟩ := name_key (l := l) (pkg := pk) hval hl1.2 (.inr (key_append _ _))
        rw [e1]
        have hone : ∃ p, l.parts = [p] := by
          cases hh : l.parts with
          | nil => have := hl1.2; simp [hh] at this
          | cons a as => cases as with
            | nil => exact ⟨a, rfl⟩
            | cons b bs => have := hl1.2; simp [hh] at this
        obtain ⟨p, hp⟩ := hone
        show Except.ok n.str = _
        simp [ID.str, e3, hp]
      have hnm1 : l.name.map ID.str = .ok l.str := by
        have hone : ∃ p, l.parts = [p] := by
          cases hh : l.parts with
          | nil => have := hl1.2; simp [hh] at this
          | cons a as => cases as with
            | nil => exact ⟨a, rfl⟩
            | cons b bs => have := hl1.2; simp [hh] at this
        obtain ⟨n, e1, _, e3⟩ := name_key (l := l) (pkg := l) hl1.1 hl1.2 (.inl rfl)
        obtain ⟨p, hp⟩ := hone
        rw [e1]
        show Except.ok n.str = _
        simp [ID.str, e3, hp]
      have hqv : (ID.mk (t.package.parts ++ l.parts)).Valid :=
        ⟨by simp [p3], fun p hp => by
          rcases List.mem_append.mp hp with hp | hp
          · exact p2.2 p hp
          · exact hl1.1.2 p hp⟩
      rcases List.mem_append.mp hkv with hk | hk
      · split at hk
        · rename_i hc
          simp only [List.mem_singleton] at hk
          subst hk
          rw [Bool.or_eq_true, hbk] at hc
          have hsp : spelled t imported l = l.str := by
            rw [spelled, if_neg]
            rintro ⟨e1, e2⟩
            rcases hc with hc | hc
            · exact e2 hc
            · rw [e1] at hc; cases hc
          rw [hsp]
          cases imported
          · simpa using hnm1
          · rfl
        · simp at hk
      · split at hk
        · simp at hk
        · rename_i hc
          simp only [List.mem_singleton] at hk
          subst hk
          have hc' : t.package.key ≠ builtinsPackage.key := fun h => hc (hbk.mpr h)
          cases imported
          · simp only [spelled, Bool.false_eq_true, false_and, if_false, qualified]
            exact hnm rfl hqv
          · simp [spelled, hc', qualified])
    simp only [hmem.mpr ⟨l, hl⟩, if_true] at hs
    simp only [EnumValue.parse, Bitstring.toInt, List.isEmpty_iff, hb, if_false, bind, Except.bind, p1, g1,
      hmem.mpr ⟨l, hl⟩, Bool.not_true, Bool.false_eq_true, hs]
  · intro hn
    have hf : ((litList t.package imported t.literals).map (·.2)).contains (bitsToNat b.bits : Int) = false := by
      rw [← Bool.not_eq_true, hmem]
      rintro ⟨l, hl⟩; exact hn l hl
    simp only [EnumValue.parse, Bitstring.toInt, List.isEmpty_iff, hb, if_false, bind, Except.bind, p1, g1, hf,
      Bool.not_false, if_true]

/-- The bits of a literal are the big-endian encoding of its number with the size of the type. -/
theorem C04_bits_partial (t : Enum) (h : Plain t) (hs : EnumSized t) (txt : PyStr) (v : Int) (hl : ∃ l, (l, v) ∈ t.literals) :
    ∃ s b, scalarSize t.size = .ok s ∧ EnumValue.bitstring t (txt, v) = .ok b ∧ (b.len : Int) = s.v ∧
      (bitsToNat b.bits : Int) = v := by
  obtain ⟨s, h1, _, _, _, h5, _⟩ := C06_accepted t h.accepted
  obtain ⟨l, hl⟩ := hl
  obtain ⟨h0, hs0, hlt⟩ := h5 _ hl
  obtain ⟨s', hs', hpos⟩ := hs
  rw [h1] at hs'
  cases hs'
  simp only at hpos hlt h0 hs0
  have hlt' : v.toNat < 2 ^ s'.toNat := by
    have : ((2 ^ s'.toNat : Nat) : Int) = 2 ^ s'.toNat := by simp
    omega
  refine ⟨_, ⟨formatBin s'.toNat v.toNat⟩, h1, ?_, ?_, ?_⟩
  · simp [EnumValue.bitstring, h1, bind, Except.bind, fmtBits, show ¬ s' < 0 by omega, show ¬ v < 0 by omega]
  · simp only [Bitstring.len]
    rw [formatBin_eq (by omega) hlt', length_natBits]
    omega
  · simp only
    rw [formatBin_eq (by omega) hlt', bitsToNat_natBits, Nat.mod_eq_of_lt hlt']
    omega

theorem resolve_own {t : Enum} (h : Plain t) (imported : Bool) {l : ID} (hl : l.Valid)
    (hpre : imported = true → ¬ t.package.str <+: l.str) :
    EnumValue.resolve t.package imported l.str =
      .ok (if imported = true ∧ t.package.key ≠ builtinsPackage.key then ⟨t.package.parts ++ l.parts⟩ else l) := by
  obtain ⟨p1, p2, p3⟩ := package_facts h
  have hbi : isBuiltin t.package = true ↔ t.package.key = builtinsPackage.key := ID.eq_iff_key _ _
  unfold EnumValue.resolve
  by_cases hb : t.package.key = builtinsPackage.key
  · rw [if_pos (by rw [hbi.mpr hb]; simp), if_neg (by simp [hb])]
    exact ID.C38_str_roundtrip l hl
  · cases imported
    · rw [if_pos (by simp), if_neg (by simp)]
      exact ID.C38_str_roundtrip l hl
    · rw [if_neg, if_pos ⟨rfl, hb⟩]
      · obtain ⟨c, hc, hcp, _⟩ := ID.C38_mul t.package l p2 hl
        have : t.package.mulStr l.str = .ok c := hc
        rw [this]
        cases c; simp_all
      · have : startsWith l.str t.package.str = false := by
          rw [← Bool.not_eq_true, startsWith, List.isPrefixOf_iff_prefix]; exact hpre rfl
        simp [this, Bool.eq_false_iff.mpr (fun h => hb (hbi.mp h))]

/-- Assigning a literal by its name and parsing the resulting bits gives the same literal and number. -/
theorem C04_roundtrip_partial (t : Enum) (h : Plain t) (hs : EnumSized t) (imported check : Bool) (l : ID) (v : Int)
    (hl : (l, v) ∈ t.literals) (hpre : imported = true → ¬ t.package.str <+: l.str) :
    ∃ b, EnumValue.assign t imported l.str check = .ok (spelled t imported l, v) ∧
      EnumValue.bitstring t (spelled t imported l, v) = .ok b ∧
      EnumValue.parse t imported b = .ok (spelled t imported l, v) := by
  obtain ⟨hv1, hv2⟩ := h.simple.single _ hl
  obtain ⟨s, b, h1, h2, h3, h4⟩ := C04_bits_partial t h hs (spelled t imported l) v ⟨l, hl⟩
  have hne : b.bits ≠ [] := by
    intro he
    obtain ⟨s', hs', hpos⟩ := hs
    rw [h1] at hs'; cases hs'
    simp [Bitstring.len, he] at h3
    omega
  refine ⟨b, ?_, h2, ?_⟩
  · have hr := resolve_own h imported hv1 hpre
    by_cases hc : imported = true ∧ t.package.key ≠ builtinsPackage.key
    · rw [if_pos hc] at hr
      have := (C04_assign_partial t h imported check _ _ hr).1 v ⟨l, hl, .inr ⟨key_append _ _, hc.2⟩⟩
      rw [this]
      simp [spelled, hc]
    · rw [if_neg hc] at hr
      have hvis : t.package.key = builtinsPackage.key ∨ (!imported) = true := by
        by_cases hb : t.package.key = builtinsPackage.key
        · exact .inl hb
        · right; cases imported
          · rfl
          · exact absurd ⟨rfl, hb⟩ hc
      have := (C04_assign_partial t h imported check _ _ hr).1 v ⟨l, hl, .inl ⟨rfl, hvis⟩⟩
      rw [this, if_neg hc]
      have hone : ∃ p, l.parts = [p] := by
        cases hh : l.parts with
        | nil => simp [hh] at hv2
        | cons a as => cases as with
          | nil => exact ⟨a, rfl⟩
          | cons b bs => simp [hh] at hv2
      obtain ⟨p, hp⟩ := hone
      simp [spelled, if_neg hc, ID.str, hp, joinSep]
  · have := (C04_parse_partial t h imported b hne).1 l (by rw [h4]; exact hl)
    rw [this, h4]

/-- Distinct literals have distinct bits. -/
theorem C04_injective_partial (t : Enum) (h : Plain t) (hs : EnumSized t) (a b : ID × Int) (ha : a ∈ t.literals)
    (hb : b ∈ t.literals) (x y : PyStr) (r : Bitstring) (h1 : EnumValue.bitstring t (x, a.2) = .ok r)
    (h2 : EnumValue.bitstring t (y, b.2) = .ok r) : a = b := by
  obtain ⟨_, _, _, g4⟩ := lits_facts h false
  obtain ⟨_, r1, _, e1, _, v1⟩ := C04_bits_partial t h hs x a.2 ⟨a.1, ha⟩
  obtain ⟨_, r2, _, e2, _, v2⟩ := C04_bits_partial t h hs y b.2 ⟨b.1, hb⟩
  rw [h1] at e1; rw [h2] at e2
  cases e1; cases e2
  apply Classical.byContradiction
  intro hne
  exact List.Pairwise.forall_of_forall_of_flip (R := fun x y : ID × Int => x ≠ y → x.2 ≠ y.2) (by simp)
    (g4.imp (fun {a b} h (_ : a ≠ b) => h)) (g4.imp (fun {a b} h (_ : b ≠ a) => Ne.symm h)) ha hb hne (by omega)

/-- Whatever was parsed from bits of the declared size is encoded to the same bits, also the unnamed values of an always
valid enumeration. -/
theorem C04_reencode_partial (t : Enum) (h : Plain t) (hs : EnumSized t) (imported : Bool) (b : Bitstring) (r : PyStr × Int)
    (hp : EnumValue.parse t imported b = .ok r)
    (hb : ∃ s, scalarSize t.size = .ok s ∧ (b.len : Int) = s.v) : EnumValue.bitstring t r = .ok b := by
  have hr : r.2 = bitsToNat b.bits := by
    by_cases hne : b.bits = []
    · simp [EnumValue.parse, Bitstring.toInt, hne, bind, Except.bind] at hp
    · obtain ⟨c1, c2⟩ := C04_parse_partial t h imported b hne
      by_cases hm : ∃ l, (l, (bitsToNat b.bits : Int)) ∈ t.literals
      · obtain ⟨l, hl⟩ := hm
        rw [c1 l hl] at hp
        cases hp; rfl
      · rw [c2 (fun l hl => hm ⟨l, hl⟩)] at hp
        split at hp
        · cases hp; rfl
        · cases hp
  obtain ⟨s', hs', hpos⟩ := hs
  obtain ⟨s, h1, h2⟩ := hb
  rw [h1] at hs'
  cases hs'
  simp only at h2
  have hlt := bitsToNat_lt b.bits
  simp only [Bitstring.len] at h2
  simp only [EnumValue.bitstring, h1, bind, Except.bind, fmtBits, hr, ne_eq, not_true_eq_false, false_or,
    show ¬ s' < 0 by omega, show ¬ ((bitsToNat b.bits : Nat) : Int) < 0 by omega, if_false, Int.toNat_natCast]
  congr 1
  obtain ⟨bits⟩ := b
  simp only at h2 hlt ⊢
  congr 1
  have : s'.toNat = bits.length := by omega
  rw [this, formatBin_eq (by omega) hlt, natBits_bitsToNat]

/-! ### The hypotheses can be met -/

example : Plain exEnum ∧ EnumSized exEnum :=
  ⟨⟨⟨_, _, _, _, exEnum_new⟩, ⟨by simp only [ID.Valid]; decide, by simp only [ID.Valid]; decide⟩, by decide⟩,
    ⟨2, rfl, by decide⟩⟩

example : ¬ exEnum.package.str <+: (⟨[['T', 'w', 'o']]⟩ : ID).str := by decide

/-- `P::Two` names a literal outside of the package. -/
example : ∃ i, EnumValue.resolve exEnum.package true ['P', ':', ':', 'T', 'w', 'o'] = .ok i ∧
    exEnum.Visible false i.key 2 :=
  ⟨⟨[['P'], ['T', 'w', 'o']]⟩, rfl, ⟨[['T', 'w', 'o']]⟩, by decide, .inr ⟨rfl, by decide⟩⟩

/-! ### Where it fails -/

/-- `type E is (Pad => 1) with Size => 2` in package `P`. -/
def exPad : Enum := ⟨⟨[['P'], ['E']]⟩, [(⟨[['P', 'a', 'd']]⟩, 1)], .n 2, false⟩

/-- Outside of its package a literal cannot be assigned by its name if the name starts with the name of the package:
`value.startswith(str(self._type.package))` takes it for a qualified name. -/
theorem C04_prefix_counterexample : Plain exPad ∧ EnumSized exPad ∧
    EnumValue.assign exPad true ['P', 'a', 'd'] true = .error .pyrflx := by
  have hp : Plain exPad := ⟨⟨⟨[['P'], ['E']]⟩, [(.id ⟨[['P', 'a', 'd']]⟩, 1)], .n 2, false, rfl⟩,
    ⟨by simp only [ID.Valid]; decide, by simp only [ID.Valid]; decide⟩, by decide⟩
  refine ⟨hp, ⟨2, rfl, by decide⟩, ?_⟩
  refine (C04_assign_partial exPad hp true true ['P', 'a', 'd'] ⟨[['P', 'a', 'd']]⟩ rfl).2 ?_
  rintro v ⟨l, hl, ⟨_, h | h⟩ | ⟨h, _⟩⟩
  · exact absurd h (by decide)
  · cases h
  · have := congrArg List.length h
    simp only [exPad, List.mem_singleton, Prod.mk.injEq] at hl
    obtain ⟨rfl, _⟩ := hl
    revert this
    decide

end Verif.PyRFLX
