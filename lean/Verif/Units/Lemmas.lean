import Verif.Units.Spec
import Verif.Common.Props

/-! # Lemmas: the units after each step -/

namespace Verif.Units
open Verif Spec

theorem eq_iff (a b : ID) : a.eq b = true ↔ nm a = nm b := ID.eq_iff_key a b

theorem eq_false_iff (a b : ID) : a.eq b = false ↔ nm a ≠ nm b := by
  rw [← Bool.not_eq_true, eq_iff]

theorem lows_append (a b : List PyStr) : lows (a ++ b) = lows a ++ lows b := by simp [lows]

theorem nm_under (pre : List PyStr) (i : ID) : nm (under pre i) = lows pre ++ nm i := lows_append _ _

theorem nm_parent (i : ID) : nm (parent i) = (nm i).dropLast := by
  simp [nm, parent, lows, List.map_dropLast]

theorem last_nm (i : ID) : (nm i).getLast?.getD [] = low (name i) := by
  simp only [nm, lows, name, List.getLast?_map]
  cases i.parts.getLast? <;> rfl

theorem nm_genericName (i : ID) : nm (genericName i) = genericOf (nm i) := by
  simp only [genericOf, last_nm]
  simp [nm, genericName, lows, List.map_dropLast, low, genericText]

theorem nm_length (i : ID) : (nm i).length = i.parts.length := by simp [nm, lows]

theorem gc_eq : low "Generic_Contains".toList = low "Generic_".toList ++ low "Contains".toList := by decide

theorem nm_containsUnit (p : ID) : nm (containsUnit p) = nm p ++ [low "Contains".toList] := by
  simp [nm, containsUnit, lows, contains, low]

theorem genericOf_append (n : Name) (x : PyStr) : genericOf (n ++ [x]) = n ++ [low "Generic_".toList ++ x] := by
  simp [genericOf]

theorem nm_genericContains (p : ID) : nm (genericName (containsUnit p)) = nm p ++ [low "Generic_Contains".toList] := by
  rw [nm_genericName, nm_containsUnit, genericOf_append, gc_eq]

theorem nm_package (t : Decl) : nm t.package = pkg t := by
  cases t <;> simp only [Decl.package, pkg, nm_parent]
  decide

theorem predefined_iff (p : ID) : predefined p = true ↔ nm p = [low "__BUILTINS__".toList] ∨ nm p = [low "__INTERNAL__".toList] := by
  have h1 : nm builtins = [low "__BUILTINS__".toList] := by decide
  have h2 : nm internal = [low "__INTERNAL__".toList] := by decide
  simp only [predefined, Bool.or_eq_true, eq_iff, h1, h2]

theorem live_iff (ds : List Decl) (t : Decl) : Live ds t ↔ t ∈ ds ∧ predefined t.package = false := by
  rw [← Bool.not_eq_true, predefined_iff, nm_package]
  simp [Live]

/-! ## The dictionary -/

/-- A unit is stored under the name. -/
def Has (d : Dict) (n : Name) : Prop := ∃ e ∈ d, nm e.1 = n

theorem get?_some {d : Dict} {k : ID} {u : Unit} (h : d.get? k = some u) : ∃ e ∈ d, nm e.1 = nm k ∧ e.2 = u := by
  simp only [Dict.get?, Option.map_eq_some_iff] at h
  obtain ⟨e, he, hu⟩ := h
  exact ⟨e, List.mem_of_find?_eq_some he, (eq_iff _ _).mp (by simpa using List.find?_some he), hu⟩

theorem get?_none {d : Dict} {k : ID} (h : d.get? k = none) : ¬ Has d (nm k) := by
  simp only [Dict.get?, Option.map_eq_none_iff, List.find?_eq_none] at h
  rintro ⟨e, he, hn⟩
  exact h e he ((eq_iff _ _).mpr hn)

theorem any_iff (d : Dict) (k : ID) : (d.any fun e => e.1.eq k) = true ↔ Has d (nm k) := by
  simp only [List.any_eq_true, eq_iff, Has]

theorem set_mem {d : Dict} {k : ID} {u : Unit} {e : ID × Unit} (h : e ∈ d.set k u) :
    nm e.1 = nm k ∧ e.2 = u ∨ e ∈ d ∧ nm e.1 ≠ nm k := by
  unfold Dict.set at h
  by_cases ha : (d.any fun e => e.1.eq k) = true
  · rw [if_pos ha] at h
    obtain ⟨x, hx, hxe⟩ := List.mem_map.mp h
    by_cases hk : x.1.eq k = true
    · rw [if_pos hk] at hxe
      subst hxe
      exact .inl ⟨(eq_iff _ _).mp hk, rfl⟩
    · rw [if_neg hk] at hxe
      subst hxe
      exact .inr ⟨hx, fun h => hk ((eq_iff _ _).mpr h)⟩
  · rw [if_neg ha] at h
    rcases List.mem_append.mp h with h | h
    · exact .inr ⟨h, fun hn => ha ((any_iff _ _).mpr ⟨e, h, hn⟩)⟩
    · rw [List.mem_singleton] at h
      subst h
      exact .inl ⟨rfl, rfl⟩

theorem set_keys (d : Dict) (k : ID) (u : Unit) :
    (d.set k u).map (fun e => nm e.1) = if (d.any fun e => e.1.eq k) then d.map fun e => nm e.1 else d.map (fun e => nm e.1) ++ [nm k] := by
  unfold Dict.set
  split
  · rw [List.map_map]
    apply List.map_congr_left
    intro x _
    simp only [Function.comp]
    split <;> rfl
  · simp

theorem set_has {d : Dict} {k : ID} {u : Unit} {n : Name} (h : Has d n ∨ n = nm k) : Has (d.set k u) n := by
  have hm : Has (d.set k u) n ↔ n ∈ (d.set k u).map fun e => nm e.1 := by
    simp only [Has, List.mem_map]
  have hd : Has d n ↔ n ∈ d.map fun e => nm e.1 := by simp only [Has, List.mem_map]
  rw [hm, set_keys]
  split
  · rename_i ha
    rcases h with h | h
    · exact hd.mp h
    · subst h
      exact hd.mp ((any_iff _ _).mp ha)
  · rcases h with h | h
    · exact List.mem_append_left _ (hd.mp h)
    · subst h
      simp

theorem set_nodup {d : Dict} (k : ID) (u : Unit) (h : (d.map fun e => nm e.1).Nodup) : ((d.set k u).map fun e => nm e.1).Nodup := by
  rw [set_keys]
  split
  · exact h
  · rename_i ha
    refine List.nodup_append.mpr ⟨h, by simp, ?_⟩
    intro a ha' b hb hab
    rw [List.mem_singleton] at hb
    subst hab hb
    obtain ⟨e, he, hn⟩ := List.mem_map.mp ha'
    exact ha ((any_iff _ _).mpr ⟨e, he, hn⟩)

/-! ## Invariant -/

/-- The refinement in a package of the given name. -/
def refines (n : Name) : Decl → Option Refinement
  | .refinement r => if predefined r.package = false ∧ nm r.package = n then some r else none
  | _ => none

/-- The refinements in the packages of the given name. -/
def rsOf (ps : List Decl) (n : Name) : List Refinement := ps.filterMap (refines n)

theorem rsOf_append (ps qs : List Decl) (n : Name) : rsOf (ps ++ qs) n = rsOf ps n ++ rsOf qs n := List.filterMap_append

theorem mem_rsOf {ps : List Decl} {n : Name} {r : Refinement} : r ∈ rsOf ps n ↔ Live ps (.refinement r) ∧ nm r.package = n := by
  simp only [rsOf, List.mem_filterMap, live_iff]
  constructor
  · rintro ⟨t, ht, h⟩
    cases t <;> simp only [refines, Option.ite_none_right_eq_some, Option.some.injEq, reduceCtorEq] at h
    obtain ⟨⟨h1, h2⟩, rfl⟩ := h
    exact ⟨⟨ht, h1⟩, h2⟩
  · rintro ⟨⟨ht, h1⟩, h2⟩
    exact ⟨_, ht, by simp [refines, h2]; exact h1⟩

/-- The messages of a refinement that are parameters. -/
def msgs (r : Refinement) : List Message := r.pdu :: if r.sdu.types.isEmpty then [] else [r.sdu]

theorem refinementFormals_eq (pre : List PyStr) (r : Refinement) : refinementFormals pre r = (msgs r).map (messageFormal pre) := by
  simp only [refinementFormals, msgs]
  split <;> rfl

theorem mem_msgs {r : Refinement} {m : Message} : m ∈ msgs r ↔ Involved r m := by
  simp only [msgs, Involved, List.mem_cons]
  split
  · rename_i h
    simp [List.isEmpty_iff.mp h]
  · rename_i h
    simp only [List.isEmpty_iff] at h
    simp [h]

/-- How units come about. -/
inductive Made (pre : List PyStr) (ps : List Decl) : Name → Unit → Prop
  | package {t n u} : Live ps t → n = pkg t → nm u.id = lows pre ++ pkg t → u.withs = [] → u.kind = .package none → Made pre ps n u
  | array {id e n} : Live ps (.array id e) → n = lows pre ++ nm id → Made pre ps n (arrayInstance pre id e)
  | generic {m n} : Live ps (.message m) → m.base = none → m.types ≠ [] → n = genericOf (nm m.id) → Made pre ps n (genericMessage pre m)
  | message {m n} : Live ps (.message m) → (m.base ≠ none ∨ m.types ≠ []) → n = nm m.id → Made pre ps n (messageInstance pre m)
  | genericContains {p n u} : rsOf ps p ≠ [] → n = p ++ [low "Generic_Contains".toList] → nm u.id = lows pre ++ n →
      u.withs = ⟨pre ++ genericTypes⟩ :: (rsOf ps p).flatMap (refinementWiths pre) →
      u.kind = .package (some (typesFormal pre :: (rsOf ps p).flatMap (refinementFormals pre))) → Made pre ps n u
  | contains {p n u g as} : rsOf ps p ≠ [] → n = p ++ [low "Contains".toList] → nm u.id = lows pre ++ n → u.kind = .instance g as →
      nm g = lows pre ++ p ++ [low "Generic_Contains".toList] →
      (u.withs, as) = (((rsOf ps p).flatMap msgs).map fun m => under pre m.id).foldl associate ([⟨pre ++ typesPackage⟩, g], [⟨pre ++ typesPackage⟩]) →
      Made pre ps n u

/-- The names under which the units of a declaration are stored. -/
def slots (pre : List PyStr) (t : Decl) : List Name :=
  pkg t :: match t with
    | .scalar _ => []
    | .opaque => []
    | .array id _ => [lows pre ++ nm id]
    | .message m => (if m.base.isNone && !m.types.isEmpty then [genericOf (nm m.id)] else []) ++
        if m.base.isSome || !m.types.isEmpty then [nm m.id] else []
    | .refinement r => [nm r.package ++ [low "Generic_Contains".toList], nm r.package ++ [low "Contains".toList]]

/-- What holds after the declarations `ps`. -/
structure Inv (pre : List PyStr) (ps : List Decl) (d : Dict) : Prop where
  nodup : (d.map fun e => nm e.1).Nodup
  made : ∀ e ∈ d, Made pre ps (nm e.1) e.2
  has : ∀ t, Live ps t → ∀ n ∈ slots pre t, Has d n

theorem live_mono {ps qs : List Decl} {t : Decl} (h : Live ps t) : Live (ps ++ qs) t := ⟨List.mem_append_left _ h.1, h.2⟩

theorem made_mono {pre : List PyStr} {ps : List Decl} {t : Decl} {n : Name} {u : Unit}
    (hn : ∀ r, t = .refinement r → Live [t] t → n ≠ nm r.package ++ [low "Generic_Contains".toList] ∧ n ≠ nm r.package ++ [low "Contains".toList])
    (h : Made pre ps n u) : Made pre (ps ++ [t]) n u := by
  have hrs : ∀ p, (n = p ++ [low "Generic_Contains".toList] ∨ n = p ++ [low "Contains".toList]) → rsOf (ps ++ [t]) p = rsOf ps p := by
    intro p hp
    suffices h0 : rsOf [t] p = [] by rw [rsOf_append, h0, List.append_nil]
    rw [List.eq_nil_iff_forall_not_mem]
    intro r hr
    obtain ⟨hl, hpk⟩ := mem_rsOf.mp hr
    have ht : Decl.refinement r = t := List.mem_singleton.mp hl.1
    obtain ⟨h1, h2⟩ := hn r ht.symm (ht ▸ hl)
    rw [hpk] at h1 h2
    exact hp.elim h1 h2
  cases h with
  | package hl h1 h2 h3 h4 => exact .package (live_mono hl) h1 h2 h3 h4
  | array hl h1 => exact .array (live_mono hl) h1
  | generic hl h1 h2 h3 => exact .generic (live_mono hl) h1 h2 h3
  | message hl h1 h2 => exact .message (live_mono hl) h1 h2
  | @genericContains p _ _ h1 h2 h3 h4 h5 =>
    refine .genericContains (p := p) ?_ h2 h3 ?_ ?_ <;> rw [hrs p (.inl h2)] <;> assumption
  | @contains p _ _ g as h1 h2 h3 h4 h5 h6 =>
    refine .contains (p := p) (g := g) (as := as) ?_ h2 h3 h4 h5 ?_ <;> rw [hrs p (.inr h2)] <;> assumption

/-! ## Names -/

theorem pkg_length {ds : List Decl} (hd : Distinct ds) {t : Decl} (h : t ∈ ds) : (pkg t).length = 1 := by
  obtain ⟨h1, h2, h3⟩ := hd.shape t h
  cases t with
  | scalar id => simp [pkg, nm_length, h1 id rfl]
  | «opaque» => rfl
  | array id e => simp [pkg, nm_length, h2 id rfl]
  | message m => simp [pkg, nm_length, h2 m.id rfl]
  | refinement r => simp [pkg, nm_length, h3 r rfl]

theorem last_append (n : Name) (x : PyStr) : (n ++ [x]).getLast?.getD [] = x := by simp

theorem pre_nil {pre : List PyStr} {id : ID} {n : Name} (hid : id.parts.length = 2) (hn : n.length = 2) (h : n = lows pre ++ nm id) :
    n = nm id := by
  have hl := congrArg List.length h
  rw [List.length_append, nm_length, hid, hn] at hl
  have : lows pre = [] := List.eq_nil_of_length_eq_zero (by omega)
  rw [h, this, List.nil_append]

theorem genericOf_last (n : Name) : low "Generic_".toList <+: (genericOf n).getLast?.getD [] := by
  simp only [genericOf, last_append]
  exact List.prefix_append _ _

theorem two_parts {n : Name} (h : n.length = 2) : ∃ p x, n = [p, x] := by
  match n, h with
  | [p, x], _ => exact ⟨p, x, rfl⟩

theorem genericOf_inj {a b : Name} (ha : a.length = 2) (hb : b.length = 2) (h : genericOf a = genericOf b) : a = b := by
  obtain ⟨p, x, rfl⟩ := two_parts ha
  obtain ⟨q, y, rfl⟩ := two_parts hb
  simpa [genericOf] using h

theorem made_genericContains {pre : List PyStr} {ds ps : List Decl} (hd : Distinct ds) (hps : ∀ t ∈ ps, t ∈ ds) {r : Refinement}
    (hr : .refinement r ∈ ds) {u : Unit} (h : Made pre ps (nm r.package ++ [low "Generic_Contains".toList]) u) :
    nm u.id = lows pre ++ (nm r.package ++ [low "Generic_Contains".toList]) ∧
    u.withs = ⟨pre ++ genericTypes⟩ :: (rsOf ps (nm r.package)).flatMap (refinementWiths pre) ∧
    u.kind = .package (some (typesFormal pre :: (rsOf ps (nm r.package)).flatMap (refinementFormals pre))) := by
  have hlen : (nm r.package ++ [low "Generic_Contains".toList]).length = 2 := by
    have := pkg_length hd hr
    simp only [pkg] at this
    simp [this]
  have hgen : low "Generic_".toList <+: low "Generic_Contains".toList := ⟨low "Contains".toList, gc_eq.symm⟩
  generalize hn : nm r.package ++ [low "Generic_Contains".toList] = n at h hlen
  cases h with
  | package hl h1 h2 h3 h4 =>
    have := pkg_length hd (hps _ hl.1)
    rw [h1] at hlen
    omega
  | @array id e _ hl h1 =>
    have h2 := pre_nil ((hd.shape _ (hps _ hl.1)).2.1 id rfl) hlen h1
    refine absurd ?_ (hd.generic _ (hps _ hl.1) id rfl)
    rw [← h2, ← hn, last_append]
    exact hgen
  | @generic m _ hl h1 h2 h3 =>
    exfalso
    refine hd.contains _ (hps _ hl.1) m.id rfl r hr (genericOf_inj ?_ ?_ ?_)
    · rw [nm_length, (hd.shape _ (hps _ hl.1)).2.1 m.id rfl]
    · rw [← hn] at hlen
      simpa using hlen
    · rw [← h3, ← hn, genericOf_append, gc_eq]
  | @message m _ hl h1 h2 =>
    refine absurd ?_ (hd.generic _ (hps _ hl.1) m.id rfl)
    rw [← h2, ← hn, last_append]
    exact hgen
  | @genericContains p _ _ h1 h2 h3 h4 h5 =>
    have hp : nm r.package = p := (List.append_inj' (hn.trans h2) rfl).1
    subst hp
    exact ⟨h3, h4, h5⟩
  | @contains p _ _ g as h1 h2 h3 h4 h5 h6 =>
    have := (List.append_inj' (hn.trans h2) rfl).2
    exact absurd this (by decide)

theorem made_contains {pre : List PyStr} {ds ps : List Decl} (hd : Distinct ds) (hps : ∀ t ∈ ps, t ∈ ds) {r : Refinement}
    (hr : .refinement r ∈ ds) {u : Unit} (h : Made pre ps (nm r.package ++ [low "Contains".toList]) u) :
    nm u.id = lows pre ++ (nm r.package ++ [low "Contains".toList]) ∧ ∃ g as, u.kind = .instance g as ∧
    nm g = lows pre ++ nm r.package ++ [low "Generic_Contains".toList] ∧
    (u.withs, as) = (((rsOf ps (nm r.package)).flatMap msgs).map fun m => under pre m.id).foldl associate
      ([⟨pre ++ typesPackage⟩, g], [⟨pre ++ typesPackage⟩]) := by
  have hlen : (nm r.package ++ [low "Contains".toList]).length = 2 := by
    have := pkg_length hd hr
    simp only [pkg] at this
    simp [this]
  generalize hn : nm r.package ++ [low "Contains".toList] = n at h hlen
  cases h with
  | package hl h1 h2 h3 h4 =>
    have := pkg_length hd (hps _ hl.1)
    rw [h1] at hlen
    omega
  | @array id e _ hl h1 =>
    have h2 := pre_nil ((hd.shape _ (hps _ hl.1)).2.1 id rfl) hlen h1
    exact absurd (h2.symm.trans hn.symm) (hd.contains _ (hps _ hl.1) id rfl r hr)
  | @generic m _ hl h1 h2 h3 =>
    have := genericOf_last (nm m.id)
    rw [← h3, ← hn, last_append] at this
    exact absurd this (by decide)
  | @message m _ hl h1 h2 => exact absurd (h2.symm.trans hn.symm) (hd.contains _ (hps _ hl.1) m.id rfl r hr)
  | @genericContains p _ _ h1 h2 h3 h4 h5 =>
    have := (List.append_inj' (hn.trans h2) rfl).2
    exact absurd this (by decide)
  | @contains p _ _ g as h1 h2 h3 h4 h5 h6 =>
    have hp : nm r.package = p := (List.append_inj' (hn.trans h2) rfl).1
    subst hp
    exact ⟨h3, g, as, h4, h5, h6⟩

/-! ## Steps -/

theorem live_append {ps : List Decl} {t x : Decl} (h : Live (ps ++ [t]) x) : Live ps x ∨ x = t ∧ Live (ps ++ [t]) t := by
  obtain ⟨h1, h2⟩ := h
  rcases List.mem_append.mp h1 with h1 | h1
  · exact .inl ⟨h1, h2⟩
  · obtain rfl := List.mem_singleton.mp h1
    exact .inr ⟨rfl, by simp, h2⟩

/-- The package is added. -/
theorem step_package {pre : List PyStr} {ps : List Decl} {d : Dict} (hi : Inv pre ps d) (t : Decl) (hl : Live (ps ++ [t]) t) :
    ∃ d1, (if (d.get? t.package).isSome then d else d.set t.package (packageUnit pre t.package)) = d1 ∧
      (d1.map fun e => nm e.1).Nodup ∧ (∀ e ∈ d1, e ∈ d ∨ nm e.1 = pkg t ∧ Made pre (ps ++ [t]) (nm e.1) e.2) ∧
      (∀ n, Has d n → Has d1 n) ∧ Has d1 (pkg t) := by
  cases hg : d.get? t.package with
  | some u =>
    refine ⟨d, by simp, hi.nodup, fun e he => .inl he, fun n h => h, ?_⟩
    obtain ⟨e, he, hn, _⟩ := get?_some hg
    exact ⟨e, he, by rw [hn, nm_package]⟩
  | none =>
    refine ⟨d.set t.package (packageUnit pre t.package), by simp, set_nodup _ _ hi.nodup, ?_, fun n h => set_has (.inl h),
      set_has (.inr (nm_package t).symm)⟩
    intro e he
    rcases set_mem he with ⟨h1, h2⟩ | ⟨h1, _⟩
    · rw [nm_package] at h1
      refine .inr ⟨h1, .package hl h1 ?_ ?_ ?_⟩
      · rw [h2]
        simp [packageUnit, nm_under, nm_package]
      · rw [h2]; rfl
      · rw [h2]; rfl
    · exact .inl h1

theorem foldl_msgs (pre : List PyStr) (x : List ID × List ID) (r : Refinement) :
    ((msgs r).map fun m => under pre m.id).foldl associate x =
      if r.sdu.types.isEmpty then associate x (under pre r.pdu.id) else associate (associate x (under pre r.pdu.id)) (under pre r.sdu.id) := by
  simp only [msgs]
  split <;> rfl

theorem rsOf_last {ps : List Decl} {r : Refinement} (hl : Live (ps ++ [.refinement r]) (.refinement r)) :
    rsOf (ps ++ [.refinement r]) (nm r.package) = rsOf ps (nm r.package) ++ [r] := by
  have := ((live_iff _ _).mp hl).2
  rw [rsOf_append]
  simp only [Decl.package] at this
  simp [rsOf, refines, this]

theorem rsOf_nil {pre : List PyStr} {ps : List Decl} {d : Dict} (hi : Inv pre ps d) {n : Name} {x : PyStr}
    (hx : x = low "Generic_Contains".toList ∨ x = low "Contains".toList) (h : ¬ Has d (n ++ [x])) : rsOf ps n = [] := by
  rw [List.eq_nil_iff_forall_not_mem]
  intro r hr
  obtain ⟨hl, hp⟩ := mem_rsOf.mp hr
  subst hp
  apply h
  apply hi.has _ hl
  rcases hx with rfl | rfl <;> simp [slots]

theorem step_inv {pre : List PyStr} {ds ps : List Decl} {d : Dict} (hd : Distinct ds) {t : Decl} (hps : ∀ x ∈ ps ++ [t], x ∈ ds)
    (hi : Inv pre ps d) : ∃ d', step pre d t = .ok d' ∧ Inv pre (ps ++ [t]) d' := by
  have hps' : ∀ x ∈ ps, x ∈ ds := fun x hx => hps x (by simp [hx])
  have htd : t ∈ ds := hps t (by simp)
  unfold step
  cases hpd : predefined t.package with
  | true =>
    refine ⟨d, by simp, hi.nodup, ?_, ?_⟩
    · intro e he
      refine made_mono ?_ (hi.made e he)
      intro r _ hl
      have := ((live_iff _ _).mp hl).2
      rw [hpd] at this
      exact absurd this (by simp)
    · intro x hx
      rcases live_append hx with hx | ⟨_, hx⟩
      · exact hi.has x hx
      · have := ((live_iff _ _).mp hx).2
        rw [hpd] at this
        exact absurd this (by simp)
  | false =>
    have hl : Live (ps ++ [t]) t := (live_iff _ _).mpr ⟨by simp, hpd⟩
    obtain ⟨d1, hd1, hnd, hm1, hh1, hp1⟩ := step_package hi t hl
    simp only [Bool.false_eq_true, if_false, hd1]
    -- declarations without refinements
    have old : (∀ r, t ≠ .refinement r) → ∀ e ∈ d1, Made pre (ps ++ [t]) (nm e.1) e.2 := by
      intro hr e he
      rcases hm1 e he with he | ⟨_, h⟩
      · exact made_mono (fun r h => absurd h (hr r)) (hi.made e he)
      · exact h
    have has : ∀ d2 : Dict, (∀ n, Has d1 n → Has d2 n) → (∀ n ∈ slots pre t, Has d2 n) → ∀ x, Live (ps ++ [t]) x → ∀ n ∈ slots pre x, Has d2 n := by
      intro d2 h1 h2 x hx
      rcases live_append hx with hx | ⟨rfl, hx⟩
      · exact fun n hn => h1 n (hh1 n (hi.has x hx n hn))
      · exact h2
    cases t with
    | scalar id =>
      refine ⟨d1, rfl, hnd, old (by simp), has d1 (fun _ h => h) ?_⟩
      intro n hn
      simp only [slots, List.mem_singleton] at hn
      exact hn ▸ hp1
    | «opaque» =>
      refine ⟨d1, rfl, hnd, old (by simp), has d1 (fun _ h => h) ?_⟩
      intro n hn
      simp only [slots, List.mem_singleton] at hn
      exact hn ▸ hp1
    | array id e =>
      refine ⟨_, rfl, set_nodup _ _ hnd, ?_, has _ (fun n h => set_has (.inl h)) ?_⟩
      · intro x hx
        rcases set_mem hx with ⟨h1, h2⟩ | ⟨h1, _⟩
        · rw [h2]
          exact .array hl (by rw [h1, nm_under])
        · exact old (by simp) x h1
      · intro n hn
        simp only [slots, List.mem_cons, List.not_mem_nil, or_false] at hn
        rcases hn with rfl | rfl
        · exact set_has (.inl hp1)
        · exact set_has (.inr (nm_under _ _).symm)
    | message m =>
      simp only [createMessage]
      cases hb : m.base with
      | some b =>
        refine ⟨_, rfl, set_nodup _ _ hnd, ?_, has _ (fun n h => set_has (.inl h)) ?_⟩
        · intro x hx
          rcases set_mem hx with ⟨h1, h2⟩ | ⟨h1, _⟩
          · rw [h2]
            exact .message hl (.inl (by simp [hb])) h1
          · exact old (by simp) x h1
        · intro n hn
          simp only [slots, hb, Option.isNone_some, Bool.false_and, Bool.false_eq_true, if_false, List.nil_append, Option.isSome_some, Bool.true_or,
            if_true, List.mem_cons, List.not_mem_nil, or_false] at hn
          rcases hn with rfl | rfl
          · exact set_has (.inl hp1)
          · exact set_has (.inr rfl)
      | none =>
        cases ht : m.types.isEmpty with
        | true =>
          refine ⟨d1, by simp, hnd, old (by simp), has d1 (fun _ h => h) ?_⟩
          intro n hn
          simp only [slots, hb, ht, Bool.not_true, Bool.and_false, Bool.false_eq_true, if_false, Option.isSome_none, Bool.or_false, List.append_nil,
            List.mem_singleton] at hn
          exact hn ▸ hp1
        | false =>
          have htn : m.types ≠ [] := by
            intro h
            rw [h] at ht
            simp at ht
          refine ⟨_, by simp; rfl, set_nodup _ _ (set_nodup _ _ hnd), ?_, has _ (fun n h => set_has (.inl (set_has (.inl h)))) ?_⟩
          · intro x hx
            rcases set_mem hx with ⟨h1, h2⟩ | ⟨h1, _⟩
            · rw [h2]
              exact .message hl (.inr htn) h1
            · rcases set_mem h1 with ⟨h1, h2⟩ | ⟨h1, _⟩
              · rw [h2]
                exact .generic hl hb htn (by rw [h1, nm_genericName])
              · exact old (by simp) x h1
          · intro n hn
            simp only [slots, hb, ht, Option.isNone_none, Bool.not_false, Bool.and_true, if_true, Bool.or_true, List.cons_append, List.nil_append,
              List.mem_cons, List.not_mem_nil, or_false] at hn
            rcases hn with rfl | rfl | rfl
            · exact set_has (.inl (set_has (.inl hp1)))
            · exact set_has (.inl (set_has (.inr (nm_genericName _).symm)))
            · exact set_has (.inr rfl)
    | refinement r =>
      have hlast := rsOf_last hl
      have hne : rsOf (ps ++ [.refinement r]) (nm r.package) ≠ [] := by simp [hlast]
      -- units found under the names of the refinement are not packages
      have back : ∀ e ∈ d1, ∀ x, nm e.1 = nm r.package ++ [x] → Made pre ps (nm e.1) e.2 := by
        intro e he x hx
        rcases hm1 e he with he | ⟨h, _⟩
        · exact hi.made e he
        · have := congrArg List.length (hx.symm.trans h)
          simp [pkg] at this
      -- the generic unit
      have hgen : ∃ u', createGenericRefinement pre d1 r = .ok (d1.set (genericName (containsUnit r.package)) u') ∧
          Made pre (ps ++ [.refinement r]) (nm r.package ++ [low "Generic_Contains".toList]) u' := by
        unfold createGenericRefinement
        cases hg : d1.get? (genericName (containsUnit r.package)) with
        | some u =>
          obtain ⟨e, he, hn, rfl⟩ := get?_some hg
          rw [nm_genericContains] at hn
          have hb := back e he _ hn
          rw [hn] at hb
          obtain ⟨h1, h2, h3⟩ := made_genericContains hd hps' htd hb
          refine ⟨⟨e.2.id, e.2.withs ++ refinementWiths pre r,
            .package (some ((typesFormal pre :: (rsOf ps (nm r.package)).flatMap (refinementFormals pre)) ++ refinementFormals pre r))⟩, ?_, ?_⟩
          · simp only [hg, Option.getD_some, h3]
          · refine .genericContains hne rfl h1 ?_ ?_
            · simp only [h2, hlast, List.flatMap_append, List.flatMap_cons, List.flatMap_nil, List.append_nil, List.cons_append]
            · simp only [hlast, List.flatMap_append, List.flatMap_cons, List.flatMap_nil, List.append_nil, List.cons_append]
        | none =>
          have h0 : rsOf ps (nm r.package) = [] := by
            refine rsOf_nil hi (.inl rfl) ?_
            intro h
            exact get?_none hg (by rw [nm_genericContains]; exact hh1 _ h)
          refine ⟨⟨under pre (genericName (containsUnit r.package)), [⟨pre ++ genericTypes⟩] ++ refinementWiths pre r,
            .package (some ([typesFormal pre] ++ refinementFormals pre r))⟩, ?_, ?_⟩
          · simp only [hg, Option.getD_none]
          · refine .genericContains hne rfl ?_ ?_ ?_
            · simp only [nm_under, nm_genericContains]
            · simp [hlast, h0]
            · simp [hlast, h0]
      obtain ⟨u', hu', hmade'⟩ := hgen
      -- the instance
      have hinst : ∃ u'', createRefinementInstance pre (d1.set (genericName (containsUnit r.package)) u') r =
            .ok ((d1.set (genericName (containsUnit r.package)) u').set (containsUnit r.package) u'') ∧
          Made pre (ps ++ [.refinement r]) (nm r.package ++ [low "Contains".toList]) u'' := by
        have hx : ∀ x : List ID × List ID, (if r.sdu.types.isEmpty then associate x (under pre r.pdu.id)
            else associate (associate x (under pre r.pdu.id)) (under pre r.sdu.id)) = ((msgs r).map fun m => under pre m.id).foldl associate x :=
          fun x => (foldl_msgs pre x r).symm
        unfold createRefinementInstance
        cases hg : (d1.set (genericName (containsUnit r.package)) u').get? (containsUnit r.package) with
        | some u =>
          obtain ⟨e, he, hn, rfl⟩ := get?_some hg
          rw [nm_containsUnit] at hn
          have he1 : e ∈ d1 := by
            rcases set_mem he with ⟨h1, _⟩ | ⟨h1, _⟩
            · rw [hn, nm_genericContains] at h1
              exact absurd (List.append_inj' h1 rfl).2 (by decide)
            · exact h1
          have hb := back e he1 _ hn
          rw [hn] at hb
          obtain ⟨h1, g, as, h2, h3, h4⟩ := made_contains hd hps' htd hb
          refine ⟨_, by simp only [hg, Option.getD_some, h2, hx]; rfl, ?_⟩
          refine .contains hne rfl h1 rfl h3 ?_
          simp only [hlast, List.flatMap_append, List.flatMap_cons, List.flatMap_nil, List.append_nil, List.map_append, List.foldl_append, ← h4]
        | none =>
          have h0 : rsOf ps (nm r.package) = [] := by
            refine rsOf_nil hi (.inr rfl) ?_
            intro h
            exact get?_none hg (by rw [nm_containsUnit]; exact set_has (.inl (hh1 _ h)))
          refine ⟨_, by simp only [hg, Option.getD_none, hx]; rfl, ?_⟩
          refine .contains hne rfl (by simp only [nm_under, nm_containsUnit]) rfl ?_ ?_
          · simp only [nm_under, nm_genericContains, List.append_assoc]
          · simp [hlast, h0]
      obtain ⟨u'', hu'', hmade''⟩ := hinst
      refine ⟨_, by simp only [createRefinement, hu', Except.bind]; exact hu'', set_nodup _ _ (set_nodup _ _ hnd), ?_,
        has _ (fun n h => set_has (.inl (set_has (.inl h)))) ?_⟩
      · intro e he
        rcases set_mem he with ⟨h1, h2⟩ | ⟨he, hn1⟩
        · rw [h1, nm_containsUnit, h2]
          exact hmade''
        · rcases set_mem he with ⟨h1, h2⟩ | ⟨he, hn2⟩
          · rw [h1, nm_genericContains, h2]
            exact hmade'
          · rcases hm1 e he with he | ⟨_, h⟩
            · refine made_mono ?_ (hi.made e he)
              intro s hs _
              cases hs
              rw [nm_genericContains] at hn2
              rw [nm_containsUnit] at hn1
              exact ⟨hn2, hn1⟩
            · exact h
      · intro n hn
        simp only [slots, List.mem_cons, List.not_mem_nil, or_false] at hn
        rcases hn with rfl | rfl | rfl
        · exact set_has (.inl (set_has (.inl hp1)))
        · exact set_has (.inl (set_has (.inr (nm_genericContains _).symm)))
        · exact set_has (.inr (nm_containsUnit _).symm)

theorem generate_inv {pre : List PyStr} {ds : List Decl} (hd : Distinct ds) : ∀ (qs ps : List Decl) (d : Dict), ps ++ qs = ds → Inv pre ps d →
    ∃ d', generate pre d qs = .ok d' ∧ Inv pre ds d'
  | [], ps, d, h, hi => ⟨d, rfl, by rw [List.append_nil] at h; exact h ▸ hi⟩
  | t :: qs, ps, d, h, hi => by
    obtain ⟨d1, h1, hi1⟩ := step_inv hd (t := t) (by rw [← h]; intro x hx; simp at hx ⊢; rcases hx with hx | hx <;> simp [hx]) hi
    obtain ⟨d', h2, hi2⟩ := generate_inv hd qs (ps ++ [t]) d1 (by simp [h]) hi1
    exact ⟨d', by simp only [generate, h1, Except.bind]; exact h2, hi2⟩

theorem inv_nil (pre : List PyStr) : Inv pre [] [] :=
  ⟨by simp, by simp, fun t ht => absurd ht.1 (by simp)⟩

theorem generated {pre : List PyStr} {ds : List Decl} (hd : Distinct ds) : ∃ d, generate pre [] ds = .ok d ∧ Inv pre ds d :=
  generate_inv hd ds [] [] rfl (inv_nil pre)

end Verif.Units
