import Verif.Units.Props

/-! # Property C57: `with` clauses and parameters -/

namespace Verif.Units
open Verif Spec

variable {pre : List PyStr} {ds : List Decl} {d : Dict}

theorem exists_library (l : List PyStr) (h : lows l ∈ libraryNames) : Exists pre d (nm ⟨pre ++ l⟩) := .inr ⟨_, h, nm_lib _ _⟩

theorem exists_package (hd : Distinct ds) (hi : Inv pre ds d) {t : Decl} (hl : Live ds t) {n : Name} (h : n = lows pre ++ pkg t) : Exists pre d n := by
  obtain ⟨e, he, hn, _⟩ := package_unit hd hi hl
  exact .inl ⟨e, he, h ▸ hn⟩

theorem nm_name_parent {e : ID} (h : e.parts.length = 2) : nm ⟨[name (parent e)]⟩ = (nm e).dropLast := by
  match e, h with
  | ⟨[p, x]⟩, _ => rfl

theorem id_ne_nil (hd : Distinct ds) {m : Message} (h : .message m ∈ ds) : nm m.id ≠ [] := by
  intro h0
  have := id_length hd h (id := m.id) rfl
  rw [h0] at this
  simp at this

/-- The name of the generic unit of a message. -/
theorem generic_name {m bm : Message} (hd : Distinct ds) (hl : Live ds (.message bm)) (h : bm.id = m.base.getD m.id) :
    nm (genericMessage pre bm).id = nm (m.generic pre) ∧ nm (genericName (under pre (m.base.getD m.id))) = nm (m.generic pre) ∧
    nm (m.generic pre) = lows pre ++ genericOf (nm bm.id) := by
  simp only [genericMessage, Message.generic, nm_genericName, nm_under, ← h]
  exact ⟨trivial, genericOf_under _ (id_ne_nil hd hl.1), trivial⟩

theorem exists_generic (hd : Distinct ds) (hc : Complete ds) (hi : Inv pre ds d) {m : Message} (hl : Live ds (.message m)) (ht : m.types ≠ []) :
    ∃ bm, Live ds (.message bm) ∧ bm.id = m.base.getD m.id ∧ bm.types = m.types ∧ ∃ e ∈ d, e.2 = genericMessage pre bm := by
  obtain ⟨bm, h1, h2, h3, h4⟩ := base_message hc hl ht
  obtain ⟨e, he, hu⟩ := generic_unit hd hi h1 h3 (h4 ▸ ht)
  exact ⟨bm, h1, h2, h4, e, he, hu⟩

theorem message_types (hc : Complete ds) {m : Message} (hl : Live ds (.message m)) (h : m.base ≠ none ∨ m.types ≠ []) : m.types ≠ [] := by
  rcases h with h | h
  · cases hb : m.base with
    | none => exact absurd hb h
    | some b => exact (hc.bases m hl.1 b hb).1
  · exact h

/-- The arrays of a message. -/
def arrs (m : Message) : List (ID × Element) := m.types.filterMap fun
  | .array id e => some (id, e)
  | _ => none

theorem mem_arrs {m : Message} {x : ID × Element} : x ∈ arrs m ↔ IsArray m x.1 x.2 := by
  simp only [arrs, List.mem_filterMap, IsArray]
  constructor
  · rintro ⟨t, ht, h⟩
    cases t <;> simp at h
    subst h
    exact ht
  · exact fun h => ⟨_, h, rfl⟩

theorem arrays_eq (pre : List PyStr) (m : Message) : arrays pre m = (dd (fun x y => (under pre x.1).eq (under pre y.1)) [] (arrs m)).map fun x => under pre x.1 := by
  have h : (m.types.filterMap fun
      | .array id _ => some (under pre id)
      | _ => none) = (arrs m).map fun x => under pre x.1 := by
    simp only [arrs, List.map_filterMap]
    congr 1
    funext t
    cases t <;> rfl
  simp only [arrays]
  exact (congrArg (keys []) h).trans ((keys_dd (fun x : ID × Element => under pre x.1) (arrs m) [] [] (by simp)).trans (List.nil_append _))

theorem actual_mem {m : Message} {w : ID} (h : w ∈ arrays pre m) : ∃ id e, IsArray m id e ∧ w = under pre id := by
  rw [arrays_eq] at h
  obtain ⟨x, hx, rfl⟩ := List.mem_map.mp h
  exact ⟨x.1, x.2, mem_arrs.mp (dd_mem hx), rfl⟩

theorem exists_array (hd : Distinct ds) (hi : Inv pre ds d) {id : ID} {e : Element} (hl : Live ds (.array id e)) : Exists pre d (nm (under pre id)) := by
  obtain ⟨x, hx, hu⟩ := array_unit hd hi hl
  exact .inl ⟨x, hx, by rw [hu, array_id, nm_under]⟩

theorem exists_message (hd : Distinct ds) (hi : Inv pre ds d) {m : Message} (hl : Live ds (.message m)) (ht : m.types ≠ []) :
    Exists pre d (nm (under pre m.id)) := by
  obtain ⟨x, hx, hu⟩ := message_unit hd hi hl (.inr ht)
  exact .inl ⟨x, hx, by rw [hu]; rfl⟩

theorem exists_generic' (hd : Distinct ds) (hc : Complete ds) (hi : Inv pre ds d) {m : Message} (hl : Live ds (.message m)) (ht : m.types ≠ []) :
    Exists pre d (nm (m.generic pre)) := by
  obtain ⟨bm, h1, h2, h3, e, he, hu⟩ := exists_generic hd hc hi hl ht
  exact .inl ⟨e, he, by rw [hu]; exact (generic_name hd h1 h2).1⟩

theorem sequence_library (e : Element) : lows e.sequence ∈ libraryNames := by
  cases e
  · exact (by decide : lows scalarSequence ∈ libraryNames)
  · exact (by decide : lows messageSequence ∈ libraryNames)

theorem mem_fold_withs {α : Type} (A : α → ID) (l : List α) (t g w : ID) (as : List ID) (ws : List ID)
    (h : (ws, as) = (l.map A).foldl associate ([t, g], [t])) (hw : w ∈ ws) : w = t ∨ w = g ∨ ∃ x ∈ l, w = A x := by
  have key : ∀ (l : List α) (x : List ID × List ID), w ∈ ((l.map A).foldl associate x).1 → w ∈ x.1 ∨ ∃ y ∈ l, w = A y := by
    intro l
    induction l with
    | nil => exact fun x h => .inl h
    | cons a l ih =>
      intro x h
      rw [List.map_cons, List.foldl_cons] at h
      rcases ih _ h with h | ⟨y, hy, h⟩
      · unfold associate at h
        split at h
        · exact .inl h
        · rcases List.mem_append.mp h with h | h
          · exact .inl h
          · exact .inr ⟨a, by simp, List.mem_singleton.mp h⟩
      · exact .inr ⟨y, by simp [hy], h⟩
  have h1 : ws = _ := congrArg Prod.fst h
  rw [h1] at hw
  rcases key l _ hw with h | h
  · simp only [List.mem_cons, List.not_mem_nil, or_false] at h
    rcases h with h | h
    · exact .inl h
    · exact .inr (.inl h)
  · exact .inr (.inr h)

/-- The messages in the refinements of a package. -/
theorem involved_live (hc : Complete ds) {p : Name} {m : Message} (h : m ∈ (rsOf ds p).flatMap msgs) :
    ∃ r, .refinement r ∈ ds ∧ nm r.package = p ∧ Involved r m ∧ Live ds (.message m) ∧ m.types ≠ [] := by
  obtain ⟨r, hr, hm⟩ := List.mem_flatMap.mp h
  obtain ⟨hl, hp⟩ := mem_rsOf.mp hr
  rcases mem_msgs.mp hm with rfl | ⟨rfl, ht⟩
  · exact ⟨r, hl.1, hp, .inl rfl, hc.pdus r hl.1⟩
  · exact ⟨r, hl.1, hp, .inr ⟨rfl, ht⟩, hc.sdus r hl.1, ht⟩

/-- **C57** If what is used in declarations is declared, derived messages have fields and names do not collide, every unit that is named in a `with` clause
is generated or part of the library. -/
theorem C57_closed_partial (pre : List PyStr) (ds : List Decl) (d : Dict) (hd : Distinct ds) (hc : Complete ds) (hg : generate pre [] ds = .ok d) :
    ∀ e ∈ d, ∀ w ∈ e.2.withs, Exists pre d (nm w) := by
  have hi := inv_of hd hg
  intro e he w hw
  generalize hn : nm e.1 = n
  have hm := hi.made e he
  rw [hn] at hm
  generalize e.2 = u at hm hw
  cases hm with
  | package hl h1 h2 h3 h4 => rw [h3] at hw; simp at hw
  | @array id el _ hl h1 =>
    cases el with
    | scalar s =>
      simp only [arrayInstance, List.mem_cons, List.not_mem_nil, or_false] at hw
      obtain ⟨hs, hls⟩ := hc.scalarElements id s hl.1
      rcases hw with rfl | rfl | rfl
      · exact exists_library _ (by decide)
      · exact exists_package hd hi hls (by rw [nm_under, nm_name_parent hs]; rfl)
      · exact exists_library _ (by decide)
    | message s =>
      simp only [arrayInstance, List.mem_cons, List.not_mem_nil, or_false] at hw
      obtain ⟨m, hlm, rfl, ht⟩ := hc.messageElements id s hl.1
      rcases hw with rfl | rfl | rfl
      · exact exists_library _ (by decide)
      · exact exists_message hd hi hlm ht
      · exact exists_library _ (by decide)
  | @generic m _ hl h1 h2 h3 =>
    simp only [genericMessage, List.mem_append, List.mem_singleton, List.mem_flatMap] at hw
    rcases hw with (hw | rfl) | ⟨t, ht, hw⟩
    · split at hw
      · simp only [List.mem_cons, List.not_mem_nil, or_false] at hw
        rcases hw with rfl | rfl
        · exact exists_library _ (by decide)
        · exact exists_library _ (by decide)
      · simp at hw
    · exact exists_library _ (by decide)
    · unfold fieldWiths at hw
      cases hp : predefined t.package with
      | true => simp [hp] at hw
      | false =>
        rw [hp] at hw
        simp only [Bool.false_eq_true, if_false] at hw
        cases t with
        | scalar id =>
          simp only at hw
          split at hw
          · simp at hw
          · rw [List.mem_singleton] at hw
            subst hw
            rcases hc.scalars m hl.1 id ht with ⟨hid, hli⟩ | hb
            · exact exists_package hd hi hli (by rw [nm_under, nm_parent]; rfl)
            · have := (predefined_iff (parent id)).mpr (.inl (by rw [nm_parent, hb]))
              simp only [FieldType.package] at hp
              rw [hp] at this
              simp at this
        | «opaque» => simp at hw
        | array id el =>
          simp only [List.mem_singleton] at hw
          subst hw
          exact exists_library _ (sequence_library el)
  | @message m _ hl h1 h2 =>
    simp only [messageInstance, List.mem_append, List.mem_cons, List.not_mem_nil, or_false] at hw
    have ht := message_types hc hl h1
    rcases hw with (rfl | rfl) | hw
    · obtain ⟨bm, h3, h4, h5, e, he, hu⟩ := exists_generic hd hc hi hl ht
      have := generic_name (pre := pre) hd h3 h4
      exact .inl ⟨e, he, by rw [hu, this.1, this.2.1]⟩
    · exact exists_library _ (by decide)
    · obtain ⟨id, el, ha, rfl⟩ := actual_mem hw
      exact exists_array hd hi (hc.arrays m hl.1 id el ha)
  | @genericContains p _ _ h1 h2 h3 h4 h5 =>
    rw [h4] at hw
    rcases List.mem_cons.mp hw with rfl | hw
    · exact exists_library _ (by decide)
    · obtain ⟨r, hr, hw⟩ := List.mem_flatMap.mp hw
      obtain ⟨hl, hp⟩ := mem_rsOf.mp hr
      obtain ⟨hpl, hpt⟩ := hc.pdus r hl.1
      simp only [refinementWiths, List.mem_append, List.mem_flatMap, List.mem_singleton] at hw
      rcases hw with ((⟨v, hv, hw⟩ | hw) | rfl) | hw
      · split at hw
        · rename_i hcnd
          rw [List.mem_singleton] at hw
          subst hw
          obtain ⟨t, hlt, hpt⟩ := hc.literals r hl.1 v hv hcnd.1
          exact exists_package hd hi hlt (by rw [nm_under, nm_parent, hpt])
        · simp at hw
      · split at hw
        · simp at hw
        · rw [List.mem_singleton] at hw
          subst hw
          obtain ⟨bm, hlb, hb, _, _⟩ := base_message hc hpl hpt
          exact exists_package hd hi hlb (by rw [nm_under, nm_parent, ← hb]; rfl)
      · exact exists_generic' hd hc hi hpl hpt
      · split at hw
        · simp at hw
        · rename_i hs
          rw [List.mem_singleton] at hw
          subst hw
          exact exists_generic' hd hc hi (hc.sdus r hl.1) (by rintro h0; rw [h0] at hs; simp at hs)
  | @contains p _ _ g as h1 h2 h3 h4 h5 h6 =>
    rcases mem_fold_withs _ _ _ _ _ _ _ h6 hw with rfl | rfl | ⟨m, hm, rfl⟩
    · exact exists_library _ (by decide)
    · obtain ⟨r, hl, rfl⟩ := rs_refinement h1
      obtain ⟨e, he, hn, _⟩ := genericContains_unit hd hi hl
      exact .inl ⟨e, he, by rw [hn, h5, List.append_assoc]⟩
    · obtain ⟨r, _, _, _, hml, hmt⟩ := involved_live hc hm
      exact exists_message hd hi hml hmt

/-- The `with` clauses of the library name packages of the library. -/
theorem C57_library : ∀ t ∈ library, lows t.name ∈ libraryNames ∧ ∀ w ∈ t.withs, lows w ∈ libraryNames := by decide

/-- **C57** The package in which a unit is declared is generated. -/
theorem C57_parents (pre : List PyStr) (ds : List Decl) (d : Dict) (hd : Distinct ds) (hg : generate pre [] ds = .ok d) :
    ∀ e ∈ d, ∀ p n, nm e.2.id = lows pre ++ [p, n] → ∃ e' ∈ d, nm e'.2.id = lows pre ++ [p] ∧ e'.2.kind = .package none := by
  have hi := inv_of hd hg
  intro e he p n hn
  have key : ∀ t, Live ds t → pkg t = [p] → ∃ e' ∈ d, nm e'.2.id = lows pre ++ [p] ∧ e'.2.kind = .package none := by
    intro t hl hp
    obtain ⟨e', he', h1, _, h2⟩ := package_unit hd hi hl
    exact ⟨e', he', hp ▸ h1, h2⟩
  obtain ⟨w, hw, hnw⟩ : ∃ w, Wanted ds w ∧ nm e.2.id = lows pre ++ w := by
    rcases made_id hd (hi.made e he) with ⟨id, el, hl, h1, _⟩ | ⟨h1, h2, _⟩
    · exact ⟨_, .array hl, h1⟩
    · exact ⟨_, h2, h1⟩
  have hwp : w = [p, n] := under_ne (hnw.symm.trans hn)
  cases hw with
  | package hl =>
    have := pkg_length hd hl.1
    rw [hwp] at this
    simp at this
  | array hl => exact key _ hl (by simp [pkg, hwp])
  | @generic m hl =>
    refine key _ hl ?_
    obtain ⟨q, x, h⟩ := two_parts (id_length hd hl.1 (id := m.id) rfl)
    rw [h] at hwp
    simp only [genericOf, List.dropLast_cons₂, List.dropLast_singleton, List.cons_append, List.nil_append, List.cons.injEq] at hwp
    simp [pkg, h, hwp.1]
  | message hl => exact key _ hl (by simp [pkg, hwp])
  | @genericContains r hl => exact key _ hl (List.append_inj' (show nm r.package ++ _ = [p] ++ [n] from hwp) rfl).1
  | @contains r hl => exact key _ hl (List.append_inj' (show nm r.package ++ _ = [p] ++ [n] from hwp) rfl).1

/-! ## Parameters -/

/-- The formal parameter for an array. -/
def arrayFormal (pre : List PyStr) (x : ID × Element) : Formal := ⟨⟨[name x.1 ++ sequenceText]⟩, ⟨pre ++ x.2.sequence⟩, true⟩

theorem formals_eq (hc : Complete ds) {m : Message} (hm : .message m ∈ ds) :
    m.types.flatMap (fieldFormals pre) = (arrs m).map (arrayFormal pre) := by
  have key : ∀ l : List FieldType, (∀ id e, .array id e ∈ l → predefined (parent id) = false) →
      l.flatMap (fieldFormals pre) = (l.filterMap fun
        | .array id e => some (id, e)
        | _ => none).map (arrayFormal pre) := by
    intro l
    induction l with
    | nil => exact fun _ => rfl
    | cons t l ih =>
      intro h
      rw [List.flatMap_cons, ih fun id e hm => h id e (by simp [hm])]
      cases t with
      | scalar id =>
        simp only [fieldFormals]
        split <;> simp
      | «opaque» =>
        simp only [fieldFormals]
        split <;> simp
      | array id e =>
        simp only [fieldFormals, FieldType.package, h id e (by simp), Bool.false_eq_true, if_false]
        simp [arrayFormal]
  exact key m.types fun id e h => ((live_iff _ _).mp (hc.arrays m hm id e h)).2

/-- Formal and actual parameters are identified alike. -/
structure Alike {α : Type} (pre : List PyStr) (F : α → Formal) (A : α → ID) (l : List α) : Prop where
  eq : ∀ x ∈ l, ∀ y ∈ l, (F x).eq (F y) = (A x).eq (A y)
  names : ∀ x ∈ l, ∀ y ∈ l, nm (F x).id = nm (F y).id → nm (A x) = nm (A y)
  restricted : ∀ x ∈ l, (F x).restricted = true
  types : ∀ x ∈ l, nm (F x).id ≠ [low "Types".toList]

theorem fits {α : Type} (h : List PyStr → Int) {F : α → Formal} {A : α → ID} {l : List α} (ha : Alike pre F A l) {e : ID × Unit} (he : e ∈ d) {g : ID}
    (hn : nm e.2.id = nm g) (hk : e.2.kind = .package (some (typesFormal pre :: l.map F)))
    (hp : ∀ x ∈ l, Provides pre d (F x) (A x)) :
    Fits h pre d g (⟨pre ++ typesPackage⟩ :: (dd (fun x y => (A x).eq (A y)) [] l).map A) := by
  have hdd : dd (fun x y => (F x).eq (F y)) [] l = dd (fun x y => (A x).eq (A y)) [] l := dd_congr (by simpa using ha.eq)
  have hpr := printed_eq h pre F l ha.restricted
  rw [← hk, hdd] at hpr
  refine .generated he hn hpr (.cons ?_ (forall₂_map fun x hx => hp x (dd_mem hx))) ?_
  · exact .types rfl rfl (nm_lib _ _) (nm_lib _ _)
  · rw [List.map_cons, List.map_map]
    refine List.nodup_cons.mpr ⟨?_, ?_⟩
    · intro hm
      obtain ⟨x, hx, hxn⟩ := List.mem_map.mp hm
      exact ha.types x (dd_mem hx) hxn
    · refine List.pairwise_map.mpr ((dd_pairwise l []).imp_of_mem ?_)
      intro x y hx hy hxy heq
      exact (eq_false_iff _ _).mp hxy (ha.names x (dd_mem hx) y (dd_mem hy) heq)

theorem getLast_nm {i : ID} (h : (nm i).length = 2) : (nm i).getLast? = some (low (name i)) := by
  rw [← last_nm]
  obtain ⟨p, x, hx⟩ := two_parts h
  simp [hx]

theorem arrays_alike (hd : Distinct ds) (hc : Complete ds) (hu : Unambiguous ds) {m : Message} (hm : .message m ∈ ds) :
    Alike pre (arrayFormal pre) (fun x => under pre x.1) (arrs m) := by
  have hlen : ∀ x ∈ arrs m, (nm x.1).length = 2 := fun x hx =>
    id_length hd (hc.arrays m hm x.1 x.2 (mem_arrs.mp hx)).1 (id := x.1) rfl
  have hname : ∀ x ∈ arrs m, ∀ y ∈ arrs m, nm (arrayFormal pre x).id = nm (arrayFormal pre y).id → nm x.1 = nm y.1 := by
    intro x hx y hy h
    refine hu.sequences m hm x.1 x.2 y.1 y.2 (mem_arrs.mp hx) (mem_arrs.mp hy) ?_
    rw [getLast_nm (hlen x hx), getLast_nm (hlen y hy)]
    simp only [nm, arrayFormal, lows, List.map_cons, List.map_nil, List.cons.injEq, and_true, low, List.map_append] at h
    exact congrArg some (List.append_cancel_right h)
  have hsame : ∀ x ∈ arrs m, ∀ y ∈ arrs m, nm x.1 = nm y.1 → x = y := by
    intro x hx y hy h
    have := same_decl hd (hc.arrays m hm x.1 x.2 (mem_arrs.mp hx)).1 (hc.arrays m hm y.1 y.2 (mem_arrs.mp hy)).1 rfl rfl h
    cases x
    cases y
    cases this
    rfl
  refine ⟨?_, ?_, fun _ _ => rfl, ?_⟩
  · intro x hx y hy
    rw [Bool.eq_iff_iff, formal_eq_iff, eq_iff, nm_under, nm_under]
    constructor
    · exact fun h => by rw [hname x hx y hy h.1]
    · intro h
      rw [hsame x hx y hy (under_ne h)]
      exact ⟨rfl, rfl, rfl⟩
  · intro x hx y hy h
    rw [nm_under, nm_under, hname x hx y hy h]
  · intro x hx h
    simp only [nm, arrayFormal, lows, List.map_cons, List.map_nil, List.cons.injEq, and_true, low, List.map_append] at h
    have h2 := congrArg List.getLast? h
    rw [List.getLast?_append] at h2
    exact absurd h2 (by
      have e1 : (List.map Char.toLower sequenceText).getLast? = some 'e' := by decide
      have e2 : (List.map Char.toLower "Types".toList).getLast? = some 's' := by decide
      rw [e1, e2]
      simp)

/-- `flat_name` of the text of an identifier. -/
theorem flat_lower {i : ID} (h : ∀ p ∈ i.parts, Word p) : low (flatName i.str) = ['_'].intercalate (nm i) := by
  have hw : ∀ {p : PyStr}, Word p → '.' ∉ p ∧ ':' ∉ p := by
    intro p hp
    constructor <;> intro hc <;> rcases hp _ hc with h | h <;> revert h <;> decide
  rw [flatName, ID.str, Common.subSep_joinSep '_' _ fun p hp => hw (h p hp)]
  have key : ∀ ps : List PyStr, low (Common.Spec.joinWith '_' ps) = ['_'].intercalate (lows ps) := by
    intro ps
    match ps with
    | [] => rfl
    | [p] => simp [Common.Spec.joinWith, List.intercalate, lows, List.intersperse]
    | p :: q :: ps =>
      have ih : low (Common.Spec.joinWith '_' (q :: ps)) = ['_'].intercalate (lows (q :: ps)) := by
        clear h hw
        induction ps generalizing q with
        | nil => simp [Common.Spec.joinWith, List.intercalate, lows, List.intersperse]
        | cons x ps ih2 =>
          have := ih2 x
          simp only [Common.Spec.joinWith, low, List.map_append, List.map_cons, List.intercalate, lows, List.intersperse, List.flatten_cons] at this ⊢
          rw [this]
          simp
      simp only [Common.Spec.joinWith, low, List.map_append, List.map_cons, List.intercalate, lows, List.intersperse, List.flatten_cons] at ih ⊢
      rw [ih]
      simp
  exact key i.parts

theorem messages_alike (hd : Distinct ds) (hc : Complete ds) (hu : Unambiguous ds) (hw : Words ds) (p : Name) :
    Alike pre (messageFormal pre) (fun m => under pre m.id) ((rsOf ds p).flatMap msgs) := by
  have hflat : ∀ m ∈ (rsOf ds p).flatMap msgs, nm (messageFormal pre m).id = [['_'].intercalate (nm m.id)] := by
    intro m hm
    obtain ⟨_, _, _, _, hl, _⟩ := involved_live hc hm
    simp only [nm, messageFormal, lows, List.map_cons, List.map_nil]
    rw [flat_lower ((hw _ hl.1).2.1 m.id rfl)]
    rfl
  have hname : ∀ x ∈ (rsOf ds p).flatMap msgs, ∀ y ∈ (rsOf ds p).flatMap msgs,
      nm (messageFormal pre x).id = nm (messageFormal pre y).id → nm x.id = nm y.id := by
    intro x hx y hy h
    rw [hflat x hx, hflat y hy, List.cons.injEq] at h
    obtain ⟨r, hr, hrp, hi, _⟩ := involved_live hc hx
    obtain ⟨s, hs, hsp, hj, _⟩ := involved_live hc hy
    exact hu.flat r s hr hs (hrp.trans hsp.symm) x y hi hj h.1
  refine ⟨?_, ?_, fun _ _ => rfl, ?_⟩
  · intro x hx y hy
    rw [Bool.eq_iff_iff, formal_eq_iff, eq_iff, nm_under, nm_under]
    constructor
    · exact fun h => by rw [hname x hx y hy h.1]
    · intro h
      obtain ⟨_, _, _, _, hl, _⟩ := involved_live hc hx
      obtain ⟨_, _, _, _, hl', _⟩ := involved_live hc hy
      have := same_decl hd hl.1 hl'.1 rfl rfl (under_ne h)
      cases this
      exact ⟨rfl, rfl, rfl⟩
  · intro x hx y hy h
    simp only [nm_under, hname x hx y hy h]
  · intro x hx h
    rw [hflat x hx, List.cons.injEq] at h
    obtain ⟨_, _, _, _, hl, _⟩ := involved_live hc hx
    obtain ⟨q, y, hq⟩ := two_parts (id_length hd hl.1 (id := x.id) rfl)
    rw [hq] at h
    have hm : '_' ∈ low "Types".toList := by
      rw [← h.1]
      simp [List.intercalate, List.intersperse]
    exact absurd hm (by decide)

theorem array_kind (pre : List PyStr) (id : ID) (e : Element) : ∃ as, (arrayInstance pre id e).kind = .instance ⟨pre ++ e.sequence⟩ (⟨pre ++ typesPackage⟩ :: as) := by
  cases e <;> exact ⟨_, rfl⟩

/-- **C57** Under these conditions, and if the names of formal packages are unambiguous, the actual parameters of each instance fit the formal
parameters of its generic package. -/
theorem C57_instances_partial (h : List PyStr → Int) (pre : List PyStr) (ds : List Decl) (d : Dict) (hd : Distinct ds) (hc : Complete ds)
    (hu : Unambiguous ds) (hw : Words ds) (hg : generate pre [] ds = .ok d) :
    ∀ e ∈ d, ∀ g as, e.2.kind = .instance g as → Fits h pre d g as := by
  have hi := inv_of hd hg
  intro e he g as hk
  have hm := hi.made e he
  generalize nm e.1 = n at hm
  generalize e.2 = u at hm hk
  cases hm with
  | package hl h1 h2 h3 h4 => rw [h4] at hk; cases hk
  | @array id el _ hl h1 =>
    cases el with
    | scalar s =>
      cases hk
      exact .scalars (nm_lib _ _) rfl (congrArg some (nm_lib _ _))
    | message s =>
      cases hk
      exact .messages (nm_lib _ _) rfl (congrArg some (nm_lib _ _))
  | generic hl h1 h2 h3 => cases hk
  | @message m _ hl h1 h2 =>
    cases hk
    have ht := message_types hc hl h1
    obtain ⟨bm, hlb, hb, hbt, e, he, hu'⟩ := exists_generic hd hc hi hl ht
    have hgn := generic_name (pre := pre) hd hlb hb
    rw [arrays_eq]
    have harr : arrs bm = arrs m := by simp only [arrs, hbt]
    refine fits h (arrays_alike hd hc hu hl.1) he (by rw [hu', hgn.1, hgn.2.1]) ?_ ?_
    · rw [hu']
      simp only [genericMessage]
      rw [formals_eq hc hlb.1, harr]
    · intro x hx
      have hlx := hc.arrays m hl.1 x.1 x.2 (mem_arrs.mp hx)
      obtain ⟨e', he', hu''⟩ := array_unit hd hi hlx
      obtain ⟨as, has⟩ := array_kind pre x.1 x.2
      exact .instance rfl he' (by rw [hu'', array_id, nm_under]) (by rw [hu'']; exact has) rfl (nm_lib _ _)
  | genericContains h1 h2 h3 h4 h5 => rw [h5] at hk; cases hk
  | @contains p _ _ g' as' h1 h2 h3 h4 h5 h6 =>
    rw [h4] at hk
    cases hk
    obtain ⟨r, hl, hrp⟩ := rs_refinement h1
    obtain ⟨e, he, hn, _, hk⟩ := genericContains_unit hd hi hl
    rw [hrp] at hk hn
    have hassoc := associate_dd (fun m : Message => under pre m.id) ((rsOf ds p).flatMap msgs) [] [⟨pre ++ typesPackage⟩, g] [⟨pre ++ typesPackage⟩] (by
      intro m hm
      obtain ⟨_, _, _, _, hlm, _⟩ := involved_live hc hm
      simp only [List.any_cons, List.any_nil, Bool.or_false]
      rw [eq_false_iff, nm_lib, nm_under]
      intro h0
      have := congrArg List.length (under_ne h0)
      rw [id_length hd hlm.1 (id := m.id) rfl] at this
      revert this
      decide)
    rw [← h6] at hassoc
    have h7 : as = _ := congrArg Prod.snd hassoc
    rw [h7]
    refine fits h (messages_alike hd hc hu hw p) he (by rw [hn, h5, List.append_assoc]) ?_ ?_
    · have hf : refinementFormals pre = fun r => (msgs r).map (messageFormal pre) := funext fun r => refinementFormals_eq pre r
      rw [hk, hf, List.map_flatMap]
    · intro m hm
      obtain ⟨_, _, _, _, hlm, htm⟩ := involved_live hc hm
      obtain ⟨e', he', hu''⟩ := message_unit hd hi hlm (.inr htm)
      obtain ⟨bm, hlb, hb, _, _⟩ := base_message hc hlm htm
      have hgn := generic_name (pre := pre) hd hlb hb
      exact .instance rfl he' (by rw [hu'']; rfl) (by rw [hu'']; rfl) hgn.2.1 (nm_lib _ _)

/-! ## What the units are instances of -/

/-- The sequence package of the library for an element type. -/
def Spec.sequenceOf : Element → Name
  | .scalar _ => [low "RFLX_Scalar_Sequence".toList]
  | .message _ => [low "RFLX_Message_Sequence".toList]

theorem lows_sequence (e : Element) : lows e.sequence = sequenceOf e := by cases e <;> rfl

/-- The actual parameters of the sequence package after `RFLX_Types` that fit its formal ones (`rflx/templates/rflx_scalar_sequence.ads:4-10`,
`rflx/templates/rflx_message_sequence.ads:4-12`): entities of the package of a scalar element or of the instance of a message element. The base type of a
scalar element is any type of the package. -/
def Spec.SequenceActuals (pre : Name) (as : List Name) : Element → Prop
  | .scalar s => ∃ base, as = [pre ++ nm s, pre ++ (nm s).dropLast ++ [base], pre ++ (nm s).dropLast ++ [low "Valid".toList],
      pre ++ (nm s).dropLast ++ [low "To_Actual".toList], pre ++ (nm s).dropLast ++ [low "To_Base".toList]]
  | .message m => as = ["Context", "Initialize", "Take_Buffer", "Has_Buffer", "Message_Last", "Initialized", "Structural_Valid_Message"].map
      fun x => pre ++ nm m ++ [low x.toList]

/-- **C57** For each array there is an instance of the sequence package for its element type, whose actual parameters are those of the element in the order of
the formal ones. -/
theorem C57_arrays (pre : List PyStr) (ds : List Decl) (d : Dict) (hd : Distinct ds) (hc : Complete ds) (hg : generate pre [] ds = .ok d)
    (id : ID) (el : Element) (hl : Live ds (.array id el)) :
    ∃ e ∈ d, nm e.2.id = lows pre ++ nm id ∧ ∃ g a as, e.2.kind = .instance g (a :: as) ∧ nm g = lows pre ++ sequenceOf el ∧
      nm a = lows pre ++ [low "RFLX_Types".toList] ∧ SequenceActuals (lows pre) (as.map nm) el := by
  obtain ⟨e, he, hu⟩ := array_unit hd (inv_of hd hg) hl
  refine ⟨e, he, by rw [hu]; exact array_id _ _ _, ?_⟩
  have hsub : ∀ (n : List PyStr) (i : ID) (s : PyStr), nm (sub (under n i) s) = lows n ++ nm i ++ [low s] := by
    intro n i s
    simp [nm, sub, under, lows]
  cases el with
  | scalar s =>
    have hs := (hc.scalarElements id s hl.1).1
    refine ⟨_, _, _, by rw [hu]; rfl, nm_lib _ _, nm_lib _ _, low (name s ++ ['_', 'B', 'a', 's', 'e']), ?_⟩
    simp only [List.map_cons, List.map_nil, hsub, nm_under, nm_name_parent hs]
    rfl
  | message m =>
    refine ⟨_, _, _, by rw [hu]; rfl, nm_lib _ _, nm_lib _ _, ?_⟩
    simp only [SequenceActuals, List.map_cons, List.map_nil, hsub]
    rfl

/-- **C57** For each message with fields there is an instance of its generic package or the generic package of its base, and a generic package that has `Types`
and a sequence for each array among the types of the fields as parameters. -/
theorem C57_messages (h : List PyStr → Int) (pre : List PyStr) (ds : List Decl) (d : Dict) (hd : Distinct ds) (hc : Complete ds)
    (hg : generate pre [] ds = .ok d) (m : Message) (hl : Live ds (.message m)) (ht : m.types ≠ []) :
    (∃ e ∈ d, nm e.2.id = lows pre ++ nm m.id ∧ ∃ g as, e.2.kind = .instance g as ∧ nm g = lows pre ++ genericOf (nm (m.base.getD m.id))) ∧
    (m.base = none → ∃ e ∈ d, nm e.2.id = lows pre ++ genericOf (nm m.id) ∧ ∃ fs, e.2.kind.printed h = some fs ∧
      (∀ f ∈ fs, nm f.id = [low "Types".toList] ∨
        ∃ id el, IsArray m id el ∧ nm f.id = [(nm id).getLast?.getD [] ++ low "_Sequence".toList] ∧ nm f.generic = lows pre ++ sequenceOf el) ∧
      (∃ f ∈ fs, nm f.id = [low "Types".toList]) ∧
      ∀ id el, IsArray m id el → ∃ f ∈ fs, nm f.id = [(nm id).getLast?.getD [] ++ low "_Sequence".toList] ∧ nm f.generic = lows pre ++ sequenceOf el) := by
  have hi := inv_of hd hg
  refine ⟨?_, ?_⟩
  · obtain ⟨e, he, hu⟩ := message_unit hd hi hl (.inr ht)
    obtain ⟨bm, hlb, hb, _, _⟩ := base_message hc hl ht
    have hgn := generic_name (pre := pre) hd hlb hb
    refine ⟨e, he, by rw [hu]; exact nm_under _ _, _, _, by rw [hu]; rfl, ?_⟩
    rw [hgn.2.1, hgn.2.2, hb]
  · intro hb
    obtain ⟨e, he, hu⟩ := generic_unit hd hi hl hb ht
    refine ⟨e, he, by rw [hu]; simp only [genericMessage, nm_under, nm_genericName],
      typesFormal pre :: (dd (fun x y => (arrayFormal pre x).eq (arrayFormal pre y)) [] (arrs m)).map (arrayFormal pre), ?_⟩
    · have hpr := printed_eq h pre (arrayFormal pre) (arrs m) fun _ _ => rfl
      rw [← formals_eq hc hl.1] at hpr
      have hform : ∀ x : ID × Element, nm (arrayFormal pre x).id = [(nm x.1).getLast?.getD [] ++ low "_Sequence".toList] ∧
          nm (arrayFormal pre x).generic = lows pre ++ sequenceOf x.2 := by
        intro x
        refine ⟨?_, by rw [← lows_sequence]; exact nm_lib _ _⟩
        rw [last_nm]
        simp [nm, arrayFormal, lows, low, sequenceText]
      refine ⟨by rw [hu]; exact hpr, ?_, ⟨_, List.mem_cons_self, rfl⟩, ?_⟩
      · intro f hf
        rcases List.mem_cons.mp hf with rfl | hf
        · exact .inl rfl
        · obtain ⟨x, hx, rfl⟩ := List.mem_map.mp hf
          exact .inr ⟨x.1, x.2, mem_arrs.mp (dd_mem hx), hform x⟩
      · intro id el ha
        obtain ⟨y, hy, hr⟩ := dd_covers (R := fun x y => (arrayFormal pre x).eq (arrayFormal pre y)) (seen := []) (x := (id, el))
          (fun a => (formal_eq_iff _ _).mpr ⟨rfl, rfl, rfl⟩) (mem_arrs.mpr ha)
        rcases hy with hy | hy
        · simp at hy
        · obtain ⟨h1, h2, _⟩ := (formal_eq_iff _ _).mp hr
          refine ⟨arrayFormal pre y, List.mem_cons_of_mem _ (List.mem_map.mpr ⟨y, hy, rfl⟩), ?_⟩
          exact ⟨h1.trans (hform (id, el)).1, h2.trans (hform (id, el)).2⟩

/-- **C57** For the refinements of a package there is a generic package with a parameter for each involved message, which is an instance of the generic package
of the message or its base, and an instance with these messages as actual parameters. -/
theorem C57_refinements (h : List PyStr → Int) (pre : List PyStr) (ds : List Decl) (d : Dict) (hd : Distinct ds) (hc : Complete ds) (hw : Words ds)
    (hg : generate pre [] ds = .ok d) (r : Refinement) (hl : Live ds (.refinement r)) :
    (∃ e ∈ d, nm e.2.id = lows pre ++ (nm r.package ++ [low "Generic_Contains".toList]) ∧ ∃ fs, e.2.kind.printed h = some fs ∧
      ∀ m, Involved r m → ∃ f ∈ fs, nm f.id = [['_'].intercalate (nm m.id)] ∧ nm f.generic = lows pre ++ genericOf (nm (m.base.getD m.id))) ∧
    ∃ e ∈ d, nm e.2.id = lows pre ++ (nm r.package ++ [low "Contains".toList]) ∧ ∃ g as, e.2.kind = .instance g as ∧
      nm g = lows pre ++ (nm r.package ++ [low "Generic_Contains".toList]) ∧ ∀ m, Involved r m → ∃ a ∈ as, nm a = lows pre ++ nm m.id := by
  have hi := inv_of hd hg
  have hmem : ∀ m, Involved r m → m ∈ (rsOf ds (nm r.package)).flatMap msgs :=
    fun m hm => List.mem_flatMap.mpr ⟨r, mem_rsOf.mpr ⟨hl, rfl⟩, mem_msgs.mpr hm⟩
  refine ⟨?_, ?_⟩
  · obtain ⟨e, he, hn, _, hk⟩ := genericContains_unit hd hi hl
    have hf : refinementFormals pre = fun r => (msgs r).map (messageFormal pre) := funext fun r => refinementFormals_eq pre r
    have hpr := printed_eq h pre (messageFormal pre) ((rsOf ds (nm r.package)).flatMap msgs) fun _ _ => rfl
    rw [List.map_flatMap, ← hf, ← hk] at hpr
    refine ⟨e, he, hn, _, hpr, ?_⟩
    intro m hm
    obtain ⟨y, hy, hr⟩ := dd_covers (R := fun x y => (messageFormal pre x).eq (messageFormal pre y)) (seen := []) (x := m)
      (fun a => (formal_eq_iff _ _).mpr ⟨rfl, rfl, rfl⟩) (hmem m hm)
    rcases hy with hy | hy
    · simp at hy
    · obtain ⟨h1, h2, _⟩ := (formal_eq_iff _ _).mp hr
      obtain ⟨_, _, _, _, hlm, htm⟩ := involved_live hc (hmem m hm)
      obtain ⟨bm, hlb, hb, _, _⟩ := base_message hc hlm htm
      refine ⟨messageFormal pre y, List.mem_cons_of_mem _ (List.mem_map.mpr ⟨y, hy, rfl⟩), h1.trans ?_, h2.trans ?_⟩
      · simp only [nm, messageFormal, lows, List.map_cons, List.map_nil]
        rw [flat_lower ((hw _ hlm.1).2.1 m.id rfl)]
        rfl
      · rw [← hb]
        exact (generic_name (pre := pre) hd hlb hb).2.2
  · obtain ⟨e, he, hn, g, as, hk, hgn, hf⟩ := contains_unit hd hi hl
    refine ⟨e, he, hn, g, as, hk, by rw [hgn, List.append_assoc], ?_⟩
    intro m hm
    have key : ∀ (l : List ID) (x : List ID × List ID) (i : ID), (i ∈ l ∨ ∃ a ∈ x.2, nm a = nm i) → ∃ a ∈ (l.foldl associate x).2, nm a = nm i := by
      intro l
      induction l with
      | nil => intro x i h; simpa using h
      | cons j l ih =>
        intro x i h
        rw [List.foldl_cons]
        apply ih
        have hmono : ∀ a ∈ x.2, a ∈ (associate x j).2 := by
          intro a ha
          unfold associate
          split
          · exact ha
          · exact List.mem_append_left _ ha
        rcases h with h | ⟨a, ha, hn⟩
        · rcases List.mem_cons.mp h with rfl | h
          · refine .inr ?_
            unfold associate
            split
            · rename_i hany
              obtain ⟨a, ha, hn⟩ := List.any_eq_true.mp hany
              exact ⟨a, ha, (eq_iff _ _).mp hn⟩
            · exact ⟨i, by simp, rfl⟩
          · exact .inl h
        · exact .inr ⟨a, hmono a ha, hn⟩
    have h7 : as = _ := congrArg Prod.snd hf
    obtain ⟨a, ha, hn⟩ := key (((rsOf ds (nm r.package)).flatMap msgs).map fun m => under pre m.id) ([⟨pre ++ typesPackage⟩, g], [⟨pre ++ typesPackage⟩])
      (under pre m.id) (.inl (List.mem_map.mpr ⟨m, hmem m hm, rfl⟩))
    exact ⟨a, h7 ▸ ha, hn.trans (nm_under _ _)⟩

end Verif.Units
