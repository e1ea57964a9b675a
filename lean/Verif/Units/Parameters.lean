import Verif.Units.Lemmas

/-! # Lemmas: parameters without duplicates, units found under their names -/

namespace Verif.Units
open Verif Spec

/-! ## Lists without duplicates -/

/-- The elements of a list that are not related to an earlier one. -/
def dd {α : Type} (R : α → α → Bool) : List α → List α → List α
  | _, [] => []
  | seen, x :: l => if seen.any fun y => R y x then dd R seen l else x :: dd R (seen ++ [x]) l

theorem dd_mem {α : Type} {R : α → α → Bool} {x : α} : ∀ {l seen : List α}, x ∈ dd R seen l → x ∈ l
  | [], _, h => by simp [dd] at h
  | y :: l, seen, h => by
    unfold dd at h
    split at h
    · exact List.mem_cons_of_mem _ (dd_mem h)
    · rcases List.mem_cons.mp h with rfl | h
      · exact List.mem_cons_self
      · exact List.mem_cons_of_mem _ (dd_mem h)

theorem dd_new {α : Type} {R : α → α → Bool} {x : α} : ∀ {l seen : List α}, x ∈ dd R seen l → ∀ y ∈ seen, R y x = false
  | [], _, h => by simp [dd] at h
  | z :: l, seen, h => by
    unfold dd at h
    split at h
    · exact dd_new h
    · rename_i hn
      intro y hy
      rcases List.mem_cons.mp h with rfl | h
      · cases hr : R y x with
        | false => rfl
        | true => exact absurd (List.any_eq_true.mpr ⟨y, hy, hr⟩) hn
      · exact dd_new h y (by simp [hy])

theorem dd_pairwise {α : Type} {R : α → α → Bool} : ∀ (l seen : List α), (dd R seen l).Pairwise fun a b => R a b = false
  | [], _ => by simp [dd]
  | x :: l, seen => by
    unfold dd
    split
    · exact dd_pairwise l seen
    · exact List.pairwise_cons.mpr ⟨fun b hb => dd_new hb x (by simp), dd_pairwise l _⟩

theorem dd_covers {α : Type} {R : α → α → Bool} (refl : ∀ a, R a a = true) {x : α} :
    ∀ {l seen : List α}, x ∈ l → ∃ y, (y ∈ seen ∨ y ∈ dd R seen l) ∧ R y x = true
  | z :: l, seen, h => by
    unfold dd
    split
    · rename_i ha
      rcases List.mem_cons.mp h with rfl | h
      · obtain ⟨y, hy, hr⟩ := List.any_eq_true.mp ha
        exact ⟨y, .inl hy, hr⟩
      · exact dd_covers refl h
    · rcases List.mem_cons.mp h with rfl | h
      · exact ⟨x, .inr List.mem_cons_self, refl x⟩
      · obtain ⟨y, hy, hr⟩ := dd_covers (seen := seen ++ [z]) refl h
        rcases hy with hy | hy
        · rcases List.mem_append.mp hy with hy | hy
          · exact ⟨y, .inl hy, hr⟩
          · rw [List.mem_singleton] at hy
            subst hy
            exact ⟨y, .inr List.mem_cons_self, hr⟩
        · exact ⟨y, .inr (List.mem_cons_of_mem _ hy), hr⟩

theorem dd_congr {α : Type} {R R' : α → α → Bool} : ∀ {l seen : List α}, (∀ x ∈ seen ++ l, ∀ y ∈ seen ++ l, R x y = R' x y) →
    dd R seen l = dd R' seen l
  | [], _, _ => rfl
  | x :: l, seen, h => by
    have ha : (seen.any fun y => R y x) = seen.any fun y => R' y x := by
      rw [Bool.eq_iff_iff, List.any_eq_true, List.any_eq_true]
      constructor <;> rintro ⟨y, hy, hr⟩ <;> refine ⟨y, hy, ?_⟩
      · rw [← h y (by simp [hy]) x (by simp)]; exact hr
      · rw [h y (by simp [hy]) x (by simp)]; exact hr
    unfold dd
    rw [ha, dd_congr (l := l) (seen := seen), dd_congr (l := l) (seen := seen ++ [x])]
    · simpa using h
    · intro a ha b hb
      exact h a (by simp at ha ⊢; rcases ha with ha | ha <;> simp [ha]) b (by simp at hb ⊢; rcases hb with hb | hb <;> simp [hb])

theorem uniqueLoop_dd {α β : Type} {hash : β → Int} {eq : β → β → Bool} (hh : ∀ a b, eq a b = true → hash a = hash b) (F : α → β) :
    ∀ (l S : List α) (r : List β), (∀ x ∈ l, (r.any fun y => eq y (F x)) = S.any fun y => eq (F y) (F x)) →
      uniqueLoop hash eq r (l.map F) = (dd (fun x y => eq (F x) (F y)) S l).map F
  | [], _, _, _ => rfl
  | x :: l, S, r, h => by
    have hin : inSet hash eq r (F x) = S.any fun y => eq (F y) (F x) := by
      rw [← h x (by simp), Bool.eq_iff_iff, Common.inSet_iff hh, List.any_eq_true]
    simp only [List.map_cons, uniqueLoop, dd, hin]
    split
    · exact uniqueLoop_dd hh F l S r fun y hy => h y (by simp [hy])
    · rw [List.map_cons, uniqueLoop_dd hh F l (S ++ [x]) (F x :: r)]
      intro y hy
      simp only [List.any_cons, List.any_append, List.any_nil, Bool.or_false, h y (by simp [hy])]
      exact Bool.or_comm _ _

theorem keys_dd {α : Type} (A : α → ID) : ∀ (l S : List α) (r : List ID), (∀ x ∈ l, (r.any fun y => y.eq (A x)) = S.any fun y => (A y).eq (A x)) →
      keys r (l.map A) = r ++ (dd (fun x y => (A x).eq (A y)) S l).map A
  | [], _, r, _ => by simp [keys, dd]
  | x :: l, S, r, h => by
    simp only [List.map_cons, keys, dd, h x (by simp)]
    split
    · exact keys_dd A l S r fun y hy => h y (by simp [hy])
    · rw [keys_dd A l (S ++ [x]) (r ++ [A x]), List.map_cons]
      · simp
      · intro y hy
        simp only [List.any_append, List.any_cons, List.any_nil, Bool.or_false, h y (by simp [hy])]

theorem associate_dd {α : Type} (A : α → ID) : ∀ (l S : List α) (ws r : List ID),
    (∀ x ∈ l, (r.any fun y => y.eq (A x)) = S.any fun y => (A y).eq (A x)) →
      (l.map A).foldl associate (ws, r) =
        (ws ++ (dd (fun x y => (A x).eq (A y)) S l).map A, r ++ (dd (fun x y => (A x).eq (A y)) S l).map A)
  | [], _, ws, r, _ => by simp [dd]
  | x :: l, S, ws, r, h => by
    simp only [List.map_cons, List.foldl_cons, associate, dd, h x (by simp)]
    split
    · exact associate_dd A l S ws r fun y hy => h y (by simp [hy])
    · rw [associate_dd A l (S ++ [x]) (ws ++ [A x]) (r ++ [A x]), List.map_cons]
      · simp
      · intro y hy
        simp only [List.any_append, List.any_cons, List.any_nil, Bool.or_false, h y (by simp [hy])]

theorem forall₂_map {α β γ : Type} {R : β → γ → Prop} {F : α → β} {A : α → γ} :
    ∀ {l : List α}, (∀ x ∈ l, R (F x) (A x)) → List.Forall₂ R (l.map F) (l.map A)
  | [], _ => .nil
  | _ :: _, h => .cons (h _ List.mem_cons_self) (forall₂_map fun x hx => h x (List.mem_cons_of_mem _ hx))

theorem formal_hash (h : List PyStr → Int) (a b : Formal) (he : a.eq b = true) : a.id.hash h = b.id.hash h := by
  simp only [Formal.eq, Bool.and_eq_true] at he
  simp only [ID.hash, (ID.eq_iff_key _ _).mp he.1.1]

theorem formal_eq_iff (a b : Formal) : a.eq b = true ↔ nm a.id = nm b.id ∧ nm a.generic = nm b.generic ∧ a.restricted = b.restricted := by
  simp only [Formal.eq, Bool.and_eq_true, eq_iff, beq_iff_eq, and_assoc]

/-- The formal parameters as printed. -/
theorem printed_eq {α : Type} (h : List PyStr → Int) (pre : List PyStr) (F : α → Formal) (l : List α) (hF : ∀ x ∈ l, (F x).restricted = true) :
    (Kind.package (some (typesFormal pre :: l.map F))).printed h = some (typesFormal pre :: (dd (fun x y => (F x).eq (F y)) [] l).map F) := by
  simp only [Kind.printed, unique, uniqueLoop, inSet, List.any_nil, Bool.false_eq_true, if_false]
  rw [uniqueLoop_dd (formal_hash h)]
  intro x hx
  simp [Formal.eq, typesFormal, hF x hx]

/-! ## Units found under their names -/

variable {pre : List PyStr} {ds : List Decl} {d : Dict}

theorem has_made (hi : Inv pre ds d) {n : Name} (h : Has d n) : ∃ e ∈ d, Made pre ds n e.2 := by
  obtain ⟨e, he, rfl⟩ := h
  exact ⟨e, he, hi.made e he⟩

theorem same_decl (hd : Distinct ds) {t t' : Decl} (ht : t ∈ ds) (ht' : t' ∈ ds) {a b : ID} (ha : unitId t = some a) (hb : unitId t' = some b)
    (h : nm a = nm b) : t = t' := by
  have hn := hd.names
  clear hd
  induction ds with
  | nil => simp at ht
  | cons x l ih =>
    cases hx : unitId x with
    | none =>
      rw [List.filterMap_cons_none hx] at hn
      refine ih ?_ ?_ hn
      · rcases List.mem_cons.mp ht with rfl | ht
        · rw [hx] at ha; simp at ha
        · exact ht
      · rcases List.mem_cons.mp ht' with rfl | ht'
        · rw [hx] at hb; simp at hb
        · exact ht'
    | some c =>
      rw [List.filterMap_cons_some hx, List.pairwise_cons] at hn
      rcases List.mem_cons.mp ht with rfl | hs
      · rcases List.mem_cons.mp ht' with rfl | ht'
        · rfl
        · rw [hx] at ha
          cases ha
          exact absurd h (hn.1 b (List.mem_filterMap.mpr ⟨t', ht', hb⟩))
      · rcases List.mem_cons.mp ht' with rfl | ht'
        · rw [hx] at hb
          cases hb
          exact absurd h.symm (hn.1 a (List.mem_filterMap.mpr ⟨t, hs, ha⟩))
        · exact ih hs ht' hn.2

theorem id_length (hd : Distinct ds) {t : Decl} (ht : t ∈ ds) {id : ID} (h : unitId t = some id) : (nm id).length = 2 := by
  rw [nm_length, (hd.shape t ht).2.1 id h]

theorem rs_refinement {ps : List Decl} {p : Name} (h : rsOf ps p ≠ []) : ∃ r, Live ps (.refinement r) ∧ nm r.package = p := by
  obtain ⟨r, hr⟩ := List.exists_mem_of_ne_nil _ h
  exact ⟨r, mem_rsOf.mp hr⟩

theorem not_generic (hd : Distinct ds) {t : Decl} (ht : t ∈ ds) {id : ID} (h : unitId t = some id) {n : Name} (hn : nm id = genericOf n) : False :=
  hd.generic t ht id h (hn ▸ genericOf_last n)

theorem not_gc (hd : Distinct ds) {t : Decl} (ht : t ∈ ds) {id : ID} (h : unitId t = some id) {p : Name}
    (hn : nm id = p ++ [low "Generic_Contains".toList]) : False := by
  refine not_generic hd ht h (n := p ++ [low "Contains".toList]) ?_
  rw [hn, genericOf_append, gc_eq]

theorem not_c (hd : Distinct ds) {t : Decl} (ht : t ∈ ds) {id : ID} (h : unitId t = some id) {p : Name} (hp : rsOf ds p ≠ [])
    (hn : nm id = p ++ [low "Contains".toList]) : False := by
  obtain ⟨r, hl, rfl⟩ := rs_refinement hp
  exact hd.contains t ht id h r hl.1 hn

theorem array_name {id : ID} (hd : Distinct ds) {e : Element} (ht : .array id e ∈ ds) {n : Name} (hn : n.length = 2) (h : n = lows pre ++ nm id) :
    n = nm id := pre_nil ((hd.shape _ ht).2.1 id rfl) hn h

theorem made_message (hd : Distinct ds) {m : Message} (hl : Live ds (.message m)) {u : Unit} (h : Made pre ds (nm m.id) u) :
    u = messageInstance pre m := by
  have hlen := id_length hd hl.1 (id := m.id) rfl
  generalize hn : nm m.id = n at h hlen
  cases h with
  | package hl' h1 h2 h3 h4 =>
    have := pkg_length hd hl'.1
    rw [h1] at hlen
    omega
  | array hl' h1 => cases same_decl hd hl.1 hl'.1 rfl rfl (hn.trans (array_name hd hl'.1 hlen h1))
  | generic hl' h1 h2 h3 => exact (not_generic hd hl.1 rfl (hn.trans h3)).elim
  | message hl' h1 h2 =>
    have := same_decl hd hl.1 hl'.1 rfl rfl (hn.trans h2)
    cases this
    rfl
  | genericContains h1 h2 => exact (not_gc hd hl.1 rfl (hn.trans h2)).elim
  | contains h1 h2 => exact (not_c hd hl.1 rfl h1 (hn.trans h2)).elim

theorem made_generic (hd : Distinct ds) {m : Message} (hl : Live ds (.message m)) {u : Unit} (h : Made pre ds (genericOf (nm m.id)) u) :
    u = genericMessage pre m := by
  have hm := id_length hd hl.1 (id := m.id) rfl
  have hlen : (genericOf (nm m.id)).length = 2 := by simp [genericOf, hm]
  generalize hn : genericOf (nm m.id) = n at h hlen
  cases h with
  | package hl' h1 h2 h3 h4 =>
    have := pkg_length hd hl'.1
    rw [h1] at hlen
    omega
  | array hl' h1 => exact (not_generic hd hl'.1 rfl (hn.trans (array_name hd hl'.1 hlen h1)).symm).elim
  | generic hl' h1 h2 h3 =>
    have := same_decl hd hl.1 hl'.1 rfl rfl (genericOf_inj hm (id_length hd hl'.1 rfl) (hn.trans h3))
    cases this
    rfl
  | message hl' h1 h2 => exact (not_generic hd hl'.1 rfl (hn.trans h2).symm).elim
  | @genericContains p _ _ h1 h2 =>
    rw [← hn, gc_eq, ← genericOf_append] at h2
    have hp : (p ++ [low "Contains".toList]).length = 2 := by
      obtain ⟨r, hr, rfl⟩ := rs_refinement h1
      have := pkg_length hd hr.1
      simp only [pkg] at this
      simp [this]
    exact (not_c hd hl.1 rfl h1 (genericOf_inj hm hp h2)).elim
  | contains h1 h2 =>
    have := genericOf_last (nm m.id)
    rw [hn, h2, last_append] at this
    exact absurd this (by decide)

theorem made_array (hd : Distinct ds) {id : ID} {e : Element} (hl : Live ds (.array id e)) {u : Unit} (h : Made pre ds (lows pre ++ nm id) u) :
    u = arrayInstance pre id e := by
  have hid := id_length hd hl.1 (id := id) rfl
  generalize hn : lows pre ++ nm id = n at h
  have hlen : n.length = (lows pre).length + 2 := by rw [← hn, List.length_append, hid]
  have short : n.length = 2 → n = nm id := fun h => array_name hd hl.1 h hn.symm
  cases h with
  | package hl' h1 h2 h3 h4 =>
    have := pkg_length hd hl'.1
    rw [h1] at hlen
    omega
  | array hl' h1 =>
    have := same_decl hd hl.1 hl'.1 rfl rfl (List.append_cancel_left (hn.trans h1))
    cases this
    rfl
  | @generic m _ hl' h1 h2 h3 =>
    have := id_length hd hl'.1 (id := m.id) rfl
    exact (not_generic hd hl.1 rfl ((short (by rw [h3]; simp [genericOf, this])).symm.trans h3)).elim
  | @message m _ hl' h1 h2 =>
    have hm := id_length hd hl'.1 (id := m.id) rfl
    cases same_decl hd hl.1 hl'.1 rfl rfl ((short (by rw [h2, hm])).symm.trans h2)
  | @genericContains p _ _ h1 h2 =>
    obtain ⟨r, hr, rfl⟩ := rs_refinement h1
    have := pkg_length hd hr.1
    simp only [pkg] at this
    exact (not_gc hd hl.1 rfl ((short (by rw [h2]; simp [this])).symm.trans h2)).elim
  | @contains p _ _ _ _ h1 h2 =>
    have hp : p.length = 1 := by
      obtain ⟨r, hr, rfl⟩ := rs_refinement h1
      exact pkg_length hd hr.1
    exact (not_c hd hl.1 rfl h1 ((short (by rw [h2]; simp [hp])).symm.trans h2)).elim

theorem made_package (hd : Distinct ds) {t : Decl} (hl : Live ds t) {u : Unit} (h : Made pre ds (pkg t) u) :
    nm u.id = lows pre ++ pkg t ∧ u.withs = [] ∧ u.kind = .package none := by
  have hlen := pkg_length hd hl.1
  generalize pkg t = n at h hlen
  cases h with
  | package hl' h1 h2 h3 h4 => exact ⟨h1 ▸ h2, h3, h4⟩
  | @array id e _ hl' h1 =>
    have := id_length hd hl'.1 (id := id) rfl
    rw [h1, List.length_append] at hlen
    omega
  | @generic m _ hl' h1 h2 h3 =>
    have := id_length hd hl'.1 (id := m.id) rfl
    rw [h3] at hlen
    simp [genericOf, this] at hlen
  | @message m _ hl' h1 h2 =>
    have := id_length hd hl'.1 (id := m.id) rfl
    rw [h2] at hlen
    omega
  | @genericContains p _ _ h1 h2 =>
    obtain ⟨r, hr, rfl⟩ := rs_refinement h1
    have := pkg_length hd hr.1
    simp only [pkg] at this
    rw [h2] at hlen
    simp [this] at hlen
  | @contains p _ _ _ _ h1 h2 =>
    obtain ⟨r, hr, rfl⟩ := rs_refinement h1
    have := pkg_length hd hr.1
    simp only [pkg] at this
    rw [h2] at hlen
    simp [this] at hlen

/-! ## Units of declarations -/

theorem package_unit (hd : Distinct ds) (hi : Inv pre ds d) {t : Decl} (hl : Live ds t) :
    ∃ e ∈ d, nm e.2.id = lows pre ++ pkg t ∧ e.2.withs = [] ∧ e.2.kind = .package none := by
  obtain ⟨e, he, hm⟩ := has_made hi (hi.has t hl (pkg t) (by simp [slots]))
  exact ⟨e, he, made_package hd hl hm⟩

theorem array_unit (hd : Distinct ds) (hi : Inv pre ds d) {id : ID} {el : Element} (hl : Live ds (.array id el)) :
    ∃ e ∈ d, e.2 = arrayInstance pre id el := by
  obtain ⟨e, he, hm⟩ := has_made hi (hi.has _ hl (lows pre ++ nm id) (by simp [slots]))
  exact ⟨e, he, made_array hd hl hm⟩

theorem message_unit (hd : Distinct ds) (hi : Inv pre ds d) {m : Message} (hl : Live ds (.message m)) (h : m.base ≠ none ∨ m.types ≠ []) :
    ∃ e ∈ d, e.2 = messageInstance pre m := by
  obtain ⟨e, he, hm⟩ := has_made hi (hi.has _ hl (nm m.id) (by
    have : (m.base.isSome || !m.types.isEmpty) = true := by
      rcases h with h | h
      · simp [Option.isSome_iff_ne_none.mpr h]
      · simp [h]
    simp only [slots, this, if_true]
    simp))
  exact ⟨e, he, made_message hd hl hm⟩

theorem generic_unit (hd : Distinct ds) (hi : Inv pre ds d) {m : Message} (hl : Live ds (.message m)) (hb : m.base = none) (h : m.types ≠ []) :
    ∃ e ∈ d, e.2 = genericMessage pre m := by
  obtain ⟨e, he, hm⟩ := has_made hi (hi.has _ hl (genericOf (nm m.id)) (by
    have : (m.base.isNone && !m.types.isEmpty) = true := by simp [hb, h]
    simp only [slots, this, if_true]
    simp))
  exact ⟨e, he, made_generic hd hl hm⟩

theorem array_id (pre : List PyStr) (id : ID) (e : Element) : nm (arrayInstance pre id e).id = lows pre ++ nm id := by
  cases e <;> exact nm_under _ _

theorem genericContains_unit (hd : Distinct ds) (hi : Inv pre ds d) {r : Refinement} (hl : Live ds (.refinement r)) :
    ∃ e ∈ d, nm e.2.id = lows pre ++ (nm r.package ++ [low "Generic_Contains".toList]) ∧
    e.2.withs = ⟨pre ++ genericTypes⟩ :: (rsOf ds (nm r.package)).flatMap (refinementWiths pre) ∧
    e.2.kind = .package (some (typesFormal pre :: (rsOf ds (nm r.package)).flatMap (refinementFormals pre))) := by
  obtain ⟨e, he, hm⟩ := has_made hi (hi.has _ hl (nm r.package ++ [low "Generic_Contains".toList]) (by simp [slots]))
  exact ⟨e, he, made_genericContains hd (fun _ h => h) hl.1 hm⟩

theorem contains_unit (hd : Distinct ds) (hi : Inv pre ds d) {r : Refinement} (hl : Live ds (.refinement r)) :
    ∃ e ∈ d, nm e.2.id = lows pre ++ (nm r.package ++ [low "Contains".toList]) ∧ ∃ g as, e.2.kind = .instance g as ∧
    nm g = lows pre ++ nm r.package ++ [low "Generic_Contains".toList] ∧
    (e.2.withs, as) = (((rsOf ds (nm r.package)).flatMap msgs).map fun m => under pre m.id).foldl associate
      ([⟨pre ++ typesPackage⟩, g], [⟨pre ++ typesPackage⟩]) := by
  obtain ⟨e, he, hm⟩ := has_made hi (hi.has _ hl (nm r.package ++ [low "Contains".toList]) (by simp [slots]))
  exact ⟨e, he, made_contains hd (fun _ h => h) hl.1 hm⟩

/-- The base of a derived message or the message itself. -/
theorem base_message (hc : Complete ds) {m : Message} (hl : Live ds (.message m)) (ht : m.types ≠ []) :
    ∃ bm, Live ds (.message bm) ∧ bm.id = m.base.getD m.id ∧ bm.base = none ∧ bm.types = m.types := by
  cases hb : m.base with
  | none => exact ⟨m, hl, rfl, hb, rfl⟩
  | some b =>
    obtain ⟨_, bm, h1, h2, h3, h4⟩ := hc.bases m hl.1 b hb
    exact ⟨bm, h1, h2, h3, h4⟩

end Verif.Units
