import Verif.Units.Parameters

/-! # Property C57: generated units fit together -/

namespace Verif.Units
open Verif Spec

/-! ## The names of the units -/

theorem under_ne {n a b : Name} (h : n ++ a = n ++ b) : a = b := List.append_cancel_left h

theorem nm_lib (pre l : List PyStr) : nm ⟨pre ++ l⟩ = lows pre ++ lows l := lows_append _ _

theorem genericOf_under (a : Name) {n : Name} (h : n ≠ []) : genericOf (a ++ n) = a ++ genericOf n := by
  have hl : (a ++ n).getLast? = n.getLast? := by
    rw [List.getLast?_append]
    cases hn : n.getLast? with
    | none => exact absurd (List.getLast?_eq_none_iff.mp hn) h
    | some x => rfl
  simp only [genericOf, hl, List.dropLast_append_of_ne_nil h, List.append_assoc]

/-- Every unit is wanted; it is stored under its name, for all but arrays without the prefix. -/
theorem made_id {pre : List PyStr} {ds : List Decl} (hd : Distinct ds) {n : Name} {u : Unit} (h : Made pre ds n u) :
    (∃ id e, Live ds (.array id e) ∧ nm u.id = lows pre ++ nm id ∧ n = lows pre ++ nm id) ∨
    nm u.id = lows pre ++ n ∧ Wanted ds n ∧ ∀ id e, Live ds (.array id e) → nm id ≠ n := by
  cases h with
  | package hl h1 h2 h3 h4 =>
    refine .inr ⟨h1 ▸ h2, h1 ▸ .package hl, ?_⟩
    intro id e hl' hn
    have h3 := pkg_length hd hl.1
    have h4 := id_length hd hl'.1 (id := id) rfl
    rw [hn, h1] at h4
    omega
  | array hl h1 => exact .inl ⟨_, _, hl, array_id _ _ _, h1⟩
  | generic hl h1 h2 h3 =>
    refine .inr ⟨by simp only [genericMessage, nm_under, nm_genericName, h3], h3 ▸ .generic hl h1 h2, ?_⟩
    exact fun id e hl' hn => not_generic hd hl'.1 rfl (hn.trans h3)
  | message hl h1 h2 =>
    refine .inr ⟨h2 ▸ nm_under _ _, h2 ▸ .message hl h1, ?_⟩
    intro id e hl' hn
    cases same_decl hd hl'.1 hl.1 rfl rfl (hn.trans h2)
  | genericContains h1 h2 h3 =>
    refine .inr ⟨h3, ?_, fun id e hl' hn => not_gc hd hl'.1 rfl (hn.trans h2)⟩
    obtain ⟨r, hr, rfl⟩ := rs_refinement h1
    exact h2 ▸ .genericContains hr
  | contains h1 h2 h3 =>
    refine .inr ⟨h3, ?_, fun id e hl' hn => not_c hd hl'.1 rfl h1 (hn.trans h2)⟩
    obtain ⟨r, hr, rfl⟩ := rs_refinement h1
    exact h2 ▸ .contains hr

theorem wanted_unit {pre : List PyStr} {ds : List Decl} {d : Dict} (hd : Distinct ds) (hi : Inv pre ds d) {w : Name} (h : Wanted ds w) :
    ∃ e ∈ d, nm e.2.id = lows pre ++ w := by
  cases h with
  | package hl =>
    obtain ⟨e, he, h, _⟩ := package_unit hd hi hl
    exact ⟨e, he, h⟩
  | array hl =>
    obtain ⟨e, he, h⟩ := array_unit hd hi hl
    exact ⟨e, he, by rw [h]; exact array_id _ _ _⟩
  | generic hl h1 h2 =>
    obtain ⟨e, he, h⟩ := generic_unit hd hi hl h1 h2
    exact ⟨e, he, by rw [h]; simp only [genericMessage, nm_under, nm_genericName]⟩
  | message hl h1 =>
    obtain ⟨e, he, h⟩ := message_unit hd hi hl h1
    exact ⟨e, he, by rw [h]; exact nm_under _ _⟩
  | genericContains hl =>
    obtain ⟨e, he, h, _⟩ := genericContains_unit hd hi hl
    exact ⟨e, he, h⟩
  | contains hl =>
    obtain ⟨e, he, h, _⟩ := contains_unit hd hi hl
    exact ⟨e, he, h⟩

theorem ids_nodup {pre : List PyStr} {ds : List Decl} {d : Dict} (hd : Distinct ds) (hi : Inv pre ds d) : (d.map fun e => nm e.2.id).Nodup := by
  have h := List.pairwise_map.mp hi.nodup
  refine List.pairwise_map.mpr (h.imp_of_mem ?_)
  intro a b ha hb hab heq
  apply hab
  rcases made_id hd (hi.made a ha) with ⟨id, e, hl, h1, h2⟩ | ⟨h1, h2, h3⟩ <;>
    rcases made_id hd (hi.made b hb) with ⟨id', e', hl', h1', h2'⟩ | ⟨h1', h2', h3'⟩
  · rw [h2, h2', ← h1, ← h1', heq]
  · exact absurd (under_ne (h1.symm.trans (heq.trans h1'))) (h3' _ _ hl)
  · exact absurd (under_ne (h1.symm.trans (heq.trans h1'))).symm (h3 _ _ hl')
  · exact under_ne (h1.symm.trans (heq.trans h1'))

/-- **C57** If the names of arrays and messages are distinct and do not collide with the names of generic packages, code generation succeeds, the units have
different names, and the units are the wanted ones. -/
theorem C57_units_partial (pre : List PyStr) (ds : List Decl) (hd : Distinct ds) :
    ∃ d, generate pre [] ds = .ok d ∧ (d.map fun e => nm e.2.id).Nodup ∧
      ∀ n, (∃ e ∈ d, nm e.2.id = n) ↔ ∃ w, Wanted ds w ∧ n = lows pre ++ w := by
  obtain ⟨d, h, hi⟩ := generated (pre := pre) hd
  refine ⟨d, h, ids_nodup hd hi, fun n => ⟨?_, ?_⟩⟩
  · rintro ⟨e, he, rfl⟩
    rcases made_id hd (hi.made e he) with ⟨id, el, hl, h1, _⟩ | ⟨h1, h2, _⟩
    · exact ⟨_, .array hl, h1⟩
    · exact ⟨_, h2, h1⟩
  · rintro ⟨w, hw, rfl⟩
    exact wanted_unit hd hi hw

theorem inv_of {pre : List PyStr} {ds : List Decl} {d : Dict} (hd : Distinct ds) (h : generate pre [] ds = .ok d) : Inv pre ds d := by
  obtain ⟨d', h', hi⟩ := generated (pre := pre) hd
  rw [h] at h'
  cases h'
  exact hi

/-! ## Files -/

theorem word_lower {s : PyStr} (h : Word s) : ∀ x : Char, (x = '.' ∨ x = ':' ∨ x = '-') → x ∉ low s := by
  intro x hx hm
  obtain ⟨c, hc, hcx⟩ := List.mem_map.mp hm
  have hup : ∀ e : Char, (e.toLower = '.' ∨ e.toLower = ':' ∨ e.toLower = '-') → e = e.toLower := by
    intro e he
    simp only [Char.toLower] at he ⊢
    split
    · rename_i hu
      rw [dif_pos hu] at he
      exfalso
      simp only [Char.ext_iff, ← UInt32.toNat_inj, UInt32.toNat_add] at he
      have h1 := UInt32.le_iff_toNat_le.mp hu.1
      have h2 := UInt32.le_iff_toNat_le.mp hu.2
      have e1 : ('a'.val - 'A'.val).toNat = 32 := rfl
      have e2 : 'A'.val.toNat = 65 := rfl
      have e3 : 'Z'.val.toNat = 90 := rfl
      have e4 : '.'.val.toNat = 46 := rfl
      have e5 : ':'.val.toNat = 58 := rfl
      have e6 : '-'.val.toNat = 45 := rfl
      rw [e1, e4, e5, e6] at he
      omega
    · rfl
  have hce : c = x := by rw [hup c (by rw [hcx]; exact hx), hcx]
  subst hce
  rcases h c hc with h | h <;> rcases hx with rfl | rfl | rfl <;> revert h <;> decide

theorem dotted_cons (p : PyStr) {ps : List PyStr} (h : ps ≠ []) : dotted (p :: ps) = p ++ '.' :: dotted ps := by
  cases ps with
  | nil => exact absurd rfl h
  | cons q ps => rfl

theorem joinWith_cons (p : PyStr) {ps : List PyStr} (h : ps ≠ []) : Common.Spec.joinWith '-' (p :: ps) = p ++ '-' :: Common.Spec.joinWith '-' ps := by
  cases ps with
  | nil => exact absurd rfl h
  | cons q ps => rfl

/-- Names without separators. -/
def Clean (n : Name) : Prop := ∀ p ∈ n, '.' ∉ p ∧ ':' ∉ p ∧ '-' ∉ p

theorem clean_append {a b : Name} (ha : Clean a) (hb : Clean b) : Clean (a ++ b) :=
  fun p hp => (List.mem_append.mp hp).elim (ha p) (hb p)

theorem clean_words {l : List PyStr} (h : ∀ p ∈ l, Word p) : Clean (lows l) := by
  intro p hp
  obtain ⟨x, hx, rfl⟩ := List.mem_map.mp hp
  exact ⟨word_lower (h x hx) _ (by simp), word_lower (h x hx) _ (by simp), word_lower (h x hx) _ (by simp)⟩

theorem fileName_append {p : PyStr} (h : '.' ∉ low p ∧ ':' ∉ low p) (s : PyStr) : fileName (p ++ s) = low p ++ fileName s := by
  simp only [fileName, PyStr.lower, List.map_append]
  exact Common.subSep_noop '-' (low p) h _

theorem fileName_dot (s : PyStr) : fileName ('.' :: s) = '-' :: fileName s := by
  simp only [fileName, PyStr.lower, List.map_cons]
  have : Char.toLower '.' = '.' := by decide
  rw [this, subSep]
  · simp
  · simp

theorem fileName_nil : fileName [] = [] := rfl

theorem clean_head {p : PyStr} {ps : List PyStr} (h : Clean (lows (p :: ps))) : ('.' ∉ low p ∧ ':' ∉ low p) ∧ Clean (lows ps) := by
  have := h (low p) (by simp [lows])
  exact ⟨⟨this.1, this.2.1⟩, fun x hx => h x (by simp only [lows, List.map_cons, List.mem_cons] at hx ⊢; exact .inr hx)⟩

theorem fileName_dotted : ∀ {ps : List PyStr}, Clean (lows ps) → fileName (dotted ps) = Common.Spec.joinWith '-' (lows ps)
  | [], _ => rfl
  | [p], h => by
    have := fileName_append (clean_head h).1 []
    simpa [dotted, lows, Common.Spec.joinWith, fileName_nil] using this
  | p :: q :: ps, h => by
    rw [dotted_cons p (by simp), fileName_append (clean_head h).1, fileName_dot, fileName_dotted (clean_head h).2]
    rfl

theorem fileName_prefix {qs : List PyStr} (hq : qs ≠ []) (hqw : Clean (lows qs)) : ∀ {ps : List PyStr}, Clean (lows ps) →
    fileName (if ps.isEmpty then [] else dotted ps ++ ['.']) ++ fileName (dotted qs) = Common.Spec.joinWith '-' (lows ps ++ lows qs)
  | [], _ => by simp [fileName_nil, fileName_dotted hqw, lows]
  | [p], h => by
    simp only [List.isEmpty_cons, Bool.false_eq_true, if_false, dotted]
    rw [fileName_append (clean_head h).1, fileName_dot, fileName_nil, fileName_dotted hqw]
    simp only [List.cons_append, List.nil_append, lows, List.map_cons, List.map_nil]
    rw [joinWith_cons _ (by simpa using hq)]
    simp
  | p :: q :: ps, h => by
    have ih := fileName_prefix hq hqw (ps := q :: ps) (clean_head h).2
    simp only [List.isEmpty_cons, Bool.false_eq_true, if_false] at ih ⊢
    rw [dotted_cons p (by simp), List.append_assoc, List.cons_append, fileName_append (clean_head h).1, fileName_dot, List.append_assoc,
      List.cons_append, ih]
    simp only [List.cons_append, lows, List.map_cons]
    rw [joinWith_cons (low p) (by simp)]

theorem joinWith_clean {a b : Name} (ha : a ≠ []) (hb : b ≠ []) (ca : Clean a) (cb : Clean b)
    (h : Common.Spec.joinWith '-' a = Common.Spec.joinWith '-' b) : a = b :=
  Common.joinWith_inj '-' _ _ ha hb (fun p hp => (ca p hp).2.2) (fun p hp => (cb p hp).2.2) h

theorem clean_pkg {ds : List Decl} (hw : Words ds) {t : Decl} (ht : t ∈ ds) : Clean (pkg t) := by
  have hdl : ∀ {n : Name}, Clean n → Clean n.dropLast := fun h p hp => h p (List.dropLast_subset _ hp)
  obtain ⟨h1, h2, h3⟩ := hw t ht
  cases t with
  | scalar id => exact hdl (clean_words (h1 id rfl))
  | «opaque» => intro p hp; revert p; decide
  | array id e => exact hdl (clean_words (h2 id rfl))
  | message m => exact hdl (clean_words (h2 m.id rfl))
  | refinement r => exact clean_words (h3 r rfl)

theorem clean_last {n : Name} (h : Clean n) : '.' ∉ n.getLast?.getD [] ∧ ':' ∉ n.getLast?.getD [] ∧ '-' ∉ n.getLast?.getD [] := by
  cases hn : n.getLast? with
  | none => simp
  | some x => exact h x (List.mem_of_getLast? hn)

theorem clean_const {x : PyStr} (h : '.' ∉ x ∧ ':' ∉ x ∧ '-' ∉ x) : Clean [x] := by
  intro p hp
  rw [List.mem_singleton] at hp
  exact hp ▸ h

theorem wanted_clean {ds : List Decl} (hw : Words ds) {w : Name} (h : Wanted ds w) : Clean w := by
  cases h with
  | package hl => exact clean_pkg hw hl.1
  | array hl => exact clean_words ((hw _ hl.1).2.1 _ rfl)
  | @generic m hl =>
    have h := clean_words ((hw _ hl.1).2.1 m.id rfl)
    refine clean_append (fun p hp => h p (List.dropLast_subset _ hp)) (clean_const ?_)
    have hl := clean_last h
    have hg : '.' ∉ low "Generic_".toList ∧ ':' ∉ low "Generic_".toList ∧ '-' ∉ low "Generic_".toList := by decide
    simp only [List.mem_append, not_or]
    exact ⟨⟨hg.1, hl.1⟩, ⟨hg.2.1, hl.2.1⟩, hg.2.2, hl.2.2⟩
  | message hl => exact clean_words ((hw _ hl.1).2.1 _ rfl)
  | genericContains hl => exact clean_append (clean_words ((hw _ hl.1).2.2 _ rfl)) (clean_const (by decide))
  | contains hl => exact clean_append (clean_words ((hw _ hl.1).2.2 _ rfl)) (clean_const (by decide))

theorem head_dropLast {n : Name} (h : n.length = 2) : n.dropLast.head? = n.head? := by
  obtain ⟨p, x, rfl⟩ := two_parts h
  rfl

/-- The first part of the name of a unit is a package. -/
theorem wanted_head {ds : List Decl} (hd : Distinct ds) {w : Name} (h : Wanted ds w) : w ≠ [] ∧ ∃ t ∈ ds, w.head? = (pkg t).head? := by
  have key : ∀ {w : Name} {t : Decl}, t ∈ ds → w.head? = (pkg t).head? → w ≠ [] := by
    rintro w t ht h rfl
    have := pkg_length hd ht
    match hp : pkg t with
    | [] => rw [hp] at this; simp at this
    | x :: l => rw [hp] at h; simp at h
  have h2 : ∃ t ∈ ds, w.head? = (pkg t).head? := by
    cases h with
    | package hl => exact ⟨_, hl.1, rfl⟩
    | array hl => exact ⟨_, hl.1, (head_dropLast (id_length hd hl.1 rfl)).symm⟩
    | @generic m hl =>
      refine ⟨_, hl.1, ?_⟩
      obtain ⟨p, x, h⟩ := two_parts (id_length hd hl.1 (id := m.id) rfl)
      simp [genericOf, pkg, h]
    | message hl => exact ⟨_, hl.1, (head_dropLast (id_length hd hl.1 rfl)).symm⟩
    | @genericContains r hl =>
      refine ⟨_, hl.1, ?_⟩
      have := pkg_length hd hl.1
      simp only [pkg] at this ⊢
      cases hp : nm r.package with
      | nil => rw [hp] at this; simp at this
      | cons x l => rfl
    | @contains r hl =>
      refine ⟨_, hl.1, ?_⟩
      have := pkg_length hd hl.1
      simp only [pkg] at this ⊢
      cases hp : nm r.package with
      | nil => rw [hp] at this; simp at this
      | cons x l => rfl
  obtain ⟨t, ht, h⟩ := h2
  exact ⟨key ht h, t, ht, h⟩

theorem library_names : library.map (fun l => lows l.name) = libraryNames := by decide

instance (n : Name) : Decidable (Clean n) := inferInstanceAs (Decidable (∀ p ∈ n, _))

theorem library_clean : ∀ l ∈ libraryNames, Clean l ∧ l ≠ [] := by decide

theorem nodup_files {l : List Name} (hn : l.Nodup) (hc : ∀ n ∈ l, Clean n ∧ n ≠ []) : (l.map (Common.Spec.joinWith '-')).Nodup := by
  refine List.pairwise_map.mpr (hn.imp_of_mem ?_)
  intro a b ha hb hab h
  exact hab (joinWith_clean (hc a ha).2 (hc b hb).2 (hc a ha).1 (hc b hb).1 h)

/-- **C57** If in addition packages are not named like packages of the library, then no file is written twice: neither by two units, nor by a unit and the
library or the top-level package. -/
theorem C57_files_partial (pre : List PyStr) (ds : List Decl) (topLevel : Bool) (d : Dict) (hd : Distinct ds) (hs : Separate ds) (hw : Words ds)
    (hp : ∀ p ∈ pre, Word p) (hg : generate pre [] ds = .ok d) : (files pre d topLevel).Nodup := by
  have hi := inv_of hd hg
  obtain ⟨d', hg', hnd, hun⟩ := C57_units_partial pre ds hd
  rw [hg] at hg'
  cases hg'
  have hpre := clean_words hp
  have hwant : ∀ e ∈ d, ∃ w, Wanted ds w ∧ nm e.2.id = lows pre ++ w := fun e he => (hun _).mp ⟨e, he, rfl⟩
  have hfiles : files pre d topLevel = ((d.map fun e => nm e.2.id) ++ libraryNames.map (lows pre ++ ·) ++
      if topLevel && !pre.isEmpty then [lows pre] else []).map (Common.Spec.joinWith '-') := by
    simp only [files, List.map_append, List.map_map, ← library_names]
    congr 1
    · congr 1
      · apply List.map_congr_left
        intro e he
        obtain ⟨w, hw', hn⟩ := hwant e he
        exact fileName_dotted (show Clean (nm e.2.id) from hn ▸ clean_append hpre (wanted_clean hw hw'))
      · apply List.map_congr_left
        intro l hl
        have hln : lows l.name ∈ libraryNames := library_names ▸ List.mem_map.mpr ⟨l, hl, rfl⟩
        obtain ⟨h1, h2⟩ := library_clean _ hln
        exact fileName_prefix (by rintro h; apply h2; rw [h]; rfl) h1 hpre
    · split
      · simp only [List.map_cons, List.map_nil, fileName_dotted hpre]
      · rfl
  rw [hfiles]
  apply nodup_files
  · refine List.nodup_append.mpr ⟨List.nodup_append.mpr ⟨hnd, ?_, ?_⟩, ?_, ?_⟩
    · refine List.pairwise_map.mpr (List.Pairwise.imp ?_ (show libraryNames.Nodup by decide))
      intro a b hab h
      exact hab (under_ne h)
    · intro a ha b hb hab
      obtain ⟨e, he, rfl⟩ := List.mem_map.mp ha
      obtain ⟨l, hl, rfl⟩ := List.mem_map.mp hb
      obtain ⟨w, hw', hn⟩ := hwant e he
      obtain ⟨_, t, ht, hh⟩ := wanted_head hd hw'
      have hwl : w = l := under_ne (hn.symm.trans hab)
      exact hs t ht l hl (by rw [← hh, hwl])
    · split <;> simp
    · intro a ha b hb hab
      split at hb
      · rw [List.mem_singleton] at hb
        subst hb hab
        rcases List.mem_append.mp ha with ha | ha
        · obtain ⟨e, he, hn⟩ := List.mem_map.mp ha
          obtain ⟨w, hw', hn'⟩ := hwant e he
          exact (wanted_head hd hw').1 (List.append_right_eq_self.mp (hn'.symm.trans hn))
        · obtain ⟨l, hl, hn⟩ := List.mem_map.mp ha
          exact (library_clean l hl).2 (List.append_right_eq_self.mp hn)
      · simp at hb
  · intro n hn
    simp only [List.mem_append, List.mem_map] at hn
    rcases hn with (⟨e, he, rfl⟩ | ⟨l, hl, rfl⟩) | hn
    · obtain ⟨w, hw', hn'⟩ := hwant e he
      rw [hn']
      exact ⟨clean_append hpre (wanted_clean hw hw'), by simp [(wanted_head hd hw').1]⟩
    · exact ⟨clean_append hpre (library_clean l hl).1, by simp [(library_clean l hl).2]⟩
    · split at hn
      · rename_i h
        rw [List.mem_singleton] at hn
        subst hn
        refine ⟨hpre, ?_⟩
        intro h0
        have : pre = [] := List.map_eq_nil_iff.mp h0
        simp [this] at h
      · simp at hn

end Verif.Units
