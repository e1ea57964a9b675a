import Verif.Session.DeclLemmas

/-! # Lemmas about the loops over declarations and states -/

namespace Verif.Session
open Verif Verif.Typing

variable {M : Type} [DecidableEq M]
variable {B : Body M} {literals : Dict (Ty M)} {package : ID} {h : List PyStr → Int}

/-- The state after a declaration. -/
def after (package : ID) (h : List PyStr → Int) (isLocal : Bool) (s : DState M) (d : Decl M) : DState M :=
  ⟨declareType package s.types d, Dict.set d.id (entry s.types package isLocal d) s.visible,
    s.globals ++ references s.visible false (d.variables h) ++ d.typeId.toList,
    s.locals ++ references s.visible true (d.variables h), true⟩

theorem declStep_ok {l : Bool} {s s' : DState M} {d : Decl M} (hs : declStep B literals package h l s d = .ok s') (ho : s'.ok = true) :
    s.ok = true ∧ validDecl B literals package s.types s.visible d = .ok true ∧ s' = after package h l s d := by
  obtain ⟨b, hb, hs⟩ := bind_ok' hs
  have hs := Except.ok.inj hs
  subst hs
  simp only [Bool.and_eq_true] at ho
  rw [ho.2] at hb
  exact ⟨ho.1, hb, by simp [after, ho.1, ho.2]⟩

theorem validateDecls_mono {l : Bool} {ds : List (Decl M)} {s s' : DState M}
    (hs : validateDecls B literals package h l ds s = .ok s') (ho : s'.ok = true) : s.ok = true := by
  induction ds generalizing s with
  | nil => cases hs; exact ho
  | cons d ds ih =>
    obtain ⟨m, hm, hs⟩ := bind_ok' hs
    exact (declStep_ok hm (ih hs)).1

theorem validateDecls_split {l : Bool} {pre post : List (Decl M)} {d : Decl M} {s s' : DState M}
    (hs : validateDecls B literals package h l (pre ++ d :: post) s = .ok s') (ho : s'.ok = true) :
    ∃ m, validateDecls B literals package h l pre s = .ok m ∧ m.ok = true ∧
      validDecl B literals package m.types m.visible d = .ok true ∧
      validateDecls B literals package h l post (after package h l m d) = .ok s' := by
  induction pre generalizing s with
  | nil =>
    obtain ⟨m, hm, hs⟩ := bind_ok' hs
    obtain ⟨h1, h2, rfl⟩ := declStep_ok hm (validateDecls_mono hs ho)
    exact ⟨s, rfl, h1, h2, hs⟩
  | cons a pre ih =>
    obtain ⟨m, hm, hs⟩ := bind_ok' hs
    obtain ⟨n, h1, h2, h3, h4⟩ := ih hs
    exact ⟨n, by rw [validateDecls, hm]; exact h1, h2, h3, h4⟩

theorem validateDecls_inv {l : Bool} (P : DState M → Prop) {ds : List (Decl M)} {s s' : DState M}
    (hs : validateDecls B literals package h l ds s = .ok s') (ho : s'.ok = true) (h0 : P s)
    (step : ∀ m, ∀ d ∈ ds, P m → validDecl B literals package m.types m.visible d = .ok true → P (after package h l m d)) : P s' := by
  induction ds generalizing s with
  | nil => cases hs; exact h0
  | cons d ds ih =>
    obtain ⟨m, hm, hs⟩ := bind_ok' hs
    obtain ⟨h1, h2, rfl⟩ := declStep_ok hm (validateDecls_mono hs ho)
    exact ih hs (step s d (by simp) h0 h2) (fun m d hd => step m d (by simp [hd]))

/-! ## Types -/

/-- What is known about the types. -/
def TypesInv (package : ID) (types₀ : Dict (MType M)) (D : List (Decl M)) (types : Dict (MType M)) : Prop :=
  ∀ t ∈ types, t.2.Ordinary ∧ ((∃ u ∈ types₀, u.1.key = t.1.key ∧ u.2 = t.2) ∨
    ∃ j, Decl.type j t.2 ∈ D ∧ (qualified j package).key = t.1.key)

theorem TypesInv.mono {types₀ types : Dict (MType M)} {D E : List (Decl M)} (ht : TypesInv package types₀ D types)
    (hs : ∀ d ∈ D, d ∈ E) : TypesInv package types₀ E types := by
  intro t htm
  obtain ⟨h1, h2⟩ := ht t htm
  refine ⟨h1, h2.imp (fun h => h) ?_⟩
  rintro ⟨j, hj, hk⟩
  exact ⟨j, hs _ hj, hk⟩

theorem types_step {types₀ types : Dict (MType M)} {D : List (Decl M)} {d : Decl M} (ht : TypesInv package types₀ D types)
    (hd : d ∈ D) (ho : ∀ i t, d = .type i t → t.Ordinary) : TypesInv package types₀ D (declareType package types d) := by
  cases d with
  | type i t =>
    intro u hu
    rcases mem_set hu with hu | ⟨h1, h2⟩
    · exact ht u hu
    · exact ⟨h2 ▸ ho i t rfl, .inr ⟨i, h2 ▸ hd, h1.symm⟩⟩
  | _ => exact ht

theorem NamedType.mono {types₀ : Dict (MType M)} {D E : List (Decl M)} {i : ID} {t : Ty M} (hn : NamedType package types₀ D i t)
    (hs : ∀ d ∈ D, d ∈ E) : NamedType package types₀ E i t := by
  obtain ⟨u, hu, ht⟩ := hn
  refine ⟨u, hu.imp (fun h => h) ?_, ht⟩
  rintro ⟨j, hj, hk⟩
  exact ⟨j, hs _ hj, hk⟩

theorem NamedType.known {types₀ : Dict (MType M)} {D : List (Decl M)} {i : ID} {t : Ty M} (hn : NamedType package types₀ D i t) :
    KnownType package types₀ D i := by
  obtain ⟨u, ⟨e, he, hk, _⟩ | ⟨j, hj, hk⟩, _⟩ := hn
  · exact .inl ⟨e, he, hk⟩
  · exact .inr ⟨j, u, hj, hk⟩

theorem TypesInv.named {types₀ types : Dict (MType M)} {D : List (Decl M)} {i : ID} {u : MType M} (ht : TypesInv package types₀ D types)
    (hu : types.get (qualified i package) = some u) : u.Ordinary ∧ ((∃ e ∈ types₀, e.1.key = (qualified i package).key ∧ e.2 = u) ∨
      ∃ j, Decl.type j u ∈ D ∧ (qualified j package).key = (qualified i package).key) := by
  rw [get_eq] at hu
  obtain ⟨e, he, h1, rfl⟩ := getKey_mem hu
  obtain ⟨h2, h3⟩ := ht e he
  refine ⟨h2, ?_⟩
  rcases h3 with ⟨u, hu, h3, h4⟩ | ⟨j, hu, h3⟩
  · exact .inl ⟨u, hu, h3.trans h1, h4⟩
  · exact .inr ⟨j, hu, h3.trans h1⟩

theorem declType_named {types₀ types : Dict (MType M)} {D : List (Decl M)} {i : ID} {t : Ty M} (ht : TypesInv package types₀ D types)
    (hd : declType types package i = some t) : Ordinary t ∧ NamedType package types₀ D i t := by
  unfold declType at hd
  obtain ⟨u, hu, rfl⟩ := Option.map_eq_some_iff.mp hd
  obtain ⟨h1, h2⟩ := ht.named hu
  refine ⟨?_, u, h2, ?_⟩
  · revert h1
    cases u with
    | message t r => intro h1; exact h1.2 _
    | refinement => intro h1; exact h1
    | other => intro h1; exact h1
  · cases u with
    | message t r => exact .inr ⟨t, r, _, rfl, rfl⟩
    | refinement => exact .inl rfl
    | other => exact .inl rfl

/-! ## Visible declarations -/

/-- What is known about a declaration. -/
def Describes (T : Decl M → Ty M → Prop) (e : Entry M) (d : Decl M) : Prop :=
  (∀ t, e.type = some t → T d t ∧ (Ordinary t ∨ ∃ i r w, d = .channel i r w ∧ t = .channel r w)) ∧
    (e.type = none ↔ ∃ i t, d = .type i t) ∧ (e.arguments = none ↔ ∀ i as t, d ≠ .function i as t)

/-- All visible declarations are among some declarations. -/
def VisibleInv (T : Decl M → Ty M → Prop) (D : List (Decl M)) (v : Dict (Entry M)) : Prop :=
  ∀ x e, v.getKey x = some e → ∃ d ∈ D, d.id.key = x ∧ Describes T e d

theorem VisibleInv.mono {T T' : Decl M → Ty M → Prop} {D E : List (Decl M)} {v : Dict (Entry M)} (hv : VisibleInv T D v)
    (hT : ∀ d t, T d t → T' d t) (hs : ∀ d ∈ D, d ∈ E) : VisibleInv T' E v := by
  intro x e he
  obtain ⟨d, hd, hk, h1, h2⟩ := hv x e he
  exact ⟨d, hs d hd, hk, fun t ht => ⟨hT d t (h1 t ht).1, (h1 t ht).2⟩, h2⟩

theorem TypeOf.mono {types₀ : Dict (MType M)} {D E : List (Decl M)} (hs : ∀ d ∈ D, d ∈ E) (d : Decl M) (t : Ty M)
    (hn : TypeOf package types₀ D d t) : TypeOf package types₀ E d t := by
  cases hn with
  | «variable» h => exact .variable (h.mono hs)
  | «renaming» h => exact .renaming (h.mono hs)
  | function h => exact .function (h.mono hs)
  | channel => exact .channel

theorem valid_describes {l : Bool} {types₀ types : Dict (MType M)} {v : Dict (Entry M)} {D : List (Decl M)} {d : Decl M}
    (ht : TypesInv package types₀ D types) (hd : validDecl B literals package types v d = .ok true) :
    Describes (TypeOf package types₀ D) (entry types package l d) d := by
  cases d with
  | «variable» i t e =>
    unfold validDecl at hd
    simp only at hd
    split at hd
    · rename_i u hu
      refine ⟨fun t ht' => ?_, by simp [entry], by simp [entry]⟩
      simp only [entry, hu, Option.getD_some, Option.some.injEq] at ht'
      subst ht'
      exact ⟨.variable (declType_named ht hu).2, .inl (declType_named ht hu).1⟩
    · cases hd
  | «renaming» i t ng p s =>
    unfold validDecl at hd
    simp only at hd
    split at hd
    · rename_i u hu
      refine ⟨fun t ht' => ?_, by simp [entry], by simp [entry]⟩
      simp only [entry, hu, Option.getD_some, Option.some.injEq] at ht'
      subst ht'
      exact ⟨.renaming (declType_named ht hu).2, .inl (declType_named ht hu).1⟩
    · cases hd
  | function i as t =>
    have hd := Except.ok.inj hd
    simp only [Bool.and_eq_true] at hd
    obtain ⟨u, hu⟩ := Option.isSome_iff_exists.mp hd.1.2
    refine ⟨fun t ht' => ?_, by simp [entry], by simp [entry]⟩
    simp only [entry, hu, Option.getD_some, Option.some.injEq] at ht'
    subst ht'
    exact ⟨.function (declType_named ht hu).2, .inl (declType_named ht hu).1⟩
  | channel i r w =>
    refine ⟨fun t ht' => ?_, by simp [entry], by simp [entry]⟩
    simp only [entry, Option.some.injEq] at ht'
    subst ht'
    exact ⟨.channel, .inr ⟨i, r, w, rfl, rfl⟩⟩
  | type i t => exact ⟨fun t ht' => by simp [entry] at ht', by simp [entry], by simp [entry]⟩

theorem valid_fresh {types : Dict (MType M)} {v : Dict (Entry M)} {d : Decl M}
    (hd : validDecl B literals package types v d = .ok true) : d.id.key ≠ dataAvailable.key ∧ v.getKey d.id.key = none := by
  have key : (!sameName d.id dataAvailable && (v.get d.id).isNone) = true := by
    cases d with
    | «variable» i t e =>
      unfold validDecl at hd
      simp only at hd
      split at hd
      · obtain ⟨b, _, hd⟩ := bind_ok' hd
        have hd := Except.ok.inj hd
        rw [Bool.and_eq_true] at hd
        exact hd.1
      · cases hd
    | «renaming» i t ng p s =>
      unfold validDecl at hd
      simp only at hd
      split at hd
      · obtain ⟨b, _, hd⟩ := bind_ok' hd
        have hd := Except.ok.inj hd
        rw [Bool.and_eq_true] at hd
        exact hd.1
      · cases hd
    | function i as t =>
      have hd := Except.ok.inj hd
      simp only [Bool.and_eq_true] at hd
      rw [Bool.and_eq_true]
      exact hd.1.1
    | channel i r w => exact Except.ok.inj hd
    | type i t =>
      have hd := Except.ok.inj hd
      rw [Bool.and_eq_true] at hd
      exact hd.1
  rw [Bool.and_eq_true, Bool.not_eq_true', ← Bool.not_eq_true] at key
  refine ⟨fun hk => key.1 ((ID.eq_iff_key _ _).mpr hk), ?_⟩
  rw [← get_eq]
  simpa using key.2

theorem visible_step {l : Bool} {types₀ types : Dict (MType M)} {v : Dict (Entry M)} {D : List (Decl M)} {d : Decl M}
    (ht : TypesInv package types₀ D types) {E : List (Decl M)} (hv : VisibleInv (TypeOf package types₀ D) E v) (hm : d ∈ E)
    (hd : validDecl B literals package types v d = .ok true) :
    VisibleInv (TypeOf package types₀ D) E (Dict.set d.id (entry types package l d) v) := by
  intro x e he
  rw [getKey_set] at he
  split at he
  · rename_i hx
    have he := Option.some.inj he
    subst he
    exact ⟨d, hm, hx, valid_describes ht hd⟩
  · exact hv x e he

/-! ## References -/

theorem references_mem {v : Dict (Entry M)} {l : Bool} {vs : List PyVar} {r : ID} (hr : r ∈ references v l vs) :
    ∃ w ∈ vs, w.id = r := by
  unfold references at hr
  obtain ⟨hr, _⟩ := List.mem_filter.mp hr
  exact List.mem_map.mp hr

theorem isIn_key {i : ID} {rs : List ID} (hi : isIn i rs = true) : ∃ r ∈ rs, r.key = i.key := by
  obtain ⟨r, hr, he⟩ := List.any_eq_true.mp hi
  exact ⟨r, hr, ((ID.eq_iff_key _ _).mp he).symm⟩

theorem globals_step {l : Bool} {s : DState M} {d : Decl M} {r : ID} (hr : r ∈ (after package h l s d).globals) :
    r ∈ s.globals ∨ d.Uses r.key ∨ d.typeId = some r := by
  simp only [after, List.mem_append, Option.mem_toList] at hr
  rcases hr with (hr | hr) | hr
  · exact .inl hr
  · obtain ⟨v, hv, rfl⟩ := references_mem hr
    exact .inr (.inl (declVar_used h hv))
  · exact .inr (.inr hr)

theorem locals_step {l : Bool} {s : DState M} {d : Decl M} {r : ID} (hr : r ∈ (after package h l s d).locals) :
    r ∈ s.locals ∨ d.Uses r.key := by
  simp only [after, List.mem_append] at hr
  rcases hr with hr | hr
  · exact .inl hr
  · obtain ⟨v, hv, rfl⟩ := references_mem hr
    exact .inr (declVar_used h hv)

theorem validateDecls_globals {l : Bool} {ds : List (Decl M)} {s s' : DState M}
    (hs : validateDecls B literals package h l ds s = .ok s') (ho : s'.ok = true) :
    ∀ r ∈ s'.globals, r ∈ s.globals ∨ ∃ d ∈ ds, d.Uses r.key ∨ d.typeId = some r :=
  validateDecls_inv (fun m => ∀ r ∈ m.globals, r ∈ s.globals ∨ ∃ d ∈ ds, d.Uses r.key ∨ d.typeId = some r) hs ho
    (fun _ hr => .inl hr) (fun _ d hd hP _ r hr => by
      rcases globals_step hr with hr | hr
      · exact hP r hr
      · exact .inr ⟨d, hd, hr⟩)

theorem validateDecls_locals {l : Bool} {ds : List (Decl M)} {s s' : DState M}
    (hs : validateDecls B literals package h l ds s = .ok s') (ho : s'.ok = true) :
    ∀ r ∈ s'.locals, r ∈ s.locals ∨ ∃ d ∈ ds, d.Uses r.key :=
  validateDecls_inv (fun m => ∀ r ∈ m.locals, r ∈ s.locals ∨ ∃ d ∈ ds, d.Uses r.key) hs ho
    (fun _ hr => .inl hr) (fun _ d hd hP _ r hr => by
      rcases locals_step hr with hr | hr
      · exact hP r hr
      · exact .inr ⟨d, hd, hr⟩)

theorem validateDecls_keeps {l : Bool} {ds : List (Decl M)} {s s' : DState M}
    (hs : validateDecls B literals package h l ds s = .ok s') (ho : s'.ok = true) (x : List PyStr)
    (hx : (s.visible.getKey x).isSome = true) : (s'.visible.getKey x).isSome = true :=
  validateDecls_inv (fun m => (m.visible.getKey x).isSome = true) hs ho hx (fun m d _ hP _ => by
    simp only [after, getKey_set]
    split
    · rfl
    · exact hP)

theorem validateDecls_visible {l : Bool} {ds : List (Decl M)} {s s' : DState M}
    (hs : validateDecls B literals package h l ds s = .ok s') (ho : s'.ok = true) {d : Decl M} (hd : d ∈ ds) :
    (s'.visible.getKey d.id.key).isSome = true := by
  obtain ⟨pre, post, rfl⟩ := List.append_of_mem hd
  obtain ⟨m, _, _, _, h4⟩ := validateDecls_split hs ho
  refine validateDecls_keeps h4 ho _ ?_
  simp only [after, getKey_set, if_true]
  rfl

/-- Types and visible declarations after some declarations. -/
theorem validateDecls_env {l : Bool} {types₀ : Dict (MType M)} {ds D : List (Decl M)} {s s' : DState M}
    (hs : validateDecls B literals package h l ds s = .ok s') (ho : s'.ok = true)
    {E : List (Decl M)} (ht : TypesInv package types₀ D s.types) (hv : VisibleInv (TypeOf package types₀ D) E s.visible)
    (hds : ∀ d ∈ ds, d ∈ D ∧ d ∈ E) (hord : ∀ d ∈ ds, ∀ i t, d = .type i t → t.Ordinary) :
    TypesInv package types₀ D s'.types ∧ VisibleInv (TypeOf package types₀ D) E s'.visible :=
  validateDecls_inv (fun m => TypesInv package types₀ D m.types ∧ VisibleInv (TypeOf package types₀ D) E m.visible) hs ho ⟨ht, hv⟩
    (fun m d hd hP hvd => ⟨types_step hP.1 (hds d hd).1 (hord d hd), visible_step hP.1 hP.2 (hds d hd).2 hvd⟩)

/-! ## States -/

/-- The checks of a state. -/
structure StateOk (B : Body M) (literals : Dict (Ty M)) (package : ID) (h : List PyStr → Int) (visible : Dict (Entry M)) (s s' : VState M)
    (t : FullState M) (d : DState M) : Prop where
  before : s.ok = true
  decls : validateDecls B literals package h true ((declDict t.declarations).map (·.2)) ⟨s.types, visible, s.globals, [], true⟩ = .ok d
  declsOk : d.ok = true
  actions : allM (validAction B d.types literals d.visible) t.actions = .ok true
  conditions : allM (fun c => validCondition B literals d.visible c.2) t.transitions = .ok true
  exception : t.exception.isSome = t.actions.any Action.isExceptional
  used : allReferenced (declDict t.declarations) (d.locals ++ references d.visible true (stateVariables h t)) = true
  types : s'.types = d.types
  globals : s'.globals = d.globals ++ references d.visible false (stateVariables h t)

theorem stateStep_ok {visible : Dict (Entry M)} {s s' : VState M} {t : FullState M}
    (hs : stateStep B literals package h visible s t = .ok s') (ho : s'.ok = true) : ∃ d, StateOk B literals package h visible s s' t d := by
  obtain ⟨d, h1, hs⟩ := bind_ok' hs
  obtain ⟨a, h2, hs⟩ := bind_ok' hs
  obtain ⟨c, h3, hs⟩ := bind_ok' hs
  have hs := Except.ok.inj hs
  subst hs
  simp only [Bool.and_eq_true, beq_iff_eq] at ho
  obtain ⟨⟨⟨⟨⟨k1, k2⟩, k3⟩, k4⟩, k5⟩, k6⟩ := ho
  rw [k3] at h2
  rw [k4] at h3
  exact ⟨d, ⟨k1, h1, k2, h2, h3, k5, k6, rfl, rfl⟩⟩

theorem stateLoop_mono {visible : Dict (Entry M)} {ts : List (FullState M)} {s s' : VState M}
    (hs : stateLoop B literals package h visible ts s = .ok s') (ho : s'.ok = true) : s.ok = true := by
  induction ts generalizing s with
  | nil => cases hs; exact ho
  | cons t ts ih =>
    obtain ⟨m, hm, hs⟩ := bind_ok' hs
    obtain ⟨d, hd⟩ := stateStep_ok hm (ih hs)
    exact hd.before

theorem stateLoop_split {visible : Dict (Entry M)} {pre post : List (FullState M)} {t : FullState M} {s s' : VState M}
    (hs : stateLoop B literals package h visible (pre ++ t :: post) s = .ok s') (ho : s'.ok = true) :
    ∃ m m' d, stateLoop B literals package h visible pre s = .ok m ∧ StateOk B literals package h visible m m' t d := by
  induction pre generalizing s with
  | nil =>
    obtain ⟨m, hm, hs⟩ := bind_ok' hs
    obtain ⟨d, hd⟩ := stateStep_ok hm (stateLoop_mono hs ho)
    exact ⟨s, m, d, rfl, hd⟩
  | cons a pre ih =>
    obtain ⟨m, hm, hs⟩ := bind_ok' hs
    obtain ⟨n, n', d, h1, h2⟩ := ih hs
    exact ⟨n, n', d, by rw [stateLoop, hm]; exact h1, h2⟩

theorem stateLoop_inv {visible : Dict (Entry M)} (P : VState M → Prop) {ts : List (FullState M)} {s s' : VState M}
    (hs : stateLoop B literals package h visible ts s = .ok s') (ho : s'.ok = true) (h0 : P s)
    (step : ∀ m m' d, ∀ t ∈ ts, P m → StateOk B literals package h visible m m' t d → P m') : P s' := by
  induction ts generalizing s with
  | nil => cases hs; exact h0
  | cons t ts ih =>
    obtain ⟨m, hm, hs⟩ := bind_ok' hs
    obtain ⟨d, hd⟩ := stateStep_ok hm (stateLoop_mono hs ho)
    exact ih hs (step s m d t (by simp) h0 hd) (fun m m' d t ht => step m m' d t (by simp [ht]))

theorem local_mem {t : FullState M} {d : Decl M} (hd : d ∈ (declDict t.declarations).map (·.2)) : d ∈ t.declarations := by
  obtain ⟨e, he, rfl⟩ := List.mem_map.mp hd
  exact (declDict_mem he).1

theorem stateVar_used {t : FullState M} {v : PyVar} (hv : v ∈ stateVariables h t) : t.Uses v.id.key := by
  unfold stateVariables at hv
  rcases List.mem_append.mp hv with hv | hv
  · obtain ⟨a, ha, hv⟩ := List.mem_flatMap.mp hv
    refine .inr (.inl ⟨a, ha, ?_⟩)
    rcases List.mem_cons.mp hv with rfl | hv
    · exact .inl rfl
    · cases he : a.expr with
      | none => rw [he] at hv; cases hv
      | some e => rw [he] at hv; exact .inr ⟨e, he, svar_used h hv⟩
  · obtain ⟨c, hc, hv⟩ := List.mem_flatMap.mp hv
    exact .inr (.inr ⟨c, hc, var_used h hv⟩)

/-! ## Sessions -/

/-- The parts of an accepted session. -/
structure AcceptedParts (B : Body M) (literals : Dict (Ty M)) (h : List PyStr → Int) (s : FullSession M) (package : ID) (d : DState M)
    (v : VState M) : Prop where
  name : s.package = .ok package
  decls : validateDecls B literals package h false (s.globals.map (·.2)) ⟨s.types, [], [], [], true⟩ = .ok d
  declsOk : d.ok = true
  states : stateLoop B literals package h d.visible s.states ⟨d.types, d.globals, d.ok⟩ = .ok v
  statesOk : v.ok = true
  used : allReferenced s.globals v.globals = true

theorem accepted_parts {s : FullSession M} (hs : s.Accepted B literals h) : ∃ package d v, AcceptedParts B literals h s package d v := by
  unfold FullSession.Accepted FullSession.new at hs
  obtain ⟨package, h1, hs⟩ := bind_ok' hs
  obtain ⟨d, h2, hs⟩ := bind_ok' hs
  obtain ⟨v, h3, hs⟩ := bind_ok' hs
  split at hs
  · rename_i hc
    simp only [Bool.and_eq_true] at hc
    exact ⟨package, d, v, h1, h2, stateLoop_mono h3 hc.1.2, h3, hc.1.2, hc.2⟩
  · cases hs

theorem global_mem {s : FullSession M} {d : Decl M} (hd : d ∈ s.globals.map (·.2)) : d ∈ s.all := by
  obtain ⟨e, he, rfl⟩ := List.mem_map.mp hd
  exact (globals_mem he).1

theorem all_everything {s : FullSession M} {d : Decl M} (hd : d ∈ s.all) : d ∈ s.everything := List.mem_append_left _ hd

theorem local_everything {s : FullSession M} {t : FullState M} {d : Decl M} (ht : t ∈ s.states) (hd : d ∈ t.declarations) :
    d ∈ s.everything := List.mem_append_right _ (List.mem_flatMap.mpr ⟨t, ht, hd⟩)

theorem types_start {s : FullSession M} {D : List (Decl M)} (ho : s.OrdinaryTypes) : TypesInv package s.types D s.types :=
  fun t ht => ⟨ho.1 t ht, .inl ⟨t, ht, rfl, rfl⟩⟩

theorem visible_start {T : Decl M → Ty M → Prop} {D : List (Decl M)} : VisibleInv T D [] := fun x e h => by simp [Dict.getKey] at h

theorem global_env {s : FullSession M} {d : DState M} {v : VState M} (hs : AcceptedParts B literals h s package d v)
    (ho : s.OrdinaryTypes) : TypesInv package s.types s.all d.types ∧ VisibleInv (TypeOf package s.types s.all) s.all d.visible :=
  validateDecls_env hs.decls hs.declsOk (types_start ho) visible_start (fun _ hd => ⟨global_mem hd, global_mem hd⟩)
    (fun d hd => ho.2 d (all_everything (global_mem hd)))

/-- Types after some states. -/
theorem states_types {s : FullSession M} {d : DState M} {v m : VState M} {pre : List (FullState M)} (hs : AcceptedParts B literals h s package d v)
    (ho : s.OrdinaryTypes) (hpre : ∀ t ∈ pre, t ∈ s.states)
    (hm : stateLoop B literals package h d.visible pre ⟨d.types, d.globals, d.ok⟩ = .ok m) (hok : m.ok = true) :
    TypesInv package s.types (s.all ++ pre.flatMap FullState.declarations) m.types := by
  refine stateLoop_inv (fun m => TypesInv package s.types (s.all ++ pre.flatMap FullState.declarations) m.types) hm hok
    ((global_env hs ho).1.mono fun d hd => by simp [hd]) ?_
  intro m m' e t ht hP hst
  rw [hst.types]
  refine validateDecls_inv (fun n => TypesInv package s.types (s.all ++ pre.flatMap FullState.declarations) n.types) hst.decls hst.declsOk hP ?_
  intro n a ha hP _
  have ha := local_mem ha
  exact types_step hP (List.mem_append_right _ (List.mem_flatMap.mpr ⟨t, ht, ha⟩)) (ho.2 a (local_everything (hpre t ht) ha))

/-- What is known in a state of an accepted session. -/
theorem state_env {s : FullSession M} {d : DState M} {v : VState M} (hs : AcceptedParts B literals h s package d v)
    (ho : s.OrdinaryTypes) {pre post : List (FullState M)} {t : FullState M} (hst : s.states = pre ++ t :: post) :
    ∃ m m' e, StateOk B literals package h d.visible m m' t e ∧
      TypesInv package s.types (s.all ++ pre.flatMap FullState.declarations) m.types ∧
      VisibleInv (TypeOf package s.types s.everything) (s.all ++ t.declarations) e.visible := by
  have h1 := hs.states
  rw [hst] at h1
  obtain ⟨m, m', e, hm, hok⟩ := stateLoop_split h1 hs.statesOk
  have hpre : ∀ a ∈ pre, a ∈ s.states := fun a ha => by rw [hst]; exact List.mem_append_left _ ha
  have htm : t ∈ s.states := by rw [hst]; simp
  have ht := states_types hs ho hpre hm hok.before
  refine ⟨m, m', e, hok, ht, ?_⟩
  have hv := (global_env hs ho).2
  refine (validateDecls_env (D := s.everything) (E := s.all ++ t.declarations) hok.decls hok.declsOk (ht.mono fun d hd => ?_)
    (hv.mono (TypeOf.mono fun d hd => all_everything hd) fun d hd => List.mem_append_left _ hd) (fun d hd => ?_)
    (fun d hd => ho.2 d (local_everything htm (local_mem hd)))).2
  · rcases List.mem_append.mp hd with hd | hd
    · exact all_everything hd
    · obtain ⟨a, ha, hd⟩ := List.mem_flatMap.mp hd
      exact local_everything (hpre a ha) hd
  · have hd := local_mem hd
    exact ⟨local_everything htm hd, List.mem_append_right _ hd⟩

theorem allM_mem {α : Type} {f : α → Py Bool} {xs : List α} (hx : allM f xs = .ok true) : ∀ x ∈ xs, f x = .ok true := by
  induction xs with
  | nil => intro x h; cases h
  | cons a xs ih =>
    obtain ⟨h1, h2⟩ := and_true hx
    intro x h
    rcases List.mem_cons.mp h with rfl | h
    · exact h1
    · exact ih h2 x h

/-- Names have the types of literals or declarations. -/
theorem var_type {T : Decl M → Ty M → Prop} {D : List (Decl M)} {v : Dict (Entry M)} (hv : VisibleInv T D v) {x : List PyStr} :
    (ctx B literals v).var x = .undefined ∨ (∃ l ∈ literals, l.1.key = x ∧ l.2 = (ctx B literals v).var x) ∨
      ∃ d ∈ D, d.id.key = x ∧ T d ((ctx B literals v).var x) ∧ ∀ i t, d ≠ .type i t := by
  unfold ctx
  simp only
  split
  · rename_i t hl
    obtain ⟨l, hl, hk, h2⟩ := getKey_mem hl
    exact .inr (.inl ⟨l, hl, hk, h2⟩)
  · rename_i e _ he
    obtain ⟨d, hd, hk, h1, h2, _⟩ := hv x e he
    cases ht : e.type with
    | none => exact .inl (by simp [Entry.ty, ht])
    | some t =>
      refine .inr (.inr ⟨d, hd, hk, ?_, fun i u hdu => ?_⟩)
      · simp only [Entry.ty, ht]
        exact (h1 t ht).1
      · rw [h2.mpr ⟨i, u, hdu⟩] at ht; cases ht
  · exact .inl rfl

/-- Names with types are literals or declared. -/
theorem var_declared {T : Decl M → Ty M → Prop} {D : List (Decl M)} {v : Dict (Entry M)} (hv : VisibleInv T D v) {x : List PyStr}
    (hx : (ctx B literals v).var x ≠ .undefined) : IsLiteral literals x ∨ DeclaredBy D x := by
  rcases var_type (B := B) (literals := literals) hv (x := x) with h | ⟨l, hl, hk, _⟩ | ⟨d, hd, hk, _, hn⟩
  · exact absurd h hx
  · exact .inl ⟨l, hl, hk⟩
  · exact .inr ⟨d, hd, hk, hn⟩

theorem typifyAll_mem {v : Dict (Entry M)} {xs : List (Bool × ID)} (hx : typifyAll v xs = .ok ()) : ∀ x ∈ xs, typify v x = .ok () := by
  induction xs with
  | nil => intro x h; cases h
  | cons a xs ih =>
    obtain ⟨u, h1, h2⟩ := bind_ok' hx
    intro x h
    rcases List.mem_cons.mp h with rfl | h
    · exact h1
    · exact ih h2 x h

/-- Functions that are called are declared. -/
theorem call_declared {T : Decl M → Ty M → Prop} {D : List (Decl M)} {v : Dict (Entry M)} (hv : VisibleInv T D v) {f : ID}
    (ht : typify v (true, f) = .ok ()) (hx : ((ctx B literals v).call f.key).1 ≠ .undefined) : FunctionOf D f.key := by
  unfold ctx at hx
  simp only at hx
  by_cases hf : f.key = dataAvailable.key
  · exact .inl hf
  · rw [if_neg hf] at hx
    unfold typify at ht
    simp only [get_eq] at ht
    cases he : v.getKey f.key with
    | none => rw [he] at hx; exact absurd rfl hx
    | some e =>
      rw [he] at ht
      obtain ⟨d, hd, hk, h1, h2, h3⟩ := hv _ e he
      obtain ⟨a, b, c⟩ := e
      cases a with
      | none => cases ht
      | some t =>
        cases b with
        | none => cases ht
        | some as =>
          cases d with
          | function i as r => exact .inr ⟨i, as, r, hd, hk⟩
          | _ => exact absurd (h3.mpr (by simp)) (by simp)

/-- The names and functions of an expression that are checked with some visible declarations. -/
theorem names_declared {T : Decl M → Ty M → Prop} {D : List (Decl M)} {v : Dict (Entry M)} (hv : VisibleInv T D v) {e : SExpr}
    (ht : typifyAll v e.touched = .ok ()) (hc : SClosed (ctx B literals v) e) :
    (∀ x, SFree x e → IsLiteral literals x ∨ DeclaredBy D x) ∧ ∀ f, SCalled f e → FunctionOf D f := by
  refine ⟨fun x hx => var_declared hv (hc.1 x hx), fun f hf => ?_⟩
  obtain ⟨h1, i, rfl, h2⟩ := hc.2 f hf
  exact call_declared hv (typifyAll_mem ht _ h2) h1

/-- The expression of an accepted declaration. -/
theorem valid_closed (hB : B.Proper) {types : Dict (MType M)} {v : Dict (Entry M)} {d : Decl M} {e : SExpr}
    (hd : validDecl B literals package types v d = .ok true) (he : d.Has e) (hdir : SDirect e) :
    typifyAll v e.touched = .ok () ∧ SClosed (ctx B literals v) e := by
  cases he with
  | @initial i t e =>
    unfold validDecl at hd
    simp only at hd
    split at hd
    · obtain ⟨b, hb, hd⟩ := bind_ok' hd
      have hd := Except.ok.inj hd
      rw [Bool.and_eq_true] at hd
      rw [hd.2] at hb
      obtain ⟨u, h1, h2⟩ := bind_ok' hb
      exact ⟨h1, scheck_closed hB hdir h2⟩
    · cases hd
  | @renamed i t ng p s =>
    unfold validDecl at hd
    simp only at hd
    split at hd
    · obtain ⟨b, hb, hd⟩ := bind_ok' hd
      have hd := Except.ok.inj hd
      rw [Bool.and_eq_true] at hd
      rw [hd.2] at hb
      obtain ⟨u, h1, h2⟩ := bind_ok' hb
      unfold checkRenaming at h2
      obtain ⟨ok, h3, h4⟩ := bind_ok' h2
      cases ok with
      | false => cases h4
      | true =>
        have := check_closed h3
        exact ⟨h1, fun x hx => by cases hx with | plain hx => exact this.1 x hx,
          fun x hx => by cases hx with | plain hx => exact this.2 x hx⟩
    · cases hd

end Verif.Session
