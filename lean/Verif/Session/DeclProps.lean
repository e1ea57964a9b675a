import Verif.Session.DeclLoop

/-! # Property C49: accepted sessions use only declared names, and use all declarations -/

namespace Verif.Session
open Verif Verif.Typing

variable {M : Type} [DecidableEq M]

/-- What holds for an accepted action. -/
theorem action_facts {B : Body M} {literals : Dict (Ty M)} {h : List PyStr → Int} {s : FullSession M} (hs : s.Accepted B literals h)
    (ho : s.OrdinaryTypes) {t : FullState M} (ht : t ∈ s.states) {a : Action} (ha : a ∈ t.actions) :
    ∃ package types v, s.package = .ok package ∧ VisibleInv (TypeOf package s.types s.everything) (s.all ++ t.declarations) v ∧
      validAction B types literals v a = .ok true := by
  obtain ⟨package, d, v, hp⟩ := accepted_parts hs
  obtain ⟨pre, post, hst⟩ := List.append_of_mem ht
  obtain ⟨m, m', e, hok, _, hv⟩ := state_env hp ho hst
  exact ⟨package, e.types, e.visible, hp.name, hv, allM_mem hok.actions a ha⟩

theorem condition_facts {B : Body M} {literals : Dict (Ty M)} {h : List PyStr → Int} {s : FullSession M} (hs : s.Accepted B literals h)
    (ho : s.OrdinaryTypes) {t : FullState M} (ht : t ∈ s.states) {c : ID × Expr} (hc : c ∈ t.transitions) :
    ∃ package v, s.package = .ok package ∧ VisibleInv (TypeOf package s.types s.everything) (s.all ++ t.declarations) v ∧
      typifyAll v (touched c.2) = .ok () ∧ check (ctx B literals v) c.2 (.ty BOOLEAN) = .ok true := by
  obtain ⟨package, d, v, hp⟩ := accepted_parts hs
  obtain ⟨pre, post, hst⟩ := List.append_of_mem ht
  obtain ⟨m, m', e, hok, _, hv⟩ := state_env hp ho hst
  obtain ⟨u, h1, h2⟩ := bind_ok' (allM_mem hok.conditions c hc)
  exact ⟨package, e.visible, hp.name, hv, h1, h2⟩

theorem checkAction_defined {B : Body M} {types : Dict (MType M)} {Γ : Ctx M} {t : Ty M} {a : Action}
    (ha : checkAction B types Γ t a = .ok true) : t ≠ .undefined := by
  rintro rfl
  cases a with
  | assign i e =>
    obtain ⟨b, _, h2⟩ := bind_ok' ha
    have h2 := Except.ok.inj h2
    simp [checkInstance] at h2
  | append i e => simp [checkAction, checkArray, isArray] at ha
  | extend i e =>
    obtain ⟨b, _, h2⟩ := bind_ok' ha
    have h2 := Except.ok.inj h2
    simp [checkArray, isArray] at h2
  | reset i => simp [checkAction, checkInstance] at ha
  | read i e =>
    have h1 := (and_true ha).1
    simp [checkType] at h1
  | write i e =>
    have h1 := (and_true ha).1
    simp [checkType] at h1

/-- The declaration of the target of an action. -/
theorem target_facts {T : Decl M → Ty M → Prop} {D : List (Decl M)} {B : Body M} {types : Dict (MType M)} {literals : Dict (Ty M)}
    {v : Dict (Entry M)} {a : Action} (hv : VisibleInv T D v) (ha : validAction B types literals v a = .ok true) :
    ∃ d ∈ D, d.id.key = a.id.key ∧ (∀ i t, d ≠ .type i t) ∧ ∃ t, T d t ∧
      (Ordinary t ∨ ∃ i r w, d = .channel i r w ∧ t = .channel r w) ∧ checkAction B types (ctx B literals v) t a = .ok true := by
  obtain ⟨t, h1, h2⟩ := bind_ok' ha
  obtain ⟨u, h3, h4⟩ := bind_ok' h2
  unfold actionType at h1
  rw [get_eq] at h1
  split at h1
  · rename_i t' ar l hg
    have h1 := Except.ok.inj h1
    subst h1
    obtain ⟨d, hd, hk, k1, k2, _⟩ := hv _ _ hg
    refine ⟨d, hd, hk, fun i u hdu => ?_, t', (k1 t' rfl).1, (k1 t' rfl).2, h4⟩
    have := k2.mpr ⟨i, u, hdu⟩
    cases this
  · cases h1
  · have h1 := Except.ok.inj h1
    exact absurd h1.symm (checkAction_defined h4)

/-- **C49**: the target of every action is declared in its state or in the session. -/
theorem C49_target (B : Body M) (literals : Dict (Ty M)) (h : List PyStr → Int) (s : FullSession M) (hs : s.Accepted B literals h)
    (ho : s.OrdinaryTypes) (t : FullState M) (ht : t ∈ s.states) (a : Action) (ha : a ∈ t.actions) :
    DeclaredBy (s.all ++ t.declarations) a.id.key := by
  obtain ⟨package, types, v, _, hv, hva⟩ := action_facts hs ho ht ha
  obtain ⟨d, hd, hk, hn, _⟩ := target_facts hv hva
  exact ⟨d, hd, hk, hn⟩

theorem channel_declared {D : List (Decl M)} {T : Decl M → Ty M → Prop} {d : Decl M} {t : Ty M} {r w : Bool} (hd : d ∈ D) (_hT : T d t)
    (ho : Ordinary t ∨ ∃ i r w, d = .channel i r w ∧ t = .channel r w) (hc : checkType t (.one (.channel r w)) = .ok true) :
    ∃ i r' w', Decl.channel i r' w' ∈ D ∧ i.key = d.id.key ∧ (r = true → r' = true) ∧ (w = true → w' = true) := by
  have hc := meets_ty (t := t) (u := .channel r w) hc (by simp)
  rcases ho with ho | ⟨i, r', w', rfl, rfl⟩
  · cases t <;> simp [Ty.isCompatible, Ordinary, Ty.isInteger] at hc ho
  · refine ⟨i, r', w', hd, rfl, ?_, ?_⟩ <;> rintro rfl <;> simp [Ty.isCompatible] at hc
    · exact hc.1
    · exact hc.2

/-- **C49**: messages are read from readable channels only. -/
theorem C49_read (B : Body M) (literals : Dict (Ty M)) (h : List PyStr → Int) (s : FullSession M) (hs : s.Accepted B literals h)
    (ho : s.OrdinaryTypes) (t : FullState M) (ht : t ∈ s.states) (i : ID) (e : SExpr) (ha : Action.read i e ∈ t.actions) :
    ∃ j w, Decl.channel j true w ∈ s.all ++ t.declarations ∧ j.key = i.key := by
  obtain ⟨package, types, v, _, hv, hva⟩ := action_facts hs ho ht ha
  obtain ⟨d, hd, hk, hn, u, hT, hu, hc⟩ := target_facts hv hva
  obtain ⟨j, r, w, hj, hkey, hr, _⟩ := channel_declared hd hT hu (and_true hc).1
  rw [hr rfl] at hj
  exact ⟨j, w, hj, hkey.trans hk⟩

/-- **C49**: messages are written to writable channels only. -/
theorem C49_write (B : Body M) (literals : Dict (Ty M)) (h : List PyStr → Int) (s : FullSession M) (hs : s.Accepted B literals h)
    (ho : s.OrdinaryTypes) (t : FullState M) (ht : t ∈ s.states) (i : ID) (e : SExpr) (ha : Action.write i e ∈ t.actions) :
    ∃ j r, Decl.channel j r true ∈ s.all ++ t.declarations ∧ j.key = i.key := by
  obtain ⟨package, types, v, _, hv, hva⟩ := action_facts hs ho ht ha
  obtain ⟨d, hd, hk, hn, u, hT, hu, hc⟩ := target_facts hv hva
  obtain ⟨j, r, w, hj, hkey, _, hw⟩ := channel_declared hd hT hu (and_true hc).1
  rw [hw rfl] at hj
  exact ⟨j, r, hj, hkey.trans hk⟩

theorem checkAction_closed {B : Body M} (hB : B.Proper) {types : Dict (MType M)} {Γ : Ctx M} {t : Ty M} {a : Action} {e : SExpr}
    (he : a.expr = some e) (hd : SDirect e) (hany : t ≠ .any) (ha : checkAction B types Γ t a = .ok true) : SClosed Γ e := by
  cases a with
  | assign i e' =>
    cases he
    obtain ⟨b, h1, h2⟩ := bind_ok' ha
    have h2 := Except.ok.inj h2
    rw [Bool.and_eq_true] at h2
    rw [h2.2] at h1
    exact scheck_closed hB hd h1
  | append i e' =>
    cases he
    cases t with
    | array n u =>
      obtain ⟨b, h1, h2⟩ := bind_ok' ha
      have h2 := Except.ok.inj h2
      rw [Bool.and_eq_true] at h2
      rw [h2.1] at h1
      exact scheck_closed hB hd h1
    | any => exact absurd rfl hany
    | _ => simp [checkAction, checkArray, isArray] at ha
  | extend i e' =>
    cases he
    obtain ⟨b, h1, h2⟩ := bind_ok' ha
    have h2 := Except.ok.inj h2
    rw [Bool.and_eq_true] at h2
    rw [h2.2] at h1
    exact scheck_closed hB hd h1
  | reset i => cases he
  | read i e' => cases he; exact scheck_closed hB hd (and_true ha).2
  | write i e' => cases he; exact scheck_closed hB hd (and_true ha).2

/-- **C49**: all names in the expression of an action are literals or declared, and all functions are declared or built-in. Missing: calls and
arithmetic expressions as values in message aggregates, see `C49_aggregate_counterexample`. -/
theorem C49_action_names_partial (B : Body M) (hB : B.Proper) (literals : Dict (Ty M)) (h : List PyStr → Int) (s : FullSession M)
    (hs : s.Accepted B literals h) (ho : s.OrdinaryTypes) (t : FullState M) (ht : t ∈ s.states) (a : Action) (ha : a ∈ t.actions)
    (e : SExpr) (he : a.expr = some e) (hd : SDirect e) :
    (∀ x, SFree x e → IsLiteral literals x ∨ DeclaredBy (s.all ++ t.declarations) x) ∧
      ∀ f, SCalled f e → FunctionOf (s.all ++ t.declarations) f := by
  obtain ⟨package, types, v, _, hv, hva⟩ := action_facts hs ho ht ha
  obtain ⟨d, hdm, hk, hn, u, hT, hu, hc⟩ := target_facts hv hva
  have hany : u ≠ .any := by
    rintro rfl
    rcases hu with hu | ⟨_, _, _, _, hu⟩
    · exact hu
    · cases hu
  have hcl := checkAction_closed hB he hd hany hc
  obtain ⟨_, _, h2⟩ := bind_ok' hva
  obtain ⟨_, h3, _⟩ := bind_ok' h2
  rw [he] at h3
  exact names_declared hv h3 hcl

/-- **C49**: all names in the condition of a transition are literals or declared, and all functions are declared or built-in. -/
theorem C49_condition_names (B : Body M) (literals : Dict (Ty M)) (h : List PyStr → Int) (s : FullSession M)
    (hs : s.Accepted B literals h) (ho : s.OrdinaryTypes) (t : FullState M) (ht : t ∈ s.states) (c : ID × Expr) (hc : c ∈ t.transitions) :
    (∀ x, Free x c.2 → IsLiteral literals x ∨ DeclaredBy (s.all ++ t.declarations) x) ∧
      ∀ f, Called f c.2 → FunctionOf (s.all ++ t.declarations) f := by
  obtain ⟨package, v, _, hv, h1, h2⟩ := condition_facts hs ho ht hc
  have hcl := check_closed h2
  obtain ⟨h3, h4⟩ := names_declared (e := .plain c.2) (B := B) (literals := literals) hv h1
    ⟨fun x hx => by cases hx with | plain hx => exact hcl.1 x hx, fun x hx => by cases hx with | plain hx => exact hcl.2 x hx⟩
  exact ⟨fun x hx => h3 x (.plain hx), fun f hf => h4 f (.plain hf)⟩

theorem ctx_types {B : Body M} {literals : Dict (Ty M)} {s : FullSession M} {package : ID} {t : FullState M} {v : Dict (Entry M)}
    (hv : VisibleInv (TypeOf package s.types s.everything) (s.all ++ t.declarations) v) : s.Types literals package t (ctx B literals v) := by
  intro x
  rcases var_type (B := B) (literals := literals) hv (x := x) with h | h | ⟨d, hd, hk, hT, _⟩
  · exact .inl h
  · exact .inr (.inl h)
  · exact .inr (.inr ⟨d, hd, hk, hT⟩)

/-- **C49**: the condition of a transition has a truth value if all names have values of their types, unless a division by zero or a
negative power has to be computed. Missing: conditions outside `Regular`, see property C48. -/
theorem C49_condition_value_partial (D : Division) (B : Body M) (literals : Dict (Ty M)) (h : List PyStr → Int) (s : FullSession M)
    (hs : s.Accepted B literals h) (ho : s.OrdinaryTypes) (t : FullState M) (ht : t ∈ s.states) (c : ID × Expr) (hc : c ∈ t.transitions) :
    ∃ package Γ, s.package = .ok package ∧ s.Types literals package t Γ ∧ ∀ ρ, Regular Γ [] c.2 → Respects Γ ρ →
      (∃ b, eval D ρ c.2 = some (.bool b)) ∨ Faults D ρ c.2 := by
  obtain ⟨package, v, hp, hv, _, h2⟩ := condition_facts hs ho ht hc
  refine ⟨package, _, hp, ctx_types (B := B) hv, fun ρ hr hρ => ?_⟩
  rcases C48_kind_partial D _ c.2 BOOLEAN .bool rfl h2 hr ρ hρ with ⟨w, hw, hk⟩ | hf
  · cases w with
    | bool b => exact .inl ⟨b, hw⟩
    | int => cases hk
    | seq => cases hk
  · exact .inr hf

/-- **C49**: an assigned value is of the kind of the type of the variable, with the same conditions. -/
theorem C49_assign_value_partial (D : Division) (B : Body M) (literals : Dict (Ty M)) (h : List PyStr → Int) (s : FullSession M)
    (hs : s.Accepted B literals h) (ho : s.OrdinaryTypes) (t : FullState M) (ht : t ∈ s.states) (i : ID) (e : Expr)
    (ha : Action.assign i (.plain e) ∈ t.actions) :
    ∃ package Γ u, s.package = .ok package ∧ s.Types literals package t Γ ∧ s.NameType package t i.key u ∧
      ∀ ρ k, u.kind = some k → Regular Γ [] e → Respects Γ ρ → (∃ v, eval D ρ e = some v ∧ Typing.kindOf v = k) ∨ Faults D ρ e := by
  obtain ⟨package, types, v, hp, hv, hva⟩ := action_facts hs ho ht ha
  obtain ⟨d, hd, hk, hn, u, hT, hu, hc⟩ := target_facts hv hva
  refine ⟨package, _, u, hp, ctx_types (B := B) hv, ⟨d, hd, hk, hT⟩, fun ρ k hku hr hρ => ?_⟩
  obtain ⟨b, h1, h2⟩ := bind_ok' hc
  have h2 := Except.ok.inj h2
  rw [Bool.and_eq_true] at h2
  rw [h2.2] at h1
  exact C48_kind_partial D _ e u k hku h1 hr ρ hρ

theorem isExceptional_iff (a : Action) : a.isExceptional = true ↔ a.Raises := by
  constructor
  · intro h
    unfold Action.isExceptional at h
    split at h
    · exact .append
    · exact .extend
    · refine .assign ?_
      unfold SExpr.isExceptional at h
      split at h
      · exact .sel
      · exact .head
      · exact .comprehension
      · exact .aggregate
      · cases h
    · cases h
  · intro h
    cases h with
    | append => rfl
    | extend => rfl
    | assign h => cases h <;> rfl

/-- **C49**: a state has an exception transition if and only if some of its actions may raise an exception. -/
theorem C49_exception (B : Body M) (literals : Dict (Ty M)) (h : List PyStr → Int) (s : FullSession M) (hs : s.Accepted B literals h)
    (t : FullState M) (ht : t ∈ s.states) : (∃ i, t.exception = some i) ↔ ∃ a ∈ t.actions, a.Raises := by
  obtain ⟨package, d, v, hp⟩ := accepted_parts hs
  obtain ⟨pre, post, hst⟩ := List.append_of_mem ht
  have h1 := hp.states
  rw [hst] at h1
  obtain ⟨m, m', e, hm, hok⟩ := stateLoop_split h1 hp.statesOk
  rw [← Option.isSome_iff_exists, hok.exception, List.any_eq_true]
  constructor
  · rintro ⟨a, ha, h⟩; exact ⟨a, ha, (isExceptional_iff a).mp h⟩
  · rintro ⟨a, ha, h⟩; exact ⟨a, ha, (isExceptional_iff a).mpr h⟩

/-- **C49**: every declaration and parameter of a session is used. -/
theorem C49_used (B : Body M) (literals : Dict (Ty M)) (h : List PyStr → Int) (s : FullSession M) (hs : s.Accepted B literals h)
    (d : Decl M) (hd : d ∈ s.all) : s.Uses d.id.key := by
  obtain ⟨package, g, v, hp⟩ := accepted_parts hs
  obtain ⟨e, he, hk⟩ := (globals_keys s d.id.key).mpr ⟨d, hd, rfl⟩
  obtain ⟨r, hr, hrk⟩ := isIn_key (List.all_eq_true.mp hp.used e he)
  rw [← hk, ← hrk]
  revert hr
  revert r
  have key : ∀ r ∈ v.globals, s.Uses r.key := by
    refine stateLoop_inv (fun v => ∀ r ∈ v.globals, s.Uses r.key) hp.states hp.statesOk ?_ ?_
    · intro r hr
      rcases validateDecls_globals hp.decls hp.declsOk r hr with hr | ⟨a, ha, hr | hr⟩
      · cases hr
      · exact .inl ⟨a, global_mem ha, hr⟩
      · exact .inr (.inl ⟨a, all_everything (global_mem ha), r, hr, rfl⟩)
    · intro m m' x t ht hP hst r hr
      rw [hst.globals] at hr
      rcases List.mem_append.mp hr with hr | hr
      · rcases validateDecls_globals hst.decls hst.declsOk r hr with hr | ⟨a, ha, hr | hr⟩
        · exact hP r hr
        · exact .inr (.inr ⟨t, ht, .inl ⟨a, local_mem ha, hr⟩⟩)
        · exact .inr (.inl ⟨a, local_everything ht (local_mem ha), r, hr, rfl⟩)
      · obtain ⟨w, hw, rfl⟩ := references_mem hr
        exact .inr (.inr ⟨t, ht, stateVar_used hw⟩)
  intro r _ hr
  exact key r hr

/-- **C49**: every declaration of a state is used in this state. -/
theorem C49_used_local (B : Body M) (literals : Dict (Ty M)) (h : List PyStr → Int) (s : FullSession M) (hs : s.Accepted B literals h)
    (t : FullState M) (ht : t ∈ s.states) (d : Decl M) (hd : d ∈ t.declarations) : t.Uses d.id.key := by
  obtain ⟨package, g, v, hp⟩ := accepted_parts hs
  obtain ⟨pre, post, hst⟩ := List.append_of_mem ht
  have h1 := hp.states
  rw [hst] at h1
  obtain ⟨m, m', e, hm, hok⟩ := stateLoop_split h1 hp.statesOk
  obtain ⟨x, hx, hk⟩ := (declDict_keys t.declarations d.id.key).mpr ⟨d, hd, rfl⟩
  obtain ⟨r, hr, hrk⟩ := isIn_key (List.all_eq_true.mp hok.used x hx)
  rw [← hk, ← hrk]
  rcases List.mem_append.mp hr with hr | hr
  · rcases validateDecls_locals hok.decls hok.declsOk r hr with hr | ⟨a, ha, hr⟩
    · cases hr
    · exact .inl ⟨a, local_mem ha, hr⟩
  · obtain ⟨w, hw, rfl⟩ := references_mem hr
    exact stateVar_used hw

/-- **C49**: a declaration of a state does not hide a declaration or parameter of the session. -/
theorem C49_no_shadowing (B : Body M) (literals : Dict (Ty M)) (h : List PyStr → Int) (s : FullSession M) (hs : s.Accepted B literals h)
    (t : FullState M) (ht : t ∈ s.states) (d : Decl M) (hd : d ∈ t.declarations) (g : Decl M) (hg : g ∈ s.all) :
    d.id.key ≠ g.id.key := by
  obtain ⟨package, n, v, hp⟩ := accepted_parts hs
  obtain ⟨pre, post, hst⟩ := List.append_of_mem ht
  have h1 := hp.states
  rw [hst] at h1
  obtain ⟨m, m', e, hm, hok⟩ := stateLoop_split h1 hp.statesOk
  obtain ⟨x, hx, hk⟩ := (declDict_keys t.declarations d.id.key).mpr ⟨d, hd, rfl⟩
  obtain ⟨y, hy, hky⟩ := (globals_keys s g.id.key).mpr ⟨g, hg, rfl⟩
  have hvis := validateDecls_visible hp.decls hp.declsOk (List.mem_map.mpr ⟨y, hy, rfl⟩)
  rw [← (globals_mem hy).2, hky] at hvis
  obtain ⟨a, b, hab⟩ := List.append_of_mem (List.mem_map.mpr ⟨x, hx, rfl⟩ : x.2 ∈ (declDict t.declarations).map (·.2))
  have h2 := hok.decls
  rw [hab] at h2
  obtain ⟨q, k1, k2, k3, _⟩ := validateDecls_split h2 hok.declsOk
  have hfresh := (valid_fresh k3).2
  have := validateDecls_keeps k1 k2 _ hvis
  rw [← (declDict_mem hx).2, hk] at hfresh
  intro heq
  rw [heq] at hfresh
  rw [hfresh] at this
  cases this

/-- **C49**: the built-in function is not declared again. -/
theorem C49_builtin (B : Body M) (literals : Dict (Ty M)) (h : List PyStr → Int) (s : FullSession M) (hs : s.Accepted B literals h)
    (d : Decl M) (hd : d ∈ s.everything) : d.id.key ≠ dataAvailable.key := by
  obtain ⟨package, n, v, hp⟩ := accepted_parts hs
  rcases List.mem_append.mp hd with hd | hd
  · obtain ⟨y, hy, hky⟩ := (globals_keys s d.id.key).mpr ⟨d, hd, rfl⟩
    obtain ⟨a, b, hab⟩ := List.append_of_mem (List.mem_map.mpr ⟨y, hy, rfl⟩ : y.2 ∈ s.globals.map (·.2))
    have h2 := hp.decls
    rw [hab] at h2
    obtain ⟨q, k1, k2, k3, _⟩ := validateDecls_split h2 hp.declsOk
    rw [← hky, (globals_mem hy).2]
    exact (valid_fresh k3).1
  · obtain ⟨t, ht, hd⟩ := List.mem_flatMap.mp hd
    obtain ⟨pre, post, hst⟩ := List.append_of_mem ht
    have h1 := hp.states
    rw [hst] at h1
    obtain ⟨m, m', e, hm, hok⟩ := stateLoop_split h1 hp.statesOk
    obtain ⟨x, hx, hk⟩ := (declDict_keys t.declarations d.id.key).mpr ⟨d, hd, rfl⟩
    obtain ⟨a, b, hab⟩ := List.append_of_mem (List.mem_map.mpr ⟨x, hx, rfl⟩ : x.2 ∈ (declDict t.declarations).map (·.2))
    have h2 := hok.decls
    rw [hab] at h2
    obtain ⟨q, k1, k2, k3, _⟩ := validateDecls_split h2 hok.declsOk
    rw [← hk, (declDict_mem hx).2]
    exact (valid_fresh k3).1

/-! ## Types and initial values -/

/-- The names of types in a declaration. -/
inductive Decl.Names : Decl M → ID → Prop
  | variable {i t e} : Decl.Names (.variable i t e) t
  | renaming {i t ng p s} : Decl.Names (.renaming i t ng p s) t
  | result {i as t} : Decl.Names (.function i as t) t
  | argument {i as t a} : a ∈ as → Decl.Names (.function i as t) a

theorem valid_types {B : Body M} {literals : Dict (Ty M)} {package : ID} {types₀ types : Dict (MType M)} {v : Dict (Entry M)}
    {D : List (Decl M)} {d : Decl M} (ht : TypesInv package types₀ D types) (hd : validDecl B literals package types v d = .ok true) {i : ID}
    (hi : d.Names i) : KnownType package types₀ D i := by
  cases hi with
  | «variable» =>
    unfold validDecl at hd
    simp only at hd
    split at hd
    · rename_i u hu
      exact (declType_named ht hu).2.known
    · cases hd
  | «renaming» =>
    unfold validDecl at hd
    simp only at hd
    split at hd
    · rename_i u hu
      exact (declType_named ht hu).2.known
    · cases hd
  | result =>
    have hd := Except.ok.inj hd
    simp only [Bool.and_eq_true] at hd
    obtain ⟨u, hu⟩ := Option.isSome_iff_exists.mp hd.1.2
    exact (declType_named ht hu).2.known
  | argument ha =>
    have hd := Except.ok.inj hd
    simp only [Bool.and_eq_true] at hd
    have h1 := List.all_eq_true.mp hd.2 _ (List.mem_map.mpr ⟨_, ha, rfl⟩)
    obtain ⟨u, hu⟩ := Option.isSome_iff_exists.mp h1
    obtain ⟨w, hw, rfl⟩ := Option.map_eq_some_iff.mp hu
    exact NamedType.known (t := w.type) ⟨w, (ht.named hw).2, .inl rfl⟩

/-- **C49**: a declaration of a session uses known types only: types of the model or types that are declared before. The same holds for
the names and functions in its expression. Missing: names that are declared twice, see `C49_duplicate_counterexample`, and values in
message aggregates as above. -/
theorem C49_declaration_partial (B : Body M) (hB : B.Proper) (literals : Dict (Ty M)) (h : List PyStr → Int) (s : FullSession M)
    (hs : s.Accepted B literals h) (ho : s.OrdinaryTypes) (hn : DistinctNames s.all) (pre post : List (Decl M)) (d : Decl M)
    (hd : s.all = pre ++ d :: post) :
    ∃ package, s.package = .ok package ∧ (∀ i, d.Names i → KnownType package s.types pre i) ∧
      ∀ e, d.Has e → SDirect e → (∀ x, SFree x e → IsLiteral literals x ∨ DeclaredBy pre x) ∧ ∀ f, SCalled f e → FunctionOf pre f := by
  obtain ⟨package, g, v, hp⟩ := accepted_parts hs
  have h1 := hp.decls
  rw [globals_decls hn, hd] at h1
  obtain ⟨m, k1, k2, k3, _⟩ := validateDecls_split h1 hp.declsOk
  obtain ⟨ht, hv⟩ := validateDecls_env (D := pre) (E := pre) (types₀ := s.types) k1 k2 (types_start ho) visible_start
    (fun d hd => ⟨hd, hd⟩) (fun a ha => ho.2 a (all_everything (by rw [hd]; simp [ha])))
  refine ⟨package, hp.name, fun i hi => valid_types ht k3 hi, fun e he hdir => ?_⟩
  obtain ⟨h2, h3⟩ := valid_closed hB k3 he hdir
  exact names_declared hv h2 h3

/-- **C49**: a declaration of a state uses known types only: types of the model or types that are declared in the session, in states before, or
before in this state. The names and functions in its expression are declared in the session, or before in this state. Missing: as
above. -/
theorem C49_local_declaration_partial (B : Body M) (hB : B.Proper) (literals : Dict (Ty M)) (h : List PyStr → Int) (s : FullSession M)
    (hs : s.Accepted B literals h) (ho : s.OrdinaryTypes) (before behind : List (FullState M)) (t : FullState M)
    (ht : s.states = before ++ t :: behind) (hn : DistinctNames t.declarations) (pre post : List (Decl M)) (d : Decl M)
    (hd : t.declarations = pre ++ d :: post) :
    ∃ package, s.package = .ok package ∧
      (∀ i, d.Names i → KnownType package s.types (s.all ++ before.flatMap FullState.declarations ++ pre) i) ∧
      ∀ e, d.Has e → SDirect e → (∀ x, SFree x e → IsLiteral literals x ∨ DeclaredBy (s.all ++ pre) x) ∧
        ∀ f, SCalled f e → FunctionOf (s.all ++ pre) f := by
  obtain ⟨package, g, v, hp⟩ := accepted_parts hs
  obtain ⟨m, m', e, hok, hty, _⟩ := state_env hp ho ht
  have h1 := hok.decls
  rw [declDict_decls hn, hd] at h1
  obtain ⟨n, k1, k2, k3, _⟩ := validateDecls_split h1 hok.declsOk
  have htm : t ∈ s.states := by rw [ht]; simp
  have hgv := (global_env hp ho).2
  obtain ⟨hti, hv⟩ := validateDecls_env (D := s.all ++ before.flatMap FullState.declarations ++ pre) (E := s.all ++ pre) (types₀ := s.types)
    k1 k2 (hty.mono fun d hd => List.mem_append_left _ hd)
    (hgv.mono (TypeOf.mono fun d hd => List.mem_append_left _ (List.mem_append_left _ hd)) fun d hd => List.mem_append_left _ hd)
    (fun d hd => ⟨List.mem_append_right _ hd, List.mem_append_right _ hd⟩)
    (fun a ha => ho.2 a (local_everything htm (by rw [hd]; simp [ha])))
  refine ⟨package, hp.name, fun i hi => valid_types hti k3 hi, fun e he hdir => ?_⟩
  obtain ⟨h2, h3⟩ := valid_closed hB k3 he hdir
  exact names_declared hv h2 h3

end Verif.Session
