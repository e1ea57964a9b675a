import Verif.Session.DeclProps

/-! # Property C49: renamings and message aggregates of accepted sessions -/

namespace Verif.Session
open Verif Verif.Typing

variable {M : Type} [DecidableEq M]

/-! ## Renamings -/

theorem valid_renaming {B : Body M} {literals : Dict (Ty M)} {package : ID} {types : Dict (MType M)} {v : Dict (Entry M)} {i n x f : ID}
    {ng ng' imm : Bool} (hd : validDecl B literals package types v (.renaming i n ng (.var ng' imm x) f) = .ok true) :
    ∃ t c m, declType types package n = some t ∧ (ctx B literals v).var x.key = .message c m ∧ renamable B t m f = true := by
  unfold validDecl at hd
  simp only at hd
  split at hd
  · rename_i t ht
    obtain ⟨b, hb, hd⟩ := bind_ok' hd
    have hd := Except.ok.inj hd
    rw [Bool.and_eq_true] at hd
    rw [hd.2] at hb
    obtain ⟨u, h1, h2⟩ := bind_ok' hb
    unfold checkRenaming at h2
    obtain ⟨ok, h3, h4⟩ := bind_ok' h2
    cases ok with
    | false => cases h4
    | true =>
      simp only [Bool.not_true, Bool.false_eq_true, if_false] at h4
      split at h4
      · rename_i c m hc
        obtain ⟨b, h5, h6⟩ := bind_ok' h4
        have h6 := Except.ok.inj h6
        rw [Bool.and_eq_true] at h6
        refine ⟨t, c, m, ht, ?_, h6.1⟩
        simp only [afterTy, ctorTy] at hc
        split at hc
        · cases hc
        · exact hc
      · cases h4
  · cases hd

/-- The type of a name, given by a literal or by a declaration. -/
def HasType (package : ID) (types : Dict (MType M)) (literals : Dict (Ty M)) (ds : List (Decl M)) (x : List PyStr) (t : Ty M) : Prop :=
  (∃ l ∈ literals, l.1.key = x ∧ l.2 = t) ∨ ∃ d ∈ ds, d.id.key = x ∧ TypeOf package types ds d t

/-- **C49**: a renaming `X : T renames Y.F` of an accepted session is a view of a message in a message: `Y` is a message before that has a
refinement of the field `F` by the message type `T`. Missing: `Y` is a variable here; names that are declared twice. -/
theorem C49_renaming_partial (B : Body M) (hB : B.Proper) (literals : Dict (Ty M)) (h : List PyStr → Int) (s : FullSession M)
    (hs : s.Accepted B literals h) (ho : s.OrdinaryTypes) (hn : DistinctNames s.all) (pre post : List (Decl M)) (i n x f : ID)
    (ng ng' imm : Bool) (hd : s.all = pre ++ .renaming i n ng (.var ng' imm x) f :: post) :
    ∃ package c m g N b b', s.package = .ok package ∧ HasType package s.types literals pre x.key (.message c m) ∧
      (g, Ty.message N b) ∈ B.refinements m ∧ (ID.key ⟨[g]⟩ = f.key) ∧ NamedType package s.types pre n (.message N b') := by
  obtain ⟨package, g, v, hp⟩ := accepted_parts hs
  have h1 := hp.decls
  rw [globals_decls hn, hd] at h1
  obtain ⟨m, k1, k2, k3, _⟩ := validateDecls_split h1 hp.declsOk
  obtain ⟨ht, hv⟩ := validateDecls_env (D := pre) (E := pre) (types₀ := s.types) k1 k2 (types_start ho) visible_start
    (fun d hd => ⟨hd, hd⟩) (fun a ha => ho.2 a (all_everything (by rw [hd]; simp [ha])))
  obtain ⟨t, c, mb, h2, h3, h4⟩ := valid_renaming k3
  obtain ⟨h5, h6⟩ := declType_named ht h2
  obtain ⟨r, hr, h7⟩ := List.any_eq_true.mp h4
  rw [Bool.and_eq_true] at h7
  obtain ⟨N, b, hN⟩ := hB mb r hr
  obtain ⟨g', t'⟩ := r
  simp only at hN h7
  subst hN
  have : ∃ b', t = .message N b' := by
    have h8 := h7.2
    cases t with
    | any => exact h5.elim
    | message n' b' =>
      have : N = n' := by simpa [Ty.isCompatible] using h8
      exact ⟨b', by rw [this]⟩
    | _ => simp [Ty.isCompatible] at h8
  obtain ⟨b', rfl⟩ := this
  refine ⟨package, c, mb, g', N, b, b', hp.name, ?_, hr, (ID.eq_iff_key _ _).1 h7.1, h6⟩
  rcases var_type (B := B) (literals := literals) hv (x := x.key) with h | ⟨l, hl, hk, h⟩ | ⟨d, hd, hk, hT, _⟩
  · rw [h3] at h; cases h
  · exact .inl ⟨l, hl, hk, h.trans h3⟩
  · exact .inr ⟨d, hd, hk, h3 ▸ hT⟩

/-! ## Message aggregates -/

theorem checkValues_prefix {Γ : Ctx M} {B : Body M} {m : M} {i : Nat} {vs : List (ID × Expr)} {cs : List (List PyStr)}
    {r : List (List PyStr)} (h : checkValues Γ B m i vs cs = .ok (r, true)) :
    (vs ≠ [] → r ≠ []) ∧ ∀ c ∈ r, c ∈ cs ∧ ∀ j v, vs[j]? = some v → c[i + j]? = some v.1.str := by
  induction vs generalizing i cs r with
  | nil =>
    rw [checkValues] at h
    cases h
    exact ⟨fun h => (h rfl).elim, fun c hc => ⟨hc, by simp⟩⟩
  | cons a vs ih =>
    obtain ⟨f, e⟩ := a
    rw [checkValues] at h
    split at h
    · obtain ⟨r', h1, h2⟩ := bind_ok' h
      simp only [pure, Except.pure, Except.ok.injEq, Prod.mk.injEq, Bool.false_eq_true, and_false] at h2
    · rename_i t ht
      obtain ⟨ok, h1, h2⟩ := bind_ok' h
      simp only at h2
      split at h2
      · simp [pure, Except.pure] at h2
      · rename_i hne
        obtain ⟨r', h3, h4⟩ := bind_ok' h2
        have h4 := Except.ok.inj h4
        simp only [Prod.mk.injEq, Bool.and_eq_true] at h4
        obtain ⟨r1, r2⟩ := r'
        simp only at h4
        obtain ⟨rfl, _, rfl⟩ := h4
        obtain ⟨k1, k2⟩ := ih h3
        refine ⟨fun _ => ?_, fun c hc => ?_⟩
        · cases vs with
          | nil =>
            rw [checkValues] at h3
            cases h3
            simpa [List.isEmpty_iff] using hne
          | cons _ _ => exact k1 (by simp)
        · obtain ⟨k3, k4⟩ := k2 c hc
          obtain ⟨k5, k6⟩ := List.mem_filter.mp k3
          refine ⟨k5, fun j v hj => ?_⟩
          cases j with
          | zero =>
            simp only [List.getElem?_cons_zero, Option.some.injEq] at hj
            subst hj
            simpa using k6
          | succ j =>
            have := k4 j v (by simpa using hj)
            rw [show i + (j + 1) = i + 1 + j by omega]
            exact this

theorem checkAggregate_fields {Γ : Ctx M} {B : Body M} {c : String} {m : M} {vs : List (ID × Expr)}
    (h : checkAggregate Γ B (.message c m) vs = .ok true) :
    (∀ v ∈ vs, (B.field m v.1.str).isSome = true) ∧ (vs.map (·.1.str) ∈ B.combinations m ∨ (vs = [] ∧ B.combinations m = [])) := by
  obtain ⟨⟨r, ok⟩, h1, h2⟩ := bind_ok' h
  have h2 := Except.ok.inj h2
  simp only [Bool.and_eq_true] at h2
  obtain ⟨rfl, h3⟩ := h2
  refine ⟨fun v hv => ?_, ?_⟩
  · obtain ⟨t, ht, _⟩ := checkValues_true h1 v hv
    simp [ht]
  · obtain ⟨k1, k2⟩ := checkValues_prefix h1
    rw [Bool.or_eq_true] at h3
    rcases h3 with h3 | h3
    · have hr : r = [] := by simpa using h3
      have hv : vs = [] := Decidable.byContradiction fun hne => k1 hne hr
      subst hv
      rw [checkValues] at h1
      cases h1
      exact .inr ⟨rfl, hr⟩
    · have : ∃ c ∈ r, c.length ≤ vs.length := by simpa using h3
      obtain ⟨c, hc, hl⟩ := this
      obtain ⟨k3, k4⟩ := k2 c hc
      refine .inl ?_
      have : vs.map (·.1.str) = c := by
        apply List.ext_getElem?
        intro j
        by_cases hj : j < vs.length
        · have := k4 j vs[j] (List.getElem?_eq_getElem hj)
          rw [Nat.zero_add] at this
          simp [this, hj]
        · rw [List.getElem?_eq_none (by simp; omega), List.getElem?_eq_none (by omega)]
      rw [this]
      exact k3

/-- The type of a message aggregate in an accepted expression. -/
theorem scheck_aggregate {B : Body M} {types : Dict (MType M)} {Γ : Ctx M} {id : ID} {vs : List (ID × Expr)} {w : Want M}
    (h : scheck B types Γ (.aggregate id vs) w = .ok true) :
    ∃ t r, types.get id = some (.message t r) ∧ checkAggregate Γ B (r (refinementsOf types id)) vs = .ok true := by
  obtain ⟨t, h1, h2⟩ := bind_ok' h
  obtain ⟨ok, h3, h4⟩ := bind_ok' h2
  obtain ⟨b, h5, h6⟩ := bind_ok' h4
  have h6 := Except.ok.inj h6
  simp only [Bool.and_eq_true] at h6
  obtain ⟨rfl, rfl⟩ := h6
  unfold aggregateType at h1
  split at h1
  · cases h1
    cases w with
    | ty u => simp [meets, checkType] at h5
    | cls c => simp [meets, checkInstance] at h5
  · rename_i t' r hr
    cases h1
    exact ⟨t', r, hr, h3⟩
  · cases h1

/-- A value that is checked in an action with a target of an ordinary type or with a channel. -/
theorem checkAction_value {B : Body M} {types : Dict (MType M)} {Γ : Ctx M} {t : Ty M} {a : Action} {e : SExpr}
    (ht : t ≠ .any) (ha : checkAction B types Γ t a = .ok true) (he : a.expr = some e) : ∃ w, scheck B types Γ e w = .ok true := by
  cases a with
  | assign i e' =>
    cases he
    obtain ⟨b, h1, h2⟩ := bind_ok' ha
    have h2 := Except.ok.inj h2
    rw [Bool.and_eq_true] at h2
    exact ⟨_, h2.2 ▸ h1⟩
  | append i e' =>
    cases he
    cases t with
    | array n u =>
      obtain ⟨b, h1, h2⟩ := bind_ok' ha
      have h2 := Except.ok.inj h2
      rw [Bool.and_eq_true] at h2
      exact ⟨_, h2.1 ▸ h1⟩
    | any => exact (ht rfl).elim
    | _ => simp [checkAction, checkArray, isArray] at ha
  | extend i e' =>
    cases he
    obtain ⟨b, h1, h2⟩ := bind_ok' ha
    have h2 := Except.ok.inj h2
    rw [Bool.and_eq_true] at h2
    exact ⟨_, h2.2 ▸ h1⟩
  | reset i => cases he
  | read i e' => cases he; exact ⟨_, (and_true ha).2⟩
  | write i e' => cases he; exact ⟨_, (and_true ha).2⟩

/-- A message type of the model or of a declaration. -/
def MessageType (package : ID) (types : Dict (MType M)) (ds : List (Decl M)) (i : ID) (t : Ty M) : Prop :=
  ∃ u r l, t = r l ∧ ((∃ e ∈ types, e.1.key = i.key ∧ e.2 = .message u r) ∨ ∃ j, Decl.type j (.message u r) ∈ ds ∧ (qualified j package).key = i.key)

/-- **C49**: a message aggregate in an action of an accepted session names a known message type, and gives values to the fields of the message
in the order of one of its paths. -/
theorem C49_aggregate (B : Body M) (literals : Dict (Ty M)) (h : List PyStr → Int) (s : FullSession M) (hs : s.Accepted B literals h)
    (ho : s.OrdinaryTypes) (t : FullState M) (ht : t ∈ s.states) (a : Action) (ha : a ∈ t.actions) (i : ID) (vs : List (ID × Expr))
    (he : a.expr = some (.aggregate i vs)) :
    ∃ package u, s.package = .ok package ∧ MessageType package s.types s.everything i u ∧ ∀ c m, u = .message c m →
      (∀ v ∈ vs, (B.field m v.1.str).isSome = true) ∧ (vs.map (·.1.str) ∈ B.combinations m ∨ (vs = [] ∧ B.combinations m = [])) := by
  obtain ⟨package, d, v, hp⟩ := accepted_parts hs
  obtain ⟨pre, post, hst⟩ := List.append_of_mem ht
  obtain ⟨m, m', e, hok, hty, hv⟩ := state_env hp ho hst
  have hsub : ∀ d ∈ s.all ++ pre.flatMap FullState.declarations, d ∈ s.everything := by
    intro d hd
    rcases List.mem_append.mp hd with hd | hd
    · exact all_everything hd
    · obtain ⟨b, hb, hd⟩ := List.mem_flatMap.mp hd
      exact local_everything (by rw [hst]; exact List.mem_append_left _ hb) hd
  have hty := (validateDecls_env (D := s.everything) (E := s.everything) hok.decls hok.declsOk (hty.mono hsub)
    ((global_env hp ho).2.mono (TypeOf.mono fun d hd => all_everything hd) fun d hd => all_everything hd)
    (fun d hd => ⟨local_everything ht (local_mem hd), local_everything ht (local_mem hd)⟩)
    (fun d hd => ho.2 d (local_everything ht (local_mem hd)))).1
  obtain ⟨d, _, _, _, ut, _, hord, hca⟩ := target_facts hv (allM_mem hok.actions a ha)
  have hany : ut ≠ .any := by
    rintro rfl
    rcases hord with h | ⟨_, _, _, _, h⟩
    · exact h
    · cases h
  obtain ⟨w, hw⟩ := checkAction_value hany hca he
  obtain ⟨u, r, hg, hc⟩ := scheck_aggregate hw
  rw [get_eq] at hg
  obtain ⟨x, hx, hk, hx2⟩ := getKey_mem hg
  refine ⟨package, _, hp.name, ⟨u, r, _, rfl, ?_⟩, fun c m hm => by rw [hm] at hc; exact checkAggregate_fields hc⟩
  rcases (hty x hx).2 with ⟨y, hy, h1, h2⟩ | ⟨j, hj, h1⟩
  · exact .inl ⟨y, hy, h1.trans hk, h2.trans hx2⟩
  · exact .inr ⟨j, hx2 ▸ hj, h1.trans hk⟩

end Verif.Session
