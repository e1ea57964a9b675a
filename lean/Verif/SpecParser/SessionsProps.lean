import Verif.SpecParser.SessionsLemmas
import Verif.Session.Props
import Verif.Session.DeclProps

/-! # Property C56: sessions are those written in the specification -/

namespace Verif.SpecParser
open Verif

variable {M : Type}

/-! ## Parts of sessions -/

theorem createS_is : ∀ {t : STree} {e : Session.SExpr}, t.Lexical → createS t = .ok e → SExprIs t e
  | .plain t, e, hl, h => by
    simp only [createS] at h
    obtain ⟨a, h1, rfl⟩ := map_ok' h
    exact create_is hl h1
  | .paren t, e, hl, h => by
    simp only [createS] at h
    exact createS_is (t := t) hl h
  | .comprehension n a s c, e, hl, h => by
    obtain ⟨l1, l2, l3, l4⟩ := hl
    simp only [createS] at h
    obtain ⟨c', h1, h⟩ := bind_ok' h
    obtain ⟨i, h2, h⟩ := bind_ok' h
    obtain ⟨a', h3, h⟩ := bind_ok' h
    obtain ⟨s', h4, h⟩ := bind_ok' h
    cases h
    exact ⟨createId_called l1 h2, create_is l2 h3, create_is l3 h4, guard_is l4 h1⟩
  | .conversion n a, e, hl, h => by
    simp only [createS] at h
    obtain ⟨i, h2, h⟩ := bind_ok' h
    obtain ⟨a', h3, h⟩ := bind_ok' h
    cases h
    exact ⟨createId_spelled hl.1 h2, create_is hl.2 h3⟩
  | .aggregate n none, e, hl, h => by
    simp only [createS] at h
    obtain ⟨vs, h1, h⟩ := bind_ok' h
    obtain ⟨i, h2, h⟩ := bind_ok' h
    cases h1
    cases h
    exact ⟨createId_spelled hl.1 h2, rfl⟩
  | .aggregate n (some ws), e, hl, h => by
    simp only [createS] at h
    obtain ⟨vs, h1, h⟩ := bind_ok' h
    obtain ⟨i, h2, h⟩ := bind_ok' h
    cases h
    have hf : List.Forall₂ (fun (w : PyStr × Tree) (v : ID × Expr) => Called w.1 v.1 ∧ ExprIs w.2 v.2) ws vs :=
      createAll_is h1 fun x hx y hy => by
        obtain ⟨j, k1, hy⟩ := bind_ok' hy
        obtain ⟨e, k2, hy⟩ := bind_ok' hy
        cases hy
        obtain ⟨l1, l2⟩ := hl.2 ws rfl x hx
        exact ⟨createId_called l1 k1, create_is l2 k2⟩
    have hc := collected (key := fun w : PyStr × Tree => nameKey w.1)
      (R := fun w v => v.1.key = nameKey w.1 ∧ ExprIs w.2 v.2) (forall₂_imp (fun a b h => ⟨called_key h.1, h.2⟩) hf)
      (fun w d h => h.1) (fun w i j d h hj => ⟨hj.trans h.1, h.2⟩)
    refine ⟨createId_spelled hl.1 h2, ⟨hc.1, fun v hv => ?_, hc.2.2.1, fun hd => forall₂_imp (fun a b h => h.2) (hc.2.2.2 hd)⟩, fun hd => ?_⟩
    · obtain ⟨p, w, q, k1, k2, k3, k4⟩ := hc.2.1 v hv
      exact ⟨p, w, q, k1, k2, k3.2, k4⟩
    · rw [Session.merge_fresh [] vs (forall₂_pairwise (fun a b x y hx hy hn => by
        rw [called_key hx.1, called_key hy.1]; exact hn) hf hd)]
      exact forall₂_imp (fun a b h => h.1) hf

theorem transition_is {t : TransitionTree} {x : ID × Expr} (hl : t.Lexical) (h : createTransition t = .ok x) : TransitionIs t x := by
  obtain ⟨i, h1, h⟩ := bind_ok' h
  obtain ⟨c, h2, h⟩ := bind_ok' h
  cases h
  exact ⟨createId_called hl.1 h1, guard_is hl.2 h2⟩

theorem statement_is {t : StatementTree} {a : Session.Action} (hl : t.Lexical) (h : createStatement t = .ok a) : StatementIs t a := by
  cases t with
  | reset n =>
    obtain ⟨i, h1, h⟩ := bind_ok' h
    cases h
    exact .reset (createId_called hl h1)
  | assignment n e =>
    obtain ⟨i, h1, h⟩ := bind_ok' h
    obtain ⟨e', h2, h⟩ := bind_ok' h
    cases h
    exact .assignment (createId_called hl.1 h1) (createS_is hl.2 h2)
  | «attribute» n attr e =>
    simp only [createStatement] at h
    cases hc : attributes.lookup attr with
    | none => simp only [hc] at h; cases h
    | some c =>
      simp only [hc] at h
      obtain ⟨i, h1, h⟩ := bind_ok' h
      obtain ⟨e', h2, h⟩ := bind_ok' h
      cases h
      have k1 := createId_called hl.1 h1
      have k2 := createS_is hl.2 h2
      simp only [attributes, List.lookup] at hc
      split at hc
      · rename_i hq
        obtain rfl := eq_of_beq hq
        cases hc
        exact .append k1 k2
      · split at hc
        · rename_i hq
          obtain rfl := eq_of_beq hq
          cases hc
          exact .extend k1 k2
        · split at hc
          · rename_i hq
            obtain rfl := eq_of_beq hq
            cases hc
            exact .read k1 k2
          · split at hc
            · rename_i hq
              obtain rfl := eq_of_beq hq
              cases hc
              exact .write k1 k2
            · cases hc

theorem builtin_key {n : IdNode} {i q : ID} (hn : n.Lexical) (hi : createId n = .ok i) (h : qualifiedBuiltin i = .ok q) : q.key = typeName n := by
  have hk := createId_key hn hi
  have hv := createId_valid hi
  unfold qualifiedBuiltin at h
  unfold typeName
  rw [← hk]
  split at h
  · rename_i hb
    simp only [isBuiltin, Bool.or_eq_true, key_eq] at hb
    obtain ⟨q1, q2, _⟩ := predefined (x := ['b', 'o', 'o', 'l', 'e', 'a', 'n']) valid_builtins hv (by decide)
      (by rcases hb with hb | hb <;> rw [hb] <;> decide) h
    rw [q2]
    rcases hb with hb | hb <;> rw [hb] <;> rfl
  · rename_i hb
    simp only [isBuiltin, Bool.or_eq_true, key_eq] at hb
    split at h
    · rename_i hb'
      simp only [isInternal, Bool.or_eq_true, key_eq] at hb'
      obtain ⟨q1, q2, _⟩ := predefined (x := ['o', 'p', 'a', 'q', 'u', 'e']) valid_internal hv (by decide)
        (by rcases hb' with hb' | hb' <;> rw [hb'] <;> decide) h
      rw [q2]
      rcases hb' with hb' | hb' <;> rw [hb'] <;> rfl
    · rename_i hb'
      simp only [isInternal, Bool.or_eq_true, key_eq] at hb'
      have e1 : i.key ≠ [['b', 'o', 'o', 'l', 'e', 'a', 'n']] := fun e => hb (.inr (by rw [e]; decide))
      have e2 : i.key ≠ [['o', 'p', 'a', 'q', 'u', 'e']] := fun e => hb' (.inr (by rw [e]; decide))
      cases h
      split
      · rename_i x hx
        rw [hx] at e1 e2 ⊢
        rw [if_neg (fun e => e1 (by rw [e])), if_neg (fun e => e2 (by rw [e]))]
      · rfl

theorem local_is {t : LocalTree} {d : Session.Decl M} (hl : t.Lexical) (h : createLocal t = .ok d) : LocalIs t d := by
  cases t with
  | «variable» n ty init =>
    obtain ⟨l1, l2, l3⟩ := hl
    simp only [createLocal] at h
    obtain ⟨e, h0, h⟩ := bind_ok' h
    obtain ⟨i, h1, h⟩ := bind_ok' h
    obtain ⟨t, h2, h⟩ := bind_ok' h
    obtain ⟨q, h3, h⟩ := bind_ok' h
    cases h
    cases init with
    | none =>
      cases h0
      exact .uninitialized (createId_called l1 h1) (builtin_key l2 h2 h3)
    | some x =>
      obtain ⟨e, k, rfl⟩ := map_ok' h0
      exact .initialized (createId_called l1 h1) (builtin_key l2 h2 h3) (createS_is (l3 x rfl) k)
  | «renaming» n ty x =>
    obtain ⟨l1, l2, l3⟩ := hl
    simp only [createLocal] at h
    obtain ⟨e, h0, h⟩ := bind_ok' h
    split at h
    · obtain ⟨i, h1, h⟩ := bind_ok' h
      obtain ⟨t, h2, h⟩ := bind_ok' h
      obtain ⟨q, h3, h⟩ := bind_ok' h
      cases h
      exact .renaming (createId_called l1 h1) (builtin_key l2 h2 h3) (createS_is l3 h0)
    · cases h

theorem local_name {t : LocalTree} {d : Session.Decl M} (h : LocalIs t d) : d.id.key = nameKey t.name := by
  cases h with
  | uninitialized h _ => exact called_key h
  | initialized h _ _ => exact called_key h
  | «renaming» h _ _ => exact called_key h

theorem formal_is {t : FormalTree} {d : Session.Decl M} (hl : t.Lexical) (h : createFormal t = .ok d) : FormalIs t d := by
  cases t with
  | channel n ps =>
    simp only [createFormal] at h
    obtain ⟨i, h1, h⟩ := bind_ok' h
    split at h
    · rename_i hp
      cases h
      refine .channel (createId_called hl h1) ?_ ?_ ?_
      · rintro rfl
        simp at hp
      · simp
      · simp
    · cases h
  | function n ps r =>
    obtain ⟨l1, l2, l3⟩ := hl
    simp only [createFormal] at h
    obtain ⟨as, h0, h⟩ := bind_ok' h
    obtain ⟨i, h1, h⟩ := bind_ok' h
    obtain ⟨t, h2, h⟩ := bind_ok' h
    cases h
    refine .function (createId_called l1 h1) (createAll_is h0 fun p hp a ha => ?_) (createId_spelled l3 h2)
    obtain ⟨j, k1, k2⟩ := bind_ok' ha
    exact ⟨createId_free k1, createId_spelled (l2 p hp).2 k2⟩
  | privateType n =>
    simp only [createFormal] at h
    obtain ⟨i, h1, h⟩ := bind_ok' h
    cases h
    have := createId_simple hl h1
    subst this
    exact .privateType ⟨rfl, createId_free h1⟩

theorem formal_name {t : FormalTree} {d : Session.Decl M} (h : FormalIs t d) : d.id.key = nameKey t.name := by
  cases h with
  | channel h _ _ _ => exact called_key h
  | function h _ _ => exact called_key h
  | privateType h => exact called_key h

theorem guard_true {c : Option Tree} {e : Expr} (h : createOrTrue c = .ok e) (hl : ∀ t, c = some t → Lexical t) (ht : isTrue e = true) :
    c = none := by
  cases c with
  | none => rfl
  | some t =>
    have hw := (create_is (hl t rfl) h).1
    unfold isTrue at ht
    split at ht
    · exfalso
      have : ∀ {t : Tree} {e : Expr}, Written t e → e ≠ .tru := by
        intro t
        induction t using Tree.rec (motive_2 := fun _ => True) with
        | paren t ih => intro e h; cases h with | paren h => exact ih h
        | binop op l r _ _ => intro e h; cases h; cases op <;> exact Expr.noConfusion
        | _ => first | trivial | (intro e h; cases h <;> exact Expr.noConfusion)
      exact this hw rfl
    · cases ht

theorem state_is {t : StateTree} {s : Session.FullState M} (hl : t.Lexical) (h : createState t = .ok s) : StateIs t s := by
  obtain ⟨l1, l2⟩ := hl
  simp only [createState] at h
  obtain ⟨i, h1, h⟩ := bind_ok' h
  cases hb : t.body with
  | none =>
    simp only [hb] at h
    cases h
    refine ⟨createId_called l1 h1, ?_⟩
    rw [hb]
    exact ⟨rfl, rfl, rfl, rfl⟩
  | some b =>
    obtain ⟨m1, m2, m3, m4, m5⟩ := l2 b hb
    simp only [hb] at h
    split at h
    · cases h
    · rename_i hne
      obtain ⟨ts, h2, h⟩ := bind_ok' h
      obtain ⟨f, h3, h⟩ := bind_ok' h
      obtain ⟨x, h4, h⟩ := bind_ok' h
      obtain ⟨as, h5, h⟩ := bind_ok' h
      obtain ⟨ds, h6, h⟩ := bind_ok' h
      simp only [newState] at h
      split at h
      · rename_i hc
        cases h
        rw [Bool.and_eq_true] at hc
        obtain ⟨hc1, hc2⟩ := hc
        simp only [hasDefault, List.getLast?_concat] at hc1
        obtain ⟨fi, h31, h32⟩ := bind_ok' h3
        obtain ⟨fc, h33, h34⟩ := bind_ok' h32
        cases h34
        have hfn := guard_true h33 m2.2 hc1
        refine ⟨createId_called l1 h1, ?_⟩
        rw [hb]
        refine ⟨(Decidable.not_not.mp hne).symm, ?_, hfn, ?_, createAll_is h5 fun a ha y hy => statement_is (m4 a ha) hy,
          collected_unique (createAll_is h6 fun d hd y hy => local_is (m5 d hd) hy) fun w d h => local_name h⟩
        · exact forall₂_concat (createAll_is h2 fun t ht y hy => transition_is (m1 t ht) hy) (transition_is m2 h3)
        · cases hx : b.exception with
          | none =>
            rw [hx] at h4
            cases h4
            trivial
          | some x' =>
            rw [hx] at h4
            obtain ⟨y, h41, rfl⟩ := map_ok' h4
            obtain ⟨yi, h42, h43⟩ := bind_ok' h41
            obtain ⟨yc, h44, h45⟩ := bind_ok' h43
            cases h45
            exact ⟨createId_called (m3 x' hx).1 h42, guard_true h44 (m3 x' hx).2 hc2⟩
      · cases h

theorem unproven_is {package : ID} {t : SessionTree} {types : Session.Dict (Session.MType M)} {s : Session.FullSession M}
    (hp : package.Valid) (hl : t.Lexical) (h : createUnproven package t types = .ok s) : SessionIs package types t s := by
  simp only [createUnproven] at h
  split at h
  · cases h
  · rename_i hne
    obtain ⟨n, h1, h⟩ := bind_ok' h
    obtain ⟨q, h2, h⟩ := bind_ok' h
    obtain ⟨i, h3, h⟩ := bind_ok' h
    obtain ⟨f, h4, h⟩ := bind_ok' h
    obtain ⟨ss, h5, h⟩ := bind_ok' h
    obtain ⟨ds, h6, h⟩ := bind_ok' h
    obtain ⟨ps, h7, h⟩ := bind_ok' h
    obtain ⟨_, _, h⟩ := bind_ok' h
    cases h
    have hn := createId_called hl.name h1
    exact {
      name := by
        rw [(mul_ok hp (createId_valid h1) h2).2, hn.1]
      endName := (Decidable.not_not.mp hne).symm
      initial := createId_called hl.initial h3
      final := createId_called hl.final h4
      states := createAll_is h5 fun t ht y hy => state_is (hl.states t ht) hy
      declarations := collected_unique (createAll_is h6 fun d hd y hy => local_is (hl.declarations d hd) hy) fun w d h => local_name h
      parameters := collected_unique (createAll_is h7 fun d hd y hy => formal_is (hl.parameters d hd) hy) fun w d h => formal_name h
      types := rfl }

/-! ## Creation -/

theorem create_ok {m : Mode} {t : Tree} (hl : Lexical t) (hr : Readable m t) : ∃ e, create m t = .ok e := by
  obtain ⟨hs, D, ρ, v, hm, hf⟩ := hr
  exact created t hl hs hm hf

theorem guard_ok {c : Option Tree} (hl : ∀ t, c = some t → Lexical t) (hr : ∀ t, c = some t → Readable .bool t) : ∃ e, createOrTrue c = .ok e := by
  cases c with
  | none => exact ⟨_, rfl⟩
  | some t => exact create_ok (hl t rfl) (hr t rfl)

theorem bind_of' {α β : Type} {x : Py α} {f : α → Py β} {v : α} {r : Py β} (hx : x = .ok v) (hf : f v = r) : (x >>= f) = r := by
  subst hx
  exact hf

theorem createS_ok : ∀ {t : STree}, t.Lexical → t.Readable → ∃ e, createS t = .ok e
  | .plain t, hl, hr => by
    obtain ⟨e, he⟩ := create_ok hl hr
    exact ⟨.plain e, by simp only [createS, he]; rfl⟩
  | .paren t, hl, hr => createS_ok (t := t) hl hr
  | .comprehension n a s c, hl, hr => by
    obtain ⟨l1, l2, l3, l4⟩ := hl
    obtain ⟨r1, r2, r3, r4⟩ := hr
    obtain ⟨a', ha⟩ := create_ok l2 r2
    obtain ⟨s', hs⟩ := create_ok l3 r3
    obtain ⟨c', hc⟩ := guard_ok l4 r4
    exact ⟨_, bind_of' hc (bind_of' (createId_name l1 r1) (bind_of' ha (bind_of' hs rfl)))⟩
  | .conversion n a, hl, hr => by
    obtain ⟨a', ha⟩ := create_ok hl.2 hr.2
    exact ⟨_, bind_of' (createId_texts hl.1 hr.1) (bind_of' ha rfl)⟩
  | .aggregate n vs, hl, hr => by
    have : ∃ r, createAll createAssociation (vs.getD []) = .ok r := createAll_ok fun v hv => by
      cases vs with
      | none => cases hv
      | some l =>
        obtain ⟨l1, l2⟩ := hl.2 l rfl v hv
        obtain ⟨r1, r2⟩ := hr.2 l rfl v hv
        obtain ⟨e, he⟩ := create_ok l2 r2
        exact ⟨_, bind_of' (createId_name l1 r1) (bind_of' he rfl)⟩
    obtain ⟨r, h⟩ := this
    exact ⟨_, bind_of' h (bind_of' (createId_texts hl.1 hr.1) rfl)⟩

theorem transition_ok {t : TransitionTree} (hl : t.Lexical) (hr : t.Readable) : ∃ c, createTransition t = .ok (⟨[t.target]⟩, c) ∧ createOrTrue t.condition = .ok c := by
  obtain ⟨c, hc⟩ := guard_ok hl.2 hr.2
  exact ⟨c, bind_of' (createId_name hl.1 hr.1) (bind_of' hc rfl), hc⟩

theorem statement_ok {t : StatementTree} (hl : t.Lexical) (hr : t.Readable) : ∃ a, createStatement t = .ok a := by
  cases t with
  | reset n => exact ⟨_, bind_of' (createId_name hl hr) rfl⟩
  | assignment n e =>
    obtain ⟨e', he⟩ := createS_ok hl.2 hr.2
    exact ⟨_, bind_of' (createId_name hl.1 hr.1) (bind_of' he rfl)⟩
  | «attribute» n a e =>
    obtain ⟨r1, r2, r3⟩ := hr
    obtain ⟨e', he⟩ := createS_ok hl.2 r2
    have : ∃ c, attributes.lookup a = some c := by
      simp only [List.mem_cons, List.not_mem_nil, or_false] at r3
      rcases r3 with rfl | rfl | rfl | rfl <;> exact ⟨_, rfl⟩
    obtain ⟨c, hc⟩ := this
    exact ⟨c ⟨[n]⟩ e', by simp only [createStatement, hc]; exact bind_of' (createId_name hl.1 r1) (bind_of' he rfl)⟩

theorem name_exists {i : ID} (hv : i.Valid) : ∃ p, i.name = .ok ⟨[p]⟩ ∧ ID.Valid ⟨[p]⟩ := by
  unfold ID.name
  cases hp : i.parts.getLast? with
  | none => exact absurd (List.getLast?_eq_none_iff.mp hp) hv.1
  | some p =>
    have h := hv.2 p (List.mem_of_getLast? hp)
    exact ⟨p, ofStr_name ⟨h.1, h.2.1, h.2.2.1, h.2.2.2⟩, by simp, by simpa using h⟩

theorem builtin_ok {i : ID} (hv : i.Valid) : ∃ q, qualifiedBuiltin i = .ok q := by
  obtain ⟨p, hp, hpv⟩ := name_exists hv
  unfold qualifiedBuiltin
  split
  · obtain ⟨q, hq, _⟩ := ID.C38_mul _ _ valid_builtins hpv
    exact ⟨q, bind_of' hp hq⟩
  · split
    · obtain ⟨q, hq, _⟩ := ID.C38_mul _ _ valid_internal hpv
      exact ⟨q, bind_of' hp hq⟩
    · exact ⟨i, rfl⟩

theorem selected_written : ∀ {t : Tree} {e : Expr}, t.isSelected → Written t e → ∃ p s, e = .sel false p s
  | .select _ _, _, _, h => by cases h; exact ⟨_, _, rfl⟩
  | .paren t, _, hs, h => by
    cases h with
    | paren h => exact selected_written (t := t) hs h

theorem selected_is : ∀ {t : STree} {e : Session.SExpr}, t.isSelected → SExprIs t e → ∃ p s, e = .plain (.sel false p s)
  | .plain t, e, hs, h => by
    cases e with
    | plain e =>
      obtain ⟨p, s, rfl⟩ := selected_written (t := t) hs h.1
      exact ⟨p, s, rfl⟩
    | _ => exact h.elim
  | .paren t, e, hs, h => selected_is (t := t) hs (by simpa only [SExprIs] using h)

theorem local_ok {t : LocalTree} (hl : t.Lexical) (hr : t.Readable) : ∃ d : Session.Decl M, createLocal t = .ok d := by
  cases t with
  | «variable» n ty init =>
    obtain ⟨l1, l2, l3⟩ := hl
    obtain ⟨r1, r2, r3⟩ := hr
    have ht := createId_texts l2 r2
    obtain ⟨q, hq⟩ := builtin_ok (createId_valid ht)
    have : ∃ e, createOpt createS init = .ok e := by
      cases init with
      | none => exact ⟨_, rfl⟩
      | some x =>
        obtain ⟨e, he⟩ := createS_ok (l3 x rfl) (r3 x rfl)
        exact ⟨some e, by simp only [createOpt, he]; rfl⟩
    obtain ⟨e, he⟩ := this
    exact ⟨_, bind_of' he (bind_of' (createId_name l1 r1) (bind_of' ht (bind_of' hq rfl)))⟩
  | «renaming» n ty x =>
    obtain ⟨l1, l2, l3⟩ := hl
    obtain ⟨r1, r2, r3, r4⟩ := hr
    have ht := createId_texts l2 r2
    obtain ⟨q, hq⟩ := builtin_ok (createId_valid ht)
    obtain ⟨e, he⟩ := createS_ok l3 r3
    obtain ⟨p, s, rfl⟩ := selected_is r4 (createS_is l3 he)
    exact ⟨_, bind_of' he (bind_of' (createId_name l1 r1) (bind_of' ht (bind_of' hq rfl)))⟩

theorem formal_ok {t : FormalTree} (hl : t.Lexical) (hr : t.Readable) : ∃ d : Session.Decl M, createFormal t = .ok d := by
  cases t with
  | channel n ps =>
    refine ⟨_, bind_of' (createId_name hl hr.1) (if_pos ?_)⟩
    cases ps with
    | nil => exact absurd rfl hr.2
    | cons p ps => cases p <;> simp
  | function n ps r =>
    obtain ⟨l1, l2, l3⟩ := hl
    obtain ⟨r1, r2, r3⟩ := hr
    obtain ⟨as, ha⟩ := createAll_ok (f := createParameter) (l := ps) fun p hp =>
      ⟨_, bind_of' (createId_name (l2 p hp).1 (r2 p hp).1) (createId_texts (l2 p hp).2 (r2 p hp).2)⟩
    exact ⟨_, bind_of' ha (bind_of' (createId_name l1 r1) (bind_of' (createId_texts l3 r3) rfl))⟩
  | privateType n => exact ⟨_, bind_of' (createId_name hl hr) rfl⟩

theorem state_ok {t : StateTree} (hl : t.Lexical) (hr : t.Readable) : ∃ s : Session.FullState M, createState t = .ok s := by
  obtain ⟨l1, l2⟩ := hl
  obtain ⟨r1, r2⟩ := hr
  cases hb : t.body with
  | none => exact ⟨⟨⟨[t.name]⟩, [], none, [], []⟩, by simp only [createState, hb]; exact bind_of' (createId_name l1 r1) rfl⟩
  | some b =>
    obtain ⟨m1, m2, m3, m4, m5⟩ := l2 b hb
    obtain ⟨s1, s2, s3, s4, s5, s6, s7⟩ := r2 b hb
    obtain ⟨ts, h1⟩ := createAll_ok (f := createTransition) fun x hx => by
      obtain ⟨c, h, _⟩ := transition_ok (m1 x hx) (s2 x hx)
      exact ⟨_, h⟩
    obtain ⟨c, h2, h2'⟩ := transition_ok m2 s3
    rw [s4] at h2'
    cases h2'
    have : ∃ x, createOpt createTransition b.exception = .ok x ∧ isUnconditional x = true := by
      cases hx : b.exception with
      | none => exact ⟨_, rfl, rfl⟩
      | some x =>
        obtain ⟨c, k1, k2⟩ := transition_ok (m3 x hx) (s5 x hx).1
        rw [(s5 x hx).2] at k2
        cases k2
        exact ⟨_, by simp only [createOpt, k1]; rfl, rfl⟩
    obtain ⟨x, h3, h3'⟩ := this
    obtain ⟨as, h4⟩ := createAll_ok fun x hx => statement_ok (m4 x hx) (s6 x hx)
    obtain ⟨ds, h5⟩ := createAll_ok (f := createLocal (M := M)) fun x hx => local_ok (m5 x hx) (s7 x hx)
    refine ⟨_, by
      simp only [createState, hb]
      refine bind_of' (createId_name l1 r1) ?_
      rw [if_neg (by rw [s1]; simp)]
      refine bind_of' h1 (bind_of' h2 (bind_of' h3 (bind_of' h4 (bind_of' h5 ?_))))
      exact if_pos (by rw [h3', hasDefault, List.getLast?_concat]; rfl)⟩

/-! ## The property -/

variable [DecidableEq M]

theorem createSession_parts {B : Session.Body M} {literals : Session.Dict (Typing.Ty M)} {h : List PyStr → Int} {package : ID} {t : SessionTree}
    {types : Session.Dict (Session.MType M)} {s : Session.FullSession M} (hs : createSession B literals h package t types = .ok s) :
    createUnproven package t types = .ok s ∧ s.Accepted B literals h := by
  obtain ⟨r, h1, h2⟩ := bind_ok' hs
  have h3 := h2
  unfold Session.FullSession.new at h2
  obtain ⟨p, _, h2⟩ := bind_ok' h2
  obtain ⟨d, _, h2⟩ := bind_ok' h2
  obtain ⟨v, _, h2⟩ := bind_ok' h2
  split at h2
  · cases h2
    exact ⟨h1, h3⟩
  · cases h2

/-- **C56**: a session created from a specification has the states, transitions, actions, declarations and parameters that are written, in this
order and with the meaning of the text; names are as written and not reserved, and the names at the end agree with those at the beginning.
Missing: if a name is declared more than once the last declaration counts (see `Collected` and `C56_declaration_counterexample`), likewise for the
fields of a message aggregate (`C56_field_counterexample`); descriptions; comprehensions, conversions and message aggregates within expressions. -/
theorem C56_session_partial (B : Session.Body M) (literals : Session.Dict (Typing.Ty M)) (h : List PyStr → Int) (package : ID) (t : SessionTree)
    (types : Session.Dict (Session.MType M)) (s : Session.FullSession M) (hp : package.Valid) (hl : t.Lexical)
    (hs : createSession B literals h package t types = .ok s) : SessionIs package types t s :=
  unproven_is hp hl (createSession_parts hs).1

/-- **C56**: a session created from a specification has passed all checks of C33 and C49. -/
theorem C56_checked (B : Session.Body M) (literals : Session.Dict (Typing.Ty M)) (h : List PyStr → Int) (package : ID) (t : SessionTree)
    (types : Session.Dict (Session.MType M)) (s : Session.FullSession M) (hs : createSession B literals h package t types = .ok s) :
    s.Accepted B literals h ∧ ∃ r, Session.new s.skeleton false = .ok r := by
  have ha := (createSession_parts hs).2
  refine ⟨ha, ?_⟩
  unfold Session.FullSession.Accepted Session.FullSession.new at ha
  obtain ⟨p, _, ha⟩ := bind_ok' ha
  obtain ⟨d, _, ha⟩ := bind_ok' ha
  obtain ⟨v, _, ha⟩ := bind_ok' ha
  split at ha
  · rename_i hc
    simp only [Bool.and_eq_true, List.isEmpty_iff] at hc
    exact ⟨s.skeleton, by unfold Session.new; simp [hc.1.1]⟩
  · cases ha

/-- The one state of a specification with the name `n`. -/
def OneState (t : SessionTree) (n : PyStr) : Prop :=
  ∃ pre u post, t.states = pre ++ u :: post ∧ u.name.lower = n.lower ∧ ∀ v ∈ pre ++ post, v.name.lower ≠ n.lower

/-- **C56**: if a session is created from a specification, the initial state, the final state and the target of every transition of every state
are names of states of the specification, each of exactly one. -/
theorem C56_targets (B : Session.Body M) (literals : Session.Dict (Typing.Ty M)) (h : List PyStr → Int) (package : ID) (t : SessionTree)
    (types : Session.Dict (Session.MType M)) (s : Session.FullSession M) (hp : package.Valid) (hl : t.Lexical)
    (hs : createSession B literals h package t types = .ok s) :
    OneState t t.initial ∧ OneState t t.final ∧
      ∀ u ∈ t.states, ∀ b, u.body = some b → ∀ x ∈ b.conditional ++ [b.final], OneState t x.target := by
  have hi := C56_session_partial B literals h package t types s hp hl hs
  obtain ⟨_, h1, h2, h3, h4, _⟩ := (Session.C33_accepted s.skeleton false).mp (C56_checked B literals h package t types s hs).2
  have hst : List.Forall₂ (fun (u : StateTree) (x : Session.State) => x.identifier.key = nameKey u.name) t.states s.skeleton.states := by
    have := hi.states
    show List.Forall₂ _ t.states (s.states.map _)
    generalize t.states = r at this ⊢
    generalize s.states = l at this ⊢
    induction this with
    | nil => exact .nil
    | cons h _ ih => exact .cons (called_key h.1) ih
  have hpw : t.states.Pairwise fun a b => a.name.lower ≠ b.name.lower := by
    clear hl hs hi h1 h2 h3
    generalize t.states = r at hst ⊢
    generalize s.skeleton.states = l at hst h4
    induction hst with
    | nil => exact .nil
    | cons h hr ih =>
      rw [List.pairwise_cons] at h4 ⊢
      refine ⟨fun v hv => ?_, ih h4.2⟩
      obtain ⟨y, hy, hk⟩ := forall₂_left hr v hv
      have := h4.1 y hy
      rw [Session.same_iff, h, hk] at this
      exact fun e => this (by rw [nameKey, nameKey, e])
  have one : ∀ (n : PyStr) (i : ID), Called n i → s.skeleton.Declares i → OneState t n := by
    rintro n i hn ⟨x, hx, hsame⟩
    obtain ⟨u, hu, hk⟩ := forall₂_right hst x hx
    have hun : u.name.lower = n.lower := by
      have := Session.same_iff.mp hsame
      rw [hk, called_key hn] at this
      simpa [nameKey] using this
    obtain ⟨pre, post, hsplit⟩ := List.append_of_mem hu
    refine ⟨pre, u, post, hsplit, hun, fun v hv => ?_⟩
    rw [hsplit, List.pairwise_append, List.pairwise_cons] at hpw
    rw [← hun]
    rcases List.mem_append.mp hv with hv | hv
    · exact hpw.2.2 v hv u (by simp)
    · exact fun e => hpw.2.1.1 v hv e.symm
  refine ⟨one _ _ hi.initial h1, one _ _ hi.final h2, fun u hu b hb x hx => ?_⟩
  obtain ⟨y, hy, hui⟩ := forall₂_left hi.states u hu
  have hub := hui.2
  rw [hb] at hub
  obtain ⟨z, hz, hxz⟩ := forall₂_left hub.2.1 x hx
  exact one _ _ hxz.1 (h3 _ (List.mem_map.mpr ⟨y, hy, rfl⟩) z.1 (List.mem_map.mpr ⟨z, hz, rfl⟩))

/-- **C56**: the parser creates a session for every specification with names that are not reserved, names at the end as at the beginning,
supported expressions (see `Readable`), renamings of selected components and channels with a direction; the remaining checks are those of C33 and C49. -/
theorem C56_created_partial (B : Session.Body M) (literals : Session.Dict (Typing.Ty M)) (h : List PyStr → Int) (package : ID) (t : SessionTree)
    (types : Session.Dict (Session.MType M)) (hp : package.Valid) (hlen : package.parts.length = 1) (hl : t.Lexical) (hr : t.Readable) :
    ∃ s : Session.FullSession M, SessionIs package types t s ∧
      createSession B literals h package t types = Session.FullSession.new B literals h s := by
  have hnv : ID.Valid ⟨[t.name]⟩ := ⟨by simp, by simpa [IsName] using hl.name⟩
  obtain ⟨q, hq, _, hqp⟩ := ID.C38_mul package ⟨[t.name]⟩ hp hnv
  obtain ⟨ss, h1⟩ := createAll_ok (f := createState (M := M)) fun x hx => state_ok (hl.states x hx) (hr.states x hx)
  obtain ⟨ds, h2⟩ := createAll_ok (f := createLocal (M := M)) fun x hx => local_ok (hl.declarations x hx) (hr.declarations x hx)
  obtain ⟨ps, h3⟩ := createAll_ok (f := createFormal (M := M)) fun x hx => formal_ok (hl.parameters x hx) (hr.parameters x hx)
  have hpk : ∃ p, (⟨q, ⟨[t.initial]⟩, ⟨[t.final]⟩, ss, unique ds, unique ps, types⟩ : Session.FullSession M).package = .ok p := by
    unfold Session.FullSession.package
    rw [if_neg (by simp [hqp, hlen])]
    obtain ⟨r, k1, k2, _⟩ := ID.C38_parent_name package ⟨[t.name]⟩ hp hnv rfl
    rw [hq] at k1
    cases k1
    exact ⟨_, k2⟩
  obtain ⟨p, hpk⟩ := hpk
  have hu : createUnproven package t types = .ok (⟨q, ⟨[t.initial]⟩, ⟨[t.final]⟩, ss, unique ds, unique ps, types⟩ : Session.FullSession M) := by
    simp only [createUnproven]
    rw [if_neg (by rw [hr.endName]; simp)]
    exact bind_of' (createId_name hl.name hr.name) (bind_of' hq (bind_of' (createId_name hl.initial hr.initial)
      (bind_of' (createId_name hl.final hr.final) (bind_of' h1 (bind_of' h2 (bind_of' h3 (bind_of' hpk rfl)))))))
  exact ⟨_, unproven_is hp hl hu, bind_of' hu rfl⟩

/-- **C52**: every expression that is created has the structure of its text: operators, operands, names (spelled as they are written) and
literals. -/
theorem C52_structure (m : Mode) (t : Tree) (e : Expr) (hl : Lexical t) (h : create m t = .ok e) : Written t e :=
  create_written t e hl h

example : ∃ e, Lexical exTree ∧ create .bool exTree = .ok e := ⟨_, exTree_lexical, rfl⟩

end Verif.SpecParser
