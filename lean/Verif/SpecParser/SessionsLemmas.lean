import Verif.SpecParser.SessionsSpec
import Verif.SpecParser.TreeProps
import Verif.SpecParser.PackageLemmas
import Verif.Session.DeclLemmas

/-! # Lemmas for property C56 -/

namespace Verif.SpecParser
open Verif

variable {M : Type}

/-! ## Names -/

theorem createId_texts {id : IdNode} (h : id.Lexical) (hf : id.Free) : createId id = .ok ⟨id.texts⟩ := by
  cases id with
  | unqualified t => rw [createId, if_neg hf, ofStr_name h]; rfl
  | qualified p n =>
    cases p with
    | none => rw [createId, ofStr_name h]; rfl
    | some p =>
      obtain ⟨h1, h2⟩ := h
      rw [createId, ofStr_name h2]
      show (ID.ofStr p).bind _ = _
      rw [ofStr_name h1]
      show ID.mulStr _ _ = _
      have h3 : (ID.mk [n]).str = n := rfl
      have h4 : (ID.mk [p]).str = p := rfl
      rw [ID.mulStr, h3, h4, if_neg (by simpa using h2.1)]
      show ID.ofStr (p ++ [':', ':'] ++ n) = _
      rw [List.append_assoc, ID.ofStr]
      show ID.checked (splitSep (p ++ ':' :: ':' :: n)) = _
      rw [splitSep_append _ _ h1.2.2.2, splitSep_noColon _ h2.2.2.2]
      exact (ID.checked_ok_iff _ _).2 ⟨rfl, by simp, by
        intro q hq
        simp only [List.mem_cons, List.not_mem_nil, or_false] at hq
        rcases hq with rfl | rfl
        · exact h1
        · exact h2⟩

theorem createId_spelled {id : IdNode} {i : ID} (hl : id.Lexical) (h : createId id = .ok i) : Spelled id i := by
  rw [createId_texts hl (createId_free h)] at h
  rw [← Except.ok.inj h]
  rfl

theorem createId_called {n : PyStr} {i : ID} (hl : IsName n) (h : createId (.unqualified n) = .ok i) : Called n i :=
  ⟨createId_spelled (id := .unqualified n) hl h, createId_free h⟩

theorem createId_name {n : PyStr} (hl : IsName n) (hf : FreeName n) : createId (.unqualified n) = .ok ⟨[n]⟩ :=
  createId_texts (id := .unqualified n) hl hf

theorem called_key {n : PyStr} {i : ID} (h : Called n i) : i.key = nameKey n := by
  rw [ID.key, h.1]; rfl

/-! ## Structure of expressions -/

theorem binop_expr {m m' : Mode} {op : Op} {c : Expr → Expr → Expr} (h : binop m op = .ok (c, m')) (a b : Expr) : c a b = op.expr a b := by
  cases m <;> cases op <;> first | (cases h; done) | (cases h; rfl)

mutual

theorem create_written {m : Mode} : ∀ (t : Tree) (e : Expr), Lexical t → create m t = .ok e → Written t e
  | .numeral s, e, hl, h => by
    obtain ⟨n, hn⟩ := (by simpa [Lexical] using hl : ∃ n, Numeral s n)
    simp only [create] at h
    split at h
    · cases h
    · obtain ⟨b, rfl⟩ := createNumeral_value hn h
      exact .numeral hn
  | .paren t, e, hl, h => by
    simp only [create] at h
    exact .paren (create_written t e (by simpa [Lexical] using hl) h)
  | .var id, e, hl, h => by
    simp only [create] at h
    obtain ⟨i, h1, rfl⟩ := map_ok' h
    exact .var (createId_spelled (by simpa [Lexical] using hl) h1)
  | .attribute k t, e, hl, h => by
    simp only [create] at h
    obtain ⟨a, h1, h2⟩ := bind_ok' h
    have he : e = .attr false k a := by
      unfold createAttribute at h2
      split at h2 <;> first | (cases h2; done) | (cases h2; rfl)
    subst he
    exact .attribute (create_written t a (by simpa [Lexical] using hl) h1)
  | .aggregate ts, e, hl, h => by
    simp only [create] at h
    split at h
    · cases h
    · obtain ⟨es, h1, rfl⟩ := map_ok' h
      exact .aggregate (createL_written ts es (by simpa [Lexical] using hl) h1)
  | .string s, e, hl, h => by
    obtain ⟨u, rfl, hu⟩ := (by simpa [Lexical] using hl : ∃ u, s = '"' :: (u ++ ['"']) ∧ '"' ∉ u)
    simp only [create] at h
    split at h
    · unfold createString at h
      have hs : splitChar '"' ('"' :: (u ++ ['"'])) = [[], u, []] := by
        have h1 := splitChar_append (c := '"') (s := []) (t := u ++ ['"']) (by simp)
        rw [List.nil_append] at h1
        rw [h1, splitChar_append hu]
        rfl
      rw [hs] at h
      cases h
      exact .string u
    · cases h
  | .call id ts, e, hl, h => by
    simp only [create] at h
    obtain ⟨i, h1, h2⟩ := bind_ok' h
    obtain ⟨es, h3, rfl⟩ := map_ok' h2
    obtain ⟨l1, l2⟩ := (by simpa [Lexical] using hl : id.Lexical ∧ LexicalL ts)
    exact .call (createId_spelled l1 h1) (createL_written ts es l2 h3)
  | .quantified ex p it pr, e, hl, h => by
    simp only [create] at h
    split at h
    · cases h
    · obtain ⟨i, h1, h⟩ := bind_ok' h
      obtain ⟨a, h2, h⟩ := bind_ok' h
      obtain ⟨b, h3, rfl⟩ := map_ok' h
      obtain ⟨l1, l2, l3⟩ := (by simpa [Lexical] using hl : p.Lexical ∧ Lexical it ∧ Lexical pr)
      have i1 := create_written it a l2 h2
      have i2 := create_written pr b l3 h3
      cases ex with
      | false => exact .all (createId_spelled l1 h1) i1 i2
      | true => exact .exist (createId_spelled l1 h1) i1 i2
  | .negation t, e, hl, h => by
    simp only [create] at h
    split at h
    · cases h
    · obtain ⟨a, h1, h2⟩ := bind_ok' h
      have ih := create_written t a (by simpa [Lexical] using hl) h1
      unfold negated at h2
      split at h2
      · cases h2
        exact .negation ih
      · cases h2
  | .concatenation l r, e, hl, h => by
    simp only [create] at h
    split at h
    · obtain ⟨a, h1, h⟩ := bind_ok' h
      obtain ⟨b, h2, h⟩ := bind_ok' h
      obtain ⟨l1, l2⟩ := (by simpa [Lexical] using hl : Lexical l ∧ Lexical r)
      have i1 := create_written l a l1 h1
      have i2 := create_written r b l2 h2
      unfold concatenated at h
      split at h
      · cases h
        exact .concatenation i1 i2
      · cases h
    · cases h
  | .select t s, e, hl, h => by
    simp only [create] at h
    obtain ⟨a, h1, h2⟩ := bind_ok' h
    obtain ⟨i, h3, rfl⟩ := map_ok' h2
    obtain ⟨l1, l2⟩ := (by simpa [Lexical] using hl : Lexical t ∧ s.Lexical)
    exact .select (create_written t a l1 h1) (createId_spelled l2 h3)
  | .binop op l r, e, hl, h => by
    simp only [create] at h
    obtain ⟨⟨c, m'⟩, h1, h⟩ := bind_ok' h
    obtain ⟨a, h2, h⟩ := bind_ok' h
    obtain ⟨b, h3, rfl⟩ := map_ok' h
    obtain ⟨l1, l2⟩ := (by simpa [Lexical] using hl : Lexical l ∧ Lexical r)
    have i1 := create_written l a l1 h2
    have i2 := create_written r b l2 h3
    simp only
    rw [binop_expr h1]
    exact .binop i1 i2

theorem createL_written {m : Mode} : ∀ (ts : List Tree) (es : List Expr), LexicalL ts → createL m ts = .ok es → WrittenL ts es
  | [], es, hl, h => by
    cases h
    exact .nil
  | t :: ts, es, hl, h => by
    simp only [createL] at h
    obtain ⟨a, h1, h⟩ := bind_ok' h
    obtain ⟨as, h2, rfl⟩ := map_ok' h
    obtain ⟨l1, l2⟩ := (by simpa [LexicalL] using hl : Lexical t ∧ LexicalL ts)
    exact .cons (create_written t a l1 h1) (createL_written ts as l2 h2)

end

theorem create_is {m : Mode} {t : Tree} {e : Expr} (hl : Lexical t) (h : create m t = .ok e) : ExprIs t e :=
  ⟨create_written t e hl h, fun D ρ v => C52_value t e hl h D ρ v⟩

theorem guard_is {c : Option Tree} {e : Expr} (hl : ∀ t, c = some t → Lexical t) (h : createOrTrue c = .ok e) : GuardIs c e := by
  cases c with
  | none => cases h; rfl
  | some t => exact create_is (hl t rfl) h

/-! ## Lists -/

theorem createAll_is {α β : Type} {f : α → Py β} {R : α → β → Prop} : ∀ {l : List α} {r : List β}, createAll f l = .ok r →
    (∀ x ∈ l, ∀ y, f x = .ok y → R x y) → List.Forall₂ R l r
  | [], r, h, _ => by cases h; exact .nil
  | x :: l, r, h, hR => by
    simp only [createAll] at h
    obtain ⟨y, h1, h⟩ := bind_ok' h
    obtain ⟨r, h2, rfl⟩ := map_ok' h
    exact .cons (hR x (by simp) y h1) (createAll_is h2 fun z hz => hR z (by simp [hz]))

theorem createAll_ok {α β : Type} {f : α → Py β} : ∀ {l : List α}, (∀ x ∈ l, ∃ y, f x = .ok y) → ∃ r, createAll f l = .ok r
  | [], _ => ⟨[], rfl⟩
  | x :: l, h => by
    obtain ⟨y, h1⟩ := h x (by simp)
    obtain ⟨r, h2⟩ := createAll_ok fun z hz => h z (List.mem_cons_of_mem _ hz)
    exact ⟨y :: r, by simp only [createAll, h1, h2]; rfl⟩

theorem forall₂_split {α β : Type} {R : α → β → Prop} : ∀ {pre : List β} {y : β} {post : List β} {l : List α},
    List.Forall₂ R l (pre ++ y :: post) → ∃ pre' x post', l = pre' ++ x :: post' ∧ R x y ∧ List.Forall₂ R post' post
  | [], y, post, l, h => by
    cases h with
    | cons h1 h2 => exact ⟨[], _, _, rfl, h1, h2⟩
  | z :: pre, y, post, l, h => by
    cases h with
    | cons h1 h2 =>
      obtain ⟨p, x, q, rfl, h3⟩ := forall₂_split h2
      exact ⟨_ :: p, x, q, rfl, h3⟩

theorem forall₂_left {α β : Type} {R : α → β → Prop} {l : List α} {r : List β} (h : List.Forall₂ R l r) : ∀ x ∈ l, ∃ y ∈ r, R x y := by
  induction h with
  | nil => intro x hx; cases hx
  | cons h _ ih =>
    intro x hx
    rcases List.mem_cons.mp hx with rfl | hx
    · exact ⟨_, by simp, h⟩
    · obtain ⟨y, hy, h⟩ := ih x hx
      exact ⟨y, by simp [hy], h⟩

theorem forall₂_right {α β : Type} {R : α → β → Prop} {l : List α} {r : List β} (h : List.Forall₂ R l r) : ∀ y ∈ r, ∃ x ∈ l, R x y := by
  induction h with
  | nil => intro x hx; cases hx
  | cons h _ ih =>
    intro x hx
    rcases List.mem_cons.mp hx with rfl | hx
    · exact ⟨_, by simp, h⟩
    · obtain ⟨y, hy, h⟩ := ih x hx
      exact ⟨y, by simp [hy], h⟩

theorem forall₂_imp {α β : Type} {R S : α → β → Prop} (hi : ∀ a b, R a b → S a b) {l : List α} {r : List β} (h : List.Forall₂ R l r) :
    List.Forall₂ S l r := by
  induction h with
  | nil => exact .nil
  | cons h _ ih => exact .cons (hi _ _ h) ih

theorem forall₂_concat {α β : Type} {R : α → β → Prop} {l : List α} {r : List β} (h : List.Forall₂ R l r) {a : α} {b : β} (hab : R a b) :
    List.Forall₂ R (l ++ [a]) (r ++ [b]) := by
  induction h with
  | nil => exact .cons hab .nil
  | cons h _ ih => exact .cons h ih

theorem forall₂_pairwise {α β : Type} {R : α → β → Prop} {P : α → α → Prop} {Q : β → β → Prop}
    (hi : ∀ a b x y, R a x → R b y → P a b → Q x y) {l : List α} {r : List β} (h : List.Forall₂ R l r) (hp : l.Pairwise P) : r.Pairwise Q := by
  induction h with
  | nil => exact .nil
  | cons h1 h2 ih =>
    rw [List.pairwise_cons] at hp ⊢
    refine ⟨fun y hy => ?_, ih hp.2⟩
    obtain ⟨x, hx, hR⟩ := forall₂_right h2 y hy
    exact hi _ _ _ _ h1 hR (hp.1 x hx)

/-! ## Dictionaries -/

/-- The entries of a dictionary made of a list of pairs: each one is the last of its key. -/
theorem merge_last {α : Type} (l : List (ID × α)) : (Session.Dict.merge [] l).Pairwise (fun a b => a.1.key ≠ b.1.key) ∧
    ∀ e ∈ Session.Dict.merge [] l, ∃ pre x post, l = pre ++ x :: post ∧ x.1.key = e.1.key ∧ x.2 = e.2 ∧ ∀ y ∈ post, y.1.key ≠ x.1.key := by
  have hset : ∀ (k : ID) (v : α) (d : Session.Dict α), d.Pairwise (fun a b => a.1.key ≠ b.1.key) →
      (Session.Dict.set k v d).Pairwise (fun a b => a.1.key ≠ b.1.key) ∧
      ∀ e ∈ Session.Dict.set k v d, (e.1.key = k.key ∧ e.2 = v) ∨ (e ∈ d ∧ e.1.key ≠ k.key) := by
    intro k v d hd
    induction d with
    | nil =>
      refine ⟨by simp [Session.Dict.set], fun e he => ?_⟩
      simp only [Session.Dict.set, List.mem_singleton] at he
      subst he
      exact .inl ⟨rfl, rfl⟩
    | cons a d ih =>
      rw [List.pairwise_cons] at hd
      obtain ⟨ih1, ih2⟩ := ih hd.2
      unfold Session.Dict.set
      by_cases hk : a.1.eq k = true
      · rw [if_pos hk]
        have hk' := (ID.eq_iff_key _ _).mp hk
        refine ⟨List.pairwise_cons.mpr ⟨fun b hb => hd.1 b hb, hd.2⟩, fun e he => ?_⟩
        rcases List.mem_cons.mp he with rfl | he
        · exact .inl ⟨hk', rfl⟩
        · exact .inr ⟨by simp [he], fun h => hd.1 e he (hk'.trans h.symm)⟩
      · rw [if_neg hk]
        have hk' : a.1.key ≠ k.key := fun h => hk ((ID.eq_iff_key _ _).mpr h)
        refine ⟨List.pairwise_cons.mpr ⟨fun b hb => ?_, ih1⟩, fun e he => ?_⟩
        · rcases ih2 b hb with ⟨h, _⟩ | ⟨h, _⟩
          · rw [h]; exact hk'
          · exact hd.1 b h
        · rcases List.mem_cons.mp he with rfl | he
          · exact .inr ⟨by simp, hk'⟩
          · rcases ih2 e he with h | ⟨h, h'⟩
            · exact .inl h
            · exact .inr ⟨by simp [h], h'⟩
  have key : ∀ (l done : List (ID × α)) (d : Session.Dict α), d.Pairwise (fun a b => a.1.key ≠ b.1.key) →
      (∀ e ∈ d, ∃ pre x post, done = pre ++ x :: post ∧ x.1.key = e.1.key ∧ x.2 = e.2 ∧ ∀ y ∈ post, y.1.key ≠ x.1.key) →
      (Session.Dict.merge d l).Pairwise (fun a b => a.1.key ≠ b.1.key) ∧
      ∀ e ∈ Session.Dict.merge d l, ∃ pre x post, done ++ l = pre ++ x :: post ∧ x.1.key = e.1.key ∧ x.2 = e.2 ∧ ∀ y ∈ post, y.1.key ≠ x.1.key := by
    intro l
    induction l with
    | nil =>
      intro done d h1 h2
      rw [List.append_nil]
      exact ⟨h1, h2⟩
    | cons a l ih =>
      intro done d h1 h2
      obtain ⟨h3, h4⟩ := hset a.1 a.2 d h1
      have := ih (done ++ [a]) (Session.Dict.set a.1 a.2 d) h3 (fun e he => by
        rcases h4 e he with ⟨h5, h6⟩ | ⟨h5, h6⟩
        · exact ⟨done, a, [], rfl, h5.symm, h6.symm, by simp⟩
        · obtain ⟨pre, x, post, rfl, h7, h8, h9⟩ := h2 e h5
          refine ⟨pre, x, post ++ [a], by simp, h7, h8, fun y hy => ?_⟩
          rcases List.mem_append.mp hy with hy | hy
          · exact h9 y hy
          · rw [List.mem_singleton.mp hy, h7]
            exact fun h => h6 h.symm)
      rw [List.append_assoc] at this
      exact this
  exact key l [] [] .nil (by simp)

/-- A list whose elements are put into a dictionary. -/
theorem collected {α β : Type} {key : α → List PyStr} {R : α → ID × β → Prop} {ws : List α} {ds : List (ID × β)} (h : List.Forall₂ R ws ds)
    (hk : ∀ w d, R w d → d.1.key = key w) (hR : ∀ w i j d, R w (i, d) → j.key = i.key → R w (j, d)) :
    Collected key (fun v => v.1.key) R ws (Session.Dict.merge [] ds) := by
  obtain ⟨h1, h2⟩ := merge_last ds
  refine ⟨h1, fun v hv => ?_, fun w hw => ?_, fun hd => ?_⟩
  · obtain ⟨pre, x, post, rfl, h3, h4, h5⟩ := h2 v hv
    obtain ⟨p, w, q, rfl, h6, h7⟩ := forall₂_split h
    refine ⟨p, w, q, rfl, (hk _ _ h6).symm.trans h3, ?_, fun u hu => ?_⟩
    · obtain ⟨xi, xd⟩ := x
      obtain ⟨vi, vd⟩ := v
      simp only at h3 h4
      subst h4
      exact hR _ _ _ _ h6 h3.symm
    · obtain ⟨y, hy, hr⟩ := forall₂_left h7 u hu
      rw [← hk _ _ hr, ← hk _ _ h6]
      exact h5 y hy
  · obtain ⟨d, hd, hr⟩ := forall₂_left h w hw
    obtain ⟨e, he, hx⟩ := (Session.merge_keys [] ds d.1.key).mpr (.inr ⟨d, hd, rfl⟩)
    exact ⟨e, he, hx.trans (hk _ _ hr)⟩
  · have hp : ds.Pairwise fun a b => a.1.key ≠ b.1.key :=
      forall₂_pairwise (fun a b x y hx hy hn => by rw [hk _ _ hx, hk _ _ hy]; exact hn) h hd
    rw [Session.merge_fresh [] ds hp]
    exact h

/-- Declarations that are put into a dictionary. -/
theorem collected_unique {α : Type} {key : α → List PyStr} {R : α → Session.Decl M → Prop} {ws : List α} {ds : List (Session.Decl M)}
    (h : List.Forall₂ R ws ds) (hk : ∀ w d, R w d → d.id.key = key w) : Collected key declName R ws (unique ds) := by
  have h0 : List.Forall₂ (fun w (e : ID × Session.Decl M) => R w e.2 ∧ e.1.key = e.2.id.key) ws (ds.map fun d => (d.id, d)) := by
    induction h with
    | nil => exact .nil
    | cons h _ ih => exact .cons ⟨h, rfl⟩ ih
  obtain ⟨h1, h2, h3, h4⟩ := collected (key := key) h0 (fun w d h => h.2.trans (hk _ _ h.1)) (fun w i j d h hj => ⟨h.1, hj.trans h.2⟩)
  haveI : DecidableEq M := fun _ _ => Classical.propDecidable _
  have hn : ∀ e ∈ Session.declDict ds, e.1.key = declName e.2 := fun e he => (Session.declDict_mem he).2
  refine ⟨?_, fun v hv => ?_, fun w hw => ?_, fun hd => ?_⟩
  · rw [unique, List.pairwise_map]
    exact h1.imp_of_mem fun ha hb h => by rw [← hn _ ha, ← hn _ hb]; exact h
  · obtain ⟨e, he, rfl⟩ := List.mem_map.mp hv
    obtain ⟨p, w, q, h5, h6, h7, h8⟩ := h2 e he
    exact ⟨p, w, q, h5, h6.trans (hn e he), h7.1, h8⟩
  · obtain ⟨e, he, hx⟩ := h3 w hw
    exact ⟨e.2, List.mem_map.mpr ⟨e, he, rfl⟩, (hn e he).symm.trans hx⟩
  · have h9 := h4 hd
    have h10 : ∀ {l : List α} {r : List (ID × Session.Decl M)}, List.Forall₂ (fun w (e : ID × Session.Decl M) => R w e.2 ∧ e.1.key = e.2.id.key) l r →
        List.Forall₂ R l (r.map (·.2)) := by
      intro l r h
      induction h with
      | nil => exact .nil
      | cons h _ ih => exact .cons h.1 ih
    exact h10 h9

end Verif.SpecParser
