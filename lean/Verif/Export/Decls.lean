import Verif.Export.Lemmas
import Verif.Export.Unique

/-! # Documents of types -/

namespace Verif.Export

open Verif Verif.Types

theorem text_eq (i : ID) : i.str = text i := by
  unfold ID.str text
  generalize i.parts = ps
  induction ps with
  | nil => rfl
  | cons p ps ih =>
    cases ps with
    | nil => simp [joinSep]
    | cons q ps =>
      rw [joinSep, ih]
      simp [List.intersperse]

theorem str_inj {a b : ID} (ha : GoodID a) (hb : GoodID b) (h : a.str = b.str) : a = b := by
  have h1 := split_join a.parts ha.1 (fun p hp => (ha.2 p hp).2)
  have h2 := split_join b.parts hb.1 (fun p hp => (hb.2 p hp).2)
  unfold ID.str at h
  rw [h, h2] at h1
  cases a; cases b; simp only at h1; rw [h1]

theorem strs_nodup (ks : List ID) (h : GoodKeys ks) : (ks.map ID.str).Pairwise (· ≠ ·) := by
  rw [List.pairwise_map]
  refine List.Pairwise.imp_of_mem ?_ h.2
  intro a b ha hb hab hs
  rw [str_inj (h.1 a ha) (h.1 b hb) hs] at hab
  rw [(ID.eq_iff_key b b).2 rfl] at hab
  cases hab

theorem put_new (d : List (PyStr × Json)) (k : PyStr) (v : Json) (h : ∀ e ∈ d, e.1 ≠ k) : put d k v = d ++ [(k, v)] := by
  induction d with
  | nil => rfl
  | cons e d ih =>
    obtain ⟨k', v'⟩ := e
    have := h (k', v') (by simp)
    simp only [put, if_neg this, List.cons_append]
    rw [ih (fun e he => h e (by simp [he]))]

theorem comprehension_eq (l : List (PyStr × Json)) (h : (l.map (·.1)).Pairwise (· ≠ ·)) : comprehension l = l := by
  have : ∀ (l d : List (PyStr × Json)), ((d ++ l).map (·.1)).Pairwise (· ≠ ·) →
      l.foldl (fun d kv => put d kv.1 kv.2) d = d ++ l := by
    intro l
    induction l with
    | nil => intro d _; simp
    | cons e l ih =>
      intro d hd
      rw [List.foldl_cons, put_new d e.1 e.2, ih]
      · simp
      · simpa using hd
      · intro x hx
        rw [List.map_append, List.pairwise_append] at hd
        exact hd.2.2 _ (List.mem_map_of_mem hx) _ (by simp)
  exact this l [] (by simpa using h)

theorem parent_ok (i : ID) (h : 2 ≤ i.parts.length)
    (hp : ∀ p ∈ i.parts, p ≠ [] ∧ ' ' ∉ p ∧ '.' ∉ p ∧ ':' ∉ p) : i.parent = .ok ⟨i.parts.dropLast⟩ := by
  refine ID.checked_ok ⟨i.parts.dropLast⟩ ⟨?_, fun p h => hp p (List.dropLast_subset _ h)⟩
  intro he
  have := congrArg List.length he
  simp only [List.length_dropLast, List.length_nil] at this
  omega

theorem link_json (l : Dot.Link) : ∃ j, (linkVal l).serialize = .ok j ∧ DescribesLink l j := by
  obtain ⟨c, hc, dc⟩ := expr_json l.condition
  obtain ⟨s, hs, ds⟩ := expr_json l.size
  obtain ⟨f, hf, df⟩ := expr_json l.first
  have field : ∀ i, valueOf (fieldVal i) = .ok (tagged "Field".toList [("identifier".toList, idJson i)]) := fun _ => rfl
  have hfield : ∀ i, DescribesField i (tagged "Field".toList [("identifier".toList, idJson i)]) := fun i =>
    ⟨hasKind_tagged "Field" _, _, by rw [part_tagged]; rfl, rfl⟩
  refine ⟨tagged "Link".toList [("source".toList, tagged "Field".toList [("identifier".toList, idJson l.source)]),
    ("target".toList, tagged "Field".toList [("identifier".toList, idJson l.target)]),
    ("condition".toList, c), ("size".toList, s), ("first".toList, f)], obj_json _ _ ?_, hasKind_tagged "Link" _,
    ⟨_, by rw [part_tagged]; rfl, hfield _⟩, ⟨_, by rw [part_tagged]; rfl, hfield _⟩, ⟨c, by rw [part_tagged]; rfl, dc⟩,
    ⟨s, by rw [part_tagged]; rfl, ds⟩, f, by rw [part_tagged]; rfl, df⟩
  refine attrs_keep _ _ _ (by decide) (field _) (attrs_keep _ _ _ (by decide) (field _)
    (attrs_keep _ _ _ (by decide) ((value_expr _).trans hc) (attrs_keep _ _ _ (by decide) ((value_expr _).trans hs)
    (attrs_keep _ _ _ (by decide) ((value_expr _).trans hf) (attrs_skip _ _ _ (by decide))))))

theorem mapM_each {α β : Type} {f : α → Py β} {R : α → β → Prop} (l : List α)
    (h : ∀ a ∈ l, ∃ b, f a = .ok b ∧ R a b) : ∃ bs, l.mapM f = .ok bs ∧ Each R l bs := by
  induction l with
  | nil => exact ⟨[], rfl, rfl⟩
  | cons a l ih =>
    obtain ⟨b, hb, hr⟩ := h a (by simp)
    obtain ⟨bs, hbs, hrs⟩ := ih (fun a ha => h a (by simp [ha]))
    exact ⟨b :: bs, by rw [List.mapM_cons, hb, hbs]; rfl, b, bs, rfl, hr, hrs⟩

theorem size_num {s : Expr} {n : Num} (h : HasSize s n) : scalarSize s = .ok n := by
  simp only [scalarSize, HasSize] at h ⊢
  rw [h]; rfl

theorem num_json (n : Num) : ∃ j, exprJson n.expr = .ok j ∧ DescribesNum n j := expr_json n.expr

theorem entry_keys {β : Type} {R : β → Json → Prop} (l : List (ID × β)) (d) (h : Each (Entry R) l d) :
    d.map (·.1) = l.map (fun a => a.1.str) := by
  induction l generalizing d with
  | nil => simp only [Each] at h; subst h; rfl
  | cons a l ih =>
    obtain ⟨e, es, rfl, h1, h2⟩ := h
    simp only [List.map_cons, ih es h2, h1.1, text_eq]

theorem decl_json (d : Decl) (hg : GoodDecl d) : ∃ j, d.serialize = .ok j ∧ DescribesDecl d j := by
  cases d with
  | modular i m =>
    obtain ⟨j, h, hd⟩ := expr_json m
    have h : exprJson m = .ok j := h
    exact ⟨_, by simp only [Decl.serialize, h]; rfl, hasKind_tagged "ModularInteger" _, ⟨_, by rw [part_tagged]; rfl, rfl⟩,
      j, by rw [part_tagged]; rfl, hd⟩
  | range i _ _ s f l =>
    obtain ⟨n, hn⟩ := hg
    obtain ⟨jf, hf, df⟩ := num_json f
    obtain ⟨jl, hl, dl⟩ := num_json l
    obtain ⟨js, hs, ds⟩ := num_json n
    exact ⟨_, by simp only [Decl.serialize, hf, hl, size_num hn, hs, bind, Except.bind]; rfl,
      hasKind_tagged "RangeInteger" _, ⟨_, by rw [part_tagged]; rfl, rfl⟩,
      ⟨jf, by rw [part_tagged]; rfl, df⟩, ⟨jl, by rw [part_tagged]; rfl, dl⟩, js, n, by rw [part_tagged]; rfl, hn, ds⟩
  | enum i ls s v =>
    obtain ⟨hk, n, hn⟩ := hg
    obtain ⟨js, hs, ds⟩ := num_json n
    obtain ⟨d, hd, dd⟩ := mapM_each (f := fun (x : ID × Num) => do
      let j ← exprJson x.2.expr
      return (x.1.str, j)) (R := Entry DescribesNum) ls (fun a _ => by
        obtain ⟨j, hj, dj⟩ := num_json a.2
        exact ⟨(a.1.str, j), by rw [hj]; rfl, text_eq _, dj⟩)
    have hd : literalsJson ls = .ok d := hd
    have hc : comprehension d = d := comprehension_eq d (by
      rw [entry_keys ls d dd]
      have := strs_nodup _ hk
      rwa [List.map_map] at this)
    exact ⟨_, by simp only [Decl.serialize, hd, size_num hn, hs, hc, bind, Except.bind]; rfl,
      hasKind_tagged "Enumeration" _, ⟨_, by rw [part_tagged]; rfl, rfl⟩,
      ⟨d, by rw [part_tagged]; rfl, dd⟩, ⟨js, n, by rw [part_tagged]; rfl, hn, ds⟩, by rw [part_tagged]; rfl⟩
  | array i e =>
    exact ⟨_, rfl, hasKind_tagged "Array" _, ⟨_, by rw [part_tagged]; rfl, rfl⟩, _, by rw [part_tagged]; rfl, rfl⟩
  | «opaque» => exact ⟨_, rfl, hasKind_tagged "Opaque" _⟩
  | «private» i => exact ⟨_, rfl, hasKind_tagged "Private" _, _, by rw [part_tagged]; rfl, rfl⟩
  | message m =>
    obtain ⟨ls, hl, dl⟩ := mapM_each (R := DescribesLink) m.structure_ (fun l _ => link_json l)
    have hl : linksJson m.structure_ = .ok ls := hl
    have dd : Each (Entry IsID) m.types (m.types.map fun (x : ID × ID) => (x.1.str, idJson x.2)) := by
      generalize m.types = ts
      induction ts with
      | nil => rfl
      | cons a ts ih => exact ⟨_, _, rfl, ⟨text_eq _, rfl⟩, ih⟩
    have hc : comprehension (m.types.map fun (x : ID × ID) => (x.1.str, idJson x.2)) =
        m.types.map fun (x : ID × ID) => (x.1.str, idJson x.2) := comprehension_eq _ (by
      have := strs_nodup _ hg
      rw [List.map_map] at this ⊢
      exact this)
    exact ⟨_, by simp only [Decl.serialize, hl, hc, bind, Except.bind]; rfl,
      hasKind_tagged "Message" _, ⟨_, by rw [part_tagged]; rfl, rfl⟩, ⟨ls, by rw [part_tagged]; rfl, dl⟩,
      _, by rw [part_tagged]; rfl, dd⟩
  | refinement i pdu f sdu c =>
    obtain ⟨j, h, hd⟩ := expr_json c
    have h : exprJson c = .ok j := h
    have hf : (fieldVal f).serialize = .ok (tagged "Field".toList [("identifier".toList, idJson f)]) := rfl
    exact ⟨_, by simp only [Decl.serialize, parent_ok i hg.1 hg.2, h, hf, bind, Except.bind]; rfl,
      hasKind_tagged "Refinement" _, ⟨_, by rw [part_tagged]; rfl, rfl⟩, ⟨_, by rw [part_tagged]; rfl, rfl⟩,
      ⟨_, by rw [part_tagged]; rfl, rfl⟩,
      ⟨_, by rw [part_tagged]; rfl, hasKind_tagged "Field" _, _, by rw [part_tagged]; rfl, rfl⟩,
      ⟨_, by rw [part_tagged]; rfl, rfl⟩, j, by rw [part_tagged]; rfl, hd⟩

theorem expr_part {j : Json} {k : String} {e e' : Expr} (h : ∃ a, j.part k = some a ∧ Describes e a)
    (h' : ∃ a, j.part k = some a ∧ Describes e' a) : SameExpr e e' := by
  obtain ⟨a, h1, h2⟩ := h
  obtain ⟨b, h3, h4⟩ := h'
  rw [h1] at h3; cases h3
  exact expr_unique _ _ _ h2 h4

theorem num_unique {n n' : Num} {j : Json} (h : DescribesNum n j) (h' : DescribesNum n' j) : n = n' := by
  have := expr_unique _ _ _ h h'
  simp only [plain, Expr.num.injEq] at this
  cases n; cases n'; simp only at this; rw [this.1, this.2]

theorem num_part {j : Json} {k : String} {n n' : Num} (h : ∃ a, j.part k = some a ∧ DescribesNum n a)
    (h' : ∃ a, j.part k = some a ∧ DescribesNum n' a) : n = n' := by
  obtain ⟨a, h1, h2⟩ := h
  obtain ⟨b, h3, h4⟩ := h'
  rw [h1] at h3; cases h3
  exact num_unique h2 h4

theorem size_part {j : Json} {s s' : Expr}
    (h : ∃ a n, j.part "size" = some a ∧ s.simplified = .ok (.num n.v n.base) ∧ DescribesNum n a)
    (h' : ∃ a n, j.part "size" = some a ∧ s'.simplified = .ok (.num n.v n.base) ∧ DescribesNum n a) :
    ∃ n, HasSize s n ∧ HasSize s' n := by
  obtain ⟨a, n, h1, h2, h3⟩ := h
  obtain ⟨b, n', h4, h5, h6⟩ := h'
  rw [h1] at h4; cases h4
  cases num_unique h3 h6
  exact ⟨n, h2, h5⟩

theorem field_part {j : Json} {k : String} {f f' : ID} (h : ∃ a, j.part k = some a ∧ DescribesField f a)
    (h' : ∃ a, j.part k = some a ∧ DescribesField f' a) : f = f' := by
  obtain ⟨a, h1, h2⟩ := h
  obtain ⟨b, h3, h4⟩ := h'
  rw [h1] at h3; cases h3
  exact id_part h2.2 h4.2

theorem each_unique {α β : Type} {R : α → β → Prop} {S : α → α → Prop} (as bs : List α) (l : List β)
    (h : ∀ a ∈ as, ∀ b ∈ bs, ∀ x, R a x → R b x → S a b) (ha : Each R as l) (hb : Each R bs l) : Each S as bs := by
  induction as generalizing bs l with
  | nil =>
    simp only [Each] at ha; subst ha
    cases bs with
    | nil => rfl
    | cons b bs => obtain ⟨_, _, h, _⟩ := hb; cases h
  | cons a as ih =>
    obtain ⟨j, js, rfl, h1, h2⟩ := ha
    cases bs with
    | nil => simp only [Each, reduceCtorEq] at hb
    | cons b bs =>
      obtain ⟨_, _, h', h3, h4⟩ := hb; cases h'
      exact ⟨b, bs, rfl, h a (by simp) b (by simp) j h1 h3,
        ih bs js (fun a ha b hb => h a (by simp [ha]) b (by simp [hb])) h2 h4⟩

theorem each_eq {α : Type} (as bs : List α) (h : Each (· = ·) as bs) : as = bs := by
  induction as generalizing bs with
  | nil => simp only [Each] at h; exact h.symm
  | cons a as ih => obtain ⟨b, bs', rfl, rfl, h⟩ := h; rw [ih _ h]

theorem link_unique (a b : Dot.Link) (j : Json) (ha : DescribesLink a j) (hb : DescribesLink b j) : SameLink a b := by
  obtain ⟨_, a1, a2, a3, a4, a5⟩ := ha
  obtain ⟨_, b1, b2, b3, b4, b5⟩ := hb
  exact ⟨field_part a1 b1, field_part a2 b2, expr_part a3 b3, expr_part a4 b4, expr_part a5 b5⟩

theorem text_inj {a b : ID} (ha : GoodID a) (hb : GoodID b) (h : text a = text b) : a = b := by
  rw [← text_eq, ← text_eq] at h
  exact str_inj ha hb h

theorem entries_unique {β : Type} {R : β → Json → Prop} (hR : ∀ a b x, R a x → R b x → a = b) (l l' : List (ID × β)) (d)
    (hk : ∀ k ∈ l.map (·.1), GoodID k) (hk' : ∀ k ∈ l'.map (·.1), GoodID k)
    (h : Each (Entry R) l d) (h' : Each (Entry R) l' d) : l = l' := by
  refine each_eq _ _ (each_unique l l' d ?_ h h')
  intro a ha b hb x h1 h2
  have e1 : a.1 = b.1 := text_inj (hk _ (List.mem_map_of_mem ha)) (hk' _ (List.mem_map_of_mem hb)) (h1.1.symm.trans h2.1)
  exact Prod.ext e1 (hR _ _ _ h1.2 h2.2)

/-- The kinds of types. -/
def declKind : Decl → String
  | .modular .. => "ModularInteger"
  | .range .. => "RangeInteger"
  | .enum .. => "Enumeration"
  | .array .. => "Array"
  | .opaque => "Opaque"
  | .private _ => "Private"
  | .message _ => "Message"
  | .refinement .. => "Refinement"

theorem declKind_of (d : Decl) (j : Json) (h : DescribesDecl d j) : j.HasKind (declKind d) := by
  cases d with
  | «opaque» => exact h
  | _ => exact h.1

theorem decl_unique (a b : Decl) (j : Json) (ga : GoodDecl a) (gb : GoodDecl b) (ha : DescribesDecl a j)
    (hb : DescribesDecl b j) : SameDecl a b := by
  have hk := hasKind_unique (declKind_of a j ha) (declKind_of b j hb)
  cases a <;> cases b <;> first | (simp only [declKind] at hk; exact absurd hk (by decide)) | skip
  case modular.modular => exact ⟨id_part ha.2.1 hb.2.1, expr_part ha.2.2 hb.2.2⟩
  case range.range =>
    obtain ⟨_, a1, a2, a3, a4⟩ := ha
    obtain ⟨_, b1, b2, b3, b4⟩ := hb
    exact ⟨id_part a1 b1, num_part a2 b2, num_part a3 b3, size_part a4 b4⟩
  case enum.enum =>
    obtain ⟨_, a1, ⟨d, a2, a2'⟩, a3, a4⟩ := ha
    obtain ⟨_, b1, ⟨d', b2, b2'⟩, b3, b4⟩ := hb
    rw [a2] at b2; cases b2
    exact ⟨id_part a1 b1, entries_unique (R := DescribesNum) (fun _ _ _ => num_unique) _ _ d ga.1.1 gb.1.1 a2' b2', bool_part a4 b4,
      size_part a3 b3⟩
  case array.array => exact ⟨id_part ha.2.1 hb.2.1, id_part ha.2.2 hb.2.2⟩
  case «opaque».«opaque» => trivial
  case «private».«private» => exact id_part ha.2 hb.2
  case message.message =>
    obtain ⟨_, a1, ⟨l, a2, a2'⟩, d, a3, a3'⟩ := ha
    obtain ⟨_, b1, ⟨l', b2, b2'⟩, d', b3, b3'⟩ := hb
    rw [a2] at b2; cases b2
    rw [a3] at b3; cases b3
    exact ⟨id_part a1 b1, each_unique _ _ l (fun a _ b _ j => link_unique a b j) a2' b2',
      entries_unique (R := IsID) (fun _ _ _ => isID_unique) _ _ d ga.1 gb.1 a3' b3'⟩
  case refinement.refinement =>
    obtain ⟨_, a1, _, a2, a3, a4, a5⟩ := ha
    obtain ⟨_, b1, _, b2, b3, b4, b5⟩ := hb
    exact ⟨id_part a1 b1, id_part a2 b2, field_part a3 b3, id_part a4 b4, expr_part a5 b5⟩

end Verif.Export
