import Verif.Merge.Model
import Verif.Graph.Props

/-! # Paths of a message after an embedded message has been inserted -/

namespace Verif.Merge
open Verif Verif.Graph

/-! ## Specification -/

/-- The path `p'` is the path `p` of the outer message where each pass through the field `f`, that is, a link into the field
followed by a link out of the field, is replaced by a complete path of the inner message; these paths are listed. The link
into the field leads to the first field of the inner path. The link out of the field leaves the last field of the
inner path and requires both conditions. `K` tells which combinations of a link out of the field and a last link of an
inner path are considered. -/
inductive Expands (f : Field) (inner : List Link) (K : Link → Link → Prop) : List Link → List Link → List (List Link) → Prop
  | nil : Expands f inner K [] [] []
  | keep {l : Link} {p p' : List Link} {qs : List (List Link)} : l.source ≠ f → l.target ≠ f → Expands f inner K p p' qs →
      Expands f inner K (l :: p) (l :: p') qs
  | pass {a o i q : Link} {mid p p' : List Link} {c : Expr} {qs : List (List Link)} :
      a.target = f → o.source = f → o.target ≠ f → Path inner INITIAL (i :: (mid ++ [q])) FINAL → K o q →
      (Expr.bool .and [o.condition, q.condition]).simplified = .ok c → Expands f inner K p p' qs →
      Expands f inner K (a :: o :: p)
        (⟨a.source, i.target, a.condition, i.size, a.first⟩ :: (mid ++ ⟨q.source, o.target, c, o.size, o.first⟩ :: p'))
        ((i :: (mid ++ [q])) :: qs)

/-! ## Walks -/

/-- Paths, from the front. -/
inductive Walk (s : List Link) : Field → List Link → Field → Prop
  | nil {a : Field} : Walk s a [] a
  | cons {l : Link} {p : List Link} {b : Field} : l ∈ s → Walk s l.target p b → Walk s l.source (l :: p) b

theorem Walk.append {s : List Link} {a b c : Field} {p q : List Link} (h : Walk s a p b) (h' : Walk s b q c) : Walk s a (p ++ q) c := by
  induction h with
  | nil => exact h'
  | cons hl _ ih => exact .cons hl (ih h')

theorem path_walk {s : List Link} {a b : Field} {p : List Link} : Path s a p b ↔ Walk s a p b := by
  constructor
  · intro h
    induction h with
    | nil => exact .nil
    | snoc _ hl ih => exact ih.append (.cons hl .nil)
  · intro h
    induction h with
    | nil => exact .nil
    | cons hl _ ih => exact Path.cons hl ih

theorem Walk.mono {s s' : List Link} {a b : Field} {p : List Link} (h : Walk s a p b) (hs : ∀ l ∈ p, l ∈ s → l ∈ s') :
    Walk s' a p b := by
  induction h with
  | nil => exact .nil
  | cons hl _ ih => exact .cons (hs _ List.mem_cons_self hl) (ih fun l hl' => hs l (List.mem_cons_of_mem _ hl'))

theorem Walk.split {s : List Link} {p q : List Link} : ∀ {a c : Field}, Walk s a (p ++ q) c → ∃ b, Walk s a p b ∧ Walk s b q c := by
  induction p with
  | nil => intro a c h; exact ⟨a, .nil, h⟩
  | cons l p ih =>
    intro a c h
    cases h with
    | cons hl h' =>
      obtain ⟨b, h1, h2⟩ := ih h'
      exact ⟨b, .cons hl h1, h2⟩

/-- Every link of a walk to `b` leads to `b` or to the source of a link of the walk. -/
theorem Walk.next {s : List Link} {a b : Field} {p : List Link} (h : Walk s a p b) :
    ∀ l ∈ p, l.target = b ∨ ∃ l' ∈ s, l'.source = l.target := by
  induction h with
  | nil => simp
  | @cons l p b hl hw ih =>
    intro x hx
    rcases List.mem_cons.mp hx with rfl | hx
    · generalize x.target = y at hw
      cases hw with
      | nil => exact .inl rfl
      | cons hl' _ => exact .inr ⟨_, hl', rfl⟩
    · exact ih x hx

/-- Every link of a walk from `a` leaves `a` or the target of a link of the walk. -/
theorem Walk.prev {s : List Link} {a b : Field} {p : List Link} (h : Walk s a p b) :
    ∀ l ∈ p, l.source = a ∨ ∃ l' ∈ s, l'.target = l.source := by
  induction h with
  | nil => simp
  | @cons l p b hl hw ih =>
    intro x hx
    rcases List.mem_cons.mp hx with rfl | hx
    · exact .inl rfl
    · rcases ih x hx with h | h
      · exact .inr ⟨l, hl, h.symm⟩
      · exact .inr h

theorem Walk.last {s : List Link} {a b : Field} {p : List Link} {l : Link} (h : Walk s a (p ++ [l]) b) :
    Walk s a p l.source ∧ l ∈ s ∧ l.target = b := by
  obtain ⟨c, h1, h2⟩ := h.split
  cases h2 with
  | cons hl h3 =>
    generalize hy : l.target = y at h3
    cases h3
    exact ⟨h1, hl, rfl⟩

/-! ## Insertion of a message -/

/-- The links `N` after the message with the links `I` was inserted for the field `f` in the links `O`. -/
structure Insertion (O I N : List Link) (f : Field) (K : Link → Link → Prop) (i0 : Link) : Prop where
  mem : ∀ l', l' ∈ N ↔
    (∃ l ∈ O, l.target = f ∧ l' = enterLink l i0) ∨
    (∃ l ∈ O, l.target ≠ f ∧ l.source = f ∧ ∃ q ∈ I, q.target = FINAL ∧ K l q ∧
      ∃ c, (exitCondition l q).simplified = .ok c ∧ l' = ⟨q.source, l.target, c, l.size, l.first⟩) ∨
    (l' ∈ O ∧ l'.target ≠ f ∧ l'.source ≠ f) ∨
    (l' ∈ I ∧ l'.target ≠ FINAL ∧ l'.source ≠ INITIAL)
  loop : ∀ l ∈ O, l.source = f → l.target ≠ f
  sources : ∀ q ∈ I, q.source ≠ INITIAL → ∀ l ∈ O, l.source ≠ q.source ∧ l.target ≠ q.source
  targets : ∀ q ∈ I, q.target ≠ FINAL → ∀ l ∈ O, l.source ≠ q.target ∧ l.target ≠ q.target
  innerFinal : ∀ q ∈ I, q.source ≠ FINAL
  innerInitial : ∀ q ∈ I, q.target ≠ INITIAL
  start : i0 ∈ I ∧ i0.source = INITIAL ∧ i0.target ≠ FINAL
  unique : ∀ q ∈ I, q.source = INITIAL → q = i0

namespace Insertion

variable {O I N : List Link} {f : Field} {K : Link → Link → Prop} {i0 : Link}

/-- A walk that begins at a field of the inner message. -/
theorem inside (S : Insertion O I N f K i0) {x : Field} {r : List Link} (hw : Walk N x r FINAL)
    (hx : ∃ q ∈ I, q.target = x) (hxf : x ≠ FINAL) :
    ∃ mid q o r' c, r = mid ++ ⟨q.source, o.target, c, o.size, o.first⟩ :: r' ∧ Walk I x (mid ++ [q]) FINAL ∧
      o ∈ O ∧ o.source = f ∧ o.target ≠ f ∧ K o q ∧ (exitCondition o q).simplified = .ok c ∧ Walk N o.target r' FINAL := by
  generalize hb : FINAL = b at hw
  induction hw with
  | nil => exact absurd hb.symm hxf
  | @cons l p b hl hw ih =>
    subst hb
    obtain ⟨q0, hq0, hq0t⟩ := hx
    have hout : ∀ l' ∈ O, l'.source ≠ l.source := by
      intro l' hl' he
      have := (S.targets q0 hq0 (by rw [hq0t]; exact hxf) l' hl').1
      exact this (by rw [he, hq0t])
    rcases (S.mem l).mp hl with ⟨l1, h1, _, rfl⟩ | ⟨o, h1, h2, h3, q, hq, hqf, hk, c, hc, rfl⟩ | ⟨h1, _, _⟩ | ⟨h1, h2, _⟩
    · exact absurd rfl (hout l1 h1)
    · exact ⟨[], q, o, p, c, rfl, by rw [← hqf]; exact .cons hq .nil, h1, h3, h2, hk, hc, hw⟩
    · exact absurd rfl (hout l h1)
    · obtain ⟨mid, q, o, r', c, rfl, g1, g2⟩ := ih ⟨l, h1, rfl⟩ h2 rfl
      exact ⟨l :: mid, q, o, r', c, rfl, .cons h1 g1, g2⟩

/-- A walk that begins at a field of the outer message. -/
theorem outside (S : Insertion O I N f K i0) (n : Nat) : ∀ {x : Field} {r : List Link}, r.length ≤ n → Walk N x r FINAL →
    (x = INITIAL ∨ ∃ l ∈ O, l.source = x ∨ l.target = x) → x ≠ f →
    ∃ p qs, Walk O x p FINAL ∧ Expands f I K p r qs := by
  induction n with
  | zero =>
    intro x r hr hw _ _
    cases r with
    | nil => cases hw; exact ⟨[], [], .nil, .nil⟩
    | cons => simp at hr
  | succ n ih =>
    intro x r hr hw hx hxf
    generalize hb : FINAL = b at hw
    cases hw with
    | nil => exact ⟨[], [], .nil, .nil⟩
    | @cons l p _ hl hw =>
      subst hb
      have hin : ∀ q ∈ I, q.source ≠ INITIAL → q.source ≠ l.source := by
        intro q hq hqi he
        rcases hx with hx | ⟨l', hl', hx⟩
        · exact hqi (by rw [he, hx])
        · have := S.sources q hq hqi l' hl'
          rcases hx with hx | hx
          · exact this.1 (by rw [hx, he])
          · exact this.2 (by rw [hx, he])
      have hlen : p.length ≤ n := by simpa using hr
      rcases (S.mem l).mp hl with ⟨l1, h1, h2, rfl⟩ | ⟨o, h1, h2, h3, q, hq, hqf, hk, c, hc, rfl⟩ | ⟨h1, h2, h3⟩ | ⟨h1, h2, h3⟩
      · obtain ⟨mid, q, o, r', c, rfl, g1, g2, g3, g4, g5, g6, g7⟩ := S.inside hw ⟨i0, S.start.1, rfl⟩ S.start.2.2
        have hlen' : r'.length ≤ n := by
          simp only [List.length_append, List.length_cons] at hlen
          omega
        obtain ⟨p, qs, h4, h5⟩ := ih hlen' g7 (.inr ⟨o, g2, .inr rfl⟩) g4
        refine ⟨l1 :: o :: p, (i0 :: (mid ++ [q])) :: qs, ?_, .pass h2 g3 g4 ?_ g5 g6 h5⟩
        · have : Walk O l1.target (o :: p) FINAL := by
            rw [h2, ← g3]
            exact .cons g2 h4
          exact .cons h1 this
        · rw [path_walk, ← S.start.2.1]
          exact .cons S.start.1 g1
      · by_cases hqi : q.source = INITIAL
        · have := S.unique q hq hqi
          exact absurd (this ▸ hqf) S.start.2.2
        · exact absurd rfl (hin q hq hqi)
      · obtain ⟨p', qs, h4, h5⟩ := ih hlen hw (.inr ⟨l, h1, .inr rfl⟩) h2
        exact ⟨l :: p', qs, .cons h1 h4, .keep h3 h2 h5⟩
      · exact absurd rfl (hin l h1 h3)

/-- The expansion of a walk of the outer message. -/
theorem inserted (S : Insertion O I N f K i0) {p p' : List Link} {qs : List (List Link)} (he : Expands f I K p p' qs) :
    ∀ {x : Field}, Walk O x p FINAL → Walk N x p' FINAL := by
  induction he with
  | nil => intro x h; generalize hb : FINAL = b at h; cases h; exact .nil
  | @keep l p p' qs h1 h2 _ ih =>
    intro x h
    cases h with
    | cons hl h' => exact .cons ((S.mem l).mpr (.inr (.inr (.inl ⟨hl, h2, h1⟩)))) (ih h')
  | @pass a o i q mid p p' c qs h1 h2 h3 h4 h5 h6 _ ih =>
    intro x h
    cases h with
    | cons ha h' =>
    generalize hy : a.target = y at h'
    cases h' with
    | cons ho h'' =>
    rw [path_walk] at h4
    generalize hz : INITIAL = z at h4
    cases h4 with
    | cons hi hw =>
    have hii := S.unique i hi hz.symm
    subst hii
    obtain ⟨g1, g2, g3⟩ := hw.last
    have hmid : Walk N i.target mid q.source := by
      refine g1.mono ?_
      intro l hl hlI
      refine (S.mem l).mpr (.inr (.inr (.inr ⟨hlI, ?_, ?_⟩)))
      · rcases g1.next l hl with e | ⟨l', hl', e⟩
        · rw [e]; exact S.innerFinal q g2
        · rw [← e]; exact S.innerFinal l' hl'
      · rcases g1.prev l hl with e | ⟨l', hl', e⟩
        · rw [e]; exact S.innerInitial i hi
        · rw [← e]; exact S.innerInitial l' hl'
    have hexit : (⟨q.source, o.target, c, o.size, o.first⟩ : Link) ∈ N :=
      (S.mem _).mpr (.inr (.inl ⟨o, ho, h3, h2, q, g2, g3, h5, c, h6, rfl⟩))
    have henter : (⟨a.source, i.target, a.condition, i.size, a.first⟩ : Link) ∈ N :=
      (S.mem _).mpr (.inl ⟨a, ha, h1, rfl⟩)
    exact Walk.cons henter (hmid.append (Walk.cons hexit (ih h'')))

theorem iff (S : Insertion O I N f K i0) (hf : f ≠ INITIAL) (p' : List Link) :
    Path N INITIAL p' FINAL ↔ ∃ p qs, Path O INITIAL p FINAL ∧ Expands f I K p p' qs := by
  simp only [path_walk]
  constructor
  · intro h
    exact S.outside p'.length (Nat.le_refl _) h (.inl rfl) (Ne.symm hf)
  · rintro ⟨p, qs, h1, h2⟩
    exact S.inserted h2 h1

end Insertion

/-! ## Pruning -/

theorem mem_dangling {links : List Link} {f : Field} : f ∈ dangling links ↔
    (∃ l ∈ links, l.source = f ∨ l.target = f) ∧ f ≠ FINAL ∧ ∀ l ∈ links, l.source ≠ f := by
  simp only [dangling, structureFields, List.mem_filter, List.mem_append, List.mem_map, Bool.and_eq_true, bne_iff_ne, ne_eq,
    List.all_eq_true, and_congr_left_iff]
  intro _
  constructor
  · rintro (⟨l, h, rfl⟩ | ⟨l, h, rfl⟩)
    · exact ⟨l, h, .inl rfl⟩
    · exact ⟨l, h, .inr rfl⟩
  · rintro ⟨l, h, rfl | rfl⟩
    · exact .inl ⟨l, h, rfl⟩
    · exact .inr ⟨l, h, rfl⟩

/-- Pruning removes no complete path. -/
theorem pruneLoop_paths (n : Nat) : ∀ {links links' : List Link} {d d' : List Field}, pruneLoop n links d = .ok (links', d') →
    (∀ f ∈ d, f ≠ FINAL ∧ ∀ l ∈ links, l.source ≠ f) →
    (∀ l ∈ links', l ∈ links) ∧ (∀ f ∈ d', f ≠ FINAL ∧ ∀ l ∈ links', l.source ≠ f ∧ l.target ≠ f) ∧
      ∀ a p, Walk links' a p FINAL ↔ Walk links a p FINAL := by
  induction n with
  | zero => intro _ _ _ _ h; cases h
  | succ n ih =>
    intro links links' d d' h hd
    simp only [pruneLoop] at h
    have hnew : ∀ f ∈ d ++ dangling links, f ≠ FINAL ∧ ∀ l ∈ links, l.source ≠ f := by
      intro f hf
      rcases List.mem_append.mp hf with hf | hf
      · exact hd f hf
      · exact (mem_dangling.mp hf).2
    have hwalk : ∀ a p, Walk (links.filter fun l => !(d ++ dangling links).contains l.target) a p FINAL ↔ Walk links a p FINAL := by
      intro a p
      constructor
      · intro hw
        exact hw.mono fun l _ hl => (List.mem_filter.mp hl).1
      · intro hw
        refine hw.mono fun l hl hl' => List.mem_filter.mpr ⟨hl', ?_⟩
        simp only [Bool.not_eq_true', List.contains_eq_mem, decide_eq_false_iff_not]
        intro hm
        have := hnew _ hm
        rcases hw.next l hl with e | ⟨l', hl', e⟩
        · exact this.1 e
        · exact this.2 l' hl' e
    split at h
    · rename_i he
      simp only [Except.ok.injEq, Prod.mk.injEq] at h
      obtain ⟨rfl, rfl⟩ := h
      refine ⟨fun l hl => (List.mem_filter.mp hl).1, fun f hf => ⟨(hd f hf).1, fun l hl => ⟨(hd f hf).2 l (List.mem_filter.mp hl).1, ?_⟩⟩, hwalk⟩
      intro e
      have := (List.mem_filter.mp hl).2
      simp [e, hf] at this
    · obtain ⟨h1, h2, h3⟩ := ih h fun f hf => ⟨(hnew f hf).1, fun l hl => (hnew f hf).2 l (List.mem_filter.mp hl).1⟩
      exact ⟨fun l hl => (List.mem_filter.mp (h1 l hl)).1, h2, fun a p => (h3 a p).trans (hwalk a p)⟩

/-- The loop ends. -/
theorem pruneLoop_ends (n : Nat) : ∀ (links : List Link) (d : List Field), links.length < n → ∃ r, pruneLoop n links d = .ok r := by
  induction n with
  | zero => intro links d h; omega
  | succ n ih =>
    intro links d h
    simp only [pruneLoop]
    split
    · exact ⟨_, rfl⟩
    · rename_i he
      refine ih _ _ ?_
      have hne : dangling links ≠ [] := by simpa using he
      obtain ⟨f, hf⟩ := List.exists_mem_of_ne_nil _ hne
      obtain ⟨⟨l, hl, h1⟩, _, h2⟩ := mem_dangling.mp hf
      have ht : l.target = f := h1.resolve_left (h2 l hl)
      have : (links.filter fun l => !(d ++ dangling links).contains l.target).length < links.length := by
        refine List.length_filter_lt_length_iff_exists.mpr ⟨l, hl, ?_⟩
        simp [ht, hf]
      omega

end Verif.Merge
