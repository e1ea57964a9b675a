import Verif.Graph.Spec
import Verif.Expr.Sound2

/-! # Lemmas about the topological sort -/

namespace Verif.Graph
open Verif

theorem id_eq_comm (a b : ID) : a.eq b = b.eq a := by
  rw [Bool.eq_iff_iff, ID.eq_iff_key, ID.eq_iff_key]
  exact eq_comm

theorem expr_eq_comm (a b : Expr) : a.eq b = b.eq a := by
  simp only [Expr.eq]
  rw [Bool.or_comm]
  congr 1
  cases a <;> cases b <;> first
    | exact Bool.beq_comm
    | (dsimp only; rw [id_eq_comm]; congr 1; exact Bool.beq_comm)

theorem link_eq_refl (l : Link) : l.eq l = true := by simp [Link.eq, Expr.eq_refl]

theorem link_eq_comm (a b : Link) : a.eq b = b.eq a := by
  simp only [Link.eq, expr_eq_comm a.condition, expr_eq_comm a.size, expr_eq_comm a.first]
  rw [Bool.beq_comm (a := a.source), Bool.beq_comm (a := a.target)]

theorem link_eq_source {a b : Link} (h : a.eq b = true) : a.source = b.source := by
  simp only [Link.eq, Bool.and_eq_true, beq_iff_eq] at h
  exact h.1.1.1.1

theorem link_eq_target {a b : Link} (h : a.eq b = true) : a.target = b.target := by
  simp only [Link.eq, Bool.and_eq_true, beq_iff_eq] at h
  exact h.1.1.1.2

theorem mem_incoming {s : List Link} {f : Field} {l : Link} : l ∈ incoming s f ↔ l ∈ s ∧ l.target = f := by
  simp [incoming]

theorem mem_outgoing {s : List Link} {f : Field} {l : Link} : l ∈ outgoing s f ↔ l ∈ s ∧ l.source = f := by
  simp [outgoing]

/-! ## Paths -/

theorem Path.append {s : List Link} {a b c : Field} {p q : List Link} (h1 : Path s a p b) (h2 : Path s b q c) :
    Path s a (p ++ q) c := by
  induction h2 with
  | nil => simpa using h1
  | snoc _ hl ih => rw [← List.append_assoc]; exact ih.snoc hl

theorem Path.single {s : List Link} {l : Link} (h : l ∈ s) : Path s l.source [l] l.target := by
  have := Path.snoc (s := s) (p := []) Path.nil h
  simpa using this

theorem Path.cons_inv {s : List Link} {a b : Field} {p : List Link} (h : Path s a p b) :
    (p = [] ∧ a = b) ∨ ∃ l q, p = l :: q ∧ l ∈ s ∧ l.source = a ∧ Path s l.target q b := by
  induction h with
  | nil => exact .inl ⟨rfl, rfl⟩
  | @snoc p l hp hl ih =>
    right
    rcases ih with ⟨rfl, h⟩ | ⟨l', q, rfl, h1, h2, h3⟩
    · exact ⟨l, [], rfl, hl, h.symm, .nil⟩
    · exact ⟨l', q ++ [l], rfl, h1, h2, h3.snoc hl⟩

theorem Path.cons {s : List Link} {l : Link} {q : List Link} {b : Field} (hl : l ∈ s) (h : Path s l.target q b) :
    Path s l.source (l :: q) b := (Path.single hl).append h

theorem Path.mem {s : List Link} {a b : Field} {p : List Link} (h : Path s a p b) : ∀ l ∈ p, l ∈ s := by
  induction h with
  | nil => simp
  | snoc _ hl ih =>
    intro l h
    rcases List.mem_append.mp h with h | h
    · exact ih l h
    · simp only [List.mem_singleton] at h; rw [h]; exact hl

/-! ## The inner loop -/

theorem complete_iff {s V : List Link} {f : Field} :
    complete s V f = true ↔ ∀ l ∈ s, l.target = f → ∃ v ∈ V, l.eq v = true := by
  simp only [complete, List.all_eq_true, mem_incoming, List.any_eq_true, and_imp]

theorem complete_mono {s V V' : List Link} {f : Field} (h : ∀ v ∈ V, v ∈ V') (hc : complete s V f = true) :
    complete s V' f = true := by
  rw [complete_iff] at hc ⊢
  intro l h1 h2
  obtain ⟨v, h3, h4⟩ := hc l h1 h2
  exact ⟨v, h v h3, h4⟩

theorem visit_spec (s : List Link) (es : List Link) : ∀ (Q : List Field) (V : List Link),
    ∃ A, visit s es Q V = (Q ++ A, es.reverse ++ V) ∧
      (∀ t, complete s (es.reverse ++ V) t = true → (complete s V t = false ∨ ∃ e ∈ es, e.target = t) → t ∈ A) ∧
      (∀ t ∈ A, complete s (es.reverse ++ V) t = true ∧ ∃ e ∈ es, e.target = t) := by
  induction es with
  | nil =>
    intro Q V
    refine ⟨[], by simp [visit], ?_, by simp⟩
    intro t h1 h2
    rcases h2 with h2 | ⟨e, he, _⟩
    · simp at h1; simp [h1] at h2
    · simp at he
  | cons e es ih =>
    intro Q V
    simp only [visit]
    obtain ⟨A, h1, h2, h3⟩ := ih (if complete s (e :: V) e.target then Q ++ [e.target] else Q) (e :: V)
    have hV : es.reverse ++ e :: V = (e :: es).reverse ++ V := by simp
    rw [hV] at h1 h2 h3
    refine ⟨(if complete s (e :: V) e.target then [e.target] else []) ++ A, ?_, ?_, ?_⟩
    · rw [h1]; split <;> simp
    · intro t ht hd
      by_cases hc : complete s (e :: V) t = true
      · by_cases het : e.target = t
        · subst het; simp [hc]
        · rcases hd with hd | ⟨e', he', hte⟩
          · exfalso
            rw [← Bool.not_eq_true, complete_iff] at hd
            rw [complete_iff] at hc
            apply hd
            intro l hl hlt
            obtain ⟨v, hv, hlv⟩ := hc l hl hlt
            rcases List.mem_cons.mp hv with rfl | hv
            · exact absurd ((link_eq_target hlv).symm.trans hlt) het
            · exact ⟨v, hv, hlv⟩
          · rcases List.mem_cons.mp he' with rfl | he'
            · exact absurd hte het
            · exact List.mem_append_right _ (h2 t ht (.inr ⟨e', he', hte⟩))
      · exact List.mem_append_right _ (h2 t ht (.inl (by simpa using hc)))
    · intro t ht
      rcases List.mem_append.mp ht with ht | ht
      · split at ht
        · rename_i hc
          simp only [List.mem_singleton] at ht
          subst ht
          exact ⟨complete_mono (by simp; grind) hc, e, by simp, rfl⟩
        · simp at ht
      · obtain ⟨g1, e', g2, g3⟩ := h3 t ht
        exact ⟨g1, e', by simp [g2], g3⟩

theorem visit_nodup (s : List Link) (hinj : ∀ x ∈ s, ∀ y ∈ s, x.eq y = true → x = y) (es : List Link) :
    ∀ (X Q : List Field) (V : List Link), es.Nodup → (∀ e ∈ es, e ∈ s) → (∀ v ∈ V, v ∈ s) → (∀ e ∈ es, e ∉ V) →
      (X ++ Q).Nodup → (∀ t ∈ X ++ Q, (∃ l ∈ s, l.target = t) → complete s V t = true) →
      (X ++ (visit s es Q V).1).Nodup ∧
      ∀ t ∈ X ++ (visit s es Q V).1, (∃ l ∈ s, l.target = t) → complete s (visit s es Q V).2 t = true := by
  induction es with
  | nil => intro X Q V _ _ _ _ h1 h2; exact ⟨h1, h2⟩
  | cons e es ih =>
    intro X Q V hnd hes hV hnV h1 h2
    simp only [visit]
    have hnd' := List.nodup_cons.mp hnd
    have hnot : complete s (e :: V) e.target = true → e.target ∉ X ++ Q := by
      intro _ hm
      have := h2 _ hm ⟨e, hes e (by simp), rfl⟩
      rw [complete_iff] at this
      obtain ⟨v, hv, hev⟩ := this e (hes e (by simp)) rfl
      have := hinj e (hes e (by simp)) v (hV v hv) hev
      subst this
      exact hnV e (by simp) hv
    refine ih X _ (e :: V) hnd'.2 (fun x hx => hes x (by simp [hx])) ?_ ?_ ?_ ?_
    · intro v hv
      rcases List.mem_cons.mp hv with rfl | hv
      · exact hes v (by simp)
      · exact hV v hv
    · intro x hx hxm
      rcases List.mem_cons.mp hxm with rfl | hxm
      · exact hnd'.1 hx
      · exact hnV x (by simp [hx]) hxm
    · split
      · rename_i hc
        rw [← List.append_assoc]
        exact List.nodup_append.mpr ⟨h1, by simp, by
          intro a ha b hb hab; simp only [List.mem_singleton] at hb; subst hb; subst hab; exact hnot hc ha⟩
      · exact h1
    · intro t ht hl
      have hmono : complete s V t = true → complete s (e :: V) t = true := complete_mono (by simp; grind)
      split at ht
      · rename_i hc
        rw [← List.append_assoc, List.mem_append, List.mem_singleton] at ht
        rcases ht with ht | rfl
        · exact hmono (h2 t ht hl)
        · exact hc
      · exact hmono (h2 t ht hl)

/-! ## The outer loop -/

/-- What the loop maintains for every list of links. -/
structure Inv (s : List Link) (Q R : List Field) (V : List Link) : Prop where
  visited : ∀ v ∈ V, v ∈ s ∧ v.source ∈ R
  later : ∀ xs n ys, R = xs ++ n :: ys → ∀ e ∈ s, e.source = n → e.target ∈ ys ++ Q ∨ complete s V e.target = false
  reach : ∀ t ∈ R ++ Q, ∃ p, Path s INITIAL p t

theorem inv_step {s : List Link} {n : Field} {Q R : List Field} {V : List Link} (h : Inv s (n :: Q) R V) :
    Inv s (visit s (outgoing s n) Q V).1 (R ++ [n]) (visit s (outgoing s n) Q V).2 := by
  obtain ⟨A, h1, h2, h3⟩ := visit_spec s (outgoing s n) Q V
  rw [h1]
  refine ⟨?_, ?_, ?_⟩
  · intro v hv
    rcases List.mem_append.mp hv with hv | hv
    · rw [List.mem_reverse, mem_outgoing] at hv
      exact ⟨hv.1, by simp [hv.2]⟩
    · obtain ⟨g1, g2⟩ := h.visited v hv
      exact ⟨g1, by simp [g2]⟩
  · intro xs m ys heq e he hem
    simp only
    by_cases hc : complete s ((outgoing s n).reverse ++ V) e.target = true
    · left
      rcases List.eq_nil_or_concat ys with rfl | ⟨ys', y, rfl⟩
      · have : R ++ [n] = xs ++ [m] := heq
        obtain ⟨rfl, hh⟩ := List.append_inj' this rfl
        simp only [List.cons.injEq, and_true] at hh
        subst hh
        exact List.mem_append_right _ (List.mem_append_right _
          (h2 _ hc (.inr ⟨e, mem_outgoing.mpr ⟨he, hem⟩, rfl⟩)))
      · have : R ++ [n] = (xs ++ m :: ys') ++ [y] := by rw [heq]; simp
        obtain ⟨hR, hh⟩ := List.append_inj' this rfl
        simp only [List.cons.injEq, and_true] at hh
        subst hh
        rcases h.later xs m ys' hR e he hem with hl | hl
        · have : e.target ∈ ys' ++ n :: Q := hl
          simp only [List.mem_append, List.mem_cons] at this ⊢
          simp only [List.concat_eq_append, List.mem_append, List.mem_singleton]
          grind
        · exact List.mem_append_right _ (List.mem_append_right _ (h2 _ hc (.inl hl)))
    · right; simpa using hc
  · intro t ht
    simp only [List.mem_append, List.mem_singleton] at ht
    rcases ht with (ht | rfl) | ht | ht
    · exact h.reach t (by simp [ht])
    · exact h.reach t (by simp)
    · exact h.reach t (by simp [ht])
    · obtain ⟨_, e, he, rfl⟩ := h3 t ht
      rw [mem_outgoing] at he
      obtain ⟨p, hp⟩ := h.reach n (by simp)
      rw [← he.2] at hp
      exact ⟨_, hp.snoc he.1⟩

theorem inv_kahn {s : List Link} (k : Nat) : ∀ {Q R : List Field} {V : List Link} {R' : List Field} {V' : List Link},
    Inv s Q R V → kahn s k Q R V = .ok (R', V') → Inv s [] R' V' ∧ ∃ X, R' = R ++ X ∧ ∀ q, Q.head? = some q → X.head? = some q := by
  induction k with
  | zero =>
    intro Q R V R' V' h hk
    cases Q with
    | nil => simp only [kahn, Except.ok.injEq, Prod.mk.injEq] at hk; obtain ⟨rfl, rfl⟩ := hk; exact ⟨h, [], by simp⟩
    | cons q Q => simp [kahn] at hk
  | succ k ih =>
    intro Q R V R' V' h hk
    cases Q with
    | nil => simp only [kahn, Except.ok.injEq, Prod.mk.injEq] at hk; obtain ⟨rfl, rfl⟩ := hk; exact ⟨h, [], by simp⟩
    | cons q Q =>
      simp only [kahn] at hk
      obtain ⟨g1, X, g2, g3⟩ := ih (inv_step h) hk
      exact ⟨g1, q :: X, by rw [g2]; simp, by simp⟩

theorem inv_initial (s : List Link) : Inv s [INITIAL] [] [] := by
  refine ⟨by simp, ?_, ?_⟩
  · intro xs n ys h; simp at h
  · intro t ht
    simp at ht
    subst ht
    exact ⟨[], .nil⟩

/-- If all links are visited, there is no cycle. -/
theorem acyclic_of_inv {s : List Link} {R : List Field} {V : List Link} (h : Inv s [] R V)
    (hall : ∀ l ∈ s, ∃ v ∈ V, l.eq v = true) : ∀ f, ¬ Reaches s f f := by
  have hsrc : ∀ l ∈ s, l.source ∈ R := by
    intro l hl
    obtain ⟨v, hv, he⟩ := hall l hl
    rw [link_eq_source he]
    exact (h.visited v hv).2
  have hcomp : ∀ t, complete s V t = true := fun t => complete_iff.mpr fun l hl _ => hall l hl
  have hlater : ∀ xs n ys, R = xs ++ n :: ys → ∀ e ∈ s, e.source = n → e.target ∈ ys := by
    intro xs n ys hR e he hn
    rcases h.later xs n ys hR e he hn with h1 | h1
    · simpa using h1
    · rw [hcomp] at h1; cases h1
  have hpath : ∀ p a b, Path s a p b → p ≠ [] → ∀ xs ys, R = xs ++ a :: ys → ∃ xs' ys', R = xs' ++ b :: ys' ∧
      ys'.length < ys.length := by
    intro p a b hp
    induction hp with
    | nil => intro h; exact absurd rfl h
    | @snoc p l hp hl ih =>
      intro _ xs ys hR
      have step : ∀ xs' ys', R = xs' ++ l.source :: ys' → ∃ xs'' ys'', R = xs'' ++ l.target :: ys'' ∧
          ys''.length < ys'.length := by
        intro xs' ys' hR'
        obtain ⟨u, w, hw⟩ := List.append_of_mem (hlater xs' l.source ys' hR' l hl rfl)
        refine ⟨xs' ++ l.source :: u, w, by rw [hR', hw]; simp, by rw [hw]; simp; omega⟩
      by_cases hpe : p = []
      · subst hpe
        have : l.source = a := by cases hp' : hp.cons_inv with
          | inl h => exact h.2.symm
          | inr h => obtain ⟨_, _, h, _⟩ := h; cases h
        rw [← this] at hR
        exact step xs ys hR
      · obtain ⟨xs', ys', g1, g2⟩ := ih hpe xs ys hR
        obtain ⟨xs'', ys'', g3, g4⟩ := step xs' ys' g1
        exact ⟨xs'', ys'', g3, by omega⟩
  rintro f ⟨p, hp, hpath'⟩
  have hf : f ∈ R := by
    rcases hpath'.cons_inv with ⟨rfl, _⟩ | ⟨l, q, _, hl, hs, _⟩
    · exact absurd rfl hp
    · rw [← hs]; exact hsrc l hl
  obtain ⟨xs, ys, hR⟩ := List.append_of_mem hf
  have : ∀ n xs ys, ys.length = n → R ≠ xs ++ f :: ys := by
    intro n
    induction n using Nat.strongRecOn with
    | ind n ih =>
      intro xs ys hn hR
      obtain ⟨xs', ys', g1, g2⟩ := hpath p f f hpath' hp xs ys hR
      exact ih ys'.length (by omega) xs' ys' rfl g1
  exact this _ xs ys rfl hR

theorem nodup_kahn {s : List Link} (hinj : ∀ x ∈ s, ∀ y ∈ s, x.eq y = true → x = y) (hnd : s.Nodup) (k : Nat) :
    ∀ {Q R : List Field} {V : List Link} {R' : List Field} {V' : List Link},
    Inv s Q R V → (R ++ Q).Nodup → (∀ t ∈ R ++ Q, (∃ l ∈ s, l.target = t) → complete s V t = true) →
    kahn s k Q R V = .ok (R', V') → R'.Nodup := by
  induction k with
  | zero =>
    intro Q R V R' V' _ h _ hk
    cases Q with
    | nil => simp only [kahn, Except.ok.injEq, Prod.mk.injEq] at hk; obtain ⟨rfl, rfl⟩ := hk; simpa using h
    | cons q Q => simp [kahn] at hk
  | succ k ih =>
    intro Q R V R' V' hi h hc hk
    cases Q with
    | nil => simp only [kahn, Except.ok.injEq, Prod.mk.injEq] at hk; obtain ⟨rfl, rfl⟩ := hk; simpa using h
    | cons n Q =>
      simp only [kahn] at hk
      have hnR : n ∉ R := by
        intro hm
        have := List.nodup_append.mp h
        exact this.2.2 n hm n (by simp) rfl
      have key := visit_nodup s hinj (outgoing s n) (R ++ [n]) Q V (hnd.filter _)
        (fun e he => (mem_outgoing.mp he).1) (fun v hv => (hi.visited v hv).1)
        (fun e he hv => hnR ((mem_outgoing.mp he).2 ▸ (hi.visited e hv).2)) (by simpa using h)
        (by intro t ht; exact hc t (by simpa using ht))
      exact ih (inv_step hi) key.1 key.2 hk

end Verif.Graph
