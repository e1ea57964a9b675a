import Verif.PyRFLX.MessageParse

/-! # Position and size of the next field -/

namespace Verif.PyRFLX

open Verif Verif.Types Verif.Bits Verif.Graph

variable {m : Msg} {rank : Field → Nat} {rest : Field → Bool}

theorem substituted_add (M : List (Expr × Expr)) (a b : Int) (x y : NBase) :
    (Expr.add [.num a x, .num b y]).substituted M = .ok (.add [.num a x, .num b y]) := by
  simp [Expr.substituted, depth, depthL, subst, substitution, Expr.isName,
    bind, Except.bind, pure, Except.pure, List.mapM_cons]

theorem simplifiedIn_add (M : List (Expr × Expr)) (a b : Num) :
    m.simplifiedIn M (.add [a.expr, b.expr]) = .ok (.n (a.v + b.v)) := by
  unfold Msg.simplifiedIn
  rw [if_neg (by simp [Expr.isTru, Expr.isFls])]
  simp only [Num.expr, substituted_add, Except.bind]
  exact simp_add _ _ _ _

theorem Well.linkFirst (w : Well m rank rest) (σ : State) (f : Field) : m.linkFirst σ (incoming m.links f) = .ok none := by
  have : ∀ ls : List Link, (∀ l ∈ ls, l ∈ m.links) → m.linkFirst σ ls = .ok none := by
    intro ls
    induction ls with
    | nil => intros; rfl
    | cons l ls ih =>
      intro h
      unfold Msg.linkFirst
      rw [w.noFirst l (h l (by simp)), if_pos (by rfl)]
      exact ih fun l hl => h l (List.mem_cons_of_mem _ hl)
  exact this _ fun l hl => (mem_incoming hl).1

/-- `_get_first` of the next field on the walk: the end of the field before. -/
theorem Well.first (w : Well m rank rest) {fv : Field → FV} {σ : State} (hv : Values m fv) (hM : Mapping m fv σ.mapping)
    {p : List Field} {e f : Field} (hw : Walk m σ.mapping INITIAL p e) (hn : m.nextField σ.mapping e = .ok (some f)) (hf : f ≠ FINAL)
    (hp : ∀ g ∈ p, g ∈ σ.accessible) (hacc : ∀ g ∈ σ.accessible, g ∈ p ∨ rank f ≤ rank g) {x y : Num}
    (hx : (σ.fv e).first = some x) (hy : (σ.fv e).size (m.typeOf e) = .ok (some y)) {r : Option Num}
    (h : m.getFirst σ f = .ok r) : ∃ z, r = some z ∧ z.v = x.v + y.v := by
  unfold Msg.getFirst at h
  rw [w.linkFirst] at h
  simp only [show ∀ (α β : Type) (a : α) (f : α → Py β), (Except.ok a : Py α).bind f = f a from fun _ _ _ _ => rfl] at h
  obtain ⟨prv, hprv, h⟩ := bind_ok h
  have := w.prev hv hM hw hn hf hp hacc hprv
  subst this
  simp only [hy, Except.bind, hx, simplifiedIn_add, Except.map, Except.ok.injEq] at h
  exact ⟨Num.n (x.v + y.v), by rw [← h]; rfl, rfl⟩

/-- The size of a field that extends to the end of the message is unknown as long as the end is. -/
theorem Well.rest_size (w : Well m rank rest) {fv : Field → FV} {σ : State} (hv : Values m fv)
    (hM : m.fieldMapping fv (INITIAL :: m.fields) = .ok σ.mapping ∨ σ.mapping = initMapping) {f : Field} (hf : rest f = true)
    {s : Option Num} (h : m.getSize σ f = .ok s) : s = none := by
  obtain ⟨ht, _, hsz⟩ := w.rests f hf
  unfold Msg.getSize at h
  rw [ht] at h
  have : ∀ ls : List Link, (∀ l ∈ ls, l ∈ incoming m.links f) → m.linkSize σ ls = .ok s → s = none := by
    intro ls
    induction ls with
    | nil => intro _ h; simpa [Msg.linkSize] using h.symm
    | cons l ls ih =>
      intro hl h
      have hl1 := hl l (by simp)
      have hl2 := fun l' h' => hl l' (List.mem_cons_of_mem _ h')
      obtain ⟨b, _, h⟩ := bind_ok (h : (FV.isSet _ _).bind _ = _)
      split at h
      · obtain ⟨c, _, h⟩ := bind_ok h
        split at h
        · obtain ⟨e, he, rfl⟩ := map_ok h
          exact hsz l (mem_incoming hl1).1 (mem_incoming hl1).2 fv _ e hv hM he
        · exact ih hl2 h
      · exact ih hl2 h
  exact this _ (fun _ h => h) h

theorem Fresh.not_set {t : FType} {v : FV} (h : Fresh t v) : v.isSet t = .ok false := by
  cases t <;> simp_all [Fresh, FV.isSet, FV.size, Except.bind]

/-- `_get_size` of the next field on the walk: a fitting number, unless the field extends to the end of the message. -/
theorem Well.size (w : Well m rank rest) {fv : Field → FV} {σ : State} (hv : Values m fv) (hM : Mapping m fv σ.mapping)
    {p : List Field} {e f : Field} (hw : Walk m σ.mapping INITIAL p e) (hn : m.nextField σ.mapping e = .ok (some f)) (hf : f ≠ FINAL)
    (hset : ∀ g ∈ p, (fv g).isSet (m.typeOf g) = .ok true) (hse : (σ.fv e).isSet (m.typeOf e) = .ok true)
    (hfresh : ∀ g, g ∉ p → g ≠ INITIAL → Fresh (m.typeOf g) (σ.fv g)) (hr : rest f = false) {s : Option Num}
    (h : m.getSize σ f = .ok s) : ∃ n, s = some n ∧ 0 ≤ n.v ∧ Fits (m.typeOf f) n.v.toNat := by
  obtain ⟨l0, hl0, hl0s, hl0t, hl0h⟩ := w.next_holds hn
  have hff : f ∈ m.fields := by
    rcases (w.links l0 hl0).2 with h | h
    · exact absurd (hl0t.symm.trans h) hf
    · rw [← hl0t]; exact h
  have hrk := next_rank' w.ranked hn hf
  by_cases hc : (m.typeOf f).isComposite = true
  · have hls : m.linkSize σ (incoming m.links f) = .ok s := by
      unfold Msg.getSize at h
      split at h
      · rename_i ht
        rw [ht] at hc
        simp [FType.isComposite] at hc
      · exact h
    have key : ∀ ls : List Link, (∀ l ∈ ls, l ∈ incoming m.links f) → l0 ∈ ls → m.linkSize σ ls = .ok s →
        ∃ n, s = some n ∧ 0 ≤ n.v ∧ Fits (m.typeOf f) n.v.toNat := by
      intro ls
      induction ls with
      | nil => intro _ h; simp at h
      | cons l ls ih =>
        intro hl hmem h
        obtain ⟨hl1, hl2⟩ := mem_incoming (hl l (by simp))
        have hl3 := fun l' h' => hl l' (List.mem_cons_of_mem _ h')
        obtain ⟨hund, hnum⟩ := w.sizes l hl1 (hl2 ▸ hff) (hl2 ▸ hc) (hl2 ▸ hr)
        obtain ⟨b, hb, h⟩ := bind_ok (h : (FV.isSet _ _).bind _ = _)
        rw [hund] at h
        cases b with
        | true =>
          simp only [Bool.not_false, Bool.and_self, if_true] at h
          obtain ⟨c, hcc, h⟩ := bind_ok h
          cases c with
          | true =>
            simp only [if_true] at h
            have hsrc : l.source ∈ INITIAL :: p := by
              refine Classical.byContradiction fun hnot => ?_
              simp only [List.mem_cons, not_or] at hnot
              have := (hfresh l.source hnot.2 hnot.1).not_set
              rw [this] at hb
              cases hb
            have hle : l.source = e := by
              rcases hw.succ _ hsrc with h | ⟨c, hc', hgc⟩
              · exact h
              · obtain ⟨l2, hl2', hs2, ht2, hh2⟩ := w.next_holds hgc
                have hfc := w.exclusive fv _ hv hM l hl1 l2 hl2' hs2.symm hcc hh2
                rw [hl2, ht2] at hfc
                have := (hw.rank_le w.ranked).2 c hc'
                rw [hfc] at hrk
                omega
            obtain ⟨e', n, h1, h2, h3, h4⟩ := hnum fv σ.mapping p hv hM (hle ▸ hw) hset hcc
            rw [h1] at h
            simp only [Except.map, h2, Except.ok.injEq] at h
            exact ⟨n, h.symm, h3, hl2 ▸ h4⟩
          | false =>
            simp only [Bool.false_eq_true, if_false] at h
            refine ih hl3 ?_ h
            rcases List.mem_cons.mp hmem with rfl | hm
            · rw [hl0h] at hcc; cases hcc
            · exact hm
        | false =>
          simp only [Bool.false_and, Bool.false_eq_true, if_false] at h
          refine ih hl3 ?_ h
          rcases List.mem_cons.mp hmem with rfl | hm
          · rw [hl0s, hse] at hb; cases hb
          · exact hm
    exact key _ (fun _ h => h) (by simp [incoming, hl0, hl0t]) hls
  · unfold Msg.getSize at h
    split at h
    · rename_i s' imp ht
      have hfine := w.scalars f hff s' imp ht
      obtain ⟨n, hn1, hn2⟩ := fine_size hfine
      rw [hn1] at h
      simp only [Except.map, Except.ok.injEq] at h
      exact ⟨_, h.symm, by simp, by rw [ht]; exact ⟨hfine, by simpa using hn1⟩⟩
    · rename_i ht
      cases htt : m.typeOf f with
      | scalar s' imp => exact absurd htt (ht s' imp)
      | _ => simp [htt, FType.isComposite] at hc

end Verif.PyRFLX
