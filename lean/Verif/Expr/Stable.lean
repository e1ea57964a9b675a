import Verif.Expr.VarsProps
import Verif.Expr.Mono

/-! # Lemmas: simplification adds nothing

Properties of expressions that are properties of their parts are kept by `simplified`. -/

namespace Verif

/-- Proof device: properties of expressions that are properties of the parts, and do not depend on signs. -/
structure Stable (Q : Expr → Prop) : Prop where
  tru : Q .tru
  fls : Q .fls
  num : ∀ v b, Q (.num v b)
  var : ∀ ng im id, Q (.var ng im id) → Q (.var (!ng) im id)
  flip : ∀ ng a pre, Q (.attr ng a pre) → Q (.attr (!ng) a pre)
  sel : ∀ ng pre s, Q (.sel ng pre s) → Q (.sel (!ng) pre s)
  call : ∀ ng id args, Q (.call ng id args) → Q (.call (!ng) id args)
  attr : ∀ ng a pre pre' k, Q (.attr ng a pre) → simplify k pre = .ok pre' → (Q pre → Q pre') → Q (.attr ng a pre')
  not : ∀ e, Q (.not e) ↔ Q e
  bool : ∀ op ts, Q (.bool op ts) ↔ ∀ t ∈ ts, Q t
  add : ∀ ts, Q (.add ts) ↔ ∀ t ∈ ts, Q t
  mul : ∀ ts, Q (.mul ts) ↔ ∀ t ∈ ts, Q t
  agg : ∀ ts, Q (.agg ts) ↔ ∀ t ∈ ts, Q t
  bin : ∀ op l r, Q (.bin op l r) ↔ Q l ∧ Q r
  rel : ∀ op l r, Q (.rel op l r) ↔ Q l ∧ Q r
  quant : ∀ q p it pr, Q (.quant q p it pr) ↔ Q it ∧ Q pr

theorem mapM_all {f : Expr → Py Expr} {Q : Expr → Prop} : ∀ {ts us : List Expr}, ts.mapM f = .ok us →
    (∀ t ∈ ts, ∀ u, f t = .ok u → Q u) → ∀ u ∈ us, Q u
  | [], us, h, _ => by cases h; simp
  | t :: ts, us, h, hq => by
    rw [List.mapM_cons] at h
    cases ht : f t with
    | error e => rw [ht] at h; cases h
    | ok u =>
      rw [ht] at h
      cases hts : ts.mapM f with
      | error e => simp only [hts, bind, Except.bind] at h; cases h
      | ok vs =>
        simp only [hts, bind, Except.bind] at h
        cases h
        intro x hx
        rcases List.mem_cons.mp hx with rfl | hx
        · exact hq t (by simp) _ ht
        · exact mapM_all hts (fun t' ht' => hq t' (by simp [ht'])) x hx

structure StableOK (Q : Expr → Prop) (k : Nat) : Prop where
  ng : ∀ e e', Q e → neg k e = .ok e' → Q e'
  simp : ∀ e e', Q e → simplify k e = .ok e' → Q e'
  loop : ∀ o w t n r, (∀ x ∈ w, Q x) → (∀ x ∈ t, Q x) → assLoop k o w t n = .ok r → ∀ x ∈ r.1, Q x
  canc : ∀ r t u, (∀ x ∈ r, Q x) → (∀ x ∈ t, Q x) → cancel k r t = .ok u → ∀ x ∈ u, Q x

variable {Q : Expr → Prop}

theorem Stable.n (h : Stable Q) (v : Int) : Q (.n v) := h.num v _

theorem Stable.const (h : Stable Q) (o : AssOp) (n : Int) : Q (o.const n) := by
  cases o <;> simp only [AssOp.const]
  · split
    · exact h.tru
    · exact h.fls
  · exact h.num _ _
  · exact h.num _ _

theorem Stable.join (h : Stable Q) (o : AssOp) {ts : List Expr} (ht : ∀ x ∈ ts, Q x) : Q (o.mk ts) := by
  cases o <;> simp only [AssOp.mk]
  · exact (h.bool _ _).mpr ht
  · exact (h.add _).mpr ht
  · exact (h.mul _).mpr ht

theorem Stable.finish (h : Stable Q) (o : AssOp) {ts : List Expr} {n : Int} (ht : ∀ x ∈ ts, Q x) : Q (o.finish ts n) := by
  unfold AssOp.finish
  split
  · exact h.const o n
  · have h2 : ∀ x ∈ (if n ≠ o.neutral then ts ++ [o.const n] else ts), Q x := by
      split
      · intro x hx
        rcases List.mem_append.mp hx with hx | hx
        · exact ht x hx
        · rw [List.mem_singleton.mp hx]; exact h.const o n
      · exact ht
    revert h2
    generalize (if n ≠ o.neutral then ts ++ [o.const n] else ts) = us
    intro h2
    simp only
    split
    · exact h2 _ (by simp)
    · exact h.join o h2

theorem Stable.absorb (h : Stable Q) (op : BoolOp) {e : Expr} (he : Q e) : Q (absorb op e) := by
  unfold Verif.absorb
  split
  · split
    · exact h.fls
    · split
      · exact h.tru
      · exact he
  · exact he

theorem Stable.sameTerms (h : Stable Q) {o : AssOp} {e : Expr} {ts : List Expr} (hs : o.sameTerms e = some ts) (he : Q e) :
    ∀ t ∈ ts, Q t := by
  unfold AssOp.sameTerms at hs
  split at hs <;> cases hs <;> first
    | exact (h.bool _ _).mp he
    | exact (h.add _).mp he
    | exact (h.mul _).mp he

theorem Stable.numArith (h : Stable Q) {op : ArithOp} {a b : Int} {e : Expr} (he : numArith op a b = .ok e) : Q e := by
  cases op <;> simp only [Verif.numArith, numDiv, numPow, numMod] at he
  · cases he; exact h.num _ _
  · split at he
    · cases he
    · split at he
      · cases he; exact h.num _ _
      · cases he; exact (h.bin _ _ _).mpr ⟨h.num _ _, h.num _ _⟩
  · split at he
    · split at he <;> cases he
    · cases he; exact h.num _ _
  · split at he
    · cases he
    · cases he; exact h.num _ _

theorem mem_removeFirst {x y : Expr} : ∀ {ts : List Expr}, y ∈ removeFirst x ts → y ∈ ts
  | [], h => by cases h
  | t :: ts, h => by
    unfold removeFirst at h
    split at h
    · exact List.mem_cons_of_mem _ h
    · rcases List.mem_cons.mp h with rfl | h
      · simp
      · exact List.mem_cons_of_mem _ (mem_removeFirst h)

theorem py_bind {α β : Type} {x : Py α} {f : α → Py β} {b : β} (h : (x >>= f) = .ok b) : ∃ a, x = .ok a ∧ f a = .ok b := by
  cases x with
  | error e => cases h
  | ok a => exact ⟨a, rfl, h⟩

theorem stableOK (h : Stable Q) (k : Nat) : StableOK Q k := by
  induction k with
  | zero =>
    refine ⟨fun e e' _ he => (by cases he), fun e e' _ he => (by cases he), fun o w t n r hw ht he => ?_, fun r t u hr ht he => ?_⟩
    · cases w with
      | nil => simp only [assLoop] at he; cases he; exact ht
      | cons => simp only [assLoop] at he; cases he
    · cases r with
      | nil => simp only [cancel] at he; cases he; exact ht
      | cons => simp only [cancel] at he; cases he
  | succ k ih =>
    obtain ⟨hn, hs, hl, hc⟩ := ih
    refine ⟨fun e e' hq he => ?_, fun e e' hq he => ?_, fun o w t n r hw ht he => ?_, fun r t u hr ht he => ?_⟩
    · cases e with
      | tru => cases he; exact h.fls
      | fls => cases he; exact h.tru
      | undefined | bool | agg | quant => cases he
      | num => cases he; exact h.num _ _
      | var => cases he; exact h.var _ _ _ hq
      | attr => cases he; exact h.flip _ _ _ hq
      | sel => cases he; exact h.sel _ _ _ hq
      | call => cases he; exact h.call _ _ _ hq
      | not e => cases he; exact (h.not _).mp hq
      | add ts =>
        simp only [neg] at he
        obtain ⟨us, hus, he⟩ := py_bind he
        cases he
        exact (h.add _).mpr (mapM_all hus fun t ht u hu => hn t u ((h.add _).mp hq t ht) hu)
      | mul ts =>
        simp only [neg] at he
        refine hs _ _ ((h.mul _).mpr fun t ht => ?_) he
        rcases List.mem_append.mp ht with ht | ht
        · exact (h.mul _).mp hq t ht
        · rw [List.mem_singleton.mp ht]; exact h.num _ _
      | bin op l r =>
        simp only [neg] at he
        obtain ⟨l', hl', he⟩ := py_bind he
        cases he
        exact (h.bin _ _ _).mpr ⟨hn _ _ ((h.bin _ _ _).mp hq).1 hl', ((h.bin _ _ _).mp hq).2⟩
      | rel op l r => cases he; exact (h.rel _ _ _).mpr ((h.rel _ _ _).mp hq)
    · cases e with
      | tru | fls | undefined | num | var | sel | call => cases he; exact hq
      | attr ng a pre =>
        simp only [simplify] at he
        obtain ⟨p, hp, he⟩ := py_bind he
        cases he
        exact h.attr _ _ _ _ _ hq hp fun hq' => hs _ _ hq' hp
      | not e =>
        have hq := (h.not _).mp hq
        cases e with
        | rel op l r =>
          simp only [simplify] at he
          split at he
          · obtain ⟨l', hl', he⟩ := py_bind he
            obtain ⟨r', hr', he⟩ := py_bind he
            cases he
            exact (h.rel _ _ _).mpr ⟨hs _ _ ((h.rel _ _ _).mp hq).1 hl', hs _ _ ((h.rel _ _ _).mp hq).2 hr'⟩
          · rename_i hcmp
            obtain ⟨x, hx, he⟩ := py_bind he
            cases he
            exact (h.not _).mpr (hs _ _ hq hx)
        | _ =>
          simp only [simplify] at he
          obtain ⟨x, hx, he⟩ := py_bind he
          cases he
          exact (h.not _).mpr (hs _ _ hq hx)
      | bool op ts =>
        simp only [simplify] at he
        obtain ⟨⟨terms, total⟩, hx, he⟩ := py_bind he
        cases he
        exact h.absorb _ (h.finish _ (hl _ _ _ _ _ ((h.bool _ _).mp hq) (by simp) hx))
      | add ts =>
        simp only [simplify] at he
        obtain ⟨⟨terms, total⟩, hx, he⟩ := py_bind he
        have hf := h.finish .add (n := total) (hl _ _ _ _ _ ((h.add _).mp hq) (by simp) hx)
        simp only at he
        revert he hf
        generalize AssOp.add.finish terms total = x
        intro he hf
        split at he
        · obtain ⟨us, hus, he⟩ := py_bind he
          have hu := hc _ _ _ (fun x hx => (h.add _).mp hf x (List.mem_reverse.mp hx)) (by simp) hus
          split at he
          · cases he; exact hu _ (by simp)
          · cases he; exact (h.add _).mpr hu
        · cases he; exact hf
      | mul ts =>
        simp only [simplify] at he
        obtain ⟨⟨terms, total⟩, hx, he⟩ := py_bind he
        cases he
        exact h.finish _ (hl _ _ _ _ _ ((h.mul _).mp hq) (by simp) hx)
      | bin op l r =>
        simp only [simplify] at he
        obtain ⟨l', hl', he⟩ := py_bind he
        obtain ⟨r', hr', he⟩ := py_bind he
        have h1 := hs _ _ ((h.bin _ _ _).mp hq).1 hl'
        have h2 := hs _ _ ((h.bin _ _ _).mp hq).2 hr'
        split at he
        · exact h.numArith he
        · split at he
          · obtain ⟨x, hx, he⟩ := py_bind he
            cases he
            refine (h.add _).mpr fun t ht => ?_
            simp only [List.mem_cons, List.not_mem_nil, or_false] at ht
            rcases ht with rfl | rfl
            · exact h1
            · exact hn _ _ h2 hx
          · cases he; exact (h.bin _ _ _).mpr ⟨h1, h2⟩
      | rel op l r =>
        simp only [simplify] at he
        obtain ⟨l', hl', he⟩ := py_bind he
        obtain ⟨r', hr', he⟩ := py_bind he
        have h3 := (h.rel op l' r').mpr ⟨hs _ _ ((h.rel _ _ _).mp hq).1 hl', hs _ _ ((h.rel _ _ _).mp hq).2 hr'⟩
        split at he
        · split at he
          · cases he; exact h.tru
          · split at he
            · cases he
              split
              · exact h.tru
              · exact h.fls
            · cases he; exact h3
        · cases he; exact h3
      | agg ts =>
        simp only [simplify] at he
        obtain ⟨us, hus, he⟩ := py_bind he
        cases he
        exact (h.agg _).mpr (mapM_all hus fun t ht u hu => hs t u ((h.agg _).mp hq t ht) hu)
      | quant q p it pr =>
        simp only [simplify] at he
        obtain ⟨l', hl', he⟩ := py_bind he
        obtain ⟨r', hr', he⟩ := py_bind he
        cases he
        exact (h.quant _ _ _ _).mpr ⟨hs _ _ ((h.quant _ _ _ _).mp hq).1 hl', hs _ _ ((h.quant _ _ _ _).mp hq).2 hr'⟩
    · cases w with
      | nil => simp only [assLoop] at he; cases he; exact ht
      | cons w ws =>
        simp only [assLoop] at he
        obtain ⟨x, hx, he⟩ := py_bind he
        have hqx := hs _ _ (hw w (by simp)) hx
        have hws : ∀ x ∈ ws, Q x := fun x hx => hw x (by simp [hx])
        split at he
        · exact hl _ _ _ _ _ hws ht he
        · exact hl _ _ _ _ _ hws ht he
        · exact hl _ _ _ _ _ hws ht he
        · split at he
          · rename_i us hus
            refine hl _ _ _ _ _ (fun y hy => ?_) ht he
            rcases List.mem_append.mp hy with hy | hy
            · exact hws y hy
            · exact h.sameTerms hus hqx y hy
          · refine hl _ _ _ _ _ hws (fun y hy => ?_) he
            rcases List.mem_append.mp hy with hy | hy
            · exact ht y hy
            · rw [List.mem_singleton.mp hy]; exact hqx
    · cases r with
      | nil => simp only [cancel] at he; cases he; exact ht
      | cons r rs =>
        have hrs : ∀ x ∈ rs, Q x := fun x hx => hr x (by simp [hx])
        simp only [cancel] at he
        split at he
        · exact hc _ _ _ hrs (fun x hx => by rw [List.mem_singleton.mp hx]; exact hr r (by simp)) he
        · obtain ⟨x, hx, he⟩ := py_bind he
          split at he
          · exact hc _ _ _ hrs (fun y hy => ht y (mem_removeFirst hy)) he
          · refine hc _ _ _ hrs (fun y hy => ?_) he
            rcases List.mem_cons.mp hy with rfl | hy
            · exact hr _ (by simp)
            · exact ht y hy

/-- What `simplified` returns has the properties of the parts of the expression. -/
theorem Stable.simplified (h : Stable Q) {e e' : Expr} (hq : Q e) (he : e.simplified = .ok e') : Q e' := (stableOK h _).simp _ _ hq he

end Verif
