import Verif.Expr.Model

/-! # `simplified` terminates

The recursion of `simplified` is not structural: terms flattened out of a simplified term are
simplified again, and `-` on a product calls `simplified`. A weight that never grows under
`simplified` bounds the recursion. -/

namespace Verif

mutual
/-- Proof device: a weight of expressions that bounds the recursion depth of `simplified`. -/
def weight : Expr → Nat
  | .attr _ _ pre => 1 + weight pre
  | .not e => 1 + weight e
  | .bool _ ts => 1 + weightL ts
  | .add ts => 1 + weightL ts
  | .mul ts => 1 + weightL ts
  | .bin op l r => (if op = .sub then 2 + weight l + 3 * weight r else 1 + weight l + weight r)
  | .rel _ l r => 1 + weight l + weight r
  | .agg es => 1 + weightL es
  | .quant _ _ it pr => 1 + weight it + weight pr
  | _ => 1
def weightL : List Expr → Nat
  | [] => 0
  | e :: es => weight e + weightL es
end

theorem weight_pos (e : Expr) : 1 ≤ weight e := by
  cases e <;> simp only [weight] <;> (try split) <;> omega

theorem weightL_append (a b : List Expr) : weightL (a ++ b) = weightL a + weightL b := by
  induction a with
  | nil => simp [weightL]
  | cons x xs ih => simp only [List.cons_append, weightL, ih]; omega

theorem weightL_reverse (a : List Expr) : weightL a.reverse = weightL a := by
  induction a with
  | nil => rfl
  | cons x xs ih => simp only [List.reverse_cons, weightL_append, weightL, ih]; omega

theorem weight_mem {t : Expr} {ts : List Expr} (h : t ∈ ts) : weight t ≤ weightL ts := by
  induction ts with
  | nil => cases h
  | cons x xs ih =>
    rcases List.mem_cons.1 h with rfl | h
    · simp only [weightL]; omega
    · have := ih h; simp only [weightL]; omega

/-- Proof device: `x` does not run out of fuel and its result satisfies `Q`. -/
def NF {α : Type} (x : Py α) (Q : α → Prop) : Prop :=
  match x with
  | .ok a => Q a
  | .error e => e ≠ .fuel

theorem NF.bind {α β : Type} {x : Py α} {Q : α → Prop} {f : α → Py β} {R : β → Prop}
    (hx : NF x Q) (hf : ∀ a, Q a → NF (f a) R) : NF (x >>= f) R := by
  cases x with
  | ok a => exact hf a hx
  | error e => exact hx

theorem NF.pure {α : Type} {a : α} {Q : α → Prop} (h : Q a) : NF (pure a : Py α) Q := h

theorem NF.ok {α : Type} {a : α} {Q : α → Prop} (h : Q a) : NF (.ok a : Py α) Q := h

theorem NF.mapM {f : Expr → Py Expr} {c : Nat} {ts : List Expr}
    (h : ∀ t ∈ ts, NF (f t) (fun t' => weight t' ≤ c * weight t)) :
    NF (ts.mapM f) (fun ts' => weightL ts' ≤ c * weightL ts) := by
  induction ts with
  | nil => rw [List.mapM_nil]; exact NF.pure (by simp [weightL])
  | cons t ts ih =>
    rw [List.mapM_cons]
    refine NF.bind (h t (by simp)) fun t' ht' => ?_
    refine NF.bind (ih fun t ht => h t (by simp [ht])) fun ts' hts' => ?_
    refine NF.pure ?_
    simp only [weightL, Nat.mul_add]
    omega

theorem weight_const (o : AssOp) (x : Int) : weight (o.const x) = 1 := by
  cases o <;> simp only [AssOp.const]
  · split <;> rfl
  · rfl
  · rfl

theorem weight_mk (o : AssOp) (ts : List Expr) : weight (o.mk ts) = 1 + weightL ts := by
  cases o <;> simp [AssOp.mk, weight]

theorem weight_sameTerms {o : AssOp} {t : Expr} {ts : List Expr} (h : o.sameTerms t = some ts) :
    weight t = 1 + weightL ts := by
  unfold AssOp.sameTerms at h
  split at h <;> first | (cases h; simp [weight]) | cases h

theorem weight_finish (o : AssOp) (terms : List Expr) (total : Int) :
    weight (o.finish terms total) ≤ 1 + weightL terms + (if total ≠ o.neutral then 1 else 0) := by
  simp only [AssOp.finish]
  split
  · rw [weight_const]; omega
  · have h : weightL (if total ≠ o.neutral then terms ++ [o.const total] else terms)
        = weightL terms + (if total ≠ o.neutral then 1 else 0) := by
      split
      · simp [weightL_append, weightL, weight_const]
      · simp
    generalize (if total ≠ o.neutral then terms ++ [o.const total] else terms) = ts at h ⊢
    split
    · simp only [weightL] at h; omega
    · rw [weight_mk]; omega

theorem weight_absorb (op : BoolOp) (e : Expr) : weight (absorb op e) ≤ weight e := by
  unfold absorb
  split
  · split
    · simp only [weight]; omega
    · split
      · simp only [weight]; omega
      · exact Nat.le_refl _
  · exact Nat.le_refl _

theorem weightL_removeFirst (x : Expr) (l : List Expr) : weightL (removeFirst x l) ≤ weightL l := by
  induction l with
  | nil => exact Nat.le_refl _
  | cons y ys ih =>
    simp only [removeFirst]
    split <;> simp only [weightL] <;> omega

/-- The combined statement about the four mutually recursive functions. -/
structure FuelOK (k : Nat) : Prop where
  simp : ∀ e, 4 * weight e ≤ k → NF (simplify k e) (fun e' => weight e' ≤ weight e)
  ng : ∀ e, 4 * weight e + 5 ≤ k → NF (neg k e) (fun e' => weight e' ≤ 2 * weight e)
  loop : ∀ o work terms total, 4 * weightL work + 1 ≤ k →
    NF (assLoop k o work terms total)
      (fun r => weightL r.1 + (if r.2 ≠ total then 1 else 0) ≤ weightL terms + weightL work)
  canc : ∀ rest terms, 4 * weightL rest + (if terms.isEmpty then 3 else 6) ≤ k →
    NF (cancel k rest terms) (fun r => weightL r ≤ weightL rest + weightL terms)

theorem fuelOK (k : Nat) : FuelOK k := by
  induction k with
  | zero =>
    refine ⟨?_, ?_, ?_, ?_⟩
    · intro e h; have := weight_pos e; omega
    · intro e h; omega
    · intro o work terms total h; omega
    · intro rest terms h; split at h <;> omega
  | succ k ih =>
    obtain ⟨ihs, ihn, ihl, ihc⟩ := ih
    refine ⟨?_, ?_, ?_, ?_⟩
    · intro e h
      have hs : ∀ e, 4 * weight e ≤ k → NF (simplify k e) (fun e' => weight e' ≤ weight e) := ihs
      cases e with
      | tru => exact NF.ok (by simp)
      | fls => exact NF.ok (by simp)
      | undefined => exact NF.ok (by simp)
      | num v b => exact NF.ok (by simp)
      | var ng imm id => exact NF.ok (by simp)
      | sel ng pre s => exact NF.ok (by simp)
      | call ng id args => exact NF.ok (by simp)
      | attr ng a pre =>
        simp only [weight] at h
        simp only [simplify]
        refine NF.bind (ihs pre (by omega)) fun p hp => NF.pure ?_
        simp only [weight]; omega
      | not e =>
        simp only [weight] at h
        have aux : NF (do return Expr.not (← simplify k e)) (fun e' => weight e' ≤ weight (.not e)) := by
          refine NF.bind (ihs e (by omega)) fun p hp => NF.pure ?_
          simp only [weight]; omega
        cases e with
        | rel op l r =>
          simp only [simplify]
          simp only [weight] at h
          split
          · refine NF.bind (ihs l (by omega)) fun l' hl => NF.bind (ihs r (by omega)) fun r' hr => ?_
            refine NF.pure ?_
            simp only [weight]; omega
          · exact aux
        | _ => exact aux
      | bool op ts =>
        simp only [weight] at h
        simp only [simplify]
        refine NF.bind (ihl (.bool op) ts [] _ (by omega)) ?_
        rintro ⟨terms, total⟩ hr
        refine NF.pure ?_
        have h1 := weight_absorb op ((AssOp.bool op).finish terms total)
        have h2 := weight_finish (.bool op) terms total
        simp only [weightL] at hr
        simp only [weight]; omega
      | add ts =>
        simp only [weight] at h
        simp only [simplify]
        refine NF.bind (ihl .add ts [] _ (by omega)) ?_
        rintro ⟨terms, total⟩ hr
        have h2 := weight_finish .add terms total
        simp only [weightL] at hr
        generalize AssOp.add.finish terms total = e at h2
        cases e with
        | add us =>
          simp only [weight] at h2
          simp only
          refine NF.bind (ihc us.reverse [] ?_) ?_
          · rw [weightL_reverse]; simp; omega
          · intro vs hvs
            rw [weightL_reverse] at hvs
            simp only [weightL] at hvs
            split
            · refine NF.pure ?_
              simp only [weightL] at hvs
              simp only [weight]; omega
            · refine NF.pure ?_
              simp only [weight]; omega
        | _ => exact NF.pure (Nat.le_trans h2 (by simp only [weight]; omega))
      | mul ts =>
        simp only [weight] at h
        simp only [simplify]
        refine NF.bind (ihl .mul ts [] _ (by omega)) ?_
        rintro ⟨terms, total⟩ hr
        have h2 := weight_finish .mul terms total
        simp only [weightL] at hr
        refine NF.pure ?_
        simp only [weight]; omega
      | bin op l r =>
        simp only [simplify]
        have hl : 4 * weight l ≤ k := by
          simp only [weight] at h; split at h <;> omega
        have hr : 4 * weight r ≤ k := by
          simp only [weight] at h; split at h <;> omega
        refine NF.bind (ihs l hl) fun l' hl' => NF.bind (ihs r hr) fun r' hr' => ?_
        have hpl := weight_pos l
        have hpr := weight_pos r
        split
        · cases op with
          | sub => exact NF.ok (by simp [weight]; omega)
          | div =>
            simp only [numArith, numDiv]
            split
            · exact fun h => by cases h
            · split
              · exact NF.ok (by simp [weight]; omega)
              · exact NF.ok (by simp [weight]; omega)
          | pow =>
            simp only [numArith, numPow]
            split
            · split <;> exact fun h => by cases h
            · exact NF.ok (by simp [weight]; omega)
          | mod =>
            simp only [numArith, numMod]
            split
            · exact fun h => by cases h
            · exact NF.ok (by simp [weight]; omega)
        · split
          · rename_i ho
            subst ho
            simp only [weight, if_true] at h
            refine NF.bind (ihn r' (by omega)) fun m hm => NF.pure ?_
            simp only [weight, weightL, if_true]; omega
          · refine NF.pure ?_
            simp only [weight]
            split <;> omega
      | rel op l r =>
        simp only [weight] at h
        simp only [simplify]
        refine NF.bind (ihs l (by omega)) fun l' hl' => NF.bind (ihs r (by omega)) fun r' hr' => ?_
        split
        · split
          · exact NF.pure (by simp only [weight]; omega)
          · split
            · split <;> exact NF.pure (by simp only [weight]; omega)
            · exact NF.pure (by simp only [weight]; omega)
        · exact NF.pure (by simp only [weight]; omega)
      | agg es =>
        simp only [weight] at h
        simp only [simplify]
        refine NF.bind (NF.mapM (c := 1) (ts := es) ?_) fun es' hes' => NF.pure ?_
        · intro t ht
          have := weight_mem ht
          rw [Nat.one_mul]
          exact ihs t (by omega)
        · simp only [weight]; omega
      | quant q p it pr =>
        simp only [weight] at h
        simp only [simplify]
        refine NF.bind (ihs it (by omega)) fun l' hl' => NF.bind (ihs pr (by omega)) fun r' hr' => ?_
        exact NF.pure (by simp only [weight]; omega)
    · intro e h
      cases e with
      | tru => exact NF.ok (by simp [weight])
      | fls => exact NF.ok (by simp [weight])
      | undefined => exact fun h => by cases h
      | num v b => exact NF.ok (by simp [weight])
      | var ng imm id => exact NF.ok (by simp [weight])
      | sel ng pre s => exact NF.ok (by simp [weight])
      | call ng id args => exact NF.ok (by simp [weight])
      | attr ng a pre => exact NF.ok (by simp only [weight]; omega)
      | not e => exact NF.ok (by simp only [weight]; omega)
      | bool op ts => exact fun h => by cases h
      | agg ts => exact fun h => by cases h
      | quant _ _ _ _ => exact fun h => by cases h
      | rel op l r => exact NF.ok (by simp only [weight]; omega)
      | add ts =>
        simp only [weight] at h
        simp only [neg]
        refine NF.bind (NF.mapM (c := 2) (ts := ts) ?_) fun es' hes' => NF.pure ?_
        · intro t ht
          have := weight_mem ht
          exact ihn t (by omega)
        · simp only [weight]; omega
      | mul ts =>
        simp only [weight] at h
        simp only [neg]
        have := ihs (.mul (ts ++ [.n (-1)])) (by simp only [weight, weightL_append, weightL]; omega)
        generalize simplify k (.mul (ts ++ [.n (-1)])) = x at this
        cases x with
        | error e => exact this
        | ok a =>
          simp only [NF, weight, weightL_append, weightL] at this ⊢
          omega
      | bin op l r =>
        simp only [neg]
        have hl : 4 * weight l + 5 ≤ k := by
          simp only [weight] at h; split at h <;> omega
        refine NF.bind (ihn l hl) fun l' hl' => NF.pure ?_
        simp only [weight]
        split <;> omega
    · intro o work terms total h
      cases work with
      | nil => simp only [assLoop]; exact NF.ok (by simp)
      | cons w work =>
        simp only [weightL] at h
        simp only [assLoop]
        have hw := weight_pos w
        refine NF.bind (ihs w (by omega)) fun t ht => ?_
        have num : ∀ x, NF (assLoop k o work terms x)
            (fun r => weightL r.1 + (if r.2 ≠ total then 1 else 0) ≤ weightL terms + weightL (w :: work)) := by
          intro x
          have := ihl o work terms x (by omega)
          generalize assLoop k o work terms x = y at this
          cases y with
          | error e => exact this
          | ok r =>
            simp only [NF, weightL] at this ⊢
            have : (if r.2 ≠ total then 1 else 0) ≤ 1 := by split <;> omega
            omega
        have rest : NF (match o.sameTerms t with
            | some ts => assLoop k o (work ++ ts) terms total
            | none => assLoop k o work (terms ++ [t]) total)
            (fun r => weightL r.1 + (if r.2 ≠ total then 1 else 0) ≤ weightL terms + weightL (w :: work)) := by
          split
          · rename_i ts hts
            have hwt := weight_sameTerms hts
            have := ihl o (work ++ ts) terms total (by rw [weightL_append]; omega)
            generalize assLoop k o (work ++ ts) terms total = y at this
            cases y with
            | error e => exact this
            | ok r =>
              simp only [NF, weightL, weightL_append] at this ⊢
              omega
          · have := ihl o work (terms ++ [t]) total (by omega)
            generalize assLoop k o work (terms ++ [t]) total = y at this
            cases y with
            | error e => exact this
            | ok r =>
              simp only [NF, weightL, weightL_append] at this ⊢
              omega
        cases t with
        | num v b => exact num _
        | tru => exact num _
        | fls => exact num _
        | _ => exact rest
    · intro rest terms h
      cases rest with
      | nil => simp only [cancel]; exact NF.ok (by simp [weightL])
      | cons t rest =>
        have hw := weight_pos t
        simp only [weightL] at h
        simp only [cancel]
        split
        · rename_i he
          rw [if_pos he] at h
          have := ihc rest [t] (by simp; omega)
          generalize cancel k rest [t] = y at this
          cases y with
          | error e => exact this
          | ok r =>
            simp only [NF, weightL] at this ⊢
            omega
        · rename_i he
          rw [if_neg he] at h
          refine NF.bind (ihn t (by omega)) fun m hm => ?_
          split
          · rename_i other ho
            have := ihc rest (removeFirst other terms) (by split <;> omega)
            have hrf := weightL_removeFirst other terms
            generalize cancel k rest (removeFirst other terms) = y at this
            cases y with
            | error e => exact this
            | ok r =>
              simp only [NF, weightL] at this ⊢
              omega
          · have := ihc rest (t :: terms) (by simp; omega)
            generalize cancel k rest (t :: terms) = y at this
            cases y with
            | error e => exact this
            | ok r =>
              simp only [NF, weightL] at this ⊢
              omega

end Verif
