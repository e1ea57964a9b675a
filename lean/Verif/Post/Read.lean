import Verif.Post.Model
import Verif.Ctx.Valid
import Verif.Ctx.Props
import Verif.Ctx.Rebuild

/-! # Conditions in postconditions -/

namespace Verif.Ctx
open Verif Verif.Graph Verif.Verify Verif.Types Verif.Gen Verif.Spark

section
variable {P : Pkg} {b b' : Bytes} {lo hi : Int} {c c' : Context} {es ys : List Item} {p q : Field} {pos qpos : Int} {f : Field} {l : Link}

theorem allOf_true {xs : List (Run Bool)} : allOf xs = .ok true ↔ ∀ x ∈ xs, x = .ok true := by
  induction xs with
  | nil => simp [allOf]
  | cons x xs ih =>
    simp only [allOf, List.mem_cons, forall_eq_or_imp]
    constructor
    · intro h
      obtain ⟨a, ha, h⟩ := bind_run h
      obtain ⟨d, hd, h⟩ := bind_run h
      have := Except.ok.inj h
      rw [Bool.and_eq_true] at this
      obtain ⟨rfl, rfl⟩ := this
      exact ⟨ha, ih.mp hd⟩
    · rintro ⟨rfl, h⟩
      rw [ih.mpr h]
      rfl

theorem unchanged_true {α : Type} [DecidableEq α] {new old : Run α} {a : α} (h1 : new = .ok a) (h2 : old = .ok a) : unchanged new old = .ok true := by
  subst h1 h2
  simp [unchanged, bind, Except.bind, pure, Except.pure]

theorem leavesL_mem {ts : List Expr} {x : Expr} : x ∈ leavesL ts ↔ ∃ t ∈ ts, x ∈ leaves t := by
  induction ts with
  | nil => simp [leavesL]
  | cons t ts ih => simp [leavesL, ih]

theorem cov_leaves {L : Expr → Prop} {N : RelOp → Expr → Expr → Prop} (hr : ∀ op l r, ¬ L (.rel op l r)) (e : Expr) : Cov L N e → ∀ x ∈ leaves e, L x := by
  have one : ∀ {e : Expr}, L e → ∀ x ∈ [e], L x := by
    intro e h x hx
    rw [List.mem_singleton] at hx
    exact hx ▸ h
  induction e using Expr.ind with
  | tru => intro _ x hx; cases hx
  | fls => intro _ x hx; cases hx
  | num => intro _ x hx; cases hx
  | bool op ts ih =>
    intro h x hx
    simp only [Cov, covL_iff] at h
    obtain ⟨t, ht, hx⟩ := leavesL_mem.mp (by simpa only [leaves] using hx)
    exact ih t ht (h t ht) x hx
  | add ts ih =>
    intro h x hx
    simp only [Cov, covL_iff] at h
    obtain ⟨t, ht, hx⟩ := leavesL_mem.mp (by simpa only [leaves] using hx)
    exact ih t ht (h t ht) x hx
  | mul ts ih =>
    intro h x hx
    simp only [Cov, covL_iff] at h
    obtain ⟨t, ht, hx⟩ := leavesL_mem.mp (by simpa only [leaves] using hx)
    exact ih t ht (h t ht) x hx
  | bin op l r ihl ihr =>
    intro h x hx
    simp only [Cov] at h
    simp only [leaves, List.mem_append] at hx
    exact hx.elim (ihl h.1 x) (ihr h.2 x)
  | rel op l r ihl ihr =>
    intro h x hx
    simp only [Cov] at h
    simp only [leaves, List.mem_append] at hx
    rcases h with h | ⟨_, h1, h2⟩
    · exact absurd h (hr op l r)
    · exact hx.elim (ihl h1 x) (ihr h2 x)
  | _ => intro h; simp only [Cov] at h; simp only [leaves]; exact one h

/-! ## Fields of the message -/

/-- Positions of the fields in a context. -/
theorem Contains.positions (W : WellFormed P) (I : InBuffer P b lo hi) (U : Verified P lo hi) (H : Contains P b lo hi c es p pos) (hch : Chained c es)
    {e : Item} (he : e ∈ es) : P.needNext c e.f = .ok () ∧ P.fieldFirst c e.f = .ok e.first ∧ P.fieldLast c e.f = .ok e.last ∧
      P.fieldSize c e.f = .ok (e.last - e.first + 1) := by
  obtain ⟨xs, ys, hes⟩ := List.append_of_mem he
  obtain ⟨q, qpos, l, R, hs, _⟩ := H.ready W hch hes
  obtain ⟨n, hz, hn, h0, hbl, h1⟩ := R.fieldSize W I (U.deterministic b I) (U.sizes b I)
  have hle := step_space W R.target hz hs
  obtain ⟨x, hx, hiff, hy⟩ := R.validValue W hz h0 hle
  have := hy e hs
  have e1 : e.first = qpos := by rw [this]; rfl
  have e2 : e.last = qpos + n - 1 := by rw [this]; rfl
  refine ⟨R.needNext W I, by rw [e1]; exact R.fieldFirst W I, by rw [e2]; exact R.fieldLast W I hn h0 h1 hle, ?_⟩
  rw [hn, e1, e2]
  congr 1
  omega

theorem validNext_true (h : P.needNext c f = .ok ()) : P.validNext c f = .ok true := by
  unfold Pkg.needNext at h
  obtain ⟨x, hx, h⟩ := bind_run h
  rw [hx, need_run h]

/-- A scalar field has a number of its type. -/
theorem Contains.get (W : WellFormed P) (H : Contains P b lo hi c es p pos) {e : Item} (he : e ∈ es) (hs : P.isScalar e.f = true) :
    c.valid e.f = true ∧ P.get c e.f = .ok e.value := by
  obtain ⟨t, ht, hsc⟩ := scalar_type W.names hs
  obtain ⟨t', ht', _, hval⟩ := follows_type H.follows he
  have := nodup_pair W.names.once ht ht'
  subst this
  obtain ⟨n, hn, hv, hlast, hin⟩ := hval hsc
  obtain ⟨n', hn', h1, _⟩ := scalar_size W ht hsc
  obtain rfl : n = n' := Except.ok.inj (hn.symm.trans hn')
  have hcomp : P.isComposite e.f = false := by rw [isComposite_iff W.names ht, (scalar_iff t).mpr hsc]; rfl
  have hvalid : c.valid e.f = true := by
    simp only [Context.valid, H.cursors.ok e he hcomp, H.cursors.first e he, H.cursors.last e he, Bool.true_and, decide_eq_true_eq]
    omega
  have hlt := bitsAt_lt b e.first n.v.toNat
  obtain ⟨x, hx, hiff⟩ := validValue_ok (v := e.value) W ht hsc hn (by omega) (by rw [hv]; exact_mod_cast hlt)
  obtain rfl := hiff.mpr hin
  refine ⟨hvalid, ?_⟩
  simp only [Pkg.get, hvalid, H.cursors.value e he, hx, need, if_true, bind, Except.bind]
  rfl

/-- Names of fields of the message can be read. -/
theorem Contains.readLeaf (W : WellFormed P) (I : InBuffer P b lo hi) (U : Verified P lo hi) (H : Contains P b lo hi c es p pos) (hch : Chained c es)
    {e : Expr} (h : NameLeaf P.m opts (· ∈ es.map (·.f)) e) : P.readLeaf c e = .ok () := by
  have hbuf : c.hasBuffer = true := by simp [Context.hasBuffer, H.buffer]
  cases e with
  | var ng imm id =>
    cases ht : P.m.msg.type? ⟨id.key⟩ with
    | none => simp only [Pkg.readLeaf, ht]
    | some t =>
      have hm := type?_mem ht
      have hS : (⟨id.key⟩ : Field) ∈ es.map (·.f) := by
        rcases h with ⟨_, ⟨hS, _⟩ | hl⟩ | ⟨_, hS, _⟩
        · exact hS
        · exact absurd (W.names.typed _ hm) (W.names.literal id hl).1
        · exact hS
      obtain ⟨e, he, hef⟩ := List.mem_map.mp hS
      by_cases hs : t.isScalar = true
      · have := (H.get W he (by rw [hef, isScalar_iff W.names hm, hs])).2
        rw [hef] at this
        simp only [Pkg.readLeaf, ht, hs, if_true, this]
        rfl
      · simp only [Bool.not_eq_true] at hs
        have := (H.positions W I U hch he).1
        rw [hef] at this
        simp only [Pkg.readLeaf, ht, hs, Bool.false_eq_true, if_false, hbuf, need, if_true, this, bind, Except.bind]
  | attr ng a pre =>
    cases pre with
    | var ng' imm id =>
      obtain ⟨_, _, ha⟩ := h
      simp only [Pkg.readLeaf]
      split
      · rename_i hc
        have hmem : (⟨id.key⟩ : Field) ∈ P.m.msg.fields := by simpa using hc
        have hS : (⟨id.key⟩ : Field) ∈ es.map (·.f) := by
          obtain ⟨_, rfl | ⟨g, hg, hS, rfl, _⟩⟩ := ha
          · exact absurd hmem W.names.message
          · have := field_key W.names hg
            have e : (⟨(⟨[P.m.spell g]⟩ : ID).key⟩ : Field) = g := by
              cases g
              exact congrArg _ this.symm
            rw [e]
            exact hS
        obtain ⟨e, he, hef⟩ := List.mem_map.mp hS
        obtain ⟨_, h1, h2, h3⟩ := H.positions W I U hch he
        rw [hef] at h1 h2 h3
        split
        · rw [h1]; rfl
        · rw [h2]; rfl
        · rw [h3]; rfl
      · rfl
    | _ => simp [NameLeaf] at h
  | _ => rfl

/-- What the functions of the package give are the values of the message. -/
theorem Contains.representsPublic (W : WellFormed P) (I : InBuffer P b lo hi) (U : Verified P lo hi) (H : Contains P b lo hi c es p pos)
    (hch : Chained c es) : Represents P.m ⟨false, true, some U64⟩ (P.publicView c) (· ∈ es.map (·.f)) (itemEnv P.m.msg b lo hi es) := by
  have hn := follows_nodup W H.follows
  have attr : ∀ (a : AttrKind) (e : Item), e ∈ es → ∀ n, e.f.parts = [n] → (itemEnv P.m.msg b lo hi es).attr a [n] =
      .int (match a with | .first => e.first | .last => e.last | _ => e.last - e.first + 1) := by
    intro a e he n hp
    have hk := message_ne W.names (follows_fields W H.follows he)
    rw [hp] at hk
    simp only [itemEnv, if_neg hk]
    rw [find_item hn he (k := [n]) (by cases hf : e.f; rw [hf] at hp; simpa using hp)]
    cases a <;> rfl
  have self : ∀ (e : Item) (n : PyStr), e.f.parts = [n] → e.f = ⟨[n]⟩ := by
    intro e n hp
    cases hf : e.f
    rw [hf] at hp
    simpa using hp
  refine ⟨?_, ?_, ?_, ?_, ?_, ?_, ?_, ?_, ?_⟩
  · simp only [itemEnv, if_true]; show Val.int lo = .int c.first; rw [H.first]
  · simp only [itemEnv, if_true]; show Val.int hi = .int c.last; rw [H.last]
  · simp only [itemEnv, if_true]; show Val.int (hi - lo + 1) = .int (c.last - c.first + 1); rw [H.first, H.last]
  · intro id h
    have ht := type?_none W.names (W.names.literal id h).1
    simp only [itemEnv, ht]
    rfl
  · intro f n hf hp
    obtain ⟨e, he, rfl⟩ := List.mem_map.mp hf
    obtain ⟨_, h1, _, _⟩ := H.positions W I U hch he
    rw [attr .first e he n hp, if_pos rfl]
    show _ = Val.int ((P.fieldFirst c ⟨[n]⟩).toOption.getD 0)
    rw [← self e n hp, h1]
    rfl
  · intro f n hf hp
    obtain ⟨e, he, rfl⟩ := List.mem_map.mp hf
    obtain ⟨_, _, h1, _⟩ := H.positions W I U hch he
    rw [attr .last e he n hp, if_pos rfl]
    show _ = Val.int ((P.fieldLast c ⟨[n]⟩).toOption.getD 0)
    rw [← self e n hp, h1]
    rfl
  · intro f n hf hp
    obtain ⟨e, he, rfl⟩ := List.mem_map.mp hf
    obtain ⟨_, _, _, h1⟩ := H.positions W I U hch he
    rw [attr .size e he n hp, if_pos rfl]
    show _ = Val.int ((P.fieldSize c ⟨[n]⟩).toOption.getD 0)
    rw [← self e n hp, h1]
    rfl
  · intro f n t hf hp ht hs
    obtain ⟨e, he, rfl⟩ := List.mem_map.mp hf
    rw [if_pos rfl]
    show _ = Val.int (c.cursors ⟨[n]⟩).value
    rw [← self e n hp, H.cursors.value e he, ← hp]
    simp only [itemEnv]
    have := type?_some W.names ht
    rw [show (⟨e.f.parts⟩ : Field) = e.f from rfl, this, find_item hn he rfl]
    simp [(scalar_iff t).mpr hs]
  · intro f n t hf hp ht hs
    obtain ⟨e, he, rfl⟩ := List.mem_map.mp hf
    refine ⟨bytesAt b e.first e.last, ?_, ?_⟩
    · rw [← hp]
      simp only [itemEnv]
      rw [show (⟨e.f.parts⟩ : Field) = e.f from rfl, type?_some W.names ht, find_item hn he rfl]
      simp [mt (scalar_iff t).mp hs]
    · simp only [Bool.false_eq_true, if_false]
      intro ds
      show decide (c.bytes none ⟨[n]⟩ = ds) = _
      rw [← self e n hp, bytes_eq W I H he (by simp)]

theorem cond_public {m : GMsg} {S : Field → Prop} (e : Expr) : Cond m opts S e → Cond m ⟨false, true, some U64⟩ S e := by
  have hattr : ∀ {ng a id}, Attribute m opts S ng a id → Attribute m ⟨false, true, some U64⟩ S ng a id := by
    rintro ng a id ⟨h1, h2 | ⟨f, hf, hS, h3, _⟩⟩
    · exact ⟨h1, .inl h2⟩
    · exact ⟨h1, .inr ⟨f, hf, hS, h3, fun _ _ _ => rfl⟩⟩
  induction e using Expr.ind with
  | tru => intro _; simp [Cond]
  | fls => intro _; simp [Cond]
  | num => intro _; simp [Cond]
  | var ng imm id => intro h; simpa only [Cond] using h
  | attr ng a pre ih =>
    intro h
    cases pre <;> simp only [Cond] at h ⊢
    exact ⟨h.1, h.2.1, hattr h.2.2⟩
  | bool op ts ih => intro h; simp only [Cond, condL_iff] at h ⊢; exact fun t ht => ih t ht (h t ht)
  | add ts ih => intro h; simp only [Cond, condL_iff] at h ⊢; exact fun t ht => ih t ht (h t ht)
  | mul ts ih => intro h; simp only [Cond, condL_iff] at h ⊢; exact fun t ht => ih t ht (h t ht)
  | bin op l r ihl ihr => intro h; simp only [Cond] at h ⊢; exact ⟨ihl h.1, ihr h.2⟩
  | rel op l r ihl ihr =>
    intro h
    unfold Cond at h ⊢
    split at h
    · exact h
    · exact h
    · exact h
    · exact h
    · exact ⟨ihl h.1, ihr h.2⟩
  | _ => intro h; simp only [Cond] at h

/-- The postcondition evaluates the condition of a link. -/
theorem Contains.publicCond (W : WellFormed P) (I : InBuffer P b lo hi) (U : Verified P lo hi) (H : Contains P b lo hi c es p pos)
    (hch : Chained c es) (hl : l ∈ P.m.msg.links) (hs : l.source = p) :
    ∃ x, P.publicCond c l.condition = .ok x ∧ (x = true ↔ IsTrue P.m.msg b lo hi es l.condition) := by
  have hcond := W.scope l hl _ (hs ▸ follows_path H.follows)
  obtain ⟨x, hx⟩ := W.bool l hl (P.env c none) (env_typed W.names rfl rfl)
  rw [← isTrue_eq W I H hl hs] at hx
  have hN : Names P.m ⟨false, true, some U64⟩ :=
    ⟨W.names.field, W.names.typed, W.names.once, W.names.enum, W.names.literal, W.names.checksum, W.names.message, W.names.ctx⟩
  obtain ⟨r, hr, hv⟩ := C43_condition_partial (D := .ada) hN (.inr (.inl rfl)) (H.representsPublic W I U hch) (cond_public _ hcond) (W.wf l hl).1
    (W.wf l hl).2 _ hx
  refine ⟨x, ?_, ?_⟩
  · have hread : (leaves l.condition).forM (P.readLeaf c) = .ok () := by
      have : ∀ xs : List Expr, (∀ x ∈ xs, P.readLeaf c x = .ok ()) → xs.forM (P.readLeaf c) = .ok () := by
        intro xs
        induction xs with
        | nil => intro _; rfl
        | cons x xs ih =>
          intro h
          show (P.readLeaf c x >>= fun _ => xs.forM (P.readLeaf c)) = _
          rw [h x List.mem_cons_self]
          exact ih fun y hy => h y (List.mem_cons_of_mem _ hy)
      exact this _ fun x hx => H.readLeaf W I U hch (cov_leaves nameLeaf_rel _ (cond_leaf _ hcond) x hx)
    unfold Pkg.publicCond
    rw [hread, hr]
    simp only [ofPy, bind, Except.bind]
    rw [hv]
    rfl
  · rw [IsTrue, hx]
    simp

end

end Verif.Ctx
