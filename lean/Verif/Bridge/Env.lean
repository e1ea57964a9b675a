import Verif.Ctx.Invariant
import Verif.Verify.Props

/-! # From messages in a buffer to assignments of the model verification: lemmas -/

namespace Verif.Bridge
open Verif Verif.Graph Verif.Verify Verif.Types Verif.Gen Verif.Spark Verif.Ctx

/-! ## Expressions -/

/-- Two assignments agree on the names that conditions over the fields `S` use. -/
structure AgreeOn (m : GMsg) (S : Field → Prop) (ρ σ : Env) : Prop where
  var : ∀ f ∈ m.msg.fields, S f → ρ.var f.parts = σ.var f.parts
  literal : ∀ id, LitName m id → ρ.var id.key = σ.var id.key
  message : ∀ a, a = .first ∨ a = .last ∨ a = .size → ρ.attr a MESSAGE.key = σ.attr a MESSAGE.key
  attr : ∀ a, a = .first ∨ a = .last ∨ a = .size → ∀ f ∈ m.msg.fields, S f → ρ.attr a f.parts = σ.attr a f.parts

theorem evalL_congr {D : Division} {ρ σ : Env} {ts : List Expr} (h : ∀ t ∈ ts, eval D ρ t = eval D σ t) : evalL D ρ ts = evalL D σ ts := by
  induction ts with
  | nil => rfl
  | cons t ts ih =>
    simp only [evalL, h t List.mem_cons_self, ih fun t ht => h t (List.mem_cons_of_mem _ ht)]

theorem nums_congr {D : Division} {ρ σ : Env} {es : List Expr} (h : ∀ e ∈ es, ∃ v b, e = .num v b) : eval D ρ (.agg es) = eval D σ (.agg es) := by
  have : evalL D ρ es = evalL D σ es := evalL_congr fun e he => by
    obtain ⟨v, b, rfl⟩ := h e he
    simp only [eval]
  simp only [eval, this]

theorem cond_congr {m : GMsg} {o : Opts} {S : Field → Prop} (hN : Names m o) {D : Division} {ρ σ : Env} (A : AgreeOn m S ρ σ) (e : Expr) :
    Cond m o S e → eval D ρ e = eval D σ e := by
  have hvar : ∀ ng imm id, (ScalarField m S id ∨ LitName m id) → eval D ρ (.var ng imm id) = eval D σ (.var ng imm id) := by
    intro ng imm id h
    simp only [eval]
    rcases h with ⟨h, t, ht, _⟩ | h
    · rw [A.var _ (hN.typed _ ht) h]
    · rw [A.literal id h]
  have hfield : ∀ ng imm id, (S ⟨id.key⟩ ∧ ∃ t, (⟨id.key⟩, t) ∈ m.msg.types ∧ ¬ Scalar t) → eval D ρ (.var ng imm id) = eval D σ (.var ng imm id) := by
    rintro ng imm id ⟨h, t, ht, _⟩
    simp only [eval]
    rw [A.var _ (hN.typed _ ht) h]
  induction e using Expr.ind with
  | tru => intro _; simp [eval]
  | fls => intro _; simp [eval]
  | num => intro _; simp [eval]
  | var ng imm id => intro h; simp only [Cond] at h; exact hvar _ _ _ h.2
  | attr ng a pre ih =>
    intro h
    cases pre <;> simp only [Cond] at h
    rename_i ng' imm id
    obtain ⟨rfl, rfl, ha, h⟩ := h
    simp only [eval]
    rcases h with rfl | ⟨f, hf, hS, rfl, _⟩
    · rw [A.message a ha]
    · have he : (⟨[m.spell f]⟩ : ID).key = f.parts := by
        have := congrArg ID.parts (hN.field f hf).2
        simpa [ID.key] using this.symm
      rw [he, A.attr a ha f hf hS]
  | bool op ts ih =>
    intro h; simp only [Cond, condL_iff] at h
    simp only [eval, evalL_congr fun t ht => ih t ht (h t ht)]
  | add ts ih =>
    intro h; simp only [Cond, condL_iff] at h
    simp only [eval, evalL_congr fun t ht => ih t ht (h t ht)]
  | mul ts ih =>
    intro h; simp only [Cond, condL_iff] at h
    simp only [eval, evalL_congr fun t ht => ih t ht (h t ht)]
  | bin op l r ihl ihr => intro h; simp only [Cond] at h; simp only [eval, ihl h.1, ihr h.2]
  | rel op l r ihl ihr =>
    intro h
    have key : eval D ρ l = eval D σ l ∧ eval D ρ r = eval D σ r := by
      unfold Cond at h
      split at h
      · exact ⟨hfield _ _ _ h.2.1, nums_congr h.2.2.1⟩
      · exact ⟨nums_congr h.2.2.1, hfield _ _ _ h.2.1⟩
      · exact ⟨hvar _ _ _ (h.2.imp (·.2) id), by simp only [eval]⟩
      · exact ⟨by simp only [eval], hvar _ _ _ (h.2.imp (·.2) id)⟩
      · exact ⟨ihl h.1, ihr h.2⟩
    simp only [eval, key.1, key.2]
  | _ => intro h; simp [Cond] at h

mutual
/-- Expressions that the solver reads as they are meant: no aggregates; no division, and `mod` by non-negative numbers only. -/
def Linear : Expr → Prop
  | .tru | .fls | .num .. | .var .. | .attr .. => True
  | .bool _ ts => LinearL ts
  | .add ts => LinearL ts
  | .mul ts => LinearL ts
  | .bin op l r => Linear l ∧ Linear r ∧ op ≠ .div ∧ (op = .mod → ∃ v b, r = .num v b ∧ 0 ≤ v)
  | .rel _ l r => Linear l ∧ Linear r
  | _ => False
def LinearL : List Expr → Prop
  | [] => True
  | e :: es => Linear e ∧ LinearL es
end

theorem linearL_iff {ts : List Expr} : LinearL ts ↔ ∀ t ∈ ts, Linear t := by
  induction ts with
  | nil => simp [LinearL]
  | cons t ts ih => simp [LinearL, ih]

theorem plainL_iff {D : Division} {ρ : Env} {ts : List Expr} : PlainL D ρ ts ↔ ∀ t ∈ ts, Verify.Plain D ρ t := by
  induction ts with
  | nil => simp [PlainL]
  | cons t ts ih => simp [PlainL, ih]

theorem cond_plain {m : GMsg} {o : Opts} {S : Field → Prop} {ρ : Env} (T : Typed m ρ) (e : Expr) :
    Cond m o S e → Linear e → Verify.Plain .ada ρ e := by
  have hvar : ∀ ng imm id, (ScalarField m S id ∨ LitName m id) → Verify.Plain .ada ρ (.var ng imm id) := by
    intro ng imm id h
    simp only [Verify.Plain]
    rcases h with ⟨_, t, ht, hs⟩ | h
    · obtain ⟨i, hi⟩ := T.scalar _ _ ht hs
      rw [show ρ.var id.key = _ from hi]; trivial
    · obtain ⟨i, hi⟩ := T.literal id h
      rw [hi]; trivial
  induction e using Expr.ind with
  | tru => intro _ _; simp [Verify.Plain]
  | fls => intro _ _; simp [Verify.Plain]
  | num => intro _ _; simp [Verify.Plain]
  | var ng imm id => intro h _; simp only [Cond] at h; exact hvar _ _ _ h.2
  | attr ng a pre ih =>
    intro h hl
    cases pre <;> simp only [Cond] at h
    rename_i ng' imm id
    obtain ⟨rfl, rfl, ha, h⟩ := h
    simp only [Verify.Plain]
    obtain ⟨i, hi⟩ := T.attr a id.key
    refine ⟨fun h => ?_, by rw [hi]; trivial⟩
    subst h
    simp at ha
  | bool op ts ih =>
    intro h hl; simp only [Cond, condL_iff, Linear, linearL_iff] at h hl
    simp only [Verify.Plain, plainL_iff]
    exact fun t ht => ih t ht (h t ht) (hl t ht)
  | add ts ih =>
    intro h hl; simp only [Cond, condL_iff, Linear, linearL_iff] at h hl
    simp only [Verify.Plain, plainL_iff]
    exact fun t ht => ih t ht (h t ht) (hl t ht)
  | mul ts ih =>
    intro h hl; simp only [Cond, condL_iff, Linear, linearL_iff] at h hl
    simp only [Verify.Plain, plainL_iff]
    exact fun t ht => ih t ht (h t ht) (hl t ht)
  | bin op l r ihl ihr =>
    intro h hl; simp only [Cond, Linear] at h hl
    obtain ⟨h1, h2, h3, h4⟩ := hl
    refine ⟨ihl h.1 h1, ihr h.2 h2, fun a b ha hb => ⟨fun h => (h3 h).elim, fun h => ?_⟩⟩
    obtain ⟨v, b', rfl, hv⟩ := h4 h
    simp only [eval, Option.some.injEq, Val.int.injEq] at hb
    omega
  | rel op l r ihl ihr =>
    intro h hl
    simp only [Linear] at hl
    simp only [Verify.Plain]
    unfold Cond at h
    split at h
    · exact (by simpa [Linear] using hl.2 : False).elim
    · exact (by simpa [Linear] using hl.1 : False).elim
    · exact ⟨hvar _ _ _ (h.2.imp (·.2) id), by simp only [Verify.Plain]⟩
    · exact ⟨by simp only [Verify.Plain], hvar _ _ _ (h.2.imp (·.2) id)⟩
    · exact ⟨ihl h.1 hl.1, ihr h.2 hl.2⟩
  | _ => intro h; simp [Cond] at h

end Verif.Bridge
