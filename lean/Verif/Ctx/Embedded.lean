import Verif.Ctx.Predicate
import Verif.Ctx.Invariant

/-! # Conditions and sizes in the predicate of a context -/

namespace Verif.Ctx
open Verif Verif.Graph Verif.Verify Verif.Types Verif.Gen Verif.Spark

/-- The options of the substitution in the predicate. -/
def embedded (t : ID) : Opts := ⟨true, false, some t⟩

/-- Names and conditions that the predicate of a context can use: no field or literal is called `First` or `Last`, composite fields are
compared by `=` only (`C43_embedded_inequality_counterexample`) except at the end of the message. -/
structure Embeddable (P : Pkg) : Prop where
  names : Names P.m (embedded U64)
  scope : ∀ l ∈ P.m.msg.links, l.target ≠ FINAL → ∀ fs, Path P.m.msg fs l.source → Cond P.m (embedded U64) (· ∈ fs) l.condition
  sizeScope : ∀ l ∈ P.m.msg.links, ∀ t, (l.target, t) ∈ P.m.msg.types → ¬ Scalar t → ∀ fs, Path P.m.msg fs l.source →
    Cond P.m (embedded BIT_LENGTH) (· ∈ fs) l.size

section
variable {P : Pkg} {b : Bytes} {lo hi : Int} {c : Context} {es : List Item} {p : Field} {pos : Int}

/-- What the names stand for if composite fields are read through the buffer of the context. -/
def viewEnv (P : Pkg) (c : Context) (b : Bytes) (lo hi : Int) (es : List Item) : Env :=
  { itemEnv P.m.msg b lo hi es with
    var := fun k =>
      match P.m.msg.type? ⟨k⟩ with
      | some t => if t.isScalar then (itemEnv P.m.msg b lo hi es).var k else .seq (content c.buffer (c.cursors ⟨k⟩).first (c.cursors ⟨k⟩).last)
      | none => (itemEnv P.m.msg b lo hi es).var k }

theorem viewEnv_represents (W : WellFormed P) {t : ID} (hN : Names P.m (embedded t)) (H : Contains P b lo hi { c with buffer := some b } es p pos) :
    Represents P.m (embedded t) (P.view c none) (· ∈ es.map (·.f)) (viewEnv P c b lo hi es) where
  first := by simp only [viewEnv, itemEnv, if_true]; exact congrArg Val.int H.first.symm
  last := by simp only [viewEnv, itemEnv, if_true]; exact congrArg Val.int H.last.symm
  size := by
    have h1 : c.first = lo := H.first
    have h2 : c.last = hi := H.last
    simp only [viewEnv, itemEnv, if_true, Pkg.view, h1, h2]
  literal id h := by
    have h1 := (hN.literal id h).1
    have := type?_none hN h1
    simp only [viewEnv, itemEnv, this]
    rfl
  fieldFirst f n hf hn := by
    obtain ⟨e, he, rfl⟩ := List.mem_map.mp hf
    have h := attr_eq' W H (follows_nodup W H.follows) (own := none) .first he he
    rw [hn, env_attr _ (by rw [← hn]; exact message_ne W.names (follows_fields W H.follows he))] at h
    exact h
  fieldLast f n hf hn := by
    obtain ⟨e, he, rfl⟩ := List.mem_map.mp hf
    have h := attr_eq' W H (follows_nodup W H.follows) (own := none) .last he he
    rw [hn, env_attr _ (by rw [← hn]; exact message_ne W.names (follows_fields W H.follows he))] at h
    exact h
  fieldSize f n hf hn := by
    obtain ⟨e, he, rfl⟩ := List.mem_map.mp hf
    have h := attr_eq' W H (follows_nodup W H.follows) (own := none) .size he he
    rw [hn, env_attr _ (by rw [← hn]; exact message_ne W.names (follows_fields W H.follows he))] at h
    exact h
  scalar f n t hf hn hm hs := by
    obtain ⟨e, he, rfl⟩ := List.mem_map.mp hf
    have ht := type?_some hN hm
    have hk : e.f = ⟨[n]⟩ := by rw [← hn]
    have hfi := find_item (follows_nodup W H.follows) he hk
    rw [hk] at ht
    simp only [viewEnv, itemEnv, ht, hfi, (scalar_iff t).mpr hs, if_true]
    have := H.cursors.value e he
    rw [hk] at this
    simp only [embedded, Pkg.view]
    exact congrArg Val.int this.symm
  composite f n t hf hn hm hs := by
    have ht := type?_some hN hm
    have hk : f = ⟨[n]⟩ := by rw [← hn]
    rw [hk] at ht
    refine ⟨content c.buffer (c.cursors ⟨[n]⟩).first (c.cursors ⟨[n]⟩).last, ?_, ?_⟩
    · simp only [viewEnv, ht]
      rw [if_neg (mt (scalar_iff t).mp hs)]
    · simp only [embedded, if_true, Pkg.view, content]

/-- Names of expressions without comparisons of composite fields. -/
def ScalarLeaf (m : GMsg) (o : Opts) (S : Field → Prop) : Expr → Prop
  | .var _ _ id => ScalarField m S id ∨ LitName m id
  | .attr ng a pre => NameLeaf m o S (.attr ng a pre)
  | _ => False

theorem findallL_nil {p : Expr → Bool} {ts : List Expr} : findallL p ts = [] ↔ ∀ t ∈ ts, findall p t = [] := by
  induction ts with
  | nil => simp [findallL]
  | cons t ts ih => simp [findallL, ih]

theorem cond_scalar {m : GMsg} {o : Opts} {S : Field → Prop} (e : Expr) : Cond m o S e → compares e = false →
    Cov (ScalarLeaf m o S) (fun _ _ _ => True) e := by
  unfold compares
  simp only [Bool.not_eq_false', List.isEmpty_iff]
  generalize hp : (fun x : Expr => match x with | .agg _ => true | _ => false) = p
  have hagg : ∀ es, p (.agg es) = true := by intro es; subst hp; rfl
  induction e using Expr.ind with
  | tru => intro _ _; simp [Cov]
  | fls => intro _ _; simp [Cov]
  | num => intro _ _; simp [Cov]
  | var ng imm id => intro h _; simp only [Cond] at h; exact h.2
  | attr ng a pre ih =>
    intro h _
    cases pre <;> simp only [Cond] at h
    exact h
  | bool op ts ih =>
    intro h hn
    simp only [Cond, condL_iff, Cov, covL_iff] at h ⊢
    simp only [findall, List.append_eq_nil_iff, findallL_nil] at hn
    exact fun t ht => ih t ht (h t ht) (hn.2 t ht)
  | add ts ih =>
    intro h hn
    simp only [Cond, condL_iff, Cov, covL_iff] at h ⊢
    simp only [findall, List.append_eq_nil_iff, findallL_nil] at hn
    exact fun t ht => ih t ht (h t ht) (hn.2 t ht)
  | mul ts ih =>
    intro h hn
    simp only [Cond, condL_iff, Cov, covL_iff] at h ⊢
    simp only [findall, List.append_eq_nil_iff, findallL_nil] at hn
    exact fun t ht => ih t ht (h t ht) (hn.2 t ht)
  | bin op l r ihl ihr =>
    intro h hn
    simp only [Cond] at h
    simp only [findall, List.append_eq_nil_iff] at hn
    exact ⟨ihl h.1 hn.1.2, ihr h.2 hn.2⟩
  | rel op l r ihl ihr =>
    intro h hn
    simp only [findall, List.append_eq_nil_iff] at hn
    refine .inr ⟨trivial, ?_⟩
    unfold Cond at h
    split at h
    · rename_i ng imm id xs
      have := hn.2
      simp [findall, hagg] at this
    · rename_i xs ng imm id
      have := hn.1.2
      simp [findall, hagg] at this
    · refine ⟨?_, by simp [Cov]⟩
      rcases h.2 with h | h
      · exact .inl h.2
      · exact .inr h
    · refine ⟨by simp [Cov], ?_⟩
      rcases h.2 with h | h
      · exact .inl h.2
      · exact .inr h
    · exact ⟨ihl h.1 hn.1.2, ihr h.2 hn.2⟩
  | _ => intro h; simp [Cond] at h

/-- Expressions have the same value. -/
theorem viewEnv_eval (W : WellFormed P) (I : InBuffer P b lo hi) (H : Contains P b lo hi { c with buffer := some b } es p pos) {o : Opts} {e : Expr}
    (hc : Cond P.m o (· ∈ es.map (·.f)) e) (hb : c.buffer = some b ∨ compares e = false) :
    eval .ada (viewEnv P c b lo hi es) e = eval .ada (itemEnv P.m.msg b lo hi es) e := by
  have hscalar : ∀ id, ScalarField P.m (· ∈ es.map (·.f)) id ∨ LitName P.m id → (viewEnv P c b lo hi es).var id.key = (itemEnv P.m.msg b lo hi es).var id.key := by
    intro id h
    rcases h with ⟨_, t, ht, hs⟩ | h
    · simp only [viewEnv]
      rw [type?_some W.names ht]
      simp only [(scalar_iff t).mpr hs, if_true]
    · simp only [viewEnv]
      rw [type?_none W.names (W.names.literal id h).1]
  rcases hb with hb | hb
  · refine eval_cov nameLeaf_rel ?_ e (cond_leaf e hc)
    intro e he
    cases e with
    | var ng imm id =>
      have : (viewEnv P c b lo hi es).var id.key = (itemEnv P.m.msg b lo hi es).var id.key := by
        rcases he with ⟨_, h⟩ | ⟨_, hS, t, ht, hs⟩
        · exact hscalar id h
        · obtain ⟨x, hx, hxf⟩ := List.mem_map.mp hS
          have h1 := bytes_eq W I H (own := none) hx (by simp)
          have h2 := H.cursors.sv x hx
          have hx' : x.f = ⟨id.key⟩ := hxf
          have hfi := find_item (follows_nodup W H.follows) hx hx'
          rw [hx'] at h1 h2
          simp only [viewEnv, itemEnv]
          rw [type?_some W.names ht, hfi]
          simp only [Context.bytes, h2, if_true] at h1
          simp only [mt (scalar_iff t).mp hs]
          rw [hb]
          simpa using h1
      simp only [eval, this]
    | attr ng a pre =>
      cases pre with
      | var ng' imm id => simp only [eval, viewEnv]
      | _ => simp [NameLeaf] at he
    | agg xs =>
      obtain ⟨ys, hx, _⟩ := eval_nums xs he
      rw [hx, hx]
    | _ => simp [NameLeaf] at he
  · refine eval_cov (L := ScalarLeaf P.m o (· ∈ es.map (·.f))) (by simp [ScalarLeaf]) ?_ e (cond_scalar e hc hb)
    intro e he
    cases e with
    | var ng imm id => simp only [eval, hscalar id he]
    | attr ng a pre =>
      cases pre with
      | var ng' imm id => simp only [eval, viewEnv]
      | _ => simp [ScalarLeaf, NameLeaf] at he
    | _ => simp [ScalarLeaf] at he

theorem embedded_names {t t' : ID} (hN : Names P.m (embedded t)) : Names P.m (embedded t') :=
  ⟨hN.field, hN.typed, hN.once, hN.enum, hN.literal, hN.checksum, hN.message, hN.ctx⟩

/-- The value of an expression in the predicate. -/
theorem embedded_ok (W : WellFormed P) (E : Embeddable P) (I : InBuffer P b lo hi) (H : Contains P b lo hi { c with buffer := some b } es p pos)
    {t : ID} (ht : t = U64 ∨ t = BIT_LENGTH) {e : Expr} (hc : Cond P.m (embedded t) (· ∈ es.map (·.f)) e) (hw : e.WF)
    (hg : e.Good Division.ada.Odd false) (hb : c.buffer = some b ∨ compares e = false) {v : Val}
    (hv : eval .ada (itemEnv P.m.msg b lo hi es) e = some v) : P.embedded (some t) c e = .ok v := by
  have hT : Target (embedded t) := by
    rcases ht with rfl | rfl
    · exact .inr (.inl rfl)
    · exact .inr (.inr (.inl rfl))
  obtain ⟨r, hr, hrv⟩ := C43_condition_partial (D := .ada) (embedded_names E.names) hT (viewEnv_represents W (embedded_names E.names) H) hc hw hg v
    (by rw [viewEnv_eval W I H hc hb]; exact hv)
  have hr' : Opts.generate ⟨true, false, some t⟩ P.m e = .ok r := hr
  have hrv' : eval .ada ((P.view c none).env true) r = some v := hrv
  have hcond : (c.buffer.isNone && compares e) = false := by
    rcases hb with hb | hb
    · simp [hb]
    · simp [hb]
  simp only [Pkg.embedded, hr', hcond, hrv', ofPy, bind, Except.bind]
  rfl

end

end Verif.Ctx
