import Verif.Verify.Lemmas
import Verif.Graph.PathProps

/-! # Lemmas: facts about paths, answers of the solver, and the structure of the verification -/

namespace Verif.Verify
open Verif Verif.Graph Verif.Types

variable {D : Division} {m : Msg} {ρ : Env} {F L : Int}

theorem eval_targetFirst {l : Link} {a : Int} (hF : ρ.attr .first MESSAGE.key = .int F) (h : Starts D ρ F l a) :
    eval D ρ (targetFirst l) = some (.int a) := by
  unfold targetFirst
  rcases h with ⟨h1, rfl⟩ | ⟨h1, h2, b, hb, rfl⟩ | ⟨h1, h2, h3⟩
  · rw [if_pos h1, eval_at, hF]
  · rw [if_neg h1, if_neg (by rw [(undef_eq _).mpr h2]; simp)]
    simp [eval, evalL, eval_at, hb, allSome, Val.int?, intSum, Expr.n]
  · rw [if_neg h1, if_pos]
    · exact h3
    · cases hb : l.first.eq .undefined with
      | false => rfl
      | true => exact absurd ((undef_eq _).mp hb) h2

theorem plain_targetFirst {l : Link} {a : Int} (hF : ρ.attr .first MESSAGE.key = .int F) (h : Starts D ρ F l a)
    (hp : PlainLink D ρ l) : Plain D ρ (targetFirst l) := by
  unfold targetFirst
  rcases h with ⟨h1, rfl⟩ | ⟨h1, h2, b, hb, rfl⟩ | ⟨h1, h2, h3⟩
  · rw [if_pos h1]
    simp [at', Plain, hF, Atomic]
  · rw [if_neg h1, if_neg (by rw [(undef_eq _).mpr h2]; simp)]
    simp [at', Plain, PlainL, hb, Atomic, Expr.n]
  · rw [if_neg h1, if_pos]
    · exact hp.2.2 h2
    · cases hb : l.first.eq .undefined with
      | false => rfl
      | true => exact absurd ((undef_eq _).mp hb) h2

theorem targetSize_eval {l : Link} {n : Int} {e : Expr} (h : Spans D m ρ l n) (he : m.targetSize l = .ok e) :
    eval D ρ e = some (.int n) := by
  unfold Msg.targetSize at he
  rcases h with ⟨h1, h2⟩ | ⟨h1, h2, rfl⟩ | ⟨h1, h2, t, s, h3, h4, rfl⟩
  · rw [if_pos (by
      cases hb : l.size.eq .undefined with
      | false => rfl
      | true => exact absurd ((undef_eq _).mp hb) h1)] at he
    cases he; exact h2
  · rw [if_neg (by rw [(undef_eq _).mpr h1]; simp)] at he
    simp only [Msg.fieldSize, h2, if_true] at he
    cases he; rfl
  · rw [if_neg (by rw [(undef_eq _).mpr h1]; simp)] at he
    simp only [Msg.fieldSize, h2, if_false] at he
    split at he
    · rw [h3] at he
      have hs : t.isScalar = true := by cases t <;> first | rfl | cases h4
      simp only [hs, if_true, h4] at he
      cases he; rfl
    · cases he

theorem targetSize_ok {l : Link} {n : Int} (h : Spans D m ρ l n) (ht : l.target = FINAL ∨ l.target ∈ m.fields) :
    ∃ e, m.targetSize l = .ok e := by
  unfold Msg.targetSize
  rcases h with ⟨h1, h2⟩ | ⟨h1, h2, rfl⟩ | ⟨h1, h2, t, s, h3, h4, rfl⟩
  · rw [if_pos (by
      cases hb : l.size.eq .undefined with
      | false => rfl
      | true => exact absurd ((undef_eq _).mp hb) h1)]
    exact ⟨_, rfl⟩
  · rw [if_neg (by rw [(undef_eq _).mpr h1]; simp)]
    simp [Msg.fieldSize, h2]
  · rw [if_neg (by rw [(undef_eq _).mpr h1]; simp)]
    have hs : t.isScalar = true := by cases t <;> first | rfl | cases h4
    rcases ht with ht | ht
    · exact absurd ht h2
    · have : m.fields.contains l.target = true := by simpa using ht
      simp only [Msg.fieldSize, h2, if_false, this, if_true, h3, hs, h4]
      exact ⟨_, rfl⟩

theorem plain_targetSize {l : Link} {e : Expr} (hp : PlainLink D ρ l) (he : m.targetSize l = .ok e) :
    e ≠ .undefined → Plain D ρ e := by
  intro hne
  unfold Msg.targetSize at he
  split at he
  · cases he
    exact hp.2.1 hne
  · unfold Msg.fieldSize at he
    split at he
    · cases he; simp [Plain, Expr.n]
    · split at he
      · split at he
        · cases he
        · split at he
          · obtain ⟨s, hs, he⟩ := bind_ok (he : Except.bind _ _ = _)
            cases he; simp [Plain, Num.expr]
          · cases he; exact absurd rfl hne
      · cases he

theorem targetLast_eval {l : Link} {a n : Int} {e : Expr} (hF : ρ.attr .first MESSAGE.key = .int F)
    (h1 : Starts D ρ F l a) (h2 : Spans D m ρ l n) (he : m.targetLast l = .ok e) :
    eval D ρ e = some (.int (a + n - 1)) := by
  obtain ⟨x, hx, he⟩ := bind_ok (he : (m.targetSize l).bind _ = _)
  cases he
  simp [eval, evalL, eval_targetFirst hF h1, targetSize_eval h2 hx, allSome, Val.int?, intSum, Expr.n, ArithOp.eval]

theorem plain_targetLast {l : Link} {a n : Int} {e : Expr} (hF : ρ.attr .first MESSAGE.key = .int F)
    (h1 : Starts D ρ F l a) (h2 : Spans D m ρ l n) (hp : PlainLink D ρ l) (he : m.targetLast l = .ok e) :
    Plain D ρ e := by
  obtain ⟨x, hx, he⟩ := bind_ok (he : (m.targetSize l).bind _ = _)
  cases he
  have : x ≠ .undefined := by
    rintro rfl
    have := targetSize_eval h2 hx
    cases this
  simp [Plain, PlainL, plain_targetFirst hF h1 hp, plain_targetSize hp hx this, Expr.n]

theorem evalL_all : ∀ {ts : List Expr} {vs : List Val} {bs : List Bool}, evalL D ρ ts = some vs →
    allSome Val.bool? vs = some bs → bs.all id = true → ∀ t ∈ ts, eval D ρ t = some (.bool true)
  | [], vs, bs, h1, h2, h3, t, ht => by cases ht
  | a :: ts, vs, bs, h1, h2, h3, t, ht => by
    simp only [evalL] at h1
    cases ha : eval D ρ a with
    | none => simp [ha] at h1
    | some v =>
      cases hts : evalL D ρ ts with
      | none => simp [ha, hts] at h1
      | some vs' =>
        simp only [ha, hts, Option.some.injEq] at h1
        subst h1
        simp only [allSome] at h2
        cases hb : Val.bool? v with
        | none => simp [hb] at h2
        | some b =>
          cases hbs : allSome Val.bool? vs' with
          | none => simp [hb, hbs] at h2
          | some bs' =>
            simp only [hb, hbs, Option.some.injEq] at h2
            subst h2
            simp only [List.all_cons, id, Bool.and_eq_true] at h3
            rcases List.mem_cons.mp ht with rfl | ht
            · rw [ha]
              cases v with
              | bool c => cases hb; rw [h3.1]
              | _ => cases hb
            · exact evalL_all hts hbs h3.2 t ht

theorem expressionList_true {e : Expr} (h : eval D ρ e = some (.bool true)) :
    ∀ c ∈ expressionList e, eval D ρ c = some (.bool true) := by
  intro c hc
  unfold expressionList at hc
  split at hc
  · rename_i op ts
    split at hc
    · rename_i hop
      simp only [eval, hop, if_true] at h
      cases hts : evalL D ρ ts with
      | none => simp [hts] at h
      | some vs =>
        simp only [hts, Option.bind_some] at h
        cases hbs : allSome Val.bool? vs with
        | none => simp [hbs] at h
        | some bs =>
          simp only [hbs, Option.some.injEq, Val.bool.injEq] at h
          exact evalL_all hts hbs h c hc
    · obtain rfl := List.mem_singleton.mp hc
      exact h
  · obtain rfl := List.mem_singleton.mp hc
    exact h

theorem plainL_mem {es : List Expr} (h : PlainL D ρ es) : ∀ e ∈ es, Plain D ρ e := by
  induction es with
  | nil => intro e he; cases he
  | cons a es ih =>
    simp only [PlainL] at h
    intro e he
    rcases List.mem_cons.mp he with rfl | he
    · exact h.1
    · exact ih h.2 e he

theorem plain_expressionList {e : Expr} (h : Plain D ρ e) : ∀ c ∈ expressionList e, Plain D ρ c := by
  intro c hc
  unfold expressionList at hc
  split at hc
  · split at hc
    · simp only [Plain] at h
      exact plainL_mem h c hc
    · obtain rfl := List.mem_singleton.mp hc
      exact h
  · obtain rfl := List.mem_singleton.mp hc
    exact h

/-- The facts of a link, spelled out. -/
theorem linkExpression_mem {l : Link} {fs : List Expr} (h : m.linkExpression l = .ok fs) :
    ∃ size last, m.targetSize l = .ok size ∧ m.targetLast l = .ok last ∧ ∀ c, c ∈ fs ↔
      c = .rel .eq (at' .first l.target) (targetFirst l) ∨
      (size ≠ .undefined ∧ (c = .rel .eq (at' .size l.target) size ∨ c = .rel .eq (at' .last l.target) last)) ∨
      c ∈ messageFacts l.target ∨ c ∈ expressionList l.condition := by
  obtain ⟨size, h1, h⟩ := bind_ok (h : (m.targetSize l).bind _ = _)
  obtain ⟨last, h2, h⟩ := bind_ok (h : (m.targetLast l).bind _ = _)
  cases h
  refine ⟨size, last, h1, h2, fun c => ?_⟩
  simp only [List.mem_cons, List.mem_append, or_assoc]
  refine or_congr Iff.rfl (or_congr ?_ Iff.rfl)
  split
  · rename_i hu
    have := (undef_eq size).mp hu
    simp [this]
  · rename_i hu
    have : size ≠ .undefined := fun hh => hu ((undef_eq size).mpr hh)
    simp [this]

theorem eval_eq_int {a b : Expr} {x y : Int} (ha : eval D ρ a = some (.int x)) (hb : eval D ρ b = some (.int y))
    (h : x = y) : eval D ρ (.rel .eq a b) = some (.bool true) := by
  simp [eval, ha, hb, RelOp.eval, h]

theorem eval_ge_int {a b : Expr} {x y : Int} (ha : eval D ρ a = some (.int x)) (hb : eval D ρ b = some (.int y))
    (h : y ≤ x) : eval D ρ (.rel .ge a b) = some (.bool true) := by
  simp [eval, ha, hb, RelOp.eval, h]

theorem link_facts {p : List Link} (hl : Layout D m ρ F L p) {l : Link} (hm : l ∈ p) {fs : List Expr}
    (h : m.linkExpression l = .ok fs) : ∀ c ∈ fs, eval D ρ c = some (.bool true) := by
  obtain ⟨a, n, hat, hle⟩ := hl.field l hm
  obtain ⟨size, last, h1, h2, hmem⟩ := linkExpression_mem h
  intro c hc
  have eF : eval D ρ (at' .first MESSAGE) = some (.int F) := by rw [eval_at, hl.first]
  have eL : eval D ρ (at' .last MESSAGE) = some (.int L) := by rw [eval_at, hl.last]
  have eS : eval D ρ (at' .size MESSAGE) = some (.int (L - F + 1)) := by rw [eval_at, hl.size]
  rcases (hmem c).mp hc with rfl | ⟨_, rfl | rfl⟩ | hc | hc
  · exact eval_eq_int (by rw [eval_at, hat.first]) (eval_targetFirst hl.first hat.starts) rfl
  · exact eval_eq_int (by rw [eval_at, hat.size]) (targetSize_eval hat.spans h1) rfl
  · exact eval_eq_int (by rw [eval_at, hat.last]) (targetLast_eval hl.first hat.starts hat.spans h2) rfl
  · simp only [messageFacts, List.mem_cons, List.not_mem_nil, or_false] at hc
    rcases hc with rfl | rfl | rfl | rfl
    · exact eval_ge_int eF rfl hl.nonneg
    · exact eval_ge_int eL (by rw [eval_at, hat.last]) hle
    · exact eval_ge_int eL eF hl.nonempty
    · refine eval_eq_int eS (y := L - F + 1) ?_ rfl
      simp [eval, evalL, eF, eL, allSome, Val.int?, intSum, ArithOp.eval, Expr.n]
  · exact expressionList_true (hl.condition l hm) c hc

theorem link_plain {p : List Link} (hl : Layout D m ρ F L p) {l : Link} (hm : l ∈ p) (hp : PlainLink D ρ l)
    {fs : List Expr} (h : m.linkExpression l = .ok fs) : ∀ c ∈ fs, Plain D ρ c := by
  obtain ⟨a, n, hat, hle⟩ := hl.field l hm
  obtain ⟨size, last, h1, h2, hmem⟩ := linkExpression_mem h
  intro c hc
  rcases (hmem c).mp hc with rfl | ⟨hne, rfl | rfl⟩ | hc | hc
  · simp [Plain, at', hat.first, Atomic, plain_targetFirst hl.first hat.starts hp]
  · simp [Plain, at', hat.size, Atomic, plain_targetSize hp h1 hne]
  · simp [Plain, at', hat.last, Atomic, plain_targetLast hl.first hat.starts hat.spans hp h2]
  · simp only [messageFacts, List.mem_cons, List.not_mem_nil, or_false] at hc
    rcases hc with rfl | rfl | rfl | rfl <;>
      simp [Plain, PlainL, at', hl.first, hl.last, hl.size, hat.last, Atomic, Expr.n]
  · exact plain_expressionList hp.1 c hc

/-- The facts about a path hold for the solver. -/
theorem path_holds {p : List Link} (hl : Layout D m ρ F L p) (hp : ∀ l ∈ p, PlainLink D ρ l) {fs : List Expr}
    (h : m.pathFacts p = .ok fs) (ht : ∀ c ∈ fs, ∃ b, zeval (model ρ) c = .ok (.bool b)) : Holds (model ρ) fs := by
  intro c hc
  obtain ⟨l, hm, gs, hgs, hcg⟩ := (concatM_mem h c).mp hc
  exact holds_of_eval (link_plain hl hm (hp l hm) hgs c hcg) (link_facts hl hm hgs c hcg) (ht c hc)

/-! ## Answers of the solver -/

theorem not_unsat {s : Solver} {es : List Expr} {M : ZModel} {r : ProofResult} (h : s.check es = .ok r)
    (hh : (∀ e ∈ es, ∃ b, zeval M e = .ok (.bool b)) → Holds M es) : r ≠ .unsat := by
  rintro rfl
  exact s.unsat es h ⟨M, hh fun e he => s.translated es _ h e he M⟩

theorem answers_sat {s : Solver} (hd : s.Decides) {es : List Expr} {M : ZModel} {r : ProofResult}
    (h : s.check es = .ok r) (hh : (∀ e ∈ es, ∃ b, zeval M e = .ok (.bool b)) → Holds M es) : r = .sat := by
  cases r with
  | sat => rfl
  | unsat => exact absurd rfl (not_unsat h hh)
  | unknown => exact absurd h (hd es)

/-! ## The structure of the verification -/

structure Verified (s : Solver) (m : Msg) (k : Nat) : Prop where
  expressions : m.verifyExpressions = .ok false
  conflicts : m.proveConflicts s = .ok false
  reachability : m.proveReachability s k = .ok false
  contradictions : m.proveContradictions s k = .ok false
  coverage : m.proveCoverage s k = .ok false
  overlays : m.proveOverlays s k = .ok false
  positions : m.provePositions s k = .ok false
  messageSize : m.proveMessageSize s k = .ok false

theorem verify_ok {s : Solver} {ty : Py Bool} {k : Nat} (h : m.verify s ty k = .ok ()) (hne : m.links ≠ []) :
    Verified s m k := by
  unfold Msg.verify at h
  rw [if_neg (by cases hl : m.links <;> simp_all)] at h
  obtain ⟨e1, h1, h⟩ := bind_ok (h : Except.bind _ _ = _)
  obtain ⟨e2, h2, h⟩ := bind_ok (h : Except.bind _ _ = _)
  obtain ⟨e3, h3, h⟩ := bind_ok (h : Except.bind _ _ = _)
  by_cases he : (e1 || e2 || e3) = true
  · rw [if_pos he] at h; cases h
  rw [if_neg he] at h
  obtain ⟨p1, g1, h⟩ := bind_ok (h : Except.bind _ _ = _)
  obtain ⟨p2, g2, h⟩ := bind_ok (h : Except.bind _ _ = _)
  obtain ⟨p3, g3, h⟩ := bind_ok (h : Except.bind _ _ = _)
  obtain ⟨p4, g4, h⟩ := bind_ok (h : Except.bind _ _ = _)
  obtain ⟨p5, g5, h⟩ := bind_ok (h : Except.bind _ _ = _)
  obtain ⟨p6, g6, h⟩ := bind_ok (h : Except.bind _ _ = _)
  obtain ⟨p7, g7, h⟩ := bind_ok (h : Except.bind _ _ = _)
  by_cases hp : (p1 || p2 || p3 || p4 || p5 || p6 || p7) = true
  · rw [if_pos hp] at h; cases h
  simp only [Bool.or_eq_true, not_or, Bool.not_eq_true] at he hp
  obtain ⟨⟨⟨⟨⟨⟨rfl, rfl⟩, rfl⟩, rfl⟩, rfl⟩, rfl⟩, rfl⟩ := hp
  obtain ⟨⟨rfl, rfl⟩, rfl⟩ := he
  exact ⟨h2, g1, g2, g3, g4, g5, g6, g7⟩

/-- What acceptance means. -/
theorem accepted_verified {s : Solver} (h : m.Accepted s) :
    (∃ literals, (Def.mk m.links (m.types.map (·.1)) literals).Accepted m.fields) ∧
      (m.links ≠ [] → ∃ k, Verified s m k) := by
  obtain ⟨ty, k, h⟩ := h
  unfold Msg.new at h
  by_cases hid : m.id.parts.length ≤ 1
  · rw [if_pos hid] at h; cases h
  rw [if_neg hid] at h
  obtain ⟨pk, _, h⟩ := bind_ok (h : Except.bind _ _ = _)
  obtain ⟨ls, _, h⟩ := bind_ok (h : Except.bind _ _ = _)
  obtain ⟨fields, hf, h⟩ := bind_ok (h : Except.bind _ _ = _)
  obtain ⟨_, hv, h⟩ := bind_ok (h : Except.bind _ _ = _)
  have h : (Msg.mk m.id m.links fields m.types m.checksums) = m := by
    have := Except.ok.inj h
    exact this
  have hfe : fields = m.fields := congrArg Msg.fields h
  rw [h] at hv
  rw [hfe] at hf
  exact ⟨⟨ls, k, hf⟩, fun hne => ⟨k, verify_ok hv hne⟩⟩

/-- No two conditions compare equal and are of different classes (see `Verif/Graph/Spec.lean`). -/
def Msg.Regular (m : Msg) : Prop :=
  ∀ l ∈ m.links, ∀ l' ∈ m.links, l.condition.eq l'.condition = true → l.condition.cls = l'.condition.cls

/-- The paths that the verification goes through are all paths. -/
theorem mem_paths {s : Solver} (h : m.Accepted s) (hr : m.Regular) {k : Nat} {f : Field} {ps : List (List Link)}
    (hps : paths m.links k f = .ok ps) (p : List Link) : p ∈ ps ↔ p ≠ [] ∧ Path m.links INITIAL p f := by
  obtain ⟨⟨ls, hacc⟩, _⟩ := accepted_verified h
  obtain ⟨qs, ⟨K, hK⟩, _, hq⟩ := C15_paths_partial ⟨m.links, m.types.map (·.1), ls⟩ hr m.fields hacc f
  have h1 := hK (K + k) (by omega)
  have h2 := paths_mono m.links k (K + k) f ps (by omega) hps
  have h1 : paths m.links (K + k) f = .ok qs := h1
  rw [h2] at h1
  cases h1
  exact hq p

/-- Sources of links, except for the artificial last field, are the initial one or fields. -/
theorem source_mem {s : Solver} (h : m.Accepted s) (hr : m.Regular) {l : Link} (hl : l ∈ m.links)
    (hf : l.source ≠ FINAL) : l.source ∈ INITIAL :: m.fields := by
  obtain ⟨⟨ls, hacc⟩, _⟩ := accepted_verified h
  obtain ⟨_, h2, _⟩ := C14_order_partial ⟨m.links, m.types.map (·.1), ls⟩ hr m.fields hacc
  by_cases hi : l.source = INITIAL
  · simp [hi]
  · exact List.mem_cons_of_mem _ ((h2 _).mpr ⟨⟨l, hl, .inl rfl⟩, hi, hf⟩)

/-- Targets of links are fields or the artificial last field. -/
theorem target_mem {s : Solver} (h : m.Accepted s) (hr : m.Regular) {l : Link} (hl : l ∈ m.links) :
    l.target ∈ m.fields ++ [FINAL] := by
  obtain ⟨⟨ls, hacc⟩, _⟩ := accepted_verified h
  obtain ⟨_, h2, _⟩ := C14_order_partial ⟨m.links, m.types.map (·.1), ls⟩ hr m.fields hacc
  obtain ⟨_, h3⟩ := C14_reachable ⟨m.links, m.types.map (·.1), ls⟩ m.fields hacc
  by_cases hf : l.target = FINAL
  · simp [hf]
  · exact List.mem_append_left _ ((h2 _).mpr ⟨⟨l, hl, .inr rfl⟩, h3 l hl, hf⟩)

end Verif.Verify
