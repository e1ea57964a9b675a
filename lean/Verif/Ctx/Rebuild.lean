import Verif.Ctx.Valid
import Verif.Ctx.Front

/-! # Every message can be built by setters -/

namespace Verif.Ctx
open Verif Verif.Graph Verif.Verify Verif.Types Verif.Gen Verif.Spark

/-- The value of an expression does not depend on the attribute `Size` of a field. -/
def SizeFree (f : Field) (e : Expr) : Prop :=
  ∀ (σ : Env) (v : Val), eval .ada { σ with attr := fun a k => if a = .size ∧ k = f.parts then v else σ.attr a k } e = eval .ada σ e

/-- The value of an expression does not depend on the content of a field. -/
def ContentFree (f : Field) (e : Expr) : Prop := ∀ (σ : Env) (v : Val), eval .ada (σ.set f.parts v) e = eval .ada σ e

/-- The setters of a field with the content that it has in the buffer. -/
def setOp (P : Pkg) (b : Bytes) (e : Item) : Op :=
  if P.isScalar e.f then .setScalar e.f e.value.toNat else .setOpaque e.f ((bytesAt b e.first e.last).map Int.toNat)

/-- A condition about the content of a composite field `e` does not depend on what the buffer `b` contains instead, if the bits in
front are those of `b0`. -/
def Tolerates (P : Pkg) (b b0 : Bytes) (lo hi : Int) (es : List Item) : Prop :=
  ∀ xs e ys, es = xs ++ e :: ys → P.isComposite e.f = true → ∀ b1, InBuffer P b1 lo hi →
    b1.first = b0.first → b1.data.length = b0.data.length →
    (∀ i, lo ≤ i → i < e.first → bitAt b1 i = bitAt b0 i) → (∀ i, e.first ≤ i → bitAt b1 i = bitAt b i) →
    ∀ l ∈ P.m.msg.links, l.source = e.f → IsTrue P.m.msg b0 lo hi (e :: ys) l.condition → IsTrue P.m.msg b1 lo hi (e :: ys) l.condition

section
variable {P : Pkg} {b b0 b1 b' : Bytes} {lo hi : Int} {c c' : Context} {es : List Item} {p : Field} {pos : Int} {f : Field} {l : Link}

theorem bitsAt_inj {i : Int} : ∀ {n : Nat}, bitsAt b' i n = bitsAt b i n → ∀ k : Nat, k < n → bitAt b' (i + k) = bitAt b (i + k)
  | 0, _, k, hk => by omega
  | n + 1, h, k, hk => by
    simp only [bitsAt] at h
    have h1 : bitsAt b' i n = bitsAt b i n ∧ bitAt b' (i + n) = bitAt b (i + n) := by
      cases h1 : bitAt b' (i + n) <;> cases h2 : bitAt b (i + n) <;> rw [h1, h2] at h <;> simp at h ⊢ <;> omega
    by_cases hkn : k = n
    · rw [hkn]; exact h1.2
    · exact bitsAt_inj h1.1 k (by omega)

/-- Bytes and bits. -/
theorem bitAt_bytes {i j : Int} (hf : b'.first = b.first) (hl : (b.first : Int) ≤ (i - 1) / 8 + 1)
    (hi : i % 8 = 1) (hj : j % 8 = 0) (h : bytesAt b' i j = bytesAt b i j) {k : Int} (h1 : i ≤ k) (h2 : k ≤ j) : bitAt b' k = bitAt b k := by
  unfold bytesAt at h
  have hk := congrArg (fun l => l[((k - 1) / 8 - (i - 1) / 8).toNat]?) h
  have hlt : ((k - 1) / 8 - (i - 1) / 8).toNat < ((j - 1) / 8 - (i - 1) / 8 + 1).toNat := by omega
  simp only [List.getElem?_map, List.getElem?_range hlt, Option.map_some, Option.some.injEq, Int.natCast_inj] at hk
  unfold bitAt
  have e : ((k - 1) / 8 + 1 - (b.first : Int)).toNat = ((i - 1) / 8 + 1 - (b.first : Int)).toNat + ((k - 1) / 8 - (i - 1) / 8).toNat := by omega
  rw [hf] at hk ⊢
  rw [e, hk]

/-- `Field_Condition` without the size. -/
theorem Ready.fieldCondition_zero (W : WellFormed P) (I : InBuffer P b lo hi) (R : Ready P b lo hi c es p pos f l) {n : Int}
    (hn : P.fieldSize c f = .ok n) (h0 : 0 ≤ n) (h1 : pos = 1 → 1 ≤ n) (hle : pos + n - 1 ≤ hi)
    (hfree : ∀ l ∈ P.m.msg.links, l.source = f → SizeFree f l.condition) {v : Int} :
    ∃ x, P.fieldCondition c f v 0 = .ok x ∧
      (x = true ↔ Goes P.m.msg b lo hi (⟨f, pos, pos + n - 1, v⟩ :: es) f) := by
  obtain ⟨h2, h3, _⟩ := follows_bounds W I.order R.follows
  have hb : c.hasBuffer = true := by simp [Context.hasBuffer, R.buffer]
  have E0 := ownEnv_items W I R.toContains (y := ⟨f, pos, pos + n - 1, v⟩) R.field (R.toNext.new W) h2 hle
  simp only at E0
  let σ : Env := itemEnv P.m.msg b lo hi (⟨f, pos, pos + n - 1, v⟩ :: es)
  have E : OwnEnv P c ⟨f, pos, pos + n - 1, v, 0⟩ (· ∈ ((⟨f, pos, pos + n - 1, v⟩ : Item) :: es).map (·.f)) f
      { σ with attr := fun a k => if a = .size ∧ k = f.parts then .int 0 else σ.attr a k } := by
    have hneq : ∀ g : Field, g ≠ f → g.parts ≠ f.parts := fun g h h' => h (by cases g; cases f; exact congrArg _ h')
    have hy := R.toNext.new W
    have hnd : (((⟨f, pos, pos + n - 1, v⟩ : Item) :: es).map (·.f)).Nodup := by
      rw [List.map_cons, List.nodup_cons]
      exact ⟨hy, follows_nodup W R.follows⟩
    have hne : ∀ e ∈ es, e.f ≠ f := fun e he h => hy (h ▸ List.mem_map_of_mem he)
    have hfind : ((⟨f, pos, pos + n - 1, v⟩ : Item) :: es).find? (fun e => e.f == f) = some ⟨f, pos, pos + n - 1, v⟩ := by simp
    refine ⟨?_, ?_, E0.value, ?_, ?_, ?_, ?_⟩
    · intro g t hg ht hs
      rw [List.map_cons, List.mem_cons] at hg
      rcases hg with rfl | hg
      · have hc : ¬ Scalar t := fun h => hs h rfl
        rw [env_composite W.names ht hc]
        simp only [σ, itemEnv]
        rw [type?_some W.names ht, hfind]
        simp only [mt (scalar_iff t).mp hc, Context.bytes, if_true]
        rw [R.buffer, content_eq (I.low h2) (I.high hle)]
        simp
      · obtain ⟨e, he, rfl⟩ := List.mem_map.mp hg
        exact var_eq W I R.toContains hnd he (List.mem_cons_of_mem _ he) fun o ho => by cases ho; exact (hne e he).symm
    · intro id hl
      exact literal_eq (lo := lo) (hi := hi) W hl
    · intro a
      simp only
      rw [if_neg fun h => message_ne W.names R.field h.2.symm]
      exact message_eq R.toContains a
    · intro a g hg hgf
      simp only
      rw [if_neg fun h => hneq g hgf h.2]
      rw [List.map_cons, List.mem_cons] at hg
      obtain ⟨e, he, rfl⟩ := List.mem_map.mp (hg.resolve_left hgf)
      exact attr_eq' W R.toContains hnd a he (List.mem_cons_of_mem _ he)
    · simp
    · simp only
      rw [if_neg fun h => by cases h.1]
      exact E0.last
  have hp : Path P.m.msg (((⟨f, pos, pos + n - 1, v⟩ : Item) :: es).map (·.f)) f := by
    have := Path.step (follows_path R.follows) R.mem R.source (R.target ▸ R.ne_final W)
    rw [R.target] at this
    exact this
  have hout : ∀ l ∈ outgoing P.m.msg.links f, l ∈ P.m.msg.links ∧ l.source = f := by
    intro l hl; simpa [outgoing] using hl
  have same : ∀ l ∈ outgoing P.m.msg.links f, eval .ada { σ with attr := fun a k => if a = .size ∧ k = f.parts then .int 0 else σ.attr a k } l.condition =
      eval .ada σ l.condition := fun l hl => hfree l (hout l hl).1 (hout l hl).2 σ (.int 0)
  obtain ⟨x, hx, hiff⟩ := eval_or (D := .ada) (ρ := { σ with attr := fun a k => if a = .size ∧ k = f.parts then .int 0 else σ.attr a k })
    (ts := (outgoing P.m.msg.links f).map (·.condition)) (by
      intro t ht
      obtain ⟨l, hl, rfl⟩ := List.mem_map.mp ht
      rw [same l hl]
      exact W.bool l (hout l hl).1 _ (itemEnv_typed W))
  obtain ⟨e, he, hv⟩ := ownCondition_ok W R.field E (path_mem W hp).1 (W.left f R.field)
    (fun l hl => W.scope l (hout l hl).1 _ ((hout l hl).2.symm ▸ hp)) hx
  refine ⟨x, ?_, ?_⟩
  · simp only [Pkg.fieldCondition, hb, need, if_true, List.contains_eq_mem, decide_eq_true R.field, R.validPredecessor, bind, Except.bind, R.fieldFirst W I,
      R.fieldLast W I hn h0 h1 hle, Except.toOption, Option.getD_some, he, ofPy, Pkg.cond, hv, asBool]
  · rw [hiff]
    simp only [List.mem_map, Goes]
    constructor
    · rintro ⟨_, ⟨l, hl, rfl⟩, h⟩
      rw [same l hl] at h
      exact ⟨l, (hout l hl).1, (hout l hl).2, h⟩
    · rintro ⟨l, h1, h2, h3⟩
      have hl : l ∈ outgoing P.m.msg.links f := by simp [outgoing, h1, h2]
      exact ⟨_, ⟨l, hl, rfl⟩, by rw [same l hl]; exact h3⟩

/-- There is only one position for a field that comes next. -/
theorem Ready.only (W : WellFormed P) (R : Ready P b lo hi c es p pos f l) {xs ys : List Item} {q : Field} {qpos : Int} {l' : Link} (hes : es = xs ++ ys)
    (R' : Ready P b lo hi c ys q qpos f l') : ys = es ∧ q = p ∧ qpos = pos := by
  have hq : q = p := R'.pred.symm.trans R.pred
  have : xs = [] := by
    cases xs with
    | nil => rfl
    | cons z zs =>
      exfalso
      have h1 := follows_last R.follows
      have h2 := follows_last R'.follows
      have hnd := follows_nodup W R.follows
      rw [hes] at h1
      simp only [List.cons_append, lastField] at h1
      have hz : z.f ∈ P.m.msg.fields := follows_fields W R.follows (by rw [hes]; simp)
      cases ys with
      | nil =>
        simp only [lastField] at h2
        exact W.initial (by rw [← h2, hq, h1]; exact hz)
      | cons w ws =>
        simp only [lastField] at h2
        rw [hes, List.cons_append, List.map_cons, List.nodup_cons] at hnd
        refine hnd.1 ?_
        rw [← h1, ← hq, h2]
        exact List.mem_map_of_mem (by simp)
  subst this
  subst hes
  exact ⟨rfl, hq, (follows_fun R'.follows R.follows).2⟩

theorem history_snoc {ops : List Op} {op : Op} (h : P.history b lo hi ops = .ok c) (h' : P.step c op = .ok c') :
    P.history b lo hi (ops ++ [op]) = .ok c' := by
  unfold Pkg.history at h ⊢
  obtain ⟨c0, h1, h2⟩ := bind_run h
  rw [h1]
  show List.foldlM P.step c0 (ops ++ [op]) = _
  rw [List.foldlM_append, h2]
  show (List.foldlM P.step c [op]) = _
  rw [List.foldlM_cons, h']
  rfl

/-- A context in which the fields `es` of `b0` have been set in a buffer `b`. -/
structure Built (P : Pkg) (b b0 : Bytes) (lo hi : Int) (c : Context) (b1 : Bytes) (es : List Item) (p : Field) (pos : Int) : Prop where
  run : P.history b lo hi (es.reverse.map (setOp P b0)) = .ok c
  buffer : c.buffer = some b1
  inv : Inv P lo hi c b1 es p pos
  agree : Agree b0 b1 lo pos
  after : SameAfter b b1 pos
  next : ∀ l ∈ P.m.msg.links, l.source = p → l.target ≠ FINAL → IsTrue P.m.msg b0 lo hi es l.condition → (c.cursors l.target).pred = p

theorem Built.ready (W : WellFormed P) (U : Verified P lo hi) (I0 : InBuffer P b0 lo hi) (B : Built P b b0 lo hi c b1 es p pos) (h0 : Follows P.m.msg b0 lo hi es p pos)
    (hl : l ∈ P.m.msg.links) (hs : l.source = p) (ht : l.target ≠ FINAL) (hc : IsTrue P.m.msg b0 lo hi es l.condition) :
    Ready P b1 lo hi c es p pos l.target l where
  toContains := B.inv.contains B.buffer
  field := (W.links l hl).2.resolve_left ht
  pred := B.next l hl hs ht hc
  link := List.ne_nil_of_mem (a := l) (mem_between.mpr ⟨hl, hs, rfl⟩)
  mem := hl
  source := hs
  target := rfl
  holds := by rw [IsTrue, B.agree.itemEnv W I0 (U.aligned b0 I0) h0]; exact hc

theorem build (W : WellFormed P) (U : Verified P lo hi) (I : InBuffer P b lo hi) (I0 : InBuffer P b0 lo hi) (hfirst : b.first = b0.first)
    (hlength : b.data.length = b0.data.length) (hfree : ∀ l ∈ P.m.msg.links, P.isScalar l.source = true → SizeFree l.source l.condition)
    (h0 : Follows P.m.msg b0 lo hi es p pos) (hT : Tolerates P b b0 lo hi es) (hg : es = [] ∨ Goes P.m.msg b0 lo hi es p) :
    ∃ c b1, Built P b b0 lo hi c b1 es p pos := by
  induction h0 with
  | start =>
    refine ⟨_, b, ?_, rfl, Inv.init W I, ⟨hfirst, hlength, I.bytes, fun i h1 h2 => by omega⟩, fun _ _ => rfl, ?_⟩
    · show P.history b lo hi [] = _
      unfold Pkg.history
      rw [initialize_ok I]
      rfl
    · intro l hl hs ht _
      obtain ⟨l', h1, h2⟩ := W.start
      have : l ∈ outgoing P.m.msg.links INITIAL := by simp [outgoing, hl, hs]
      rw [h1, List.mem_singleton] at this
      subst this
      simp only [h2, if_true]
      rfl
  | @scalar es p pos l t n h0 hl hs ht hc htt hsc hn hle hin ih =>
    obtain ⟨c, b1, B⟩ := ih (fun xs e ys he => hT (_ :: xs) e ys (by rw [he]; rfl)) (.inr ⟨l, hl, hs, hc⟩)
    have R := B.ready W U I0 h0 hl hs ht hc
    have I1 := B.inv.inside
    obtain ⟨k, hz, hk, hk0, hbl, hk1⟩ := R.fieldSize W I1 (U.deterministic b1 I1) (U.sizes b1 I1)
    have hkn : k = n.v := by
      obtain ⟨t', ht', hz⟩ := hz
      have := nodup_pair W.names.once htt ht'; subst this
      rcases hz with ⟨_, k', hk', rfl, _⟩ | ⟨hs', _⟩
      · rw [hn] at hk'; cases hk'; rfl
      · exact absurd hsc hs'
    subst hkn
    obtain ⟨n', hn', hn1, hn64⟩ := scalar_size W htt hsc
    cases hn.symm.trans hn'
    have hsf : P.isScalar l.target = true := by rw [isScalar_iff W.names htt]; exact (scalar_iff t).mpr hsc
    have hlt := bitsAt_lt b0 pos n.v.toNat
    -- the fields mean the same in both buffers
    have henv : ∀ b2, Agree b0 b2 lo pos → itemEnv P.m.msg b2 lo hi (⟨l.target, pos, pos + n.v - 1, bitsAt b0 pos n.v.toNat⟩ :: es) =
        itemEnv P.m.msg b0 lo hi (⟨l.target, pos, pos + n.v - 1, bitsAt b0 pos n.v.toNat⟩ :: es) := by
      intro b2 A
      refine itemEnv_congr fun e he t' ht' hs' => ?_
      rcases List.mem_cons.mp he with rfl | he
      · rw [type?_some W.names htt] at ht'
        cases ht'
        rw [(scalar_iff t).mpr hsc] at hs'
        cases hs'
      · have hm := type?_mem ht'
        obtain ⟨h1, h2⟩ := U.aligned b0 I0 es p pos h0 e he t' hm (by rw [← scalar_iff, hs']; simp)
        have hb := (follows_bounds W I0.order h0).2.2 e he
        exact A.bytesAt I0 h1 h2 hb.1 (follows_last_lt W I0.order h0 e he)
    obtain ⟨l', hl', hs', hc'⟩ := hg.resolve_left (by simp)
    have pre : ScalarPre P c l.target (bitsAt b0 pos n.v.toNat) := by
      refine ⟨R.field, R.needNext W I1, hsf, ?_, ?_, ?_, ?_⟩
      · obtain ⟨x, hx, hiff⟩ := R.fieldCondition_zero W I1 hk hk0 hk1 hle (fun l2 h1 h2 => by
          have := hfree l2 h1 (by rw [h2]; exact hsf)
          rwa [h2] at this) (v := (bitsAt b0 pos n.v.toNat : Nat))
        rw [hx]
        congr 1
        exact hiff.mpr ⟨l', hl', hs', by rw [IsTrue, henv b1 B.agree]; exact hc'⟩
      · obtain ⟨x, hx, hiff⟩ := validValue_ok (v := ((bitsAt b0 pos n.v.toNat : Nat) : Int)) W htt hsc hn (by omega) (by exact_mod_cast hlt)
        rw [hx, hiff.mpr hin]
      · rw [R.sufficientSpace W I1 hk]
        congr 1
        exact decide_eq_true (by omega)
      · intro t' k ht' hk'
        have := nodup_pair W.names.once htt ht'; subst this
        cases hn.symm.trans hk'
        exact hlt
    obtain ⟨c2, b2, xs, ys, q, qpos, l2, t2, n2, s, hset, hes, R2, ht2, hsc2, hn2, hn21, hle2, A2, hafter, hbits, hb2, hcur, hspred, hsucc, V2⟩ :=
      B.inv.setScalar W U B.buffer pre
    obtain ⟨rfl, rfl, rfl⟩ := R.only W hes R2
    have := nodup_pair W.names.once htt ht2; subst this
    cases hn.symm.trans hn2
    have A : Agree b0 b2 lo (qpos + n.v) := by
      refine ⟨A2.first.trans B.agree.first, A2.length.trans B.agree.length, A2.bytes, ?_⟩
      intro i h1 h2
      by_cases hi' : i < qpos
      · exact (A2.bits i h1 hi').trans (B.agree.bits i h1 hi')
      · have := bitsAt_inj hbits (i - qpos).toNat (by omega)
        rw [show qpos + (((i - qpos).toNat : Nat) : Int) = i by omega] at this
        exact this
    refine ⟨c2, b2, ?_, hb2, V2, A, ?_, ?_⟩
    · rw [List.reverse_cons, List.map_append, List.map_singleton]
      refine history_snoc B.run ?_
      simp only [setOp, hsf, if_true, Int.toNat_natCast, Pkg.step, Pkg.needField, need, List.contains_eq_mem, decide_eq_true R.field, bind, Except.bind]
      exact hset
    · intro i hi'
      exact (hafter i hi').trans (B.after i (by omega))
    · intro l3 h3 h4 h5 h6
      have h7 : IsTrue P.m.msg b2 lo hi (⟨l.target, qpos, qpos + n.v - 1, bitsAt b0 qpos n.v.toNat⟩ :: ys) l3.condition := by
        rw [IsTrue, henv b2 (A.mono (by omega))]; exact h6
      rcases hsucc with ⟨_, hno⟩ | ⟨l4, h8, h9, h10, h11⟩
      · exact absurd h7 (hno l3 h3 h4)
      · have := U.deterministic b2 V2.inside _ _ _ V2.holds.follows l3 h3 l4 h8 h4 h9 h7 h11
        rw [this, h10]
        exact hspred
  | @composite es p pos l t n h0 hl hs ht hc htt hsc hn hn0 hle ih =>
    have H0 := Follows.composite h0 hl hs ht hc htt hsc hn hn0 hle
    obtain ⟨c, b1, B⟩ := ih (fun xs e ys he => hT (_ :: xs) e ys (by rw [he]; rfl)) (.inr ⟨l, hl, hs, hc⟩)
    have R := B.ready W U I0 h0 hl hs ht hc
    have I1 := B.inv.inside
    obtain ⟨k, hz, hk, hk0, hbl, hk1⟩ := R.fieldSize W I1 (U.deterministic b1 I1) (U.sizes b1 I1)
    have hkn : k = n := by
      obtain ⟨t', ht', hz⟩ := hz
      have := nodup_pair W.names.once htt ht'; subst this
      rcases hz with ⟨hs', _⟩ | ⟨_, hev⟩
      · exact absurd hs' hsc
      · rw [B.agree.itemEnv W I0 (U.aligned b0 I0) h0, hn] at hev
        cases hev
        rfl
    subst hkn
    have hcf : P.isComposite l.target = true := by
      rw [isComposite_iff W.names htt]
      cases h : t.isScalar with
      | true => exact absurd ((scalar_iff t).mp h) hsc
      | false => rfl
    have hsf : P.isScalar l.target = false := by
      rw [isScalar_iff W.names htt]
      cases h : t.isScalar with
      | true => exact absurd ((scalar_iff t).mp h) hsc
      | false => rfl
    obtain ⟨a1, a2⟩ := U.aligned b0 I0 _ _ _ H0 _ List.mem_cons_self t htt hsc
    simp only at a1 a2
    have hpos := (follows_bounds W I0.order h0).1
    have htol : ∀ l3 ∈ P.m.msg.links, l3.source = l.target → IsTrue P.m.msg b0 lo hi (⟨l.target, pos, pos + k - 1, 0⟩ :: es) l3.condition →
        IsTrue P.m.msg b1 lo hi (⟨l.target, pos, pos + k - 1, 0⟩ :: es) l3.condition :=
      hT [] _ es rfl hcf b1 I1 B.agree.first B.agree.length (fun i h1 h2 => B.agree.bits i h1 h2) (fun i h1 => B.after i h1)
    obtain ⟨l', hl', hs', hc'⟩ := hg.resolve_left (by simp)
    have hbuf : c.hasBuffer = true := by simp [Context.hasBuffer, B.buffer]
    have pre : P.compositePre c l.target = .ok () := by
      obtain ⟨x, hx, hiff⟩ := R.fieldCondition W I1 hk hk0 hk1 hle (v := 0)
      have := hiff.mpr ⟨l', hl', hs', htol l' hl' hs' hc'⟩
      subst this
      simp only [Pkg.compositePre, Pkg.setterPre, hbuf, need, if_true, R.needNext W I1, hcf, hk, hx, R.sufficientSpace W I1 hk, R.fieldFirst W I1, bind, Except.bind]
      rw [if_pos (decide_eq_true (by omega)), ]
      simp only
      rw [if_pos (decide_eq_true a1)]
      simp only
      rw [if_pos (decide_eq_true (by omega))]
    have hlen : (bytesAt b0 pos (pos + k - 1)).length = ((pos + k - 1 - 1) / 8 - (pos - 1) / 8 + 1).toNat := by simp [bytesAt]
    have hcast : ((bytesAt b0 pos (pos + k - 1)).map Int.toNat).map (fun (x : Nat) => (x : Int)) = bytesAt b0 pos (pos + k - 1) := by
      simp [bytesAt, Function.comp_def]
    have hd : AreBytes ((bytesAt b0 pos (pos + k - 1)).map Int.toNat) := by
      intro x hx
      simp only [bytesAt, List.map_map, List.mem_map, Function.comp_apply, Int.toNat_natCast] at hx
      obtain ⟨j, _, rfl⟩ := hx
      exact getD_lt I0.bytes _
    have hsize : (8 * ((bytesAt b0 pos (pos + k - 1)).map Int.toNat).length : Int) = k := by
      rw [List.length_map, hlen]
      omega
    obtain ⟨c2, b2, xs, ys, q, qpos, l2, l4, hset, hes, C, hb2, hcur, A2, hafter, hbytes, hl4, hs4, hc4, hpred4, V2⟩ :=
      B.inv.setOpaque W U R.field pre hd ⟨k, hk, hsize⟩
    rw [hsize] at C hcur hafter hbytes hc4 V2
    obtain ⟨rfl, rfl, rfl⟩ := R.only W hes C.ready
    rw [hcast] at hbytes
    have hlow := I0.low hpos
    simp only [byteIndex] at hlow
    have hfirst2 : b2.first = b0.first := A2.first.trans B.agree.first
    have A : Agree b0 b2 lo (qpos + k) := by
      refine ⟨hfirst2, A2.length.trans B.agree.length, A2.bytes, ?_⟩
      intro i h1 h2
      by_cases hi' : i < qpos
      · exact (A2.bits i h1 hi').trans (B.agree.bits i h1 hi')
      · exact bitAt_bytes hfirst2 hlow a1 a2 hbytes (by omega) (by omega)
    refine ⟨c2, b2, ?_, hb2, V2, A, ?_, ?_⟩
    · rw [List.reverse_cons, List.map_append, List.map_singleton]
      refine history_snoc B.run ?_
      simp only [setOp, hsf, Bool.false_eq_true, if_false, Pkg.step, Pkg.needField, need, List.contains_eq_mem, decide_eq_true R.field, if_true, bind, Except.bind]
      rw [if_pos (by rw [List.all_eq_true]; exact fun x hx => decide_eq_true (hd x hx))]
      exact hset
    · intro i hi'
      exact (hafter i hi').trans (B.after i (by omega))
    · intro l3 h3 h4 h5 h6
      have C' : Follows P.m.msg b1 lo hi (⟨l.target, qpos, qpos + k - 1, 0⟩ :: ys) l.target (qpos + k) := by
        have := follows_step C.ready.follows (C.step W)
        rw [show qpos + k - 1 + 1 = qpos + k by omega, C.ready.target] at this
        exact this
      have := U.deterministic b1 I1 _ _ _ C' l3 h3 l4 hl4 h4 hs4 (htol l3 h3 h4 h6) hc4
      rw [this]
      exact hpred4

/-- Conditions that do not compare the content of the field. -/
theorem tolerates_free (W : WellFormed P) (U : Verified P lo hi) (I0 : InBuffer P b0 lo hi) (h0 : Follows P.m.msg b0 lo hi es p pos)
    (hfree : ∀ l ∈ P.m.msg.links, P.isComposite l.source = true → ContentFree l.source l.condition) : Tolerates P b b0 lo hi es := by
  intro xs e ys hes hcomp b1 I1 hb1 hb2 hbefore _ l hl hs hc
  subst hes
  obtain ⟨_, _, h1⟩ := follows_suffix h0
  obtain ⟨q, qpos, l', h2, hst, _, hp⟩ := follows_cons h1
  have hfr := hfree l hl (by rw [hs]; exact hcomp)
  rw [hs] at hfr
  have same : (itemEnv P.m.msg b1 lo hi (e :: ys)).set e.f.parts (.seq []) = (itemEnv P.m.msg b0 lo hi (e :: ys)).set e.f.parts (.seq []) := by
    unfold Env.set itemEnv
    congr 1
    funext k
    by_cases hk : k = e.f.parts
    · simp only [if_pos hk]
    · simp only [if_neg hk]
      cases ht : P.m.msg.type? ⟨k⟩ with
      | none => rfl
      | some t =>
        cases hf : (e :: ys).find? (fun e => e.f == ⟨k⟩) with
        | none => rfl
        | some e' =>
          simp only
          have hk' : e'.f = ⟨k⟩ := by simpa using List.find?_some hf
          cases hsc : t.isScalar with
          | true => rfl
          | false =>
            have he' : e' ∈ ys := by
              rcases List.mem_cons.mp (List.mem_of_find?_eq_some hf) with rfl | h
              · exact absurd (by rw [hk']) hk
              · exact h
            obtain ⟨a1, a2⟩ := U.aligned b0 I0 _ _ _ h2 e' he' t (by rw [hk']; exact type?_mem ht) (by rw [← scalar_iff, hsc]; simp)
            have hb := (follows_bounds W I0.order h2).2.2 e' he'
            have hlt := follows_last_lt W I0.order h2 e' he'
            have hef := hst.field.2
            have A : Agree b0 b1 lo qpos := ⟨hb1, hb2, I1.bytes, fun i h3 h4 => hbefore i h3 (by omega)⟩
            rw [A.bytesAt I0 a1 a2 hb.1 hlt]
  rw [IsTrue, ← hfr _ (.seq []), same, hfr _ (.seq [])]
  exact hc

end

end Verif.Ctx
