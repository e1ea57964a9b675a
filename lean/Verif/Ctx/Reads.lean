import Verif.Ctx.Chain

/-! # Conditions and sizes in a context that holds the fields of a message -/

namespace Verif.Ctx
open Verif Verif.Graph Verif.Verify Verif.Types Verif.Gen Verif.Spark

/-- The cursors are those of the fields. -/
structure Cursors (P : Pkg) (c : Context) (es : List Item) : Prop where
  sv : ∀ e ∈ es, (c.cursors e.f).sv = true
  ok : ∀ e ∈ es, P.isComposite e.f = false → (c.cursors e.f).ok = true
  first : ∀ e ∈ es, (c.cursors e.f).first = e.first
  last : ∀ e ∈ es, (c.cursors e.f).last = e.last
  value : ∀ e ∈ es, (c.cursors e.f).value = e.value

/-- The context holds the fields `es` of a message in a buffer. -/
structure Contains (P : Pkg) (b : Bytes) (lo hi : Int) (c : Context) (es : List Item) (p : Field) (pos : Int) : Prop where
  follows : Follows P.m.msg b lo hi es p pos
  buffer : c.buffer = some b
  first : c.first = lo
  last : c.last = hi
  cursors : Cursors P c es

section
variable {P : Pkg} {b : Bytes} {lo hi : Int} {c : Context} {es : List Item} {p : Field} {pos : Int}

theorem InBuffer.low {i : Int} (I : InBuffer P b lo hi) (h : lo ≤ i) : (b.first : Int) ≤ byteIndex i := by
  have := I.lower.2
  simp only [byteIndex]
  omega

theorem InBuffer.high {i : Int} (I : InBuffer P b lo hi) (h : i ≤ hi) : byteIndex i ≤ b.last := by
  have := I.upper
  simp only [byteIndex]
  omega

/-- The bytes of a composite field. -/
theorem bytes_eq (W : WellFormed P) (I : InBuffer P b lo hi) (H : Contains P b lo hi c es p pos) {own : Option Own} {e : Item} (he : e ∈ es)
    (ho : ∀ o, own = some o → o.fld ≠ e.f) : c.bytes own e.f = bytesAt b e.first e.last := by
  obtain ⟨h1, _, h3⟩ := (follows_bounds W I.order H.follows).2.2 e he
  have hc : content c.buffer (c.cursors e.f).first (c.cursors e.f).last = bytesAt b e.first e.last := by
    rw [H.buffer, H.cursors.first e he, H.cursors.last e he]
    exact content_eq (I.low h1) (I.high h3)
  unfold Context.bytes
  cases own with
  | none => simp [H.cursors.sv e he, hc]
  | some o => simp [ho o rfl, H.cursors.sv e he, hc]

theorem literal_eq (W : WellFormed P) {own : Option Own} {id : ID} (h : LitName P.m id) :
    (itemEnv P.m.msg b lo hi es).var id.key = (P.env c own).var id.key := by
  have ht := type?_none W.names (W.names.literal id h).1
  have h2 : Gen.Plain false id.key := (W.names.literal id h).2
  rw [env_other W.names (W.names.literal id h).1, var_plain h2]
  simp only [itemEnv, ht]
  rfl

theorem message_eq (H : Contains P b lo hi c es p pos) {es' : List Item} {own : Option Own} (a : AttrKind) :
    (itemEnv P.m.msg b lo hi es').attr a MESSAGE.key = (P.env c own).attr a MESSAGE.key := by
  simp only [itemEnv, Pkg.env, if_true, H.first, H.last]
  cases a <;> rfl

/-- The attributes of a field. -/
theorem attr_eq' (W : WellFormed P) (H : Contains P b lo hi c es p pos) {es' : List Item} (hn : (es'.map (·.f)).Nodup) {own : Option Own} (a : AttrKind)
    {e : Item} (he : e ∈ es) (he' : e ∈ es') :
    (itemEnv P.m.msg b lo hi es').attr a e.f.parts = (P.env c own).attr a e.f.parts := by
  have hk := message_ne W.names (follows_fields W H.follows he)
  rw [env_attr a hk]
  simp only [itemEnv, if_neg hk]
  rw [find_item hn he' rfl]
  cases a <;> simp only [H.cursors.first e he, H.cursors.last e he]

/-- The value of a field. -/
theorem var_eq (W : WellFormed P) (I : InBuffer P b lo hi) (H : Contains P b lo hi c es p pos) {es' : List Item} (hn : (es'.map (·.f)).Nodup)
    {own : Option Own} {e : Item} (he : e ∈ es) (he' : e ∈ es') (ho : ∀ o, own = some o → o.fld ≠ e.f) :
    (itemEnv P.m.msg b lo hi es').var e.f.parts = (P.env c own).var e.f.parts := by
  obtain ⟨t, ht, _⟩ := follows_type H.follows he
  have hf := find_item hn he' rfl
  by_cases hs : Scalar t
  · rw [env_scalar W.names ht hs]
    simp only [itemEnv]
    rw [type?_some W.names ht, hf]
    simp [(scalar_iff t).mpr hs, H.cursors.value e he]
  · rw [env_composite W.names ht hs, bytes_eq W I H he ho]
    simp only [itemEnv]
    rw [type?_some W.names ht, hf]
    simp [mt (scalar_iff t).mp hs]

/-- Expressions over the fields have the same value. -/
theorem eval_eq (W : WellFormed P) (I : InBuffer P b lo hi) (H : Contains P b lo hi c es p pos) {es' : List Item} (hn : (es'.map (·.f)).Nodup)
    {fs : List Field} (hfs : ∀ f ∈ fs, ∃ e ∈ es, e.f = f ∧ e ∈ es') {e : Expr} (hc : Cond P.m opts (· ∈ fs) e) :
    eval .ada (itemEnv P.m.msg b lo hi es') e = eval .ada (P.env c none) e := by
  refine eval_cov nameLeaf_rel ?_ e (cond_leaf e hc)
  intro e he
  cases e with
  | var ng imm id =>
    have : (itemEnv P.m.msg b lo hi es').var id.key = (P.env c none).var id.key := by
      have field : (⟨id.key⟩ : Field) ∈ fs → (itemEnv P.m.msg b lo hi es').var id.key = (P.env c none).var id.key := by
        intro hm
        obtain ⟨e, h1, h2, h3⟩ := hfs _ hm
        have := var_eq W I H hn (own := none) h1 h3 (by simp)
        rw [h2] at this
        exact this
      rcases he with ⟨_, ⟨hS, _⟩ | hl⟩ | ⟨_, hS, _⟩
      · exact field hS
      · exact literal_eq W hl
      · exact field hS
    simp only [eval, this]
  | attr ng a pre =>
    cases pre with
    | var ng' imm id =>
      obtain ⟨rfl, rfl, ha⟩ := he
      have : (itemEnv P.m.msg b lo hi es').attr a id.key = (P.env c none).attr a id.key := by
        obtain ⟨_, rfl | ⟨g, hg, hS, rfl, _⟩⟩ := ha
        · exact message_eq H a
        · obtain ⟨e, h1, h2, h3⟩ := hfs _ hS
          have := attr_eq' W H hn (own := none) a h1 h3
          rw [h2, field_key W.names hg] at this
          exact this
      simp only [eval, this]
    | _ => simp [NameLeaf] at he
  | agg es =>
    obtain ⟨xs, hx, _⟩ := eval_nums es he
    rw [hx, hx]
  | _ => simp [NameLeaf] at he

theorem isTrue_eq (W : WellFormed P) (I : InBuffer P b lo hi) (H : Contains P b lo hi c es p pos) {l : Link} (hl : l ∈ P.m.msg.links) (hs : l.source = p) :
    eval .ada (itemEnv P.m.msg b lo hi es) l.condition = eval .ada (P.env c none) l.condition := by
  refine eval_eq W I H (follows_nodup W H.follows) (fs := es.map (·.f)) ?_ (W.scope l hl _ (hs ▸ follows_path H.follows))
  intro f hf
  obtain ⟨e, he, rfl⟩ := List.mem_map.mp hf
  exact ⟨e, he, rfl, he⟩

theorem accepts_cond (W : WellFormed P) {e : Expr} (h : Cond P.m opts (· ∈ P.m.msg.fields) e) (hw : e.WF) : Accepts P.m e := by
  have := cov_wf e (cond_cov W.names e h hw) hw
  exact cov_mono (fun e h => ⟨h.1, .inl h.2⟩) (fun _ _ _ h => h) e this

/-- The generated code evaluates the condition of a link. -/
theorem cond_ok (W : WellFormed P) (I : InBuffer P b lo hi) (H : Contains P b lo hi c es p pos) {t : ID} (ht : t = U64 ∨ t = BIT_LENGTH)
    {l : Link} (hl : l ∈ P.m.msg.links) (hs : l.source = p) :
    ∃ x, P.cond (some t) c none l.condition = .ok x ∧ (x = true ↔ IsTrue P.m.msg b lo hi es l.condition) := by
  obtain ⟨x, hx⟩ := W.bool l hl (P.env c none) (env_typed W.names rfl rfl)
  refine ⟨x, ?_, ?_⟩
  · simp only [Pkg.cond, value_ok W ht (accepts_cond W (cond_fields W hl) (W.wf l hl).1) (W.wf l hl).1 (W.wf l hl).2 hx, bind, Except.bind, asBool]
  · rw [IsTrue, isTrue_eq W I H hl hs, hx]
    simp

theorem evalL_bools {D : Division} {ρ : Env} : ∀ {ts : List Expr}, (∀ t ∈ ts, ∃ x, eval D ρ t = some (.bool x)) →
    ∃ xs : List Bool, evalL D ρ ts = some (xs.map .bool) ∧ (xs.any id = true ↔ ∃ t ∈ ts, eval D ρ t = some (.bool true)) ∧
      (xs.all id = true ↔ ∀ t ∈ ts, eval D ρ t = some (.bool true)) := by
  intro ts
  induction ts with
  | nil => intro _; exact ⟨[], rfl, by simp, by simp⟩
  | cons t ts ih =>
    intro h
    obtain ⟨x, hx⟩ := h t List.mem_cons_self
    obtain ⟨xs, h1, h2, h3⟩ := ih fun t ht => h t (List.mem_cons_of_mem _ ht)
    refine ⟨x :: xs, ?_, ?_, ?_⟩
    · simp [evalL, hx, h1]
    · simp only [List.any_cons, Bool.or_eq_true, h2, List.mem_cons, exists_eq_or_imp, hx, id]
      simp
    · simp only [List.all_cons, Bool.and_eq_true, h3, List.mem_cons, forall_eq_or_imp, hx, id]
      simp

theorem allSome_bools (xs : List Bool) : allSome Val.bool? (xs.map .bool) = some xs := by
  induction xs with
  | nil => rfl
  | cons x xs ih => simp [allSome, Val.bool?, ih]

theorem eval_or {D : Division} {ρ : Env} {ts : List Expr} (h : ∀ t ∈ ts, ∃ x, eval D ρ t = some (.bool x)) :
    ∃ x, eval D ρ (.bool .or ts) = some (.bool x) ∧ (x = true ↔ ∃ t ∈ ts, eval D ρ t = some (.bool true)) := by
  obtain ⟨xs, h1, h2, _⟩ := evalL_bools h
  refine ⟨xs.any id, ?_, h2⟩
  simp [eval, h1, allSome_bools, BoolOp.isAnd]

theorem eval_andThen {D : Division} {ρ : Env} {ts : List Expr} (h : ∀ t ∈ ts, ∃ x, eval D ρ t = some (.bool x)) :
    ∃ x, eval D ρ (.bool .andThen ts) = some (.bool x) ∧ (x = true ↔ ∀ t ∈ ts, eval D ρ t = some (.bool true)) := by
  obtain ⟨xs, h1, _, h3⟩ := evalL_bools h
  refine ⟨xs.all id, ?_, h3⟩
  simp [eval, h1, allSome_bools, BoolOp.isAnd]

/-- The generated code evaluates a disjunction of conditions. -/
theorem or_ok (W : WellFormed P) (I : InBuffer P b lo hi) (H : Contains P b lo hi c es p pos) {ls : List Link} (hne : ls ≠ [])
    (hl : ∀ l ∈ ls, l ∈ P.m.msg.links ∧ l.source = p) :
    ∃ x, P.cond (some U64) c none (.bool .or (ls.map (·.condition))) = .ok x ∧ (x = true ↔ ∃ l ∈ ls, IsTrue P.m.msg b lo hi es l.condition) := by
  have hb : ∀ t ∈ ls.map (·.condition), ∃ x, eval .ada (P.env c none) t = some (.bool x) := by
    intro t ht
    obtain ⟨l, hm, rfl⟩ := List.mem_map.mp ht
    exact W.bool l (hl l hm).1 _ (env_typed W.names rfl rfl)
  obtain ⟨x, hx, hiff⟩ := eval_or hb
  refine ⟨x, ?_, ?_⟩
  · have hc : Accepts P.m (.bool .or (ls.map (·.condition))) := by
      simp only [Accepts, Cov, covL_iff, List.mem_map]
      rintro _ ⟨l, hm, rfl⟩
      exact accepts_cond W (cond_fields W (hl l hm).1) (W.wf l (hl l hm).1).1
    have hw : (Expr.bool .or (ls.map (·.condition))).WF := by
      simp only [Expr.WF, WFL_iff, List.mem_map]
      refine ⟨?_, fun h => absurd (by simpa using h) hne⟩
      rintro _ ⟨l, hm, rfl⟩
      exact (W.wf l (hl l hm).1).1
    have hg : (Expr.bool .or (ls.map (·.condition))).Good Division.ada.Odd false := by
      simp only [Expr.Good, GoodL_iff, List.mem_map]
      refine ⟨trivial, ?_⟩
      rintro _ ⟨l, hm, rfl⟩
      exact (W.wf l (hl l hm).1).2
    simp only [Pkg.cond, value_ok W (.inl rfl) hc hw hg hx, bind, Except.bind, asBool]
  · rw [hiff]
    simp only [List.mem_map]
    constructor
    · rintro ⟨_, ⟨l, hm, rfl⟩, h⟩
      exact ⟨l, hm, by rw [IsTrue, isTrue_eq W I H (hl l hm).1 (hl l hm).2]; exact h⟩
    · rintro ⟨l, hm, h⟩
      exact ⟨_, ⟨l, hm, rfl⟩, by rw [IsTrue, isTrue_eq W I H (hl l hm).1 (hl l hm).2] at h; exact h⟩

/-- The generated code evaluates the size of a composite field. -/
theorem num_ok (W : WellFormed P) (I : InBuffer P b lo hi) (H : Contains P b lo hi c es p pos) {l : Link} (hl : l ∈ P.m.msg.links) (hs : l.source = p)
    {t : FTy} (ht : (l.target, t) ∈ P.m.msg.types) (hc : ¬ Scalar t) :
    ∃ n, P.num (some BIT_LENGTH) c none l.size = .ok n ∧ eval .ada (itemEnv P.m.msg b lo hi es) l.size = some (.int n) := by
  obtain ⟨n, hn⟩ := W.sizeInt l hl t ht hc (P.env c none) (env_typed W.names rfl rfl)
  have hscope := W.sizeScope l hl t ht hc _ (hs ▸ follows_path H.follows)
  have hw := W.sizeWF l hl t ht hc
  refine ⟨n, ?_, ?_⟩
  · have hfields : Cond P.m opts (· ∈ P.m.msg.fields) l.size := cond_mono (path_mem W (follows_path H.follows)).1 _ hscope
    simp only [Pkg.num, value_ok W (.inr rfl) (accepts_cond W hfields hw.1) hw.1 hw.2 hn, bind, Except.bind, asInt]
  · rw [← hn]
    refine eval_eq W I H (follows_nodup W H.follows) (fs := es.map (·.f)) ?_ hscope
    intro f hf
    obtain ⟨e, he, rfl⟩ := List.mem_map.mp hf
    exact ⟨e, he, rfl, he⟩

/-- The condition in `Field_Condition`. -/
theorem ownEnv_items (W : WellFormed P) (I : InBuffer P b lo hi) (H : Contains P b lo hi c es p pos) {y : Item} (hf : y.f ∈ P.m.msg.fields) (hy : y.f ∉ es.map (·.f))
    (hlo : lo ≤ y.first) (hhi : y.last ≤ hi) :
    OwnEnv P c ⟨y.f, y.first, y.last, y.value, y.last - y.first + 1⟩ (· ∈ (y :: es).map (·.f)) y.f (itemEnv P.m.msg b lo hi (y :: es)) := by
  have hn : ((y :: es).map (·.f)).Nodup := by
    rw [List.map_cons, List.nodup_cons]
    exact ⟨hy, follows_nodup W H.follows⟩
  have hne : ∀ e ∈ es, e.f ≠ y.f := fun e he h => hy (h ▸ List.mem_map_of_mem he)
  have hfind : (y :: es).find? (fun e => e.f == y.f) = some y := by simp
  refine ⟨?_, ?_, ?_, ?_, ?_, ?_, ?_⟩
  · intro g t hg ht hs
    rw [List.map_cons, List.mem_cons] at hg
    rcases hg with rfl | hg
    · have hc : ¬ Scalar t := fun h => hs h rfl
      rw [env_composite W.names ht hc]
      simp only [itemEnv]
      rw [type?_some W.names ht, hfind]
      simp only [mt (scalar_iff t).mp hc, Context.bytes, if_true]
      rw [H.buffer, content_eq (I.low hlo) (I.high hhi)]
      simp
    · obtain ⟨e, he, rfl⟩ := List.mem_map.mp hg
      exact var_eq W I H hn he (List.mem_cons_of_mem _ he) fun o ho => by cases ho; exact (hne e he).symm
  · intro id hl
    exact literal_eq W hl
  · intro t ht hs
    simp only [itemEnv]
    rw [type?_some W.names ht, hfind]
    simp [(scalar_iff t).mpr hs]
  · intro a
    exact message_eq H a
  · intro a g hg hgy
    rw [List.map_cons, List.mem_cons] at hg
    obtain ⟨e, he, rfl⟩ := List.mem_map.mp (hg.resolve_left hgy)
    exact attr_eq' W H hn a he (List.mem_cons_of_mem _ he)
  all_goals
    simp only [itemEnv, if_neg (message_ne W.names hf)]
    rw [hfind]

end

end Verif.Ctx
