import Verif.Ctx.Reads

/-! # The next field -/

namespace Verif.Ctx
open Verif Verif.Graph Verif.Verify Verif.Types Verif.Gen Verif.Spark

/-! ## Case expressions over targets -/

theorem grouped_tail {l : Link} {ls : List Link} (h : Grouped (l :: ls)) : Grouped ls :=
  fun a b c hs he => h a b c (List.Sublist.cons _ hs) he

theorem grouped_filter {ls : List Link} (h : Grouped ls) (q : Link → Bool) : Grouped (ls.filter q) :=
  fun a b c hs he => h a b c (hs.trans List.filter_sublist) he

theorem groupTargets_head {l : Link} {ls : List Link} : ∃ g rest, groupTargets (l :: ls) = (l.target, g) :: rest := by
  simp only [groupTargets]
  cases groupTargets ls with
  | nil => exact ⟨_, _, rfl⟩
  | cons x rest =>
    obtain ⟨t, g⟩ := x
    by_cases h : l.target = t
    · simp only [if_pos h]; subst h; exact ⟨_, _, rfl⟩
    · simp only [if_neg h]; exact ⟨_, _, rfl⟩

theorem groupTargets_filter {ls : List Link} (h : Grouped ls) (f : Field) : (groupTargets ls).filter (fun g => g.1 == f) =
    if ls.filter (fun l => l.target == f) = [] then [] else [(f, ls.filter (fun l => l.target == f))] := by
  induction ls with
  | nil => simp [groupTargets]
  | cons l ls ih =>
    have ih := ih (grouped_tail h)
    cases ls with
    | nil =>
      by_cases hf : l.target = f
      · simp [groupTargets, hf]
      · simp [groupTargets, hf]
    | cons l' ls =>
      obtain ⟨g, rest, hg⟩ := groupTargets_head (l := l') (ls := ls)
      rw [groupTargets]
      rw [hg] at ih ⊢
      by_cases ht : l.target = l'.target
      · simp only [if_pos ht]
        by_cases hf : l'.target = f
        · rw [List.filter_cons_of_pos (by simpa using hf)] at ih ⊢
          rw [List.filter_cons_of_pos (p := fun l : Link => l.target == f) (a := l) (by simpa [ht] using hf)]
          rw [List.filter_cons_of_pos (p := fun l : Link => l.target == f) (a := l') (by simpa using hf)] at ih ⊢
          simp only [List.cons_ne_nil, if_false, reduceCtorEq] at ih ⊢
          rw [List.cons.injEq, Prod.mk.injEq] at ih
          rw [ih.1.1, ih.1.2, ih.2]
        · rw [List.filter_cons_of_neg (by simpa using hf)] at ih ⊢
          rw [List.filter_cons_of_neg (p := fun l : Link => l.target == f) (a := l) (by simpa [ht] using hf)]
          exact ih
      · simp only [if_neg ht]
        by_cases hf : l.target = f
        · have hno : (l' :: ls).filter (fun l => l.target == f) = [] := by
            rw [List.filter_eq_nil_iff]
            intro x hx hxf
            simp only [beq_iff_eq] at hxf
            rcases List.mem_cons.mp hx with rfl | hx
            · exact ht (hf.trans hxf.symm)
            · apply ht
              have := h l l' x (by
                refine List.Sublist.cons_cons _ (List.Sublist.cons_cons _ ?_)
                exact List.singleton_sublist.mpr hx) (hf.trans hxf.symm)
              exact this.symm
          rw [List.filter_cons_of_pos (by simpa using hf), ih, hno]
          rw [List.filter_cons_of_pos (p := fun l : Link => l.target == f) (a := l) (by simpa using hf), hno]
          simp [hf]
        · rw [List.filter_cons_of_neg (by simpa using hf), ih]
          rw [List.filter_cons_of_neg (p := fun l : Link => l.target == f) (a := l) (by simpa using hf)]

section
variable {P : Pkg} {b : Bytes} {lo hi : Int} {c : Context} {es : List Item} {p : Field} {pos : Int} {f : Field}

/-- The links from `p` to `f`. -/
def between (m : Msg) (p f : Field) : List Link := (outgoing m.links p).filter fun l => l.target == f

theorem mem_between {m : Msg} {l : Link} {p f : Field} : l ∈ between m p f ↔ l ∈ m.links ∧ l.source = p ∧ l.target = f := by
  simp only [between, outgoing, List.mem_filter, beq_iff_eq]
  constructor
  · rintro ⟨⟨h1, h2⟩, h3⟩; exact ⟨h1, h2, h3⟩
  · rintro ⟨h1, h2, h3⟩; exact ⟨⟨h1, h2⟩, h3⟩

theorem choose_ok (W : WellFormed P) (hf : f ≠ FINAL) (hne : between P.m.msg p f ≠ []) :
    choose f (groupTargets ((outgoing P.m.msg.links p).filter fun l => l.target != FINAL)) = .ok (some (between P.m.msg p f)) := by
  have e : ((outgoing P.m.msg.links p).filter fun l => l.target != FINAL).filter (fun l => l.target == f) = between P.m.msg p f := by
    rw [List.filter_filter, between]
    refine List.filter_congr fun l _ => ?_
    by_cases h : l.target = f
    · simp [h, hf]
    · simp [h]
  unfold choose
  rw [groupTargets_filter (grouped_filter (W.grouped p) _), e, if_neg hne]

theorem choose_ok' (W : WellFormed P) (hf : f ≠ FINAL) (hne : between P.m.msg p f ≠ []) :
    choose f ((groupTargets (outgoing P.m.msg.links p)).filter fun g => g.1 != FINAL) = .ok (some (between P.m.msg p f)) := by
  have e : ((groupTargets (outgoing P.m.msg.links p)).filter fun g => g.1 != FINAL).filter (fun g => g.1 == f) =
      (groupTargets (outgoing P.m.msg.links p)).filter (fun g => g.1 == f) := by
    rw [List.filter_filter]
    refine List.filter_congr fun g _ => ?_
    by_cases h : g.1 = f
    · simp [h, hf]
    · simp [h]
  unfold choose
  rw [e, groupTargets_filter (W.grouped p)]
  show (match (if between P.m.msg p f = [] then [] else [(f, between P.m.msg p f)]) with | [] => _ | [g] => _ | _ => _) = _
  rw [if_neg hne]

theorem firstTrue_map {α : Type} {ls : List Link} {g : Link → Run Bool} {h : Link → α} {q : Link → Prop}
    (hg : ∀ l ∈ ls, ∃ x, g l = .ok x ∧ (x = true ↔ q l)) :
    (∃ l ∈ ls, q l ∧ firstTrue (ls.map fun l => (g l, h l)) = .ok (some (h l))) ∨
    ((∀ l ∈ ls, ¬ q l) ∧ firstTrue (ls.map fun l => (g l, h l)) = .ok none) := by
  induction ls with
  | nil => exact .inr ⟨by simp, rfl⟩
  | cons l ls ih =>
    obtain ⟨x, hx, hq⟩ := hg l List.mem_cons_self
    simp only [List.map_cons, firstTrue, hx, bind, Except.bind]
    cases x with
    | true => exact .inl ⟨l, List.mem_cons_self, hq.mp rfl, rfl⟩
    | false =>
      rcases ih fun l hl => hg l (List.mem_cons_of_mem _ hl) with ⟨l', h1, h2, h3⟩ | ⟨h1, h2⟩
      · exact .inl ⟨l', List.mem_cons_of_mem _ h1, h2, h3⟩
      · refine .inr ⟨?_, h2⟩
        intro l' hl'
        rcases List.mem_cons.mp hl' with rfl | hl'
        · intro hc; exact absurd (hq.mpr hc) (by simp)
        · exact h1 l' hl'

/-! ## Preconditions -/

/-- `f` comes next: its cursor says so, and there is a link. -/
structure Next (P : Pkg) (b : Bytes) (lo hi : Int) (c : Context) (es : List Item) (p : Field) (pos : Int) (f : Field) : Prop extends
    Contains P b lo hi c es p pos where
  field : f ∈ P.m.msg.fields
  pred : (c.cursors f).pred = p
  link : between P.m.msg p f ≠ []

theorem Next.ne_final (W : WellFormed P) (N : Next P b lo hi c es p pos f) : f ≠ FINAL := fun h => W.final (h ▸ N.field)

theorem Next.new (W : WellFormed P) (N : Next P b lo hi c es p pos f) : f ∉ es.map (·.f) := by
  obtain ⟨l, hl⟩ := List.exists_mem_of_ne_nil _ N.link
  obtain ⟨h1, h2, h3⟩ := mem_between.mp hl
  have := path_next W (follows_path N.follows) h1 h2 (h3 ▸ N.ne_final W)
  rwa [h3] at this

theorem mem_dedup {l : List Field} {f : Field} : f ∈ dedup l ↔ f ∈ l := by
  induction l with
  | nil => rfl
  | cons a l ih =>
    simp only [dedup, List.mem_cons, List.mem_filter, ih, bne_iff_ne, ne_eq]
    constructor
    · rintro (h | ⟨h, _⟩)
      · exact .inl h
      · exact .inr h
    · rintro (h | h)
      · exact .inl h
      · by_cases e : f = a
        · exact .inl e
        · exact .inr ⟨h, e⟩

theorem mem_directPredecessors {ls : List Link} {p f : Field} : p ∈ directPredecessors ls f ↔ ∃ l ∈ ls, l.source = p ∧ l.target = f := by
  simp only [directPredecessors, mem_dedup, incoming, List.mem_map, List.mem_filter, beq_iff_eq]
  constructor
  · rintro ⟨l, ⟨h1, h2⟩, h3⟩; exact ⟨l, h1, h3, h2⟩
  · rintro ⟨l, h1, h2, h3⟩; exact ⟨l, ⟨h1, h3⟩, h2⟩

theorem follows_mem (h : Follows P.m.msg b lo hi es p pos) (hp : p ≠ INITIAL) : ∃ e ∈ es, e.f = p := by
  have := follows_last h
  cases es with
  | nil => exact absurd this hp
  | cons e es => exact ⟨e, List.mem_cons_self, this.symm⟩

theorem Next.validPredecessor (N : Next P b lo hi c es p pos f) : P.validPredecessor c f = true := by
  obtain ⟨l, hl⟩ := List.exists_mem_of_ne_nil _ N.link
  obtain ⟨h1, h2, h3⟩ := mem_between.mp hl
  have hm : p ∈ directPredecessors P.m.msg.links f := mem_directPredecessors.mpr ⟨l, h1, h2, h3⟩
  unfold Pkg.validPredecessor
  split
  · rfl
  · rw [List.any_eq_true]
    refine ⟨p, hm, ?_⟩
    simp only [N.pred, beq_self_eq_true, Bool.and_true]
    by_cases hp : p = INITIAL
    · simp [hp]
    · obtain ⟨e, he, rfl⟩ := follows_mem N.follows hp
      simp only [if_neg hp]
      cases hc : P.isComposite e.f with
      | true => simp [N.cursors.sv e he]
      | false => simp [N.cursors.ok e he hc]

/-- A field that is not next. -/
theorem validPredecessor_final (W : WellFormed P) (hf : f ∈ P.m.msg.fields) (hp : (c.cursors f).pred = FINAL) : P.validPredecessor c f = false := by
  obtain ⟨l, hl, rfl⟩ := W.reached f hf
  have hm : l.source ∈ directPredecessors P.m.msg.links l.target := mem_directPredecessors.mpr ⟨l, hl, rfl, rfl⟩
  unfold Pkg.validPredecessor
  split
  · rename_i h
    rw [h] at hm
    cases hm
  · rw [List.any_eq_false]
    intro q hq
    obtain ⟨l', hl', rfl, _⟩ := mem_directPredecessors.mp hq
    have : l'.source ≠ FINAL := by
      intro h
      rcases (W.links l' hl').1 with h' | h'
      · exact initial_ne_final (h'.symm.trans h)
      · exact W.final (h ▸ h')
    rw [hp]
    simp [this.symm]

theorem Next.pathCondition (W : WellFormed P) (I : InBuffer P b lo hi) (N : Next P b lo hi c es p pos f) :
    ∃ x, P.pathCondition c f = .ok x ∧ (x = true ↔ ∃ l ∈ between P.m.msg p f, IsTrue P.m.msg b lo hi es l.condition) := by
  obtain ⟨x, hx, hiff⟩ := or_ok W I N.toContains N.link fun l hl => ⟨(mem_between.mp hl).1, (mem_between.mp hl).2.1⟩
  refine ⟨x, ?_, hiff⟩
  simp only [Pkg.pathCondition, N.validPredecessor, need, if_true, bind, Except.bind, N.pred, choose_ok W (N.ne_final W) N.link, hx]

/-- A field that comes next because the condition of a link holds. -/
structure Ready (P : Pkg) (b : Bytes) (lo hi : Int) (c : Context) (es : List Item) (p : Field) (pos : Int) (f : Field) (l : Link) : Prop extends
    Next P b lo hi c es p pos f where
  mem : l ∈ P.m.msg.links
  source : l.source = p
  target : l.target = f
  holds : IsTrue P.m.msg b lo hi es l.condition

variable {l : Link}

theorem Ready.needNext (W : WellFormed P) (I : InBuffer P b lo hi) (R : Ready P b lo hi c es p pos f l) : P.needNext c f = .ok () := by
  obtain ⟨x, hx, hiff⟩ := R.toNext.pathCondition W I
  have : x = true := hiff.mpr ⟨l, mem_between.mpr ⟨R.mem, R.source, R.target⟩, R.holds⟩
  subst this
  simp only [Pkg.needNext, Pkg.validNext, R.validPredecessor, if_true, hx, bind, Except.bind, need]

/-- The size of the next field. -/
def SizeOf (P : Pkg) (b : Bytes) (lo hi : Int) (es : List Item) (l : Link) (f : Field) (n : Int) : Prop :=
  ∃ t, (f, t) ∈ P.m.msg.types ∧ ((Scalar t ∧ ∃ k, t.size = .ok k ∧ k.v = n ∧ 1 ≤ n ∧ n ≤ 64) ∨
    (¬ Scalar t ∧ eval .ada (itemEnv P.m.msg b lo hi es) l.size = some (.int n)))

theorem check_ok {q : Prop} [Decidable q] {i : Int} (h : q) : check q i = .ok i := by simp [check, h]

theorem Ready.fieldSize (W : WellFormed P) (I : InBuffer P b lo hi) (hD : Deterministic P.m.msg b lo hi) (hS : Sizes P b lo hi)
    (R : Ready P b lo hi c es p pos f l) :
    ∃ n, SizeOf P b lo hi es l f n ∧ P.fieldSize c f = .ok n ∧ 0 ≤ n ∧ n ≤ P.bitLast ∧ (pos = 1 → 1 ≤ n) := by
  obtain ⟨t, ht⟩ := W.typed f R.field
  have hne := R.link
  have hch := choose_ok' W (R.ne_final W) hne
  have hgs : ((groupTargets (outgoing P.m.msg.links p)).filter fun g => g.1 != FINAL).isEmpty = false := by
    cases hg : ((groupTargets (outgoing P.m.msg.links p)).filter fun g => g.1 != FINAL) with
    | nil => rw [hg] at hch; simp [choose] at hch
    | cons => rfl
  by_cases hs : Scalar t
  · obtain ⟨k, hk, h1, h64⟩ := scalar_size W ht hs
    have h64' := I.range.2
    refine ⟨k.v, ⟨t, ht, .inl ⟨hs, k, hk, rfl, h1, h64⟩⟩, ?_, by omega, by omega, fun _ => h1⟩
    simp only [Pkg.fieldSize, R.needNext W I, bind, Except.bind, R.pred, hgs, Bool.false_eq_true, if_false, hch, type?_some W.names ht,
      (scalar_iff t).mpr hs, if_true, hk, ofPy, pure, Except.pure]
    exact check_ok ⟨by omega, by omega⟩
  · obtain ⟨n, hn, hev⟩ := num_ok W I R.toContains R.mem R.source (R.target ▸ ht) hs
    obtain ⟨h0, h1, h2⟩ := hS es p pos R.follows l R.mem R.source (R.target ▸ R.ne_final W) R.holds t (R.target ▸ ht) hs n hev
    refine ⟨n, ⟨t, ht, .inr ⟨hs, hev⟩⟩, ?_, h0, h1, h2⟩
    have hl : l ∈ between P.m.msg p f := mem_between.mpr ⟨R.mem, R.source, R.target⟩
    have uniq : ∀ l' ∈ between P.m.msg p f, IsTrue P.m.msg b lo hi es l'.condition → l' = l := by
      intro l' hl' ht'
      obtain ⟨m1, m2, _⟩ := mem_between.mp hl'
      exact hD es p pos R.follows l' m1 l R.mem m2 R.source ht' R.holds
    have hfirst := firstTrue_map (ls := between P.m.msg p f) (h := fun l => l) (q := fun l => IsTrue P.m.msg b lo hi es l.condition)
          (g := fun l => P.cond (some BIT_LENGTH) c none l.condition)
          fun l' hl' => cond_ok W I R.toContains (.inr rfl) (mem_between.mp hl').1 (mem_between.mp hl').2.1
    generalize between P.m.msg p f = ls at hl uniq hch hfirst hne
    match ls, hl, uniq, hch, hfirst, hne with
    | [l'], hl, _, hch, _, _ =>
      cases List.mem_singleton.mp hl
      simp only [Pkg.fieldSize, R.needNext W I, bind, Except.bind, R.pred, hgs, Bool.false_eq_true, if_false, hch, type?_some W.names ht,
        mt (scalar_iff t).mp hs, hn]
      exact check_ok ⟨h0, h1⟩
    | l1 :: l2 :: ls, hl, uniq, hch, hfirst, _ =>
      simp only [Pkg.fieldSize, R.needNext W I, bind, Except.bind, R.pred, hgs, Bool.false_eq_true, if_false, hch, type?_some W.names ht,
        mt (scalar_iff t).mp hs]
      rcases hfirst with ⟨l', h3, h4, h5⟩ | ⟨h3, _⟩
      · cases uniq l' h3 h4
        rw [h5]
        simp only [hn]
        exact check_ok ⟨h0, h1⟩
      · exact absurd R.holds (h3 l hl)

theorem eq_tru {D : Division} {σ : Env} {e : Expr} (h : e.eq .tru = true) : eval D σ e = some (.bool true) := by
  cases e <;> simp [Expr.eq, Expr.cls, Expr.Cls.sub] at h
  rfl

theorem Ready.fieldFirst (W : WellFormed P) (I : InBuffer P b lo hi) (R : Ready P b lo hi c es p pos f l) : P.fieldFirst c f = .ok pos := by
  obtain ⟨h1, h2, _⟩ := follows_bounds W I.order R.follows
  have hlo := I.lower.1
  have hr := I.range.1
  have hck : 1 ≤ pos ∧ pos ≤ P.bitLast := by omega
  obtain ⟨l0, hl0, hhd⟩ := W.start
  simp only [Pkg.fieldFirst, R.needNext W I, bind, Except.bind]
  by_cases hh : P.m.msg.fields.head? = some f
  · have hp : p = INITIAL := by
      rcases (W.links l R.mem).1 with h | h
      · rw [← R.source, h]
      · have ho := W.order l R.mem h (R.target ▸ R.field)
        have : P.m.msg.fields.idxOf l.target = 0 := by
          rw [R.target]
          cases hfs : P.m.msg.fields with
          | nil => rw [hfs] at hh; cases hh
          | cons a as =>
            rw [hfs] at hh
            simp only [List.head?_cons, Option.some.injEq] at hh
            simp [hh]
        omega
    have hes : es = [] := by
      cases es with
      | nil => rfl
      | cons e es =>
        have h3 := follows_last R.follows
        have h4 : INITIAL = e.f := hp ▸ h3
        exact absurd (follows_fields W R.follows List.mem_cons_self) (by rw [← h4]; exact W.initial)
    subst hes
    have hpos := (follows_nil R.follows).2
    simp only [hh, if_true, R.first]
    rw [← hpos]
    exact check_ok hck
  · simp only [if_neg hh]
    have hp : p ≠ INITIAL := by
      intro hp
      apply hh
      rw [hhd]
      have : l ∈ outgoing P.m.msg.links INITIAL := by
        simp only [outgoing, List.mem_filter, beq_iff_eq]
        exact ⟨R.mem, R.source.trans hp⟩
      rw [hl0, List.mem_singleton] at this
      rw [← this, R.target]
    rcases firstTrue_map (ls := incoming P.m.msg.links f) (h := fun l => l) (q := fun l => l.source = p ∧ IsTrue P.m.msg b lo hi es l.condition)
        (g := fun l => if (c.cursors f).pred = l.source then (if l.condition.eq .tru then .ok true else P.cond (some U64) c none l.condition) else .ok false)
        (fun l' hl' => by
          simp only [incoming, List.mem_filter, beq_iff_eq] at hl'
          rw [R.pred]
          by_cases hs : p = l'.source
          · rw [if_pos hs]
            split
            · rename_i he
              exact ⟨true, rfl, by simp [hs, IsTrue, eq_tru he]⟩
            · obtain ⟨x, hx, hiff⟩ := cond_ok W I R.toContains (.inl rfl) hl'.1 hs.symm
              exact ⟨x, hx, by rw [hiff]; simp [hs]⟩
          · rw [if_neg hs]
            exact ⟨false, rfl, by simp [Ne.symm hs]⟩) with ⟨l', h3, ⟨h4, h5⟩, h6⟩ | ⟨h3, _⟩
    · rw [h6]
      simp only [incoming, List.mem_filter, beq_iff_eq] at h3
      have hund : l'.first.eq .undefined = true := by rw [W.noFirst l' h3.1]; exact C11_eq_refl _
      simp only [hund, if_true, R.pred]
      have hpos : (c.cursors p).last + 1 = pos := by
        have h7 := follows_last R.follows
        cases hes : es with
        | nil => rw [hes] at h7; exact absurd h7 hp
        | cons e es' =>
          subst hes
          obtain ⟨_, _, _, _, _, _, h8⟩ := follows_cons R.follows
          rw [h7, show lastField (e :: es') = e.f from rfl, R.cursors.last e List.mem_cons_self, h8]
      simp only [pure, Except.pure, hpos]
      exact check_ok hck
    · refine absurd ⟨R.source, R.holds⟩ (h3 l ?_)
      simp only [incoming, List.mem_filter, beq_iff_eq]
      exact ⟨R.mem, R.target⟩

theorem Ready.availableSpace (W : WellFormed P) (I : InBuffer P b lo hi) (R : Ready P b lo hi c es p pos f l) :
    P.availableSpace c f = .ok (hi - pos + 1) := by
  obtain ⟨h1, h2, _⟩ := follows_bounds W I.order R.follows
  have hlo := I.lower.1
  have hr := I.range.1
  simp only [Pkg.availableSpace, R.needNext W I, R.fieldFirst W I, bind, Except.bind, R.last]
  exact check_ok (by omega)

theorem Ready.sufficientSpace (W : WellFormed P) (I : InBuffer P b lo hi) (R : Ready P b lo hi c es p pos f l) {n : Int} (hn : P.fieldSize c f = .ok n) :
    P.sufficientSpace c f = .ok (decide (hi - pos + 1 ≥ n)) := by
  simp only [Pkg.sufficientSpace, R.availableSpace W I, hn, bind, Except.bind]
  rfl

theorem Ready.sufficientBufferLength (W : WellFormed P) (I : InBuffer P b lo hi) (R : Ready P b lo hi c es p pos f l) {n : Int}
    (hn : P.fieldSize c f = .ok n) (h0 : 0 ≤ n) : P.sufficientBufferLength c f = .ok (decide (pos + n - 1 ≤ hi)) := by
  obtain ⟨h1, h2, _⟩ := follows_bounds W I.order R.follows
  have hr := I.range.1
  have hb : c.hasBuffer = true := by simp [Context.hasBuffer, R.buffer]
  simp only [Pkg.sufficientBufferLength, R.availableSpace W I, R.needNext W I, R.fieldFirst W I, hn, bind, Except.bind, hb, need, if_true,
    R.first, Bool.true_and, decide_eq_true h1, decide_eq_true (show n ≥ 0 from h0), pure, Except.pure]
  congr 1
  by_cases hle : pos + n - 1 ≤ hi
  · rw [decide_eq_true hle, decide_eq_true (show pos + n < P.bitLast by omega), decide_eq_true (show hi - pos + 1 ≥ n by omega)]
    rfl
  · rw [decide_eq_false hle, decide_eq_false (show ¬ hi - pos + 1 ≥ n by omega)]
    simp

theorem Ready.fieldLast (W : WellFormed P) (I : InBuffer P b lo hi) (R : Ready P b lo hi c es p pos f l) {n : Int}
    (hn : P.fieldSize c f = .ok n) (h0 : 0 ≤ n) (h1 : pos = 1 → 1 ≤ n) (hle : pos + n - 1 ≤ hi) : P.fieldLast c f = .ok (pos + n - 1) := by
  obtain ⟨h2, h3, _⟩ := follows_bounds W I.order R.follows
  have hlo := I.lower.1
  have hr := I.range.1
  simp only [Pkg.fieldLast, R.needNext W I, R.sufficientSpace W I hn, R.fieldFirst W I, hn, bind, Except.bind, need,
    decide_eq_true (show hi - pos + 1 ≥ n by omega), if_true]
  refine check_ok ⟨?_, by omega⟩
  by_cases hp : pos = 1
  · have := h1 hp; omega
  · omega

/-- The value of the next field. -/
def valueAt (P : Pkg) (b : Bytes) (f : Field) (pos n : Int) : Int := if P.isScalar f then bitsAt b pos n.toNat else 0

theorem Ready.getFieldValue (W : WellFormed P) (I : InBuffer P b lo hi) (R : Ready P b lo hi c es p pos f l) {n : Int} (hz : SizeOf P b lo hi es l f n)
    (hn : P.fieldSize c f = .ok n) (h0 : 0 ≤ n) (h1 : pos = 1 → 1 ≤ n) (hle : pos + n - 1 ≤ hi) :
    P.getFieldValue c f = .ok (valueAt P b f pos n) := by
  obtain ⟨h2, h3, _⟩ := follows_bounds W I.order R.follows
  have hlo := I.lower.1
  have hb : c.hasBuffer = true := by simp [Context.hasBuffer, R.buffer]
  obtain ⟨t, ht, hz⟩ := hz
  simp only [Pkg.getFieldValue, hb, need, if_true, R.needNext W I, bind, Except.bind, R.sufficientBufferLength W I hn h0, decide_eq_true hle,
    R.fieldFirst W I, R.fieldLast W I hn h0 h1 hle, type?_some W.names ht, R.buffer, valueAt, Pkg.isScalar]
  rcases hz with ⟨hs, k, hk, rfl, hk1, hk64⟩ | ⟨hs, _⟩
  · have hany : P.m.msg.types.any (fun e => e.2.isScalar) = true := by
      rw [List.any_eq_true]
      exact ⟨_, ht, (scalar_iff t).mpr hs⟩
    have hcast : pos + k.v - 1 = pos + ((k.v.toNat : Nat) : Int) - 1 := by omega
    obtain ⟨s, hsl, hex⟩ := slice_extract (i := pos) (n := k.v.toNat) I.bytes (by omega) (by omega) (by omega) (I.low h2)
      (I.high (by omega))
    rw [← hcast] at hsl hex
    simp only [hany, if_true, (scalar_iff t).mpr hs, hk, ofPy, hsl, ofAda, hex]
    rfl
  · simp only [mt (scalar_iff t).mp hs, if_false]
    split <;> rfl

/-- The next field as an item. -/
def nextItem (P : Pkg) (b : Bytes) (f : Field) (pos n : Int) : Item := ⟨f, pos, pos + n - 1, valueAt P b f pos n⟩

theorem Ready.fieldCondition (W : WellFormed P) (I : InBuffer P b lo hi) (R : Ready P b lo hi c es p pos f l) {n : Int}
    (hn : P.fieldSize c f = .ok n) (h0 : 0 ≤ n) (h1 : pos = 1 → 1 ≤ n) (hle : pos + n - 1 ≤ hi) {v : Int} :
    ∃ x, P.fieldCondition c f v n = .ok x ∧
      (x = true ↔ Goes P.m.msg b lo hi (⟨f, pos, pos + n - 1, v⟩ :: es) f) := by
  obtain ⟨h2, h3, _⟩ := follows_bounds W I.order R.follows
  have hb : c.hasBuffer = true := by simp [Context.hasBuffer, R.buffer]
  have E := ownEnv_items W I R.toContains (y := ⟨f, pos, pos + n - 1, v⟩) R.field (R.toNext.new W) h2 hle
  simp only at E
  have en : pos + n - 1 - pos + 1 = n := by omega
  rw [en] at E
  have hp : Path P.m.msg (((⟨f, pos, pos + n - 1, v⟩ : Item) :: es).map (·.f)) f := by
    have := Path.step (follows_path R.follows) R.mem R.source (R.target ▸ R.ne_final W)
    rw [R.target] at this
    exact this
  have hout : ∀ l ∈ outgoing P.m.msg.links f, l ∈ P.m.msg.links ∧ l.source = f := by
    intro l hl; simpa [outgoing] using hl
  obtain ⟨x, hx, hiff⟩ := eval_or (D := .ada) (ρ := itemEnv P.m.msg b lo hi (⟨f, pos, pos + n - 1, v⟩ :: es))
    (ts := (outgoing P.m.msg.links f).map (·.condition)) (by
      intro t ht
      obtain ⟨l, hl, rfl⟩ := List.mem_map.mp ht
      exact W.bool l (hout l hl).1 _ (itemEnv_typed W))
  obtain ⟨e, he, hv⟩ := ownCondition_ok W R.field E (path_mem W hp).1 (W.left f R.field)
    (fun l hl => W.scope l (hout l hl).1 _ ((hout l hl).2.symm ▸ hp)) hx
  refine ⟨x, ?_, ?_⟩
  · simp only [Pkg.fieldCondition, hb, need, if_true, List.contains_eq_mem, decide_eq_true R.field, R.validPredecessor, bind, Except.bind, R.fieldFirst W I,
      R.fieldLast W I hn h0 h1 hle, Except.toOption, Option.getD_some, he, ofPy, Pkg.cond, hv, asBool]
  · rw [hiff]
    simp only [List.mem_map, Goes]
    constructor
    · rintro ⟨_, ⟨l, hl, rfl⟩, h⟩
      exact ⟨l, (hout l hl).1, (hout l hl).2, h⟩
    · rintro ⟨l, h1, h2, h3⟩
      exact ⟨_, ⟨l, by simp [outgoing, h1, h2], rfl⟩, h3⟩

/-- `Successor` of the last field. -/
theorem Contains.successor (W : WellFormed P) (I : InBuffer P b lo hi) (H : Contains P b lo hi c es p pos) (hp : p ≠ INITIAL)
    (hv : P.validPredecessor c p = true) (hg : Goes P.m.msg b lo hi es p) :
    ∃ l ∈ P.m.msg.links, l.source = p ∧ IsTrue P.m.msg b lo hi es l.condition ∧ P.successor c p = .ok l.target := by
  obtain ⟨e, he, hef⟩ := follows_mem H.follows hp
  have hb : c.hasBuffer = true := by simp [Context.hasBuffer, H.buffer]
  have hsv : (c.cursors p).sv = true := by rw [← hef]; exact H.cursors.sv e he
  have hout : ∀ l ∈ outgoing P.m.msg.links p, l ∈ P.m.msg.links ∧ l.source = p := by
    intro l hl; simpa [outgoing] using hl
  simp only [Pkg.successor, hb, hsv, hv, need, if_true, bind, Except.bind]
  rcases firstTrue_map (ls := outgoing P.m.msg.links p) (h := fun l => l.target) (q := fun l => IsTrue P.m.msg b lo hi es l.condition)
      (g := fun l => P.cond (some U64) c none l.condition)
      (fun l hl => cond_ok W I H (.inl rfl) (hout l hl).1 (hout l hl).2) with ⟨l', h3, h4, h5⟩ | ⟨h3, _⟩
  · refine ⟨l', (hout l' h3).1, (hout l' h3).2, h4, ?_⟩
    rw [h5]
    rfl
  · obtain ⟨l, h4, h5, h6⟩ := hg
    exact absurd h6 (h3 l (by simp [outgoing, h4, h5]))

end

end Verif.Ctx
