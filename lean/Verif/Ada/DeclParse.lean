import Verif.Ada.DeclGrammar
import Verif.Ada.StmtParse

/-! # Helper lemmas: declarations can be read in one way only

The grammar is checked to need one element of lookahead. -/

namespace Verif.Ada
open Verif

/-! ## Classes of elements -/

/-- Classes of lexical elements: all elements, identifiers, one element. -/
inductive TC | any | ident | is (k : Tok)
deriving DecidableEq

def TC.has : TC → Tok → Bool
  | .any, _ => true
  | .ident, .ident _ => true
  | .ident, _ => false
  | .is j, k => j = k

def TC.apart : TC → TC → Bool
  | .any, _ => false
  | _, .any => false
  | .ident, .ident => false
  | .ident, .is (.ident _) => false
  | .is (.ident _), .ident => false
  | .is j, .is k => j ≠ k
  | _, _ => true

theorem TC.apart_sound {a b : TC} {k : Tok} (h : a.apart b = true) (ha : a.has k = true) : b.has k = false := by
  cases a with
  | any => simp [apart] at h
  | ident =>
    cases b with
    | any => simp [apart] at h
    | ident => simp [apart] at h
    | is j => cases k <;> simp [has] at ha; cases j <;> simp [apart] at h <;> simp [has]
  | is i =>
    simp only [has, decide_eq_true_eq] at ha
    subst ha
    cases b with
    | any => cases i <;> simp [apart] at h
    | ident => cases i <;> simp [apart] at h <;> rfl
    | is j => simp only [apart, decide_eq_true_eq] at h; simp only [has, decide_eq_false_iff_not]; exact fun he => h he.symm

/-- An element is in one of the classes. -/
def inOne (F : List TC) (k : Tok) : Prop := ∃ c ∈ F, TC.has c k = true

def allApart (F H : List TC) : Bool := F.all fun a => H.all fun b => a.apart b

theorem allApart_sound {F H : List TC} {k : Tok} (h : allApart F H = true) (hf : inOne F k) : ¬ inOne H k := by
  obtain ⟨a, ha, hk⟩ := hf
  rintro ⟨b, hb, hk'⟩
  simp only [allApart, List.all_eq_true] at h
  rw [TC.apart_sound (h a ha b hb) hk] at hk'
  simp at hk'

theorem inOne.left {F H : List TC} {k : Tok} (h : inOne F k) : inOne (F ++ H) k := by
  obtain ⟨a, ha, hk⟩ := h; exact ⟨a, List.mem_append_left _ ha, hk⟩

theorem inOne.right {F H : List TC} {k : Tok} (h : inOne H k) : inOne (F ++ H) k := by
  obtain ⟨a, ha, hk⟩ := h; exact ⟨a, List.mem_append_right _ ha, hk⟩

/-! ## The check -/

/-- Whether a phrase may be empty. -/
def G.null : G → Bool
  | .empty => true
  | .tok _ | .ident | .name => false
  | .expr | .simple | .choice | .choices | .stmts | .items => true
  | .node _ g => g.null
  | .seq a b => a.null && b.null
  | .or a b => a.null || b.null
  | .many _ => true
  | .list g _ => g.null

/-- The first elements of a phrase; `R` are those of declarations. -/
def G.first (R : List TC) : G → List TC
  | .empty => []
  | .tok k => [.is k]
  | .ident | .name => [.ident]
  | .expr | .simple | .choice | .choices | .stmts => [.any]
  | .items => R
  | .node _ g => g.first R
  | .seq a b => a.first R ++ if a.null then b.first R else []
  | .or a b => a.first R ++ b.first R
  | .many g => g.first R
  | .list g k => g.first R ++ if g.null then [.is k] else []

/-- The first elements of a phrase and what follows. -/
def G.next (R : List TC) (g : G) (F : List TC) : List TC := g.first R ++ if g.null then F else []

/-- A phrase that is followed by one of the elements of `F` can be read with one element of lookahead; `R` are the first elements of
declarations, `S` what follows declarations. -/
def G.ok (R S : List TC) : G → List TC → Bool
  | .empty, _ | .tok _, _ | .ident, _ => true
  | .name, F => F.all fun c => c.apart (.is .dot)
  | .expr, F | .simple, F => F.all fun c => match c with | .is k => closing k | _ => false
  | .choice, F | .choices, F => F.all fun c => c = .is .arrow
  | .stmts, F => F.all fun c => c = .is (kw "end")
  | .items, F => F.all fun c => S.contains c
  | .node _ g, F => g.ok R S F
  | .seq a b, F => a.ok R S (b.next R F) && b.ok R S F
  | .or a b, F => a.ok R S F && b.ok R S F && allApart (a.next R F) (b.next R F)
  | .many g, F => g.ok R S (g.first R ++ F) && !g.null && allApart (g.first R) F
  | .list g k, F => g.ok R S (.is k :: F) && allApart [.is k] F

/-! ## Soundness of the check -/

/-- The first elements of declarations. -/
def FirstOK (R : List TC) (D : List Tok → DTrees → Prop) : Prop := ∀ ts cs, D ts cs → ts = [] ∨ ∃ k r, ts = k :: r ∧ inOne R k

theorem pathToks_first {ps : List PyStr} (h : ps ≠ []) : ∃ x r, pathToks ps = .ident x :: r := by
  match ps, h with
  | [p], _ => exact ⟨_, _, rfl⟩
  | p :: q :: ps, _ => exact ⟨_, _, rfl⟩

theorem any_first (ts : List Tok) : ts = [] ∨ ∃ k r, ts = k :: r ∧ inOne [.any] k := by
  cases ts with
  | nil => exact .inl rfl
  | cons k r => exact .inr ⟨k, r, rfl, .any, by simp, rfl⟩

theorem first_sound {R : List TC} {D : List Tok → DTrees → Prop} (hD : FirstOK R D) (g : G) :
    ∀ {ts cs}, g.reads D ts cs → (ts = [] ∧ g.null = true) ∨ ∃ k r, ts = k :: r ∧ inOne (g.first R) k := by
  induction g with
  | empty => intro ts cs h; exact .inl ⟨h.1, rfl⟩
  | tok k => intro ts cs h; exact .inr ⟨k, [], h.1, .is k, by simp [G.first], by simp [TC.has]⟩
  | ident => rintro ts cs ⟨x, h, _⟩; exact .inr ⟨_, _, h, .ident, by simp [G.first], rfl⟩
  | name =>
    rintro ts cs ⟨ps, hp, h, _⟩
    obtain ⟨x, r, hx⟩ := pathToks_first hp
    exact .inr ⟨_, _, h.trans hx, .ident, by simp [G.first], rfl⟩
  | expr | simple | choice | choices | stmts =>
    intro ts cs _
    exact (any_first ts).imp (fun h => ⟨h, rfl⟩) id
  | items => intro ts cs h; exact (hD _ _ h).imp (fun h => ⟨h, rfl⟩) id
  | node t g ih => rintro ts cs ⟨ds, h, _⟩; exact ih h
  | seq a b iha ihb =>
    rintro ts cs ⟨us, vs, ds, es, h1, h2, rfl, _⟩
    rcases iha h1 with ⟨rfl, hn⟩ | ⟨k, r, rfl, hk⟩
    · rcases ihb h2 with ⟨rfl, hm⟩ | ⟨k, r, rfl, hk⟩
      · exact .inl ⟨rfl, by simp [G.null, hn, hm]⟩
      · exact .inr ⟨k, r, rfl, by rw [G.first, hn]; exact hk.right⟩
    · exact .inr ⟨k, _, rfl, by rw [G.first]; exact hk.left⟩
  | or a b iha ihb =>
    rintro ts cs (h | h)
    · rcases iha h with ⟨rfl, hn⟩ | ⟨k, r, rfl, hk⟩
      · exact .inl ⟨rfl, by simp [G.null, hn]⟩
      · exact .inr ⟨k, r, rfl, hk.left⟩
    · rcases ihb h with ⟨rfl, hn⟩ | ⟨k, r, rfl, hk⟩
      · exact .inl ⟨rfl, by simp [G.null, hn]⟩
      · exact .inr ⟨k, r, rfl, hk.right⟩
  | many g ih =>
    intro ts cs h
    change Many (g.reads D) ts cs at h
    induction h with
    | nil => exact .inl ⟨rfl, rfl⟩
    | cons h _ ih' =>
      rcases ih h with ⟨rfl, hn⟩ | ⟨k, r, rfl, hk⟩
      · exact ih'
      · exact .inr ⟨k, _, rfl, hk⟩
  | list g k ih =>
    intro ts cs h
    change SepBy (g.reads D) k ts cs at h
    cases h with
    | one h =>
      rcases ih h with ⟨rfl, hn⟩ | ⟨k, r, rfl, hk⟩
      · exact .inl ⟨rfl, hn⟩
      · exact .inr ⟨k, r, rfl, hk.left⟩
    | cons h _ =>
      rcases ih h with ⟨rfl, hn⟩ | ⟨j, r, rfl, hk⟩
      · exact .inr ⟨k, _, rfl, by rw [G.first, hn]; exact inOne.right ⟨.is k, by simp, by simp [TC.has]⟩⟩
      · exact .inr ⟨j, _, rfl, hk.left⟩

theorem next_sound {R : List TC} {D : List Tok → DTrees → Prop} (hD : FirstOK R D) {g : G} {ts : List Tok} {cs : DTrees} (h : g.reads D ts cs)
    {F : List TC} {k : Tok} {r : List Tok} (hk : inOne F k) : ∃ k' r', ts ++ k :: r = k' :: r' ∧ inOne (g.next R F) k' := by
  rcases first_sound hD g h with ⟨rfl, hn⟩ | ⟨k', r', rfl, hk'⟩
  · exact ⟨k, r, rfl, by rw [G.next, hn]; exact hk.right⟩
  · exact ⟨k', _, rfl, hk'.left⟩

theorem path_prefix : ∀ {ps qs : List PyStr} {k k' : Tok} {r r' : List Tok}, ps ≠ [] → qs ≠ [] → k ≠ .dot → k' ≠ .dot →
    pathToks ps ++ k :: r = pathToks qs ++ k' :: r' → ps = qs ∧ k :: r = k' :: r'
  | [], _, _, _, _, _, h, _, _, _, _ => absurd rfl h
  | _, [], _, _, _, _, _, h, _, _, _ => absurd rfl h
  | [p], [q], _, _, _, _, _, _, _, _, h => by simp [pathToks] at h; simp [h]
  | [p], q :: q' :: qs, _, _, _, _, _, _, hk, _, h => by simp [pathToks] at h; exact absurd h.2.1 hk
  | p :: p' :: ps, [q], _, _, _, _, _, _, _, hk, h => by simp [pathToks] at h; exact absurd h.2.1.symm hk
  | p :: p' :: ps, q :: q' :: qs, k, k', r, r', _, _, hk, hk', h => by
    simp only [pathToks, List.cons_append, List.cons.injEq, Tok.ident.injEq, true_and] at h
    obtain ⟨h1, h2⟩ := path_prefix (by simp) (by simp) hk hk' h.2
    exact ⟨by rw [h.1, h1], h2⟩

theorem choice_prefix {ts us r r' : List Tok} {t u : Tree} (ht : Reads .choice ts t) (hu : Reads .choice us u)
    (h : ts ++ .arrow :: r = us ++ .arrow :: r') : t = u ∧ r = r' := by
  have := choices_prefix (.choice ht) (.choice hu) h
  simpa using this

theorem inOne_is {F : List TC} {k j : Tok} (h : F.all (fun c => c = .is j) = true) (hk : inOne F k) : k = j := by
  obtain ⟨c, hc, hk⟩ := hk
  simp only [List.all_eq_true, decide_eq_true_eq] at h
  rw [h c hc] at hk
  simpa [TC.has, eq_comm] using hk

theorem inOne_closing {F : List TC} {k : Tok} (h : (F.all fun c => match c with | .is k => closing k | _ => false) = true) (hk : inOne F k) :
    closing k = true := by
  obtain ⟨c, hc, hk⟩ := hk
  simp only [List.all_eq_true] at h
  have := h c hc
  split at this
  · simp [TC.has] at hk; rwa [← hk]
  · simp at this

/-- Declarations agree on what they read. -/
def SameRead (S : List TC) (D E : List Tok → DTrees → Prop) : Prop :=
  ∀ {ts us cs ds k k' r r'}, D ts cs → E us ds → inOne S k → inOne S k' → ts ++ k :: r = us ++ k' :: r' → cs = ds ∧ k :: r = k' :: r'

theorem ok_sound {R S : List TC} {D E : List Tok → DTrees → Prop} (hD : FirstOK R D) (hE : FirstOK R E) (hs : SameRead S D E) (g : G) :
    ∀ {F : List TC}, g.ok R S F = true → SameRead F (g.reads D) (g.reads E) := by
  induction g with
  | empty => rintro F _ _ _ _ _ _ _ _ _ ⟨rfl, rfl⟩ ⟨rfl, rfl⟩ _ _ h; exact ⟨rfl, h⟩
  | tok k => rintro F _ _ _ _ _ _ _ _ _ ⟨rfl, rfl⟩ ⟨rfl, rfl⟩ _ _ h; exact ⟨rfl, by simpa using h⟩
  | ident => rintro F _ _ _ _ _ _ _ _ _ ⟨x, rfl, rfl⟩ ⟨y, rfl, rfl⟩ _ _ h; simp at h; exact ⟨by rw [h.1], by simp [h.2]⟩
  | name =>
    rintro F ho _ _ _ _ k k' _ _ ⟨ps, hp, rfl, rfl⟩ ⟨qs, hq, rfl, rfl⟩ hk hk' h
    have hd : ∀ {k}, inOne F k → k ≠ .dot := by
      rintro k ⟨c, hc, hk⟩ rfl
      simp only [G.ok, List.all_eq_true] at ho
      have := TC.apart_sound (ho c hc) hk
      simp [TC.has] at this
    obtain ⟨rfl, h'⟩ := path_prefix hp hq (hd hk) (hd hk') h
    exact ⟨rfl, h'⟩
  | expr =>
    rintro F ho _ _ _ _ k k' _ _ ⟨t, ht, rfl⟩ ⟨u, hu, rfl⟩ hk hk' h
    obtain ⟨rfl, rfl, rfl⟩ := expr_prefix ht hu (inOne_closing ho hk) (inOne_closing ho hk') h
    exact ⟨rfl, rfl⟩
  | simple =>
    rintro F ho _ _ _ _ k k' _ _ ⟨t, ht, rfl⟩ ⟨u, hu, rfl⟩ hk hk' h
    obtain ⟨rfl, rfl, rfl⟩ := expr_prefix (.relation (.simple ht)) (.relation (.simple hu)) (inOne_closing ho hk) (inOne_closing ho hk') h
    exact ⟨rfl, rfl⟩
  | choice =>
    rintro F ho _ _ _ _ k k' _ _ ⟨t, ht, rfl⟩ ⟨u, hu, rfl⟩ hk hk' h
    obtain rfl := inOne_is ho hk
    obtain rfl := inOne_is ho hk'
    obtain ⟨rfl, rfl⟩ := choice_prefix ht hu h
    exact ⟨rfl, rfl⟩
  | choices =>
    rintro F ho _ _ _ _ k k' _ _ ⟨t, ht, rfl⟩ ⟨u, hu, rfl⟩ hk hk' h
    obtain rfl := inOne_is ho hk
    obtain rfl := inOne_is ho hk'
    obtain ⟨h1, rfl⟩ := choices_prefix ht hu h
    simp at h1
    exact ⟨by rw [h1], rfl⟩
  | stmts =>
    rintro F ho _ _ _ _ k k' _ _ ⟨t, ht, rfl⟩ ⟨u, hu, rfl⟩ hk hk' h
    obtain rfl := inOne_is ho hk
    obtain rfl := inOne_is ho hk'
    obtain ⟨rfl, h2⟩ := sreads_prefix ht hu ends_end ends_end h
    exact ⟨rfl, h2⟩
  | items =>
    intro F ho _ _ _ _ k k' _ _ hd he hk hk' h
    have hin : ∀ {k}, inOne F k → inOne S k := by
      rintro k ⟨c, hc, hk⟩
      simp only [G.ok, List.all_eq_true, List.contains_iff_mem] at ho
      exact ⟨c, ho c hc, hk⟩
    exact hs hd he (hin hk) (hin hk') h
  | node t g ih =>
    rintro F ho _ _ _ _ k k' _ _ ⟨cs, h1, rfl⟩ ⟨ds, h2, rfl⟩ hk hk' h
    obtain ⟨rfl, h⟩ := ih ho h1 h2 hk hk' h
    exact ⟨rfl, h⟩
  | seq a b iha ihb =>
    rintro F ho _ _ _ _ k k' r r' ⟨ts, us, cs, ds, h1, h2, rfl, rfl⟩ ⟨ts', us', cs', ds', g1, g2, rfl, rfl⟩ hk hk' h
    simp only [G.ok, Bool.and_eq_true] at ho
    obtain ⟨j, w, hj, hj1⟩ := next_sound (r := r) hD h2 hk
    obtain ⟨j', w', hj', hj1'⟩ := next_sound (r := r') hE g2 hk'
    rw [List.append_assoc, List.append_assoc, hj, hj'] at h
    obtain ⟨rfl, h⟩ := iha ho.1 h1 g1 hj1 hj1' h
    rw [← hj, ← hj'] at h
    obtain ⟨rfl, h⟩ := ihb ho.2 h2 g2 hk hk' h
    exact ⟨rfl, h⟩
  | or a b iha ihb =>
    rintro F ho _ _ _ _ k k' r r' h1 h2 hk hk' h
    simp only [G.ok, Bool.and_eq_true] at ho
    rcases h1 with h1 | h1 <;> rcases h2 with h2 | h2
    · exact iha ho.1.1 h1 h2 hk hk' h
    · obtain ⟨j, w, hj, hj1⟩ := next_sound (r := r) hD h1 hk
      obtain ⟨j', w', hj', hj1'⟩ := next_sound (r := r') hE h2 hk'
      rw [hj, hj'] at h
      simp only [List.cons.injEq] at h
      rw [h.1] at hj1
      exact absurd hj1' (allApart_sound ho.2 hj1)
    · obtain ⟨j, w, hj, hj1⟩ := next_sound (r := r) hD h1 hk
      obtain ⟨j', w', hj', hj1'⟩ := next_sound (r := r') hE h2 hk'
      rw [hj, hj'] at h
      simp only [List.cons.injEq] at h
      rw [h.1] at hj1
      exact absurd hj1 (allApart_sound ho.2 hj1')
    · exact ihb ho.1.2 h1 h2 hk hk' h
  | many g ih =>
    rintro F ho ts us cs ds k k' r r' h1 h2 hk hk' h
    simp only [G.ok, Bool.and_eq_true, Bool.not_eq_true'] at ho
    change Many (g.reads D) ts cs at h1
    change Many (g.reads E) us ds at h2
    have hf : ∀ {D : List Tok → DTrees → Prop}, FirstOK R D → ∀ {ts cs}, g.reads D ts cs → ∃ k r, ts = k :: r ∧ inOne (g.first R) k := by
      intro D hD ts cs h
      rcases first_sound hD g h with ⟨_, hn⟩ | h
      · rw [ho.1.2] at hn; simp at hn
      · exact h
    have hm : ∀ {D : List Tok → DTrees → Prop}, FirstOK R D → ∀ {ts cs k r}, Many (g.reads D) ts cs → inOne F k →
        ∃ k' r', ts ++ k :: r = k' :: r' ∧ inOne (g.first R ++ F) k' := by
      intro D hD ts cs k r h hk
      cases h with
      | nil => exact ⟨k, r, rfl, hk.right⟩
      | cons h _ => obtain ⟨j, w, rfl, hj⟩ := hf hD h; exact ⟨j, _, rfl, hj.left⟩
    induction h1 generalizing us ds with
    | nil =>
      cases h2 with
      | nil => exact ⟨rfl, h⟩
      | cons h2 _ =>
        obtain ⟨j, w, rfl, hj⟩ := hf hE h2
        simp only [List.nil_append, List.cons_append, List.cons.injEq] at h
        rw [h.1] at hk
        exact absurd hk (allApart_sound ho.2 hj)
    | @cons ts1 ts2 cs1 cs2 h1 h1' ih' =>
      cases h2 with
      | nil =>
        obtain ⟨j, w, rfl, hj⟩ := hf hD h1
        simp only [List.nil_append, List.cons_append, List.cons.injEq] at h
        rw [← h.1] at hk'
        exact absurd hk' (allApart_sound ho.2 hj)
      | @cons us1 us2 ds1 ds2 h2 h2' =>
        obtain ⟨j, w, hj, hj1⟩ := hm (r := r) hD h1' hk
        obtain ⟨j', w', hj', hj1'⟩ := hm (r := r') hE h2' hk'
        rw [List.append_assoc, List.append_assoc, hj, hj'] at h
        obtain ⟨rfl, h⟩ := ih ho.1.1 h1 h2 hj1 hj1' h
        rw [← hj, ← hj'] at h
        obtain ⟨rfl, h⟩ := ih' h h2'
        exact ⟨rfl, h⟩
  | list g s ih =>
    rintro F ho ts us cs ds k k' r r' h1 h2 hk hk' h
    simp only [G.ok, Bool.and_eq_true] at ho
    change SepBy (g.reads D) s ts cs at h1
    change SepBy (g.reads E) s us ds at h2
    have hin : ∀ {k}, inOne F k → inOne (.is s :: F) k := fun ⟨c, hc, hk⟩ => ⟨c, List.mem_cons_of_mem _ hc, hk⟩
    have hsep : inOne (.is s :: F) s := ⟨.is s, by simp, by simp [TC.has]⟩
    have hno : ∀ {k}, inOne F k → k ≠ s := by
      rintro k hk rfl
      exact allApart_sound ho.2 ⟨.is k, by simp, by simp [TC.has]⟩ hk
    induction h1 generalizing us ds with
    | @one ts1 cs1 h1 =>
      cases h2 with
      | one h2 => exact ih ho.1 h1 h2 (hin hk) (hin hk') h
      | cons h2 _ =>
        rw [List.append_assoc] at h
        obtain ⟨_, h⟩ := ih ho.1 h1 h2 (hin hk) hsep h
        simp at h
        exact absurd h.1 (hno hk)
    | @cons ts1 ts2 cs1 cs2 h1 h1' ih' =>
      cases h2 with
      | one h2 =>
        rw [List.append_assoc] at h
        obtain ⟨_, h⟩ := ih ho.1 h1 h2 hsep (hin hk') h
        simp at h
        exact absurd h.1.symm (hno hk')
      | cons h2 h2' =>
        rw [List.append_assoc, List.append_assoc] at h
        obtain ⟨rfl, h⟩ := ih ho.1 h1 h2 hsep hsep h
        simp only [List.cons_append, List.cons.injEq, true_and] at h
        obtain ⟨rfl, h⟩ := ih' h h2'
        exact ⟨rfl, h⟩

/-! ## Declarations -/

/-- The first elements of declarations. -/
def itemFirst : List TC := G.item.first []

/-- What follows declarations. -/
def itemFollow : List TC := [.is (kw "begin"), .is (kw "end"), .is (kw "private")]

theorem itemFirst_fix : (G.many G.item).first itemFirst = itemFirst := by decide +kernel

theorem item_ok : (G.many G.item).ok itemFirst itemFollow itemFollow = true := by decide +kernel

theorem unit_ok : G.unit.ok itemFirst itemFollow [.is .comment] = true := by decide +kernel

theorem itemsTo_first : ∀ n, FirstOK itemFirst (itemsTo n)
  | 0 => fun _ _ h => h.elim
  | n + 1 => fun ts cs h => by
    have := first_sound (itemsTo_first n) (G.many G.item) h
    rw [itemFirst_fix] at this
    exact this.imp And.left id

theorem itemsTo_same : ∀ n m, SameRead itemFollow (itemsTo n) (itemsTo m)
  | 0, _ => fun h => h.elim
  | _ + 1, 0 => fun _ h => h.elim
  | n + 1, m + 1 => ok_sound (itemsTo_first n) (itemsTo_first m) (itemsTo_same n m) _ item_ok

/-- A phrase can be read in one way only. -/
theorem phrase_unique {g : G} {F : List TC} (ho : g.ok itemFirst itemFollow F = true) {k : Tok} (hk : inOne F k) {ts : List Tok} {cs ds : DTrees}
    (h1 : Phrase g ts cs) (h2 : Phrase g ts ds) : cs = ds := by
  obtain ⟨n, h1⟩ := h1
  obtain ⟨m, h2⟩ := h2
  exact (ok_sound (itemsTo_first n) (itemsTo_first m) (itemsTo_same n m) g ho h1 h2 hk hk (r := []) (r' := []) rfl).1

theorem Declarations.unique {ts : List Tok} {cs ds : DTrees} (h1 : Declarations ts cs) (h2 : Declarations ts ds) : cs = ds :=
  phrase_unique (F := itemFollow) (by decide +kernel) (k := kw "end") ⟨.is (kw "end"), by simp [itemFollow], by simp [TC.has]⟩ h1 h2

theorem CompilationUnit.unique {ts : List Tok} {cs ds : DTrees} (h1 : CompilationUnit ts cs) (h2 : CompilationUnit ts ds) : cs = ds :=
  phrase_unique unit_ok (k := .comment) ⟨.is .comment, by simp, by simp [TC.has]⟩ h1 h2

end Verif.Ada
