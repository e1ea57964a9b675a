import Verif.Common.Model
import Verif.Ident.Props

/-! # Property C44: `unique`, `indent`, `flat_name`, `file_name` -/

namespace Verif.Common

/-! ## `unique` -/

theorem inSet_iff {α : Type} {hash : α → Int} {eq : α → α → Bool}
    (hh : ∀ a b, eq a b = true → hash a = hash b) (seen : List α) (e : α) :
    inSet hash eq seen e = true ↔ ∃ s ∈ seen, eq s e = true := by
  simp only [inSet, List.any_eq_true, Bool.and_eq_true, beq_iff_eq]
  constructor
  · rintro ⟨s, hs, _, h⟩; exact ⟨s, hs, h⟩
  · rintro ⟨s, hs, h⟩; exact ⟨s, hs, hh _ _ h, h⟩

theorem uniqueLoop_mem {α : Type} {hash : α → Int} {eq : α → α → Bool}
    (hh : ∀ a b, eq a b = true → hash a = hash b) (seen l : List α) :
    (uniqueLoop hash eq seen l).Pairwise (fun a b => eq a b = false) ∧
    (∀ e ∈ uniqueLoop hash eq seen l, ∀ s ∈ seen, eq s e = false) := by
  induction l generalizing seen with
  | nil => simp [uniqueLoop]
  | cons e es ih =>
    unfold uniqueLoop
    split
    · exact ih seen
    · rename_i hn
      obtain ⟨h1, h2⟩ := ih (e :: seen)
      have hn' : ∀ s ∈ seen, eq s e = false := by
        intro s hs
        cases hse : eq s e with
        | false => rfl
        | true => exact (hn ((inSet_iff hh seen e).mpr ⟨s, hs, hse⟩)).elim
      refine ⟨List.pairwise_cons.mpr ⟨fun b hb => h2 b hb e (by simp), h1⟩, ?_⟩
      intro x hx s hs
      rcases List.mem_cons.mp hx with rfl | hx
      · exact hn' s hs
      · exact h2 x hx s (by simp [hs])

/-- An element of `l` is kept by `unique` at position `i` exactly when nothing before it equals it.
`firsts` lists these, as specification. -/
def Spec.firsts {α : Type} (eq : α → α → Bool) (l : List α) : List α :=
  ((List.range l.length).filterMap (fun i => l[i]?.bind (fun x =>
    if (l.take i).all (fun y => !eq y x) then some x else none)))

/-- A recursive form of `Spec.firsts` with the elements already passed. -/
def firstsAux {α : Type} (eq : α → α → Bool) (before : List α) : List α → List α
  | [] => []
  | x :: xs =>
    (if before.all (fun y => !eq y x) then [x] else []) ++ firstsAux eq (before ++ [x]) xs

theorem firsts_aux {α : Type} (eq : α → α → Bool) (b l : List α) :
    ((List.range l.length).filterMap (fun i => (b ++ l)[b.length + i]?.bind (fun x =>
      if ((b ++ l).take (b.length + i)).all (fun y => !eq y x) then some x else none)))
    = firstsAux eq b l := by
  induction l generalizing b with
  | nil => rfl
  | cons x xs ih =>
    rw [List.length_cons, List.range_succ_eq_map, List.filterMap_cons, List.filterMap_map]
    have h := ih (b ++ [x])
    simp only [List.length_append, List.length_cons, List.length_nil, List.append_assoc,
      List.cons_append, List.nil_append] at h
    have e : ((fun i => (b ++ x :: xs)[b.length + i]?.bind (fun y =>
        if ((b ++ x :: xs).take (b.length + i)).all (fun z => !eq z y) then some y else none)) ∘ Nat.succ)
        = (fun i => (b ++ x :: xs)[b.length + (0 + 1) + i]?.bind (fun y =>
        if ((b ++ x :: xs).take (b.length + (0 + 1) + i)).all (fun z => !eq z y) then some y else none)) := by
      funext i
      simp only [Function.comp, Nat.succ_eq_add_one]
      rw [show b.length + (i + 1) = b.length + (0 + 1) + i by omega]
    rw [e, h]
    simp only [Nat.add_zero, List.take_left', firstsAux]
    rw [List.getElem?_append_right (Nat.le_refl _)]
    simp only [Nat.sub_self, List.getElem?_cons_zero, Option.bind_some]
    cases b.all (fun y => !eq y x) <;> simp

theorem uniqueLoop_eq {α : Type} {hash : α → Int} {eq : α → α → Bool}
    (hh : ∀ a b, eq a b = true → hash a = hash b)
    (trans : ∀ a b c, eq a b = true → eq b c = true → eq a c = true)
    (seen before l : List α)
    (h1 : ∀ s ∈ seen, s ∈ before)
    (h2 : ∀ y ∈ before, ∃ s ∈ seen, eq s y = true) (refl : ∀ a, eq a a = true) :
    uniqueLoop hash eq seen l = firstsAux eq before l := by
  induction l generalizing seen before with
  | nil => rfl
  | cons x xs ih =>
    unfold uniqueLoop firstsAux
    split
    · rename_i hin
      obtain ⟨s, hs, hsx⟩ := (inSet_iff hh seen x).mp hin
      rw [if_neg, List.nil_append]
      · apply ih seen (before ++ [x])
        · intro s hs; exact List.mem_append_left _ (h1 s hs)
        · intro y hy
          rcases List.mem_append.mp hy with hy | hy
          · exact h2 y hy
          · rw [List.mem_singleton.mp hy]; exact ⟨s, hs, hsx⟩
      · intro hall
        have := List.all_eq_true.mp hall s (h1 s hs)
        simp [hsx] at this
    · rename_i hin
      rw [if_pos, List.cons_append, List.nil_append]
      · congr 1
        apply ih (x :: seen) (before ++ [x])
        · intro s hs
          rcases List.mem_cons.mp hs with rfl | hs
          · simp
          · exact List.mem_append_left _ (h1 s hs)
        · intro y hy
          rcases List.mem_append.mp hy with hy | hy
          · obtain ⟨s, hs, h⟩ := h2 y hy; exact ⟨s, by simp [hs], h⟩
          · rw [List.mem_singleton.mp hy]; exact ⟨x, by simp, refl x⟩
      · rw [List.all_eq_true]
        intro y hy
        cases hyx : eq y x with
        | false => rfl
        | true =>
          obtain ⟨s, hs, h⟩ := h2 y hy
          exact (hin ((inSet_iff hh seen x).mpr ⟨s, hs, trans _ _ _ h hyx⟩)).elim

/-- `unique` keeps exactly the first occurrence of each element, in order, for every element type
whose `==` is an equivalence relation and whose hash respects it. -/
theorem C44_unique_firsts {α : Type} (hash : α → Int) (eq : α → α → Bool)
    (refl : ∀ a, eq a a = true)
    (trans : ∀ a b c, eq a b = true → eq b c = true → eq a c = true)
    (hh : ∀ a b, eq a b = true → hash a = hash b) (l : List α) :
    unique hash eq l = Spec.firsts eq l := by
  have h := firsts_aux eq [] l
  simp only [List.length_nil, Nat.zero_add, List.nil_append] at h
  rw [Spec.firsts, h]
  exact uniqueLoop_eq hh trans [] [] l (by simp) (by simp) refl

/-- No two elements of the result are equal; no assumption on `==` but that the hash respects it. -/
theorem C44_unique_nodup {α : Type} (hash : α → Int) (eq : α → α → Bool)
    (hh : ∀ a b, eq a b = true → hash a = hash b) (l : List α) :
    (unique hash eq l).Pairwise (fun a b => eq a b = false) :=
  (uniqueLoop_mem hh [] l).1

theorem uniqueLoop_sublist {α : Type} (hash : α → Int) (eq : α → α → Bool) (seen l : List α) :
    (uniqueLoop hash eq seen l).Sublist l := by
  induction l generalizing seen with
  | nil => exact List.Sublist.refl _
  | cons e es ih =>
    unfold uniqueLoop
    split
    · exact (ih seen).cons e
    · exact (ih (e :: seen)).cons₂ e

/-- The result is the input with elements left out. -/
theorem C44_unique_sublist {α : Type} (hash : α → Int) (eq : α → α → Bool) (l : List α) :
    (unique hash eq l).Sublist l := uniqueLoop_sublist hash eq [] l

theorem uniqueLoop_covers {α : Type} {hash : α → Int} {eq : α → α → Bool}
    (hr : ∀ a, eq a a = true) (seen l : List α) :
    ∀ x ∈ l, ∃ y, (y ∈ seen ∨ y ∈ uniqueLoop hash eq seen l) ∧ eq y x = true := by
  induction l generalizing seen with
  | nil => simp
  | cons e es ih =>
    intro x hx
    unfold uniqueLoop
    split
    · rename_i hin
      rcases List.mem_cons.mp hx with rfl | hx
      · simp only [inSet, List.any_eq_true, Bool.and_eq_true] at hin
        obtain ⟨s, hs, _, h⟩ := hin
        exact ⟨s, .inl hs, h⟩
      · exact ih seen x hx
    · rcases List.mem_cons.mp hx with rfl | hx
      · exact ⟨x, .inr (by simp), hr x⟩
      · obtain ⟨y, hy, h⟩ := ih (e :: seen) x hx
        refine ⟨y, ?_, h⟩
        rcases hy with hy | hy
        · rcases List.mem_cons.mp hy with rfl | hy
          · exact .inr (by simp)
          · exact .inl hy
        · exact .inr (by simp [hy])

/-- Every element of the input equals an element of the result. -/
theorem C44_unique_covers {α : Type} (hash : α → Int) (eq : α → α → Bool)
    (refl : ∀ a, eq a a = true) (l : List α) :
    ∀ x ∈ l, ∃ y ∈ unique hash eq l, eq y x = true := by
  intro x hx
  obtain ⟨y, hy, h⟩ := uniqueLoop_covers (hash := hash) refl [] l x hx
  simp only [List.not_mem_nil, false_or] at hy
  exact ⟨y, hy, h⟩

/-! ## `indent` -/

theorem splitLines_ne_nil (s : PyStr) : splitLines s ≠ [] := by
  cases s with
  | nil => simp [splitLines]
  | cons c s => unfold splitLines; split <;> (try split) <;> simp

theorem split_joinLines (ls : List PyStr) (hne : ls ≠ []) (h : ∀ l ∈ ls, '\n' ∉ l) :
    splitLines (joinLines ls) = ls := by
  have single : ∀ (l : PyStr), '\n' ∉ l → splitLines l = [l] := by
    intro l
    induction l with
    | nil => intro _; rfl
    | cons c l ih =>
      intro hc
      simp only [List.mem_cons, not_or] at hc
      rw [splitLines, if_neg (Ne.symm hc.1), ih hc.2]
  have pre : ∀ (l s : PyStr), '\n' ∉ l → splitLines (l ++ '\n' :: s) = l :: splitLines s := by
    intro l s
    induction l with
    | nil => intro _; simp [splitLines]
    | cons c l ih =>
      intro hc
      simp only [List.mem_cons, not_or] at hc
      rw [List.cons_append, splitLines, if_neg (Ne.symm hc.1), ih hc.2]
  match ls with
  | [l] => exact single l (h l (by simp))
  | l :: m :: ls =>
    rw [joinLines, pre l _ (h l (by simp)),
      split_joinLines (m :: ls) (by simp) (fun x hx => h x (by simp [hx]))]

theorem splitLines_no_newline (s : PyStr) : ∀ l ∈ splitLines s, '\n' ∉ l := by
  induction s with
  | nil => simp [splitLines]
  | cons c s ih =>
    unfold splitLines
    split
    · intro l hl
      rcases List.mem_cons.mp hl with rfl | hl
      · simp
      · exact ih l hl
    · rename_i hc
      split
      · intro l hl; rw [List.mem_singleton.mp hl]; simpa using Ne.symm hc
      · rename_i l' ls heq
        rw [heq] at ih
        intro l hl
        rcases List.mem_cons.mp hl with rfl | hl
        · have := ih l' (by simp)
          simp only [List.mem_cons, not_or]
          exact ⟨Ne.symm hc, this⟩
        · exact ih l (by simp [hl])

/-- `indent` keeps the lines and puts the wanted number of spaces before each non-empty line. -/
theorem C44_indent_lines (s : PyStr) (k : Nat) :
    splitLines (indent s k)
      = (splitLines s).map (fun l => if l = [] then [] else List.replicate k ' ' ++ l) := by
  rw [indent, split_joinLines]
  · apply List.map_congr_left
    intro l _
    cases l <;> simp
  · simp [splitLines_ne_nil]
  · intro l hl
    obtain ⟨l', hl', rfl⟩ := List.mem_map.mp hl
    have := splitLines_no_newline s l' hl'
    split
    · simp
    · simp only [List.mem_append, List.mem_replicate, not_or]
      exact ⟨by simp, this⟩

/-! ## `flat_name` and `file_name` -/

/-- The text contains no `.` and no `::`. -/
def Spec.NoSep (s : PyStr) : Prop := '.' ∉ s ∧ ∀ a b, s ≠ a ++ ':' :: ':' :: b

theorem subSep_cons (r c : Char) (s : PyStr) (h : ∀ s', c = ':' → s = ':' :: s' → False) :
    subSep r (c :: s) = (if c = '.' then r else c) :: subSep r s := by
  rw [subSep]
  intro s' h1 h2; exact h s' h1 h2

theorem subSep_noSep (r : Char) (hr : r ≠ '.' ∧ r ≠ ':') (s : PyStr) :
    Spec.NoSep (subSep r s) ∧ (s.head? ≠ some ':' → (subSep r s).head? ≠ some ':') := by
  induction s using subSep.induct with
  | case1 => exact ⟨⟨by simp [subSep], fun a b => by simp [subSep]⟩, by simp [subSep]⟩
  | case2 s ih =>
    refine ⟨⟨?_, ?_⟩, by simp⟩
    · rw [subSep]; simp only [List.mem_cons, not_or]; exact ⟨Ne.symm hr.1, ih.1.1⟩
    · intro a b h
      rw [subSep] at h
      cases a with
      | nil => simp only [List.nil_append, List.cons.injEq] at h; exact hr.2 h.1
      | cons x a => simp only [List.cons_append, List.cons.injEq] at h; exact ih.1.2 a b h.2
  | case3 c s hns ih =>
    rw [subSep_cons r c s (fun s' h1 h2 => hns s' h1 h2)]
    refine ⟨⟨?_, ?_⟩, ?_⟩
    · simp only [List.mem_cons, not_or]
      refine ⟨?_, ih.1.1⟩
      split
      · exact Ne.symm hr.1
      · rename_i h; exact fun h' => h h'.symm
    · intro a b h
      cases a with
      | nil =>
        simp only [List.nil_append, List.cons.injEq] at h
        have hc : c = ':' := by
          by_cases hd : c = '.'
          · rw [if_pos hd] at h; exact (hr.2 h.1).elim
          · rw [if_neg hd] at h; exact h.1
        apply ih.2
        · intro hs
          cases s with
          | nil => simp at hs
          | cons d s => simp only [List.head?_cons, Option.some.injEq] at hs; subst hs; exact hns s hc rfl
        · rw [h.2]; rfl
      | cons x a => simp only [List.cons_append, List.cons.injEq] at h; exact ih.1.2 a b h.2
    · simp only [List.head?_cons, ne_eq, Option.some.injEq]
      intro hc
      split
      · exact hr.2
      · exact hc

/-- Names and file names of Ada units contain no separators of the specification language, whatever
the input. -/
theorem C44_flat_name_no_separator (s : PyStr) : Spec.NoSep (flatName s) :=
  (subSep_noSep '_' (by decide) s).1

theorem C44_file_name_no_separator (s : PyStr) : Spec.NoSep (fileName s) :=
  (subSep_noSep '-' (by decide) s.lower).1

theorem subSep_noop (r : Char) (p : PyStr) (hp : '.' ∉ p ∧ ':' ∉ p) (s : PyStr) :
    subSep r (p ++ s) = p ++ subSep r s := by
  induction p with
  | nil => rfl
  | cons c p ih =>
    simp only [List.mem_cons, not_or] at hp
    rw [List.cons_append, subSep_cons r c _ (fun s' h _ => hp.2.1 h.symm),
      if_neg (Ne.symm hp.1.1), ih ⟨hp.1.2, hp.2.2⟩, List.cons_append]

/-- The join of identifier parts with a single character. -/
def Spec.joinWith (r : Char) : List PyStr → PyStr
  | [] => []
  | [p] => p
  | p :: q :: ps => p ++ r :: Spec.joinWith r (q :: ps)

theorem subSep_joinSep (r : Char) (ps : List PyStr) (h : ∀ p ∈ ps, '.' ∉ p ∧ ':' ∉ p) :
    subSep r (joinSep ps) = Spec.joinWith r ps := by
  match ps with
  | [] => rfl
  | [p] =>
    have := subSep_noop r p (h p (by simp)) []
    simpa [joinSep, Spec.joinWith, subSep] using this
  | p :: q :: ps =>
    rw [joinSep, Spec.joinWith, subSep_noop r p (h p (by simp)), subSep,
      subSep_joinSep r (q :: ps) (fun x hx => h x (by simp [hx]))]

theorem joinWith_inj (r : Char) (as bs : List PyStr) (ha : as ≠ []) (hb : bs ≠ [])
    (ra : ∀ p ∈ as, r ∉ p) (rb : ∀ p ∈ bs, r ∉ p)
    (h : Spec.joinWith r as = Spec.joinWith r bs) : as = bs := by
  have key : ∀ (p q x y : PyStr), r ∉ p → r ∉ q → p ++ r :: x = q ++ r :: y → p = q ∧ x = y := by
    intro p
    induction p with
    | nil =>
      intro q x y _ hq h
      cases q with
      | nil => simpa using h
      | cons c q => simp only [List.nil_append, List.cons_append, List.cons.injEq] at h; simp [h.1] at hq
    | cons c p ih =>
      intro q x y hp hq h
      cases q with
      | nil => simp only [List.nil_append, List.cons_append, List.cons.injEq] at h; simp [h.1] at hp
      | cons d q =>
        simp only [List.cons_append, List.cons.injEq] at h
        obtain ⟨h1, h2⟩ := ih q x y (fun hm => hp (by simp [hm])) (fun hm => hq (by simp [hm])) h.2
        exact ⟨by rw [h.1, h1], h2⟩
  match as, bs with
  | [p], [q] => simpa [Spec.joinWith] using h
  | [p], q :: q' :: qs =>
    simp only [Spec.joinWith] at h
    exact (ra p (by simp) (by rw [h]; simp)).elim
  | p :: p' :: ps, [q] =>
    simp only [Spec.joinWith] at h
    exact (rb q (by simp) (by rw [← h]; simp)).elim
  | p :: p' :: ps, q :: q' :: qs =>
    simp only [Spec.joinWith] at h
    obtain ⟨h1, h2⟩ := key _ _ _ _ (ra p (by simp)) (rb q (by simp)) h
    rw [h1, joinWith_inj r (p' :: ps) (q' :: qs) (by simp) (by simp)
      (fun x hx => ra x (by simp [hx])) (fun x hx => rb x (by simp [hx])) h2]

/-- Identifiers that differ (ignoring case) have different file names, provided that no part contains
the character `-`, which specifications do not allow. -/
theorem C44_file_name_injective (a b : ID) (ha : a.parts ≠ []) (hb : b.parts ≠ [])
    (la : ∀ p ∈ a.parts, ∀ c ∈ p, c.isAlphanum = true ∨ c = '_')
    (lb : ∀ p ∈ b.parts, ∀ c ∈ p, c.isAlphanum = true ∨ c = '_')
    (h : fileName a.str = fileName b.str) : a.key = b.key := by
  have lowerJoin : ∀ ps : List PyStr, (joinSep ps).lower = joinSep (ps.map PyStr.lower) := by
    intro ps
    match ps with
    | [] => rfl
    | [p] => rfl
    | p :: q :: ps =>
      have ih : ∀ qs : List PyStr, qs.length ≤ ps.length + 1 → (joinSep qs).lower = joinSep (qs.map PyStr.lower) := by
        intro qs
        induction qs with
        | nil => intro _; rfl
        | cons x xs ihx =>
          intro hl
          cases xs with
          | nil => rfl
          | cons y ys =>
            have h2 := ihx (by simp at hl ⊢; omega)
            simp only [joinSep, List.map_cons, PyStr.lower, List.map_append] at h2 ⊢
            rw [h2]; rfl
      have h2 := ih (q :: ps) (by simp)
      simp only [joinSep, List.map_cons, PyStr.lower, List.map_append] at h2 ⊢
      rw [h2]; rfl
  have notIn : ∀ ps : List PyStr, (∀ p ∈ ps, ∀ c ∈ p, c.isAlphanum = true ∨ c = '_') →
      ∀ d : Char, (d = '.' ∨ d = ':' ∨ d = '-') → ∀ p ∈ ps.map PyStr.lower, d ∉ p := by
    intro ps hps d hd p hp hdp
    obtain ⟨p', hp', rfl⟩ := List.mem_map.mp hp
    obtain ⟨c, hc, hcd⟩ := List.mem_map.mp hdp
    have hup : ∀ e : Char, (e.toLower = '.' ∨ e.toLower = ':' ∨ e.toLower = '-') → e = e.toLower := by
      intro e he
      simp only [Char.toLower] at he ⊢
      split
      · rename_i hu
        rw [dif_pos hu] at he
        exfalso
        simp only [Char.ext_iff, ← UInt32.toNat_inj, UInt32.toNat_add] at he
        have h1 := UInt32.le_iff_toNat_le.mp hu.1
        have h2 := UInt32.le_iff_toNat_le.mp hu.2
        have e1 : ('a'.val - 'A'.val).toNat = 32 := rfl
        have e2 : 'A'.val.toNat = 65 := rfl
        have e3 : 'Z'.val.toNat = 90 := rfl
        have e4 : '.'.val.toNat = 46 := rfl
        have e5 : ':'.val.toNat = 58 := rfl
        have e6 : '-'.val.toNat = 45 := rfl
        rw [e1, e4, e5, e6] at he
        omega
      · rfl
    have hce : c = d := by rw [hup c (by rw [hcd]; exact hd), hcd]
    subst hce
    rcases hps p' hp' c hc with h | h <;> rcases hd with rfl | rfl | rfl <;> revert h <;> decide
  simp only [fileName, ID.str, lowerJoin] at h
  rw [subSep_joinSep, subSep_joinSep] at h
  · exact joinWith_inj '-' _ _ (by simpa [ID.key] using ha) (by simpa [ID.key] using hb)
      (notIn _ la _ (by simp)) (notIn _ lb _ (by simp)) h
  · exact fun p hp => ⟨notIn _ lb _ (by simp) p hp, notIn _ lb _ (by simp) p hp⟩
  · exact fun p hp => ⟨notIn _ la _ (by simp) p hp, notIn _ la _ (by simp) p hp⟩

/-- `flat_name` is not injective: the name `A_B` and the name `A::B` give the same Ada name. -/
theorem C44_flat_name_counterexample :
    flatName "A_B".toList = flatName "A::B".toList ∧ "A_B".toList ≠ "A::B".toList := by decide

/-! ## Cases meeting the hypotheses -/

example : unique (fun _ => 0) (fun a b : Nat => a == b) [3, 1, 3, 2, 1] = [3, 1, 2] := rfl
example : Spec.firsts (fun a b : Nat => a == b) [3, 1, 3, 2, 1] = [3, 1, 2] := rfl
example : ∀ a b : Nat, (a == b) = true → (0 : Int) = 0 := fun _ _ _ => rfl
/-- Case-insensitive identifiers. -/
example (h : List PyStr → Int) : ∀ a b : ID, a.eq b = true → a.hash h = b.hash h := by
  intro a b hab; rw [ID.hash, ID.hash, (ID.eq_iff_key a b).mp hab]
example : fileName "TLV::Message_X".toList = "tlv-message_x".toList := by decide
example : flatName "TLV::Message.X".toList = "TLV_Message_X".toList := by decide

end Verif.Common
