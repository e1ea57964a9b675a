import Verif.Ada.DeclValue
import Verif.Ada.StmtMain
import Verif.Common.Props

/-! # Helper lemmas: texts that are phrases of the grammar of declarations -/

namespace Verif.Ada
open Verif

/-! ## Texts -/

/-- The elements of a text. If `l`, the text separates what is in front of it; if `r`, something must follow that separates. -/
structure Txt (l r : Bool) (s : PyStr) (ts : List Tok) : Prop where
  scan : ∀ rest, (r = true → Bnd rest) → scan [] (s ++ rest) = ts ++ scan [] rest
  bnd : l = true → ∀ rest, (r = true → Bnd rest) → Bnd (s ++ rest)

theorem Txt.nil (b : Bool) : Txt b b [] [] := ⟨fun _ _ => rfl, fun hl _ hr => hr hl⟩

theorem Txt.append {l r l' r' : Bool} {s s' : PyStr} {ts ts' : List Tok} (h : Txt l r s ts) (h' : Txt l' r' s' ts') (hj : r = true → l' = true) :
    Txt l r' (s ++ s') (ts ++ ts') :=
  ⟨fun rest hr => by rw [List.append_assoc, h.scan _ (fun hr' => h'.bnd (hj hr') rest hr), h'.scan rest hr, List.append_assoc],
   fun hl rest hr => by rw [List.append_assoc]; exact h.bnd hl _ (fun hr' => h'.bnd (hj hr') rest hr)⟩

theorem Txt.weaken {l r l' r' : Bool} {s : PyStr} {ts : List Tok} (h : Txt l r s ts) (hl : l' = true → l = true) (hr : r = true → r' = true) :
    Txt l' r' s ts := ⟨fun rest h1 => h.scan rest fun h2 => h1 (hr h2), fun h0 rest h1 => h.bnd (hl h0) rest fun h2 => h1 (hr h2)⟩

theorem Txt.indent {l r : Bool} {s : PyStr} {ts : List Tok} (h : Txt l r s ts) (k : Nat) : Txt false r (indent s k) ts :=
  ⟨fun rest hr => by rw [scan_indent, h.scan rest hr], fun h => by simp at h⟩

theorem Txt.indentNext {l r : Bool} {s : PyStr} {ts : List Tok} (h : Txt l r s ts) (k : Nat) : Txt false r (indentNext s k) ts :=
  ⟨fun rest hr => by rw [scan_indentNext, h.scan rest hr], fun h => by simp at h⟩

theorem Scans.txt {s : PyStr} {ts : List Tok} (h : Scans s ts) : Txt false true s ts := ⟨fun rest hr => h.scan rest (hr rfl), fun h => by simp at h⟩

theorem Piece.txt {s : PyStr} {ts : List Tok} (h : Piece s ts) : Txt false false s ts := ⟨fun rest _ => h rest, fun h => by simp at h⟩

/-! ### Fixed texts -/

/-- A text begins with a separating character. -/
def leads : PyStr → Bool
  | [] => false
  | c :: _ => !inWord c

/-- A text ends with a word. -/
def trails : PyStr → Bool
  | [] => false
  | [c] => inWord c
  | _ :: d :: s => trails (d :: s)

/-- The last character is not the beginning of a delimiter of two characters. -/
def closed : PyStr → Bool
  | [] => true
  | [c] => !['*', '/', '<', '>', '=', '.', '-', ':'].contains c
  | _ :: d :: s => closed (d :: s)

theorem compound?_append {c : Char} {s rest : PyStr} (hs : closed (c :: s) = true) : compound? c (s ++ rest) = compound? c s := by
  cases s with
  | nil =>
    have : c ≠ '*' ∧ c ≠ '/' ∧ c ≠ '<' ∧ c ≠ '>' ∧ c ≠ '=' ∧ c ≠ '.' ∧ c ≠ '-' ∧ c ≠ ':' := by simpa [closed] using hs
    rw [compound?_plain this, compound?_plain this]
  | cons d s => rfl

theorem closed_tail {c : Char} {s : PyStr} (h : closed (c :: s) = true) : closed s = true := by
  cases s with
  | nil => rfl
  | cons d s => exact h

theorem trails_tail {c d : Char} {s : PyStr} : trails (c :: d :: s) = trails (d :: s) := rfl

theorem scan_fixed (s : PyStr) (rest : PyStr) : closed s = true → (trails s = true → Bnd rest) → ∀ cur, (s = [] → cur = []) →
    scan cur (s ++ rest) = scan cur s ++ scan [] rest := by
  generalize hn : s.length = n
  induction n using Nat.strongRecOn generalizing s with
  | _ n ih =>
    subst hn
    intro hc ht cur hcur
    match s with
    | [] => rw [hcur rfl]; rfl
    | [c] =>
      rw [List.singleton_append, scan_cons, show c :: [] = [c] from rfl]
      have h0 := scan_cons (cur := cur) (c := c) (s := [])
      rw [h0]
      have hq : compound? c rest = none := by
        have := compound?_append (rest := rest) hc
        exact this
      by_cases hw : inWord c = true
      · rw [if_pos hw, if_pos hw, scan_bnd (ht hw)]
        simp [scan]
      · rw [if_neg hw, if_neg hw, hq]
        simp [compound?, scan, endWord]
    | c :: d :: s =>
      rw [List.cons_append, scan_cons, scan_cons (s := d :: s)]
      have ht' : trails (d :: s) = true → Bnd rest := ht
      by_cases hw : inWord c = true
      · rw [if_pos hw, if_pos hw]
        exact ih _ (by simp) (d :: s) rfl (closed_tail hc) ht' _ (by simp)
      · rw [if_neg hw, if_neg hw, compound?_append hc]
        cases hq : compound? c (d :: s) with
        | none =>
          simp only [List.append_assoc]
          rw [ih _ (by simp) (d :: s) rfl (closed_tail hc) ht' [] (by simp)]
        | some t =>
          simp only [List.cons_append, List.tail_cons, List.append_assoc]
          rw [ih _ (by simp; omega) s rfl (closed_tail (closed_tail hc)) (fun h => by
            cases s with
            | nil => simp [trails] at h
            | cons e s => exact ht h) [] (fun _ => rfl)]

theorem Txt.fixed {s : PyStr} {ts : List Tok} (hc : closed s = true) (ht : Ada.scan [] s = ts) : Txt (leads s) (trails s) s ts :=
  ⟨fun rest hr => by rw [scan_fixed s rest hc hr [] (fun _ => rfl), ht], fun hl rest _ => by
    cases s with
    | nil => simp [leads] at hl
    | cons c s => simpa [leads, Bnd] using hl⟩

theorem Txt.of {l r : Bool} {s : PyStr} {ts : List Tok}
    (h : ((!l || leads s) && (!trails s || r) && closed s && decide (Ada.scan [] s = ts)) = true) : Txt l r s ts := by
  simp only [Bool.and_eq_true, Bool.or_eq_true, Bool.not_eq_true', decide_eq_true_eq] at h
  exact (Txt.fixed h.1.2 h.2).weaken (fun hl => by simpa [hl] using h.1.1.1) (fun hr => by simpa [hr] using h.1.1.2)

theorem flatMap_one {α β : Type} (f : α → β) (xs : List α) : xs.flatMap (fun x => [f x]) = xs.map f := by
  induction xs with
  | nil => rfl
  | cons x xs ih => rw [List.flatMap_cons, List.map_cons, ih]; rfl

/-! ## Phrases -/

theorem Many.mono {P Q : List Tok → DTrees → Prop} (h : ∀ ts cs, P ts cs → Q ts cs) {ts : List Tok} {cs : DTrees} (hm : Many P ts cs) : Many Q ts cs := by
  induction hm with
  | nil => exact .nil
  | cons h1 _ ih => exact .cons (h _ _ h1) ih

theorem SepBy.mono {P Q : List Tok → DTrees → Prop} {k : Tok} (h : ∀ ts cs, P ts cs → Q ts cs) {ts : List Tok} {cs : DTrees} (hm : SepBy P k ts cs) :
    SepBy Q k ts cs := by
  induction hm with
  | one h1 => exact .one (h _ _ h1)
  | cons h1 _ ih => exact .cons (h _ _ h1) ih

theorem reads_mono {D E : List Tok → DTrees → Prop} (h : ∀ ts cs, D ts cs → E ts cs) : ∀ (g : G) (ts : List Tok) (cs : DTrees), g.reads D ts cs → g.reads E ts cs
  | .empty, _, _, hr | .tok _, _, _, hr | .ident, _, _, hr | .name, _, _, hr | .expr, _, _, hr | .simple, _, _, hr | .choice, _, _, hr
  | .choices, _, _, hr | .stmts, _, _, hr => hr
  | .items, _, _, hr => h _ _ hr
  | .node _ g, _, _, ⟨ds, h1, h2⟩ => ⟨ds, reads_mono h g _ _ h1, h2⟩
  | .seq a b, _, _, ⟨us, vs, ds, es, h1, h2, h3⟩ => ⟨us, vs, ds, es, reads_mono h a _ _ h1, reads_mono h b _ _ h2, h3⟩
  | .or a b, _, _, hr => hr.elim (fun h1 => .inl (reads_mono h a _ _ h1)) fun h1 => .inr (reads_mono h b _ _ h1)
  | .many g, _, _, hr => Many.mono (reads_mono h g) hr
  | .list g _, _, _, hr => SepBy.mono (reads_mono h g) hr

theorem itemsTo_succ : ∀ (n : Nat) (ts : List Tok) (cs : DTrees), itemsTo n ts cs → itemsTo (n + 1) ts cs
  | 0, _, _, h => h.elim
  | n + 1, ts, cs, h => reads_mono (itemsTo_succ n) _ ts cs h

theorem itemsTo_le {n m : Nat} (h : n ≤ m) : ∀ (ts : List Tok) (cs : DTrees), itemsTo n ts cs → itemsTo m ts cs := by
  induction h with
  | refl => exact fun _ _ h => h
  | step _ ih => exact fun ts cs h => itemsTo_succ _ ts cs (ih ts cs h)

theorem reads_le {g : G} {n m : Nat} (h : n ≤ m) {ts : List Tok} {cs : DTrees} (hr : g.reads (itemsTo n) ts cs) : g.reads (itemsTo m) ts cs :=
  reads_mono (itemsTo_le h) g ts cs hr

theorem Phrase.seq {a b : G} {ts us : List Tok} {cs ds : DTrees} (ha : Phrase a ts cs) (hb : Phrase b us ds) : Phrase (a ⬝ b) (ts ++ us) (cs ++ ds) := by
  obtain ⟨n, ha⟩ := ha
  obtain ⟨m, hb⟩ := hb
  exact ⟨max n m, ts, us, cs, ds, reads_le (Nat.le_max_left ..) ha, reads_le (Nat.le_max_right ..) hb, rfl, rfl⟩

theorem Phrase.node {t : Tag} {g : G} {ts : List Tok} {cs : DTrees} (h : Phrase g ts cs) : Phrase (.node t g) ts [.node t cs] := by
  obtain ⟨n, h⟩ := h
  exact ⟨n, cs, h, rfl⟩

theorem Phrase.many_nil {g : G} : Phrase (.many g) [] [] := ⟨0, .nil⟩

theorem Phrase.many_cons {g : G} {ts us : List Tok} {cs ds : DTrees} (h : Phrase g ts cs) (hm : Phrase (.many g) us ds) :
    Phrase (.many g) (ts ++ us) (cs ++ ds) := by
  obtain ⟨n, h⟩ := h
  obtain ⟨m, hm⟩ := hm
  exact ⟨max n m, .cons (reads_le (Nat.le_max_left ..) h) (reads_le (g := .many g) (Nat.le_max_right ..) hm)⟩

theorem Phrase.list_one {g : G} {k : Tok} {ts : List Tok} {cs : DTrees} (h : Phrase g ts cs) : Phrase (.list g k) ts cs := by
  obtain ⟨n, h⟩ := h
  exact ⟨n, .one h⟩

theorem Phrase.list_cons {g : G} {k : Tok} {ts us : List Tok} {cs ds : DTrees} (h : Phrase g ts cs) (hm : Phrase (.list g k) us ds) :
    Phrase (.list g k) (ts ++ k :: us) (cs ++ ds) := by
  obtain ⟨n, h⟩ := h
  obtain ⟨m, hm⟩ := hm
  exact ⟨max n m, .cons (reads_le (Nat.le_max_left ..) h) (reads_le (g := .list g k) (Nat.le_max_right ..) hm)⟩

theorem Phrase.items {ts : List Tok} {cs : DTrees} (h : Phrase (.many .item) ts cs) : Phrase .items ts cs := by
  obtain ⟨n, h⟩ := h
  exact ⟨n + 1, h⟩

/-! ## Texts that are phrases -/

/-- A text is a phrase that stands for `m`. -/
def Says (l r : Bool) (g : G) (s : PyStr) (m : List Meaning) : Prop :=
  ∃ ts cs, Txt l r s ts ∧ Phrase g ts cs ∧ List.Forall₂ Agrees cs m

theorem forall₂_append {α β : Type} {R : α → β → Prop} {as cs : List α} {bs ds : List β} (h : List.Forall₂ R as bs) (h' : List.Forall₂ R cs ds) :
    List.Forall₂ R (as ++ cs) (bs ++ ds) := by
  induction h with
  | nil => exact h'
  | cons h1 _ ih => exact .cons h1 ih

namespace Says

theorem seq {l r l' r' : Bool} {a b : G} {s s' : PyStr} {m m' : List Meaning} (h : Says l r a s m) (h' : Says l' r' b s' m')
    (hj : r = true → l' = true) : Says l r' (a ⬝ b) (s ++ s') (m ++ m') := by
  obtain ⟨ts, cs, h1, h2, h3⟩ := h
  obtain ⟨us, ds, k1, k2, k3⟩ := h'
  exact ⟨_, _, h1.append k1 hj, h2.seq k2, forall₂_append h3 k3⟩

theorem cast {l r : Bool} {g : G} {s s' : PyStr} {m m' : List Meaning} (h : Says l r g s m) (hs : s = s') (hm : m = m') : Says l r g s' m' :=
  hs ▸ hm ▸ h

theorem weaken {l r l' r' : Bool} {g : G} {s : PyStr} {m : List Meaning} (h : Says l r g s m) (hl : l' = true → l = true) (hr : r = true → r' = true) :
    Says l' r' g s m := by
  obtain ⟨ts, cs, h1, h2⟩ := h
  exact ⟨ts, cs, h1.weaken hl hr, h2⟩

theorem node {l r : Bool} {t : Tag} {g : G} {s : PyStr} {m : List Meaning} (h : Says l r g s m) : Says l r (.node t g) s [.node t m] := by
  obtain ⟨ts, cs, h1, h2, h3⟩ := h
  exact ⟨ts, _, h1, h2.node, .cons (.node h3) .nil⟩

theorem left {l r : Bool} {a b : G} {s : PyStr} {m : List Meaning} (h : Says l r a s m) : Says l r (a ∣∣ b) s m := by
  obtain ⟨ts, cs, h1, ⟨n, h2⟩, h3⟩ := h
  exact ⟨ts, cs, h1, ⟨n, .inl h2⟩, h3⟩

theorem right {l r : Bool} {a b : G} {s : PyStr} {m : List Meaning} (h : Says l r b s m) : Says l r (a ∣∣ b) s m := by
  obtain ⟨ts, cs, h1, ⟨n, h2⟩, h3⟩ := h
  exact ⟨ts, cs, h1, ⟨n, .inr h2⟩, h3⟩

theorem none (b : Bool) {g : G} : Says b b (.opt g) [] [] := ⟨[], [], .nil b, ⟨0, .inr ⟨rfl, rfl⟩⟩, .nil⟩

theorem indent {l r : Bool} {g : G} {s : PyStr} {m : List Meaning} (h : Says l r g s m) (k : Nat) : Says false r g (indent s k) m := by
  obtain ⟨ts, cs, h1, h2⟩ := h
  exact ⟨ts, cs, h1.indent k, h2⟩

theorem indentNext {l r : Bool} {g : G} {s : PyStr} {m : List Meaning} (h : Says l r g s m) (k : Nat) : Says false r g (indentNext s k) m := by
  obtain ⟨ts, cs, h1, h2⟩ := h
  exact ⟨ts, cs, h1.indentNext k, h2⟩

/-- White space in front. -/
theorem before {l r l' r' : Bool} {g : G} {w s : PyStr} {m : List Meaning} (hw : Txt l r w []) (h : Says l' r' g s m) (hj : r = true → l' = true) :
    Says l r' g (w ++ s) m := by
  obtain ⟨ts, cs, h1, h2⟩ := h
  exact ⟨ts, cs, hw.append h1 hj, h2⟩

/-- White space after it. -/
theorem after {l r l' r' : Bool} {g : G} {w s : PyStr} {m : List Meaning} (h : Says l r g s m) (hw : Txt l' r' w []) (hj : r = true → l' = true) :
    Says l r' g (s ++ w) m := by
  obtain ⟨ts, cs, h1, h2⟩ := h
  exact ⟨ts, cs, (by simpa using h1.append hw hj), h2⟩

theorem assoc {l r : Bool} {a b c : G} {s : PyStr} {m : List Meaning} (h : Says l r ((a ⬝ b) ⬝ c) s m) : Says l r (a ⬝ b ⬝ c) s m := by
  obtain ⟨ts, cs, h1, ⟨n, us, vs, ds, es, ⟨us', vs', ds', es', h2, h3, rfl, rfl⟩, h4, rfl, rfl⟩, h5⟩ := h
  exact ⟨_, _, h1, ⟨n, us', vs' ++ vs, ds', es' ++ es, h2, ⟨vs', vs, es', es, h3, h4, rfl, rfl⟩, by simp, by simp⟩, h5⟩

end Says

/-- The elements of a phrase without variable parts. -/
def G.fixed : G → Option (List Tok)
  | .empty => some []
  | .tok k => some [k]
  | .seq a b => a.fixed.bind fun ts => b.fixed.map fun us => ts ++ us
  | _ => none

theorem fixed_reads (D : List Tok → DTrees → Prop) : ∀ (g : G) (ts : List Tok), g.fixed = some ts → g.reads D ts []
  | .empty, ts, h => ⟨by simpa [G.fixed, eq_comm] using h, rfl⟩
  | .tok k, ts, h => ⟨by simpa [G.fixed, eq_comm] using h, rfl⟩
  | .seq a b, ts, h => by
    simp only [G.fixed, Option.bind_eq_some_iff, Option.map_eq_some_iff] at h
    obtain ⟨us, h1, vs, h2, rfl⟩ := h
    exact ⟨us, vs, [], [], fixed_reads D a us h1, fixed_reads D b vs h2, rfl, rfl⟩
  | .ident, _, h | .name, _, h | .expr, _, h | .simple, _, h | .choice, _, h | .choices, _, h | .stmts, _, h | .items, _, h
  | .node _ _, _, h | .or _ _, _, h | .many _, _, h | .list _ _, _, h => by simp [G.fixed] at h

/-- Fixed text. -/
theorem Says.fixed {g : G} (s : PyStr) (h : (closed s && decide (g.fixed = some (scan [] s))) = true) : Says (leads s) (trails s) g s [] := by
  rw [Bool.and_eq_true, decide_eq_true_eq] at h
  exact ⟨_, [], .fixed h.1 rfl, ⟨0, fixed_reads _ g _ h.2⟩, .nil⟩

/-- White space. -/
theorem Txt.white (s : PyStr) (h : (closed s && decide (Ada.scan [] s = [])) = true) : Txt (leads s) (trails s) s [] := by
  rw [Bool.and_eq_true, decide_eq_true_eq] at h
  exact .fixed h.1 h.2

/-! ### Lists -/

theorem says_list {α : Type} {g : G} {k : Tok} {sep : PyStr} (hs : Txt true false sep [k]) {f : α → PyStr} {m : α → List Meaning} :
    ∀ {xs : List α}, xs ≠ [] → (∀ x ∈ xs, Says false true g (f x) (m x)) → Says false true (.list g k) (joinBy sep (xs.map f)) (xs.flatMap m)
  | [], hn, _ => absurd rfl hn
  | [x], _, h => by
    obtain ⟨ts, cs, h1, h2, h3⟩ := h x (by simp)
    exact ⟨ts, cs, by simpa [joinBy] using h1, h2.list_one, by simpa using h3⟩
  | x :: y :: xs, _, h => by
    obtain ⟨ts, cs, h1, h2, h3⟩ := h x (by simp)
    obtain ⟨us, ds, k1, k2, k3⟩ := says_list hs (xs := y :: xs) (by simp) fun z hz => h z (List.mem_cons_of_mem _ hz)
    refine ⟨_, _, ?_, h2.list_cons k2, by rw [List.flatMap_cons]; exact forall₂_append h3 k3⟩
    have := (h1.append hs (fun _ => rfl)).append k1 (by simp)
    simpa [joinBy] using this

theorem says_many {α : Type} {g : G} {sep : PyStr} (hs : Txt false false sep []) {f : α → PyStr} {m : α → List Meaning} :
    ∀ {xs : List α}, (∀ x ∈ xs, Says false false g (f x) (m x)) → Says false false (.many g) (joinBy sep (xs.map f)) (xs.flatMap m)
  | [], _ => ⟨[], [], .nil _, .many_nil, .nil⟩
  | [x], h => by
    obtain ⟨ts, cs, h1, h2, h3⟩ := h x (by simp)
    exact ⟨ts ++ [], cs ++ [], by simpa [joinBy] using h1, h2.many_cons .many_nil, by simpa using h3⟩
  | x :: y :: xs, h => by
    obtain ⟨ts, cs, h1, h2, h3⟩ := h x (by simp)
    obtain ⟨us, ds, k1, k2, k3⟩ := says_many hs (xs := y :: xs) fun z hz => h z (List.mem_cons_of_mem _ hz)
    refine ⟨_, _, ?_, h2.many_cons k2, by rw [List.flatMap_cons]; exact forall₂_append h3 k3⟩
    have := (h1.append hs (by simp)).append k1 (by simp)
    simpa [joinBy] using this

theorem says_many1 {α : Type} {g : G} {sep : PyStr} (hs : Txt false false sep []) {f : α → PyStr} {m : α → List Meaning} {xs : List α} (hn : xs ≠ [])
    (h : ∀ x ∈ xs, Says false false g (f x) (m x)) : Says false false (g ⬝ .many g) (joinBy sep (xs.map f)) (xs.flatMap m) := by
  match xs with
  | [] => exact absurd rfl hn
  | [x] => exact ((h x (by simp)).seq (says_many hs (xs := []) (f := f) (m := m) (by simp)) (by simp)).cast (by simp [joinBy]) (by simp)
  | x :: y :: xs =>
    have h2 := says_many hs (xs := y :: xs) fun z hz => h z (List.mem_cons_of_mem _ hz)
    exact ((h x (by simp)).seq (.before hs h2 (by simp)) (by simp)).cast (by simp [joinBy]) (by simp)

/-! ### Names and expressions -/

theorem Named.txt {i : ID} (h : Named i) : Txt false true (dotted i) (pathToks (i.parts.map PyStr.lower)) := by
  have : ∀ ps : List PyStr, ps ≠ [] → (∀ p ∈ ps, Word p) → Scans (joinDot ps) (pathToks (ps.map PyStr.lower)) := by
    intro ps
    induction ps with
    | nil => intro h; exact absurd rfl h
    | cons p ps ih =>
      intro _ hw
      have hp := (hw p (by simp)).scans
      cases ps with
      | nil => exact hp
      | cons q ps => exact (hp.append sep_dot (ih (by simp) fun x hx => hw x (List.mem_cons_of_mem _ hx))).cast (by simp [joinDot]) (by simp [pathToks])
  exact (this i.parts h.1 h.2).txt

theorem says_name {i : ID} (h : Named i) : Says false true .name (dotted i) [nameOf i] :=
  ⟨_, [.name (i.parts.map PyStr.lower)], h.txt, ⟨0, _, by simpa using h.1, rfl, rfl⟩, .cons .name .nil⟩

theorem says_ident {i : ID} (h : Simple i) : Says false true .ident (dotted i) [nameOf i] := by
  obtain ⟨h, hl⟩ := h
  obtain ⟨x, hx⟩ := List.length_eq_one_iff.1 hl
  have := h.txt
  rw [hx] at this
  exact ⟨_, [.name [PyStr.lower x]], this, ⟨0, PyStr.lower x, rfl, rfl⟩, .cons (by rw [nameOf, hx]; exact .name) .nil⟩

theorem says_word {x : PyStr} (h : Word x) : Says false true .ident x [.name [PyStr.lower x]] :=
  ⟨_, [.name [PyStr.lower x]], h.scans.txt, ⟨0, PyStr.lower x, rfl, rfl⟩, .cons .name .nil⟩

theorem txt_comma : Txt true false (tx ", ") [.comma] := Txt.of (by decide +kernel)

theorem txt_semi : Txt true false (tx "; ") [.semi] := Txt.of (by decide +kernel)

theorem txt_commaLine : Txt true false (tx ",\n") [.comma] := Txt.of (by decide +kernel)

theorem txt_line : Txt false false (tx "\n") [] := (Txt.white _ (by decide +kernel)).weaken (by simp) (by decide +kernel)

theorem says_names {is : List ID} (hn : is ≠ []) (h : ∀ i ∈ is, Named i) : Says false true (.list .name .comma) (idList is) (is.map nameOf) :=
  (says_list txt_comma (f := dotted) (m := fun i => [nameOf i]) hn fun i hi => says_name (h i hi)).cast rfl (flatMap_one _ _)

theorem says_idents {is : List ID} (hn : is ≠ []) (h : ∀ i ∈ is, Simple i) : Says false true (.list .ident .comma) (idList is) (is.map nameOf) :=
  (says_list txt_comma (f := dotted) (m := fun i => [nameOf i]) hn fun i hi => says_ident (h i hi)).cast rfl (flatMap_one _ _)

theorem says_expr {e : AExpr} (h : e.WF) : Says false true .expr (e.strF false) [.expr e] := by
  obtain ⟨ts, t, h1, h2, h3⟩ := (isText e h).good.expr
  exact ⟨ts, [.expr t], h1.txt, ⟨0, t, h2, rfl⟩, .cons (.expr h3) .nil⟩

theorem strF_ne {e : AExpr} (h : e.WF) : e.strF false ≠ [] := by
  obtain ⟨ts, t, h1, h2, h3⟩ := (isText e h).good.expr
  obtain ⟨c, s, hs, _⟩ := h1.start
  simp [hs]

theorem says_simple {e : AExpr} (h : e.WF) (hp : 3 ≤ e.prec) : Says false true .simple (e.strF false) [.expr e] := by
  obtain ⟨ts, t, h1, h2, h3⟩ := (isText e h).good.le hp
  exact ⟨ts, [.expr t], h1.txt, ⟨0, t, h2, rfl⟩, .cons (.expr h3) .nil⟩

theorem choiceOf {e : AExpr} (h : e.WF ∨ e.isOthers = true) :
    ∃ ts t, Txt false true (e.strF false) ts ∧ Reads .choice ts t ∧ Agrees (.expr t) (.expr e) := by
  have : GoodChoice e := by
    by_cases ho : e.isOthers = true
    · exact goodChoice_others ho
    · exact (isText e (h.resolve_right ho)).choice (by simpa using ho)
  obtain ⟨ts, t, h1, h2, ⟨h3, rfl⟩ | ⟨_, _, h3⟩⟩ := this
  · exact ⟨ts, _, h1.txt, h2, .others h3⟩
  · exact ⟨ts, _, h1.txt, h2, .expr h3⟩

theorem says_choice {e : AExpr} (h : e.WF ∨ e.isOthers = true) : Says false true .choice (e.strF false) [.expr e] := by
  obtain ⟨ts, t, h1, h2, h3⟩ := choiceOf h
  exact ⟨ts, [.expr t], h1, ⟨0, t, h2, rfl⟩, .cons h3 .nil⟩

theorem says_choices {es : List AExpr} (hn : es ≠ []) (h : ∀ e ∈ es, e.WF ∨ e.isOthers = true) :
    Says false true .choices (joinBy (tx " | ") (es.map fun e => e.strF false)) (es.map .expr) := by
  have hb : Txt true false (tx " | ") [.bar] := Txt.of (by decide +kernel)
  have : ∃ ts us, Txt false true (joinBy (tx " | ") (es.map fun e => e.strF false)) ts ∧ Reads .choices ts (.agg us) ∧
      List.Forall₂ Agrees (us.map .expr) (es.map .expr) := by
    induction es with
    | nil => exact absurd rfl hn
    | cons e es ih =>
      obtain ⟨ts, t, h1, h2, h3⟩ := choiceOf (h e (by simp))
      cases es with
      | nil => exact ⟨ts, [t], h1, .choice h2, .cons h3 .nil⟩
      | cons e' es =>
        obtain ⟨us, vs, k1, k2, k3⟩ := ih (by simp) fun x hx => h x (List.mem_cons_of_mem _ hx)
        refine ⟨ts ++ .bar :: us, t :: vs, ?_, .choices h2 k2, .cons h3 k3⟩
        have := (h1.append hb (fun _ => rfl)).append k1 (by simp)
        simpa [joinBy] using this
  obtain ⟨ts, us, h1, h2, h3⟩ := this
  exact ⟨ts, _, h1, ⟨0, us, h2, rfl⟩, h3⟩

theorem says_stmts {ss : List AStmt} (hn : ss ≠ []) (h : AStmt.WFL ss) :
    Says false false .stmts (joinBy (tx "\n") ((AStmt.strs ss).map fun s => indent s 3)) [.stmts ss] := by
  obtain ⟨ts, t, h1, h2, h3⟩ := sgood_seq (l := fun l => joinBy (tx "\n") (l.map fun s => indent s 3)) (fun s r ss ts us hs hr => by
      refine ((hs.indent 3).append (Piece.nl.append hr)).cast ?_ (by simp)
      simp [joinBy]; rfl) (fun s ts hs => by simpa [joinBy] using hs.indent 3) hn (sgoodL ss h)
  exact ⟨ts, [.stmts t], h1.txt, ⟨0, t, h2, rfl⟩, .cons (.stmts h3) .nil⟩

end Verif.Ada
