import Verif.Ada.StmtValue
import Verif.Ada.StmtParse
import Verif.Ada.Main

/-! # Helper lemmas: the text of a statement can be read as the statement -/

namespace Verif.Ada
open Verif

/-! ## Texts that are scanned on their own -/

/-- A text whose elements do not depend on what follows. -/
def Piece (s : PyStr) (ts : List Tok) : Prop := ∀ rest, scan [] (s ++ rest) = ts ++ scan [] rest

theorem Piece.nil : Piece [] [] := fun _ => rfl

theorem Piece.append {s r : PyStr} {ts us : List Tok} (hs : Piece s ts) (hr : Piece r us) : Piece (s ++ r) (ts ++ us) := fun rest => by
  rw [List.append_assoc, hs, hr, List.append_assoc]

theorem Piece.nl : Piece ['\n'] [] := fun _ => scan_nl

theorem Piece.indent {s : PyStr} {ts : List Tok} (h : Piece s ts) (k : Nat) : Piece (indent s k) ts := fun rest => by rw [scan_indent, h]

theorem Piece.cast {s s' : PyStr} {ts ts' : List Tok} (h : Piece s ts) (hs : s = s') (ht : ts = ts') : Piece s' ts' := hs ▸ ht ▸ h

theorem Piece.elements {s : PyStr} {ts : List Tok} (h : Piece s ts) : elements s = ts := by
  have := h []
  simpa [Ada.scan, Ada.elements, endWord] using this

theorem Scans.piece {s m : PyStr} {ts us : List Tok} (h : Scans s ts) (hm : Closes m us) : Piece (s ++ m) (ts ++ us) := fun rest => by
  rw [List.append_assoc, h.scan _ (hm.bnd _), hm.scan, List.append_assoc]

theorem Closes.append {s r : PyStr} {ts us : List Tok} (hs : Closes s ts) (hr : Piece r us) : Closes (s ++ r) (ts ++ us) :=
  ⟨fun x => by rw [List.append_assoc]; exact hs.bnd _, fun x => by rw [List.append_assoc, hs.scan, hr, List.append_assoc]⟩

theorem Closes.cast {s s' : PyStr} {ts ts' : List Tok} (h : Closes s ts) (hs : s = s') (ht : ts = ts') : Closes s' ts' := hs ▸ ht ▸ h

/-- A reserved word and white space. -/
theorem piece_word {w : PyStr} {t : Tok} {c : Char} (hn : w ≠ []) (hw : ∀ d ∈ w, inWord d = true) (ht : word w = t) (hc : c = ' ' ∨ c = '\n') :
    Piece (w ++ [c]) [t] := fun rest => by
  rw [List.append_assoc, List.singleton_append, scan_kw w hn hw ht (by rcases hc with rfl | rfl <;> decide)]
  rcases hc with rfl | rfl
  · rw [scan_space]; rfl
  · rw [scan_nl]; rfl

theorem scan_semi {s : PyStr} : scan [] (';' :: s) = .semi :: scan [] s := by
  rw [scan_plain (by decide) (by decide)]; rfl

theorem closes_semi : Closes [';'] [.semi] := ⟨fun _ => (by decide : inWord ';' = false), fun _ => scan_semi⟩

theorem closes_space : Closes [' '] [] := ⟨fun _ => (by decide : inWord ' ' = false), fun _ => scan_space⟩

theorem closes_nl : Closes ['\n'] [] := ⟨fun _ => (by decide : inWord '\n' = false), fun _ => scan_nl⟩

theorem piece_semi : Piece [';'] [.semi] := fun _ => scan_semi

theorem sep_assign : Sep [' ', ':', '=', ' '] [.assign] := by
  constructor
  · intro r; show inWord ' ' = false; decide
  · intro s _
    simp only [List.cons_append, List.nil_append, scan_space]
    rw [scan_two (t := .assign) (by decide) (by decide), scan_space]

theorem piece_then : Piece ['t', 'h', 'e', 'n', '\n'] [.then_] :=
  piece_word (w := ['t', 'h', 'e', 'n']) (by decide) (by decide) (by decide +kernel) (.inr rfl)

theorem piece_endIf : Piece ['e', 'n', 'd', ' ', 'i', 'f', ';'] [kw "end", .if_, .semi] := fun rest => by
  have h1 := piece_word (w := ['e', 'n', 'd']) (t := kw "end") (c := ' ') (by decide) (by decide) (by decide +kernel) (.inl rfl) (['i', 'f', ';'] ++ rest)
  have h2 : scan [] (['i', 'f'] ++ ';' :: rest) = .if_ :: scan [] (';' :: rest) :=
    scan_kw ['i', 'f'] (by decide) (by decide) (by decide +kernel) (by decide)
  rw [scan_semi] at h2
  simp only [List.cons_append, List.nil_append] at h1 h2 ⊢
  rw [h1, h2]

theorem closes_endCase : Closes ['\n', 'e', 'n', 'd', ' ', 'c', 'a', 's', 'e', ';'] [kw "end", kw "case", .semi] := by
  refine ⟨fun _ => (by decide : inWord '\n' = false), fun rest => ?_⟩
  have h1 := piece_word (w := ['e', 'n', 'd']) (t := kw "end") (c := ' ') (by decide) (by decide) (by decide +kernel) (.inl rfl) (['c', 'a', 's', 'e', ';'] ++ rest)
  have h2 : scan [] (['c', 'a', 's', 'e'] ++ ';' :: rest) = kw "case" :: scan [] (';' :: rest) :=
    scan_kw ['c', 'a', 's', 'e'] (by decide) (by decide) (by decide +kernel) (by decide)
  rw [scan_semi] at h2
  simp only [List.cons_append, List.nil_append, scan_nl] at h1 h2 ⊢
  rw [h1, h2]

theorem piece_condition {w s : PyStr} {t : Tok} {ts : List Tok} (hn : w ≠ []) (hw : ∀ d ∈ w, inWord d = true) (ht : word w = t) (h : Scans s ts) :
    Piece (w ++ condText s ++ ['t', 'h', 'e', 'n', '\n']) (t :: ts ++ [.then_]) := by
  unfold condText
  split
  · have h2 : Piece (indent s 2 ++ ['\n']) ts := fun rest => by
      rw [List.append_assoc, scan_indent, ← List.append_assoc, h.piece closes_nl rest, List.append_nil]
    exact ((piece_word hn hw ht (.inr rfl)).append (h2.append piece_then)).cast (by simp) (by simp)
  · exact ((piece_word hn hw ht (.inl rfl)).append ((h.piece closes_space).append piece_then)).cast (by simp) (by simp)

/-! ## Arguments -/

/-- The tree of an argument. -/
def Passes (W : World) (t : Tree) (e : AExpr) : Prop := t.value W = e.value W ∧ (e.isName = true → t.ent W = e.ent W)

theorem IsText.passes {e : AExpr} (h : IsText e) :
    ∃ ts t, Scans (e.strF false) ts ∧ Reads .expression ts t ∧ ∀ W : World, W.Std → Passes W t e := by
  by_cases hn : e.isName = true
  · obtain ⟨ts, t, h1, h2, h3⟩ := h.name hn
    exact ⟨ts, t, h1, .relation (.simple (.term (.factor (.primary (.name h2))))), fun W hW =>
      ⟨by rw [Tree.value_name h2.isName, h3 W hW, AExpr.value_name hn], fun _ => h3 W hW⟩⟩
  · obtain ⟨ts, t, h1, h2, h3⟩ := h.good.expr
    exact ⟨ts, t, h1, h2, fun W hW => ⟨h3 W hW, fun h => absurd h hn⟩⟩

theorem goodArgs {es : List AExpr} (hn : es ≠ []) (h : ∀ e ∈ es, IsText e) :
    ∃ ts us, Scans (joinComma (AExpr.strL es)) ts ∧ Reads .list ts (.agg us) ∧
      ∀ W : World, W.Std → List.Forall₂ (Passes W) us es := by
  induction es with
  | nil => exact absurd rfl hn
  | cons e es ih =>
    obtain ⟨ts, t, h1, h2, h3⟩ := (h e (by simp)).passes
    cases es with
    | nil => exact ⟨ts, [t], by simpa only [AExpr.strL, joinComma] using h1, .one h2, fun W hW => .cons (h3 W hW) .nil⟩
    | cons e' es =>
      obtain ⟨vs, us, i1, i2, i3⟩ := ih (by simp) fun x hx => h x (List.mem_cons_of_mem _ hx)
      refine ⟨_, t :: us, ?_, (Reads.cons h2 i2), fun W hW => .cons (h3 W hW) (i3 W hW)⟩
      simp only [AExpr.strL, joinComma] at i1 ⊢
      exact (h1.append sep_comma i1).cast (by simp) (by simp)

theorem passes_values {W : World} {us : List Tree} {es : List AExpr} (h : List.Forall₂ (Passes W) us es) :
    us.map (fun a => a.value W) = es.map fun e => e.value W := by
  induction h with
  | nil => rfl
  | cons h _ ih => rw [List.map_cons, List.map_cons, h.1, ih]

theorem passes_passed {M : Machine} {s : M.State} {p : (M.world s).Ent} {us : List Tree} {es : List AExpr}
    (h : List.Forall₂ (Passes (M.world s)) us es) : ∀ i as, passed M s p i (es.map (AStmt.arg (M.world s))) = some as →
      passed M s p i (us.map fun a => (a.ent (M.world s), a.value (M.world s))) = some as := by
  induction h with
  | nil => exact fun _ _ h => h
  | @cons u e us es h _ ih =>
    intro i as hp
    simp only [List.map_cons, passed, AStmt.arg] at hp ⊢
    cases hr : passed M s p (i + 1) (es.map (AStmt.arg (M.world s))) with
    | none => rw [hr] at hp; split at hp <;> simp_all
    | some bs =>
      rw [ih _ _ hr, h.1]
      rw [hr] at hp
      by_cases ho : M.out s p i = true
      · by_cases hn : e.isName = true
        · rw [h.2 hn]
          simpa only [ho, hn, if_true] using hp
        · simp [ho, hn] at hp
      · simp only [if_neg ho] at hp ⊢
        exact hp

/-! ## Statements -/

/-- The statement has the effect `f` wherever that is defined. -/
def Does (t : STree) (f : (M : Machine) → M.State → Option (Outcome M.State)) : Prop :=
  ∀ M : Machine, (∀ s, (M.world s).Std) → ∀ s o, f M s = some o → t.exec M s = some o

/-- A text that can be read as a statement. -/
def SGood (c : SCat) (s : PyStr) (f : (M : Machine) → M.State → Option (Outcome M.State)) : Prop :=
  ∃ ts t, Piece s ts ∧ SReads c ts t ∧ Does t f

theorem SReads.cast {c : SCat} {ts ts' : List Tok} {t : STree} (h : SReads c ts t) (he : ts = ts') : SReads c ts' t := he ▸ h

theorem SGood.congr {c : SCat} {s s' : PyStr} {f g : (M : Machine) → M.State → Option (Outcome M.State)} (h : SGood c s f) (hs : s = s')
    (he : ∀ M s, f M s = g M s) : SGood c s' g := by
  have : f = g := by funext M s; exact he M s
  subst hs; subst this; exact h

theorem sgood_null : SGood .statement (AStmt.strF .null) (fun M s => AStmt.exec M s .null) := by
  refine ⟨[kw "null", .semi], .null, ?_, .null, fun M _ s o h => by simpa [AStmt.exec, STree.exec] using h⟩
  have : Scans ['n', 'u', 'l', 'l'] [word ['n', 'u', 'l', 'l']] := Scans.word (by decide) (by decide)
  rw [show word ['n', 'u', 'l', 'l'] = kw "null" by decide +kernel] at this
  exact (this.piece closes_semi).cast (by simp [AStmt.strF]) (by simp)

theorem sgood_assign {t e : AExpr} (ht : IsText t) (hn : t.isName = true) (he : IsText e) :
    SGood .statement (AStmt.strF (.assign t e)) (fun M s => AStmt.exec M s (.assign t e)) := by
  obtain ⟨ts, a, h1, h2, h3⟩ := ht.name hn
  obtain ⟨us, b, k1, k2, k3⟩ := he.good.expr
  refine ⟨_, .assign a b, ((h1.append sep_assign k1).piece closes_semi).cast (by simp [AStmt.strF]) rfl, (SReads.assign h2 k2).cast (by simp),
    fun M hM s o h => ?_⟩
  rw [STree.exec, h3 _ (hM s), k3 _ (hM s)]
  simpa only [AStmt.exec] using h

theorem sgood_call {i : ID} {args : List AExpr} (hi : Dotted i) (hn : args ≠ []) (h : ∀ e ∈ args, IsText e) :
    SGood .statement (AStmt.strF (.call i args)) (fun M s => AStmt.exec M s (.call i args)) := by
  obtain ⟨ts, a, h1, h2, h3⟩ := hi.good
  obtain ⟨us, as, k1, k2, k3⟩ := goodArgs hn h
  refine ⟨_, .call (.app a as), (((h1.append sep_apply k1).close closes_rpar).piece closes_semi).cast (by simp [AStmt.strF]) rfl,
    (SReads.call (Reads.apply h2 k2)).cast (by simp), fun M hM s o h => ?_⟩
  simp only [AStmt.exec, callTo, STree.exec, Tree.called] at h ⊢
  rw [h3 _ (hM s)]
  cases hp : path (M.world s) i.parts with
  | none => simp [hp] at h
  | some p =>
    simp only [hp, Option.bind_some] at h ⊢
    cases hq : passed M s p 0 (args.map (AStmt.arg (M.world s))) with
    | none => simp [hq] at h
    | some bs =>
      rw [passes_passed (k3 _ (hM s)) _ _ hq]
      rw [hq] at h
      exact h

theorem piece_pragma : Piece ['p', 'r', 'a', 'g', 'm', 'a', ' '] [kw "pragma"] :=
  piece_word (w := ['p', 'r', 'a', 'g', 'm', 'a']) (by decide) (by decide) (by decide +kernel) (.inl rfl)

theorem sgood_pragma {i : ID} {x : PyStr} {ps : List AExpr} (hi : i.parts = [x]) (hx : Word x) (h : ∀ e ∈ ps, IsText e) :
    SGood .statement (AStmt.strF (.pragma i ps)) (fun M s => AStmt.exec M s (.pragma i ps)) := by
  cases ps with
  | nil =>
    refine ⟨_, .pragma x.lower [], (piece_pragma.append (hx.scans.piece closes_semi)).cast (by simp [AStmt.strF, dotted, hi, joinDot]) rfl, .directive,
      fun M hM s o h => ?_⟩
    simpa [AStmt.exec, STree.exec, hi, joinDot] using h
  | cons p ps =>
    obtain ⟨us, as, k1, k2, k3⟩ := goodArgs (by simp) h
    refine ⟨_, .pragma x.lower as, (piece_pragma.append (((hx.scans.append sep_apply (k1.indentNext (x.length + 9))).close closes_rpar).piece closes_semi)).cast
      (by simp [AStmt.strF, dotted, hi, joinDot]) rfl, (SReads.pragma k2).cast (by simp), fun M hM s o h => ?_⟩
    simp only [AStmt.exec, STree.exec, hi, joinDot] at h ⊢
    rw [passes_values (k3 _ (hM s))]
    exact h

theorem piece_return : Piece ['r', 'e', 't', 'u', 'r', 'n', ' '] [kw "return"] :=
  piece_word (w := ['r', 'e', 't', 'u', 'r', 'n']) (by decide) (by decide) (by decide +kernel) (.inl rfl)

theorem sgood_ret {e : AExpr} (he : IsText e) : SGood .statement (AStmt.strF (.ret e)) (fun M s => AStmt.exec M s (.ret e)) := by
  rw [AStmt.strF]
  split
  · obtain ⟨us, b, k1, k2, k3⟩ := (he.good.expr.indentNext 8).paren
    refine ⟨_, .ret b, (piece_return.append (k1.piece closes_semi)).cast (by simp) rfl,
      (SReads.ret (.relation (.simple (.term (.factor (.primary k2)))))).cast (by simp), fun M hM s o h => ?_⟩
    rw [STree.exec, k3 _ (hM s)]
    simpa only [AStmt.exec] using h
  · obtain ⟨us, b, k1, k2, k3⟩ := he.good.expr.indentNext 7
    refine ⟨_, .ret b, (piece_return.append (k1.piece closes_semi)).cast (by simp) rfl, (SReads.ret k2).cast (by simp), fun M hM s o h => ?_⟩
    rw [STree.exec, k3 _ (hM s)]
    simpa only [AStmt.exec] using h

/-! ## Sequences -/

theorem andThen_some {S : Type} {x y : Option (Outcome S)} {f g : S → Option (Outcome S)} {o : Outcome S} (hx : ∀ o, x = some o → y = some o)
    (hf : ∀ s o, f s = some o → g s = some o) (h : andThen x f = some o) : andThen y g = some o := by
  cases hx' : x with
  | none => simp [hx', andThen] at h
  | some a =>
    rw [hx _ hx']
    rw [hx'] at h
    cases a with
    | next s => exact hf _ _ h
    | returned s v => exact h

theorem andThen_next {S : Type} (x : Option (Outcome S)) : andThen x (fun s => some (.next s)) = x := by
  cases x with
  | none => rfl
  | some a => cases a <;> rfl

theorem sgood_seq {l : List PyStr → PyStr} (hl : ∀ s r ss, ∀ ts us, Piece s ts → Piece (l (r :: ss)) us → Piece (l (s :: r :: ss)) (ts ++ us))
    (h1 : ∀ s ts, Piece s ts → Piece (l [s]) ts) {ss : List AStmt} (hn : ss ≠ [])
    (h : ∀ s ∈ ss, SGood .statement s.strF (fun M st => AStmt.exec M st s)) :
    SGood .sequence (l (AStmt.strs ss)) (fun M st => AStmt.execs M st ss) := by
  induction ss with
  | nil => exact absurd rfl hn
  | cons s ss ih =>
    obtain ⟨ts, t, g1, g2, g3⟩ := h s (by simp)
    cases ss with
    | nil =>
      refine ⟨ts, t, by simpa only [AStmt.strs] using h1 _ _ g1, .one g2, fun M hM st o ho => g3 M hM st o ?_⟩
      simpa only [AStmt.execs, andThen_next] using ho
    | cons r ss =>
      obtain ⟨us, u, k1, k2, k3⟩ := ih (by simp) fun x hx => h x (List.mem_cons_of_mem _ hx)
      refine ⟨ts ++ us, .seq t u, ?_, .seq g2 k2, fun M hM st o ho => ?_⟩
      · simp only [AStmt.strs] at k1 ⊢
        exact hl _ _ _ _ _ g1 k1
      · rw [STree.exec]
        have ho : AStmt.execs M st (s :: r :: ss) = some o := ho
        rw [AStmt.execs] at ho
        exact andThen_some (g3 M hM st) (fun s o => k3 M hM s o) ho

theorem sgood_joined {ss : List AStmt} (hn : ss ≠ []) (h : ∀ s ∈ ss, SGood .statement s.strF (fun M st => AStmt.exec M st s)) :
    SGood .sequence (joinLines (AStmt.strs ss)) (fun M st => AStmt.execs M st ss) :=
  sgood_seq (l := joinLines) (fun s r ss ts us hs hr => by
    rw [joinLines]
    exact (hs.append (Piece.nl.append hr)).cast (by simp) (by simp)) (fun s ts hs => by simpa only [joinLines] using hs) hn h

/-- The lines of a branch. -/
def lines : List PyStr → PyStr
  | [] => []
  | s :: ss => indent s 3 ++ '\n' :: lines ss

theorem strLines_eq (ss : List AStmt) : AStmt.strLines ss = lines (AStmt.strs ss) := by
  induction ss with
  | nil => rfl
  | cons s ss ih => rw [AStmt.strLines, AStmt.strs, lines, ih]

theorem sgood_lines {ss : List AStmt} (hn : ss ≠ []) (h : ∀ s ∈ ss, SGood .statement s.strF (fun M st => AStmt.exec M st s)) :
    SGood .sequence (AStmt.strLines ss) (fun M st => AStmt.execs M st ss) := by
  rw [strLines_eq]
  exact sgood_seq (l := lines) (fun s r ss ts us hs hr => by
    rw [lines]
    exact ((hs.indent 3).append (Piece.nl.append hr)).cast (by simp) (by simp)) (fun s ts hs => by
      simp only [lines]
      exact ((hs.indent 3).append Piece.nl).cast (by simp) (by simp)) hn h

/-! ## If statements -/

theorem sgood_endIf : SGood .otherwise ['e', 'n', 'd', ' ', 'i', 'f', ';'] (fun _ s => some (.next s)) :=
  ⟨_, .null, piece_endIf, .endIf, fun M _ s o h => by simpa [STree.exec] using h⟩

theorem sgood_else {s : PyStr} {f : (M : Machine) → M.State → Option (Outcome M.State)} (h : SGood .sequence s f) :
    SGood .otherwise (['e', 'l', 's', 'e', '\n'] ++ s ++ ['e', 'n', 'd', ' ', 'i', 'f', ';']) f := by
  obtain ⟨ts, t, h1, h2, h3⟩ := h
  have : Piece ['e', 'l', 's', 'e', '\n'] [.else_] :=
    piece_word (w := ['e', 'l', 's', 'e']) (by decide) (by decide) (by decide +kernel) (.inr rfl)
  exact ⟨_, t, ((this.append h1).append piece_endIf).cast rfl (by simp), .else_ h2, h3⟩

theorem branch_some {α : Type} {c : Option Val} {x y x' y' : Option α} {o : α} (hx : ∀ o, x = some o → x' = some o)
    (hy : ∀ o, y = some o → y' = some o) (h : branch c x y = some o) : branch c x' y' = some o := by
  unfold branch at h ⊢
  split at h
  · exact hx _ h
  · exact hy _ h
  · simp at h

theorem sgood_branch {c : AExpr} {s q : PyStr} {f g : (M : Machine) → M.State → Option (Outcome M.State)} (hc : IsText c)
    (hs : SGood .sequence s f) (hq : SGood .otherwise q g) :
    SGood .statement (['i', 'f'] ++ condText (c.strF false) ++ ['t', 'h', 'e', 'n', '\n'] ++ s ++ q) (fun M st => branch (c.value (M.world st)) (f M st) (g M st)) ∧
    SGood .otherwise (['e', 'l', 's', 'i', 'f'] ++ condText (c.strF false) ++ ['t', 'h', 'e', 'n', '\n'] ++ s ++ q)
      (fun M st => branch (c.value (M.world st)) (f M st) (g M st)) := by
  obtain ⟨as, a, a1, a2, a3⟩ := hc.good.expr
  obtain ⟨bs, b, b1, b2, b3⟩ := hs
  obtain ⟨cs, d, d1, d2, d3⟩ := hq
  have hd : Does (.ite a b d) (fun M st => branch (c.value (M.world st)) (f M st) (g M st)) := fun M hM st o h => by
    rw [STree.exec, a3 _ (hM st)]
    exact branch_some (b3 M hM st) (d3 M hM st) h
  constructor
  · have := ((piece_condition (w := ['i', 'f']) (by decide) (by decide) (by decide +kernel : _ = Tok.if_) a1).append b1).append d1
    exact ⟨_, .ite a b d, this, (SReads.ite a2 b2 d2).cast (by simp), hd⟩
  · have := ((piece_condition (w := ['e', 'l', 's', 'i', 'f']) (by decide) (by decide) (by decide +kernel : _ = Tok.elsif) a1).append b1).append d1
    exact ⟨_, .ite a b d, this, (SReads.elsif a2 b2 d2).cast (by simp), hd⟩

/-- The branches are right. -/
def ArmsGood (as : List (AExpr × List AStmt)) : Prop :=
  ∀ a ∈ as, IsText a.1 ∧ a.2 ≠ [] ∧ ∀ s ∈ a.2, SGood .statement s.strF (fun M st => AStmt.exec M st s)

theorem sgood_arms {as : List (AExpr × List AStmt)} (h : ArmsGood as) {q : PyStr} {g : (M : Machine) → M.State → Option (Outcome M.State)}
    (hq : SGood .otherwise q g) : SGood .otherwise (AStmt.strArms as ++ q) (fun M st => AStmt.execArms M st as (g M st)) := by
  induction as with
  | nil => exact hq.congr (by simp [AStmt.strArms]) fun M s => by rw [AStmt.execArms]
  | cons a as ih =>
    obtain ⟨c, ss⟩ := a
    obtain ⟨h1, h2, h3⟩ := h (c, ss) (by simp)
    have := (sgood_branch h1 (sgood_lines h2 h3) (ih fun x hx => h x (List.mem_cons_of_mem _ hx))).2
    exact this.congr (by simp [AStmt.strArms]) fun M s => by rw [AStmt.execArms]

theorem sgood_ife {arms : List (AExpr × List AStmt)} {elses : Option (List AStmt)} (hn : arms ≠ []) (h : ArmsGood arms)
    (he : ∀ ss, elses = some ss → ∀ s ∈ ss, SGood .statement s.strF (fun M st => AStmt.exec M st s)) :
    SGood .statement (AStmt.strF (.ife arms elses)) (fun M st => AStmt.exec M st (.ife arms elses)) := by
  obtain ⟨⟨c, ss⟩, as, rfl⟩ := List.exists_cons_of_ne_nil hn
  obtain ⟨h1, h2, h3⟩ := h (c, ss) (by simp)
  have has : ArmsGood as := fun x hx => h x (List.mem_cons_of_mem _ hx)
  cases elses with
  | none =>
    have := (sgood_branch h1 (sgood_lines h2 h3) (sgood_arms has sgood_endIf)).1
    exact this.congr (by simp [AStmt.strF]) fun M s => by simp only [AStmt.exec, AStmt.execArms]
  | some es =>
    cases es with
    | nil =>
      have := (sgood_branch h1 (sgood_lines h2 h3) (sgood_arms has sgood_endIf)).1
      exact this.congr (by simp [AStmt.strF]) fun M s => by simp only [AStmt.exec, AStmt.execArms, AStmt.execs]
    | cons e es =>
      have := (sgood_branch h1 (sgood_lines h2 h3) (sgood_arms has (sgood_else (sgood_lines (ss := e :: es) (by simp) (he _ rfl))))).1
      exact this.congr (by simp [AStmt.strF, AStmt.strLines]) fun M s => by simp only [AStmt.exec, AStmt.execArms]

/-! ## Equality -/

theorem eqb_isName (a b : AExpr) (h : AExpr.eqb a b = true) : a.isName = b.isName := by
  cases a <;> cases b <;> first | rfl | (simp [AExpr.eqb] at h; done) | (simp [AExpr.eqb] at h; simp [AExpr.isName, h])

theorem eqb_arg {W : World} {a b : AExpr} (h : AExpr.eqb a b = true) : AStmt.arg W a = AStmt.arg W b := by
  have := eqb_same a b h
  rw [AStmt.arg, AStmt.arg, eqb_isName a b h, this.value, this.ent]

theorem eqbL_args {W : World} : ∀ {as bs : List AExpr}, AExpr.eqbL as bs = true → as.map (AStmt.arg W) = bs.map (AStmt.arg W)
  | [], [], _ => rfl
  | [], _ :: _, h => by simp [AExpr.eqbL] at h
  | _ :: _, [], h => by simp [AExpr.eqbL] at h
  | a :: as, b :: bs, h => by
    simp only [AExpr.eqbL, Bool.and_eq_true] at h
    rw [List.map_cons, List.map_cons, eqb_arg h.1, eqbL_args h.2]

theorem eqbL_values {W : World} {as bs : List AExpr} (h : AExpr.eqbL as bs = true) :
    as.map (fun e => e.value W) = bs.map fun e => e.value W := by
  have := congrArg (List.map Prod.snd) (eqbL_args (W := W) h)
  simpa [AStmt.arg, Function.comp_def] using this

open AStmt in
mutual

theorem eqb_exec : ∀ (a b : AStmt), eqb a b = true → ∀ (M : Machine) (s : M.State), exec M s a = exec M s b
  | .null, x, h, M, s => by
    cases x <;> simp [eqb] at h
    rfl
  | .assign t e, x, h, M, s => by
    cases x <;> simp [eqb] at h
    rw [exec, exec, (eqb_same _ _ h.1).ent, (eqb_same _ _ h.2).value]
  | .call i as, x, h, M, s => by
    cases x <;> simp [eqb] at h
    rw [exec, exec, path_key h.1, eqbL_args h.2]
  | .pragma i as, x, h, M, s => by
    cases x <;> simp [eqb] at h
    rw [exec, exec, joinDot_key h.1, eqbL_values h.2]
  | .ret e, x, h, M, s => by
    cases x <;> simp [eqb] at h
    rw [exec, exec, (eqb_same _ _ h).value]
  | .ife as none, .ife as' none, h, M, s => by
    rw [eqb] at h
    simp only [exec]
    exact eqbP_arms _ _ h M s _
  | .ife as (some es), .ife as' (some es'), h, M, s => by
    rw [eqb, Bool.and_eq_true] at h
    simp only [exec]
    rw [eqbP_arms _ _ h.1 M s, eqbL_execs _ _ h.2 M s]
  | .ife _ none, .ife _ (some _), h, _, _ => by simp [eqb] at h
  | .ife _ (some _), .ife _ none, h, _, _ => by simp [eqb] at h
  | .ife _ none, .null, h, _, _ => by simp [eqb] at h
  | .ife _ none, .assign _ _, h, _, _ => by simp [eqb] at h
  | .ife _ none, .call _ _, h, _, _ => by simp [eqb] at h
  | .ife _ none, .pragma _ _, h, _, _ => by simp [eqb] at h
  | .ife _ none, .ret _, h, _, _ => by simp [eqb] at h
  | .ife _ none, .case _ _, h, _, _ => by simp [eqb] at h
  | .ife _ (some _), .null, h, _, _ => by simp [eqb] at h
  | .ife _ (some _), .assign _ _, h, _, _ => by simp [eqb] at h
  | .ife _ (some _), .call _ _, h, _, _ => by simp [eqb] at h
  | .ife _ (some _), .pragma _ _, h, _, _ => by simp [eqb] at h
  | .ife _ (some _), .ret _, h, _, _ => by simp [eqb] at h
  | .ife _ (some _), .case _ _, h, _, _ => by simp [eqb] at h
  | .case c as, x, h, M, s => by
    cases x <;> simp [eqb] at h
    rw [exec, exec, (eqb_same _ _ h.1).value]
    congr 1
    funext v
    exact eqbP_alts _ _ h.2 M s v

theorem eqbL_execs : ∀ (as bs : List AStmt), eqbL as bs = true → ∀ (M : Machine) (s : M.State), execs M s as = execs M s bs
  | [], [], _, _, _ => rfl
  | [], _ :: _, h, _, _ => by simp [eqbL] at h
  | _ :: _, [], h, _, _ => by simp [eqbL] at h
  | a :: as, b :: bs, h, M, s => by
    simp only [eqbL, Bool.and_eq_true] at h
    rw [execs, execs, eqb_exec a b h.1 M s]
    congr 1
    funext s'
    exact eqbL_execs as bs h.2 M s'

theorem eqbP_arms : ∀ (as bs : List (AExpr × List AStmt)), eqbP as bs = true → ∀ (M : Machine) (s : M.State) x, execArms M s as x = execArms M s bs x
  | [], [], _, _, _, _ => rfl
  | [], _ :: _, h, _, _, _ => by simp [eqbP] at h
  | _ :: _, [], h, _, _, _ => by simp [eqbP] at h
  | (c, ss) :: as, (c', ss') :: bs, h, M, s, x => by
    simp only [eqbP, Bool.and_eq_true] at h
    rw [execArms, execArms, (eqb_same _ _ h.1.1).value, eqbL_execs ss ss' h.1.2 M s, eqbP_arms as bs h.2 M s x]

theorem eqbP_alts : ∀ (as bs : List (AExpr × List AStmt)), eqbP as bs = true → ∀ (M : Machine) (s : M.State) v, execAlts M s v as = execAlts M s v bs
  | [], [], _, _, _, _ => rfl
  | [], _ :: _, h, _, _, _ => by simp [eqbP] at h
  | _ :: _, [], h, _, _, _ => by simp [eqbP] at h
  | (c, ss) :: as, (c', ss') :: bs, h, M, s, v => by
    simp only [eqbP, Bool.and_eq_true] at h
    rw [execAlts, execAlts, (eqb_same _ _ h.1.1).others, (eqb_same _ _ h.1.1).value, eqbL_execs ss ss' h.1.2 M s, eqbP_alts as bs h.2 M s v]

end

/-! ## Case statements -/

/-- The text after a choice: more choices, the statements, more alternatives. -/
def SBlock (s : PyStr) (key : List AStmt) (as : List (AExpr × List AStmt)) : Prop :=
  ∃ zs ws cs t next, Closes s (zs ++ ws) ∧ (∀ ts c, Reads .choice ts c → Reads .choices (ts ++ zs) (.agg (c :: cs))) ∧
    (∀ ts cs, Reads .choices ts (.agg cs) → SReads .alternatives (kw "when" :: ts ++ ws) (.alt cs t next)) ∧
    Does t (fun M s => AStmt.execs M s key) ∧
    ∀ M : Machine, (∀ s, (M.world s).Std) → ∀ s v o, AStmt.execAlts M s v as = some o → (STree.alt cs t next).select M s v = some o

/-- The text after a choice. -/
def safter (key : List AStmt × PyStr) : List (AExpr × List AStmt) → PyStr
  | [] => [' ', '=', '>', '\n'] ++ indent key.2 3
  | (c', ss') :: as' =>
    if AStmt.eqbL key.1 ss' then AStmt.strAlts (some key) ((c', ss') :: as')
    else [' ', '=', '>', '\n'] ++ indent key.2 3 ++ AStmt.strAlts none ((c', ss') :: as')

theorem sstrAlts_none {c : AExpr} {ss : List AStmt} {as : List (AExpr × List AStmt)} :
    AStmt.strAlts none ((c, ss) :: as) = ['\n', 'w', 'h', 'e', 'n', ' '] ++ c.strF false ++ safter (ss, joinLines (AStmt.strs ss)) as := by
  cases as with
  | nil => simp [AStmt.strAlts, safter]
  | cons a as => obtain ⟨a, b⟩ := a; rw [AStmt.strAlts]; simp [safter]

theorem sstrAlts_some {key : List AStmt × PyStr} {c : AExpr} {ss : List AStmt} {as : List (AExpr × List AStmt)} :
    AStmt.strAlts (some key) ((c, ss) :: as) = [' ', '|', ' '] ++ c.strF false ++ safter key as := by
  cases as with
  | nil => simp [AStmt.strAlts, safter]
  | cons a as => obtain ⟨a, b⟩ := a; rw [AStmt.strAlts]; simp [safter]

/-- What follows the choices. -/
def nextExec (M : Machine) (s : M.State) (v : Val) : Option STree → Option (Outcome M.State)
  | none => none
  | some a => a.select M s v

theorem sselect_alt {M : Machine} {s : M.State} {v : Val} {cs : List Tree} {t : STree} {next : Option STree} :
    (STree.alt cs t next).select M s v = branch ((Tree.covers (M.world s) v cs).map .bool) (t.exec M s) (nextExec M s v next) := by
  cases next <;> rw [STree.select] <;> rfl

theorem sselect_choice {c : AExpr} {ss : List AStmt} {t : Tree} {u : STree} {cs : List Tree} {next : Option STree}
    {as : List (AExpr × List AStmt)} {M : Machine} {s : M.State} {v : Val}
    (hc : (c.isOthers = true ∧ t = .others) ∨ (c.isOthers = false ∧ t ≠ .others ∧ t.value (M.world s) = c.value (M.world s)))
    (he : ∀ o, AStmt.execs M s ss = some o → u.exec M s = some o)
    (h : ∀ o, AStmt.execAlts M s v as = some o → (STree.alt cs u next).select M s v = some o) {o : Outcome M.State}
    (ho : AStmt.execAlts M s v ((c, ss) :: as) = some o) : (STree.alt (t :: cs) u next).select M s v = some o := by
  rw [AStmt.execAlts] at ho
  rcases hc with ⟨hoth, rfl⟩ | ⟨hoth, hn, hv⟩
  · rw [if_pos hoth] at ho
    simpa only [sselect_alt, Tree.covers, Option.map_some, branch] using he _ ho
  · rw [hoth] at ho
    rw [sselect_alt, covers_cons hn, hv]
    cases hx : c.value (M.world s) with
    | none => simp [hx] at ho
    | some x =>
      simp only [hx, Option.bind_some, Bool.false_eq_true, if_false] at ho ⊢
      by_cases hxv : x = v
      · simp only [hxv, if_true, Option.map_some, branch] at ho ⊢
        exact he _ ho
      · simp only [hxv, if_false] at ho ⊢
        have := h _ ho
        rwa [sselect_alt] at this

/-- The alternatives are right. -/
def AltsGood (as : List (AExpr × List AStmt)) : Prop :=
  ∀ a ∈ as, GoodChoice a.1 ∧ a.2 ≠ [] ∧ ∀ s ∈ a.2, SGood .statement s.strF (fun M st => AStmt.exec M st s)

theorem closes_when {s r : PyStr} {ts us : List Tok} (h : Scans s ts) (hr : Closes r us) :
    Closes (['\n', 'w', 'h', 'e', 'n', ' '] ++ s ++ r) (kw "when" :: ts ++ us) :=
  ⟨fun _ => (by decide : inWord '\n' = false), fun rest => by
    rw [List.append_assoc, List.append_assoc, sep_when.scan _ h.start.append, h.scan _ (hr.bnd _), hr.scan]; simp⟩

theorem closes_bar {s r : PyStr} {ts us : List Tok} (h : Scans s ts) (hr : Closes r us) :
    Closes ([' ', '|', ' '] ++ s ++ r) (.bar :: ts ++ us) :=
  ⟨fun _ => (by decide : inWord ' ' = false), fun rest => by
    rw [List.append_assoc, List.append_assoc, sep_bar.scan _ h.start.append, h.scan _ (hr.bnd _), hr.scan]; simp⟩

theorem salts_good {as : List (AExpr × List AStmt)} (h : AltsGood as) :
    (∀ key : List AStmt, key ≠ [] → (∀ s ∈ key, SGood .statement s.strF (fun M st => AStmt.exec M st s)) →
      SBlock (safter (key, joinLines (AStmt.strs key)) as) key as) ∧
    (as ≠ [] → ∃ us u, Closes (AStmt.strAlts none as) us ∧ SReads .alternatives us u ∧
      ∀ M : Machine, (∀ s, (M.world s).Std) → ∀ s v o, AStmt.execAlts M s v as = some o → u.select M s v = some o) := by
  induction as with
  | nil =>
    refine ⟨fun key hn hk => ?_, fun h => absurd rfl h⟩
    obtain ⟨ts, t, h1, h2, h3⟩ := sgood_joined hn hk
    refine ⟨[], .arrow :: ts, [], t, none, ?_, fun us c hc => by simpa using Reads.choice hc, fun us cs hc => (SReads.alt hc h2).cast (by simp), h3,
      fun M _ s v o ho => by simp [AStmt.execAlts] at ho⟩
    exact (closes_arrow.append (h1.indent 3)).cast (by simp [safter]) (by simp)
  | cons a as ih =>
    obtain ⟨c, ss⟩ := a
    obtain ⟨ih1, ih2⟩ := ih fun x hx => h x (List.mem_cons_of_mem _ hx)
    obtain ⟨⟨cts, ct, c1, c2, c3⟩, hss, he⟩ := h (c, ss) (by simp)
    have c3' : ∀ W : World, W.Std → (c.isOthers = true ∧ ct = .others) ∨ (c.isOthers = false ∧ ct ≠ .others ∧ ct.value W = c.value W) := fun W hW => by
      rcases c3 with c3 | ⟨x, y, z⟩
      · exact .inl c3
      · exact .inr ⟨x, y, z W hW⟩
    have second : ∃ us u, Closes (AStmt.strAlts none ((c, ss) :: as)) us ∧ SReads .alternatives us u ∧
        ∀ M : Machine, (∀ s, (M.world s).Std) → ∀ s v o, AStmt.execAlts M s v ((c, ss) :: as) = some o → u.select M s v = some o := by
      obtain ⟨zs, ws, cs, t, next, b1, b2, b3, b4, b5⟩ := ih1 ss hss he
      refine ⟨_, .alt (ct :: cs) t next, by rw [sstrAlts_none]; exact closes_when c1 b1, (b3 _ _ (b2 _ _ c2)).cast (by simp), fun M hM s v o ho => ?_⟩
      exact sselect_choice (c3' _ (hM s)) (b4 M hM s) (b5 M hM s v) ho
    refine ⟨fun key hn hk => ?_, fun _ => second⟩
    by_cases hs : AStmt.eqbL key ss = true
    · obtain ⟨zs, ws, cs, t, next, b1, b2, b3, b4, b5⟩ := ih1 key hn hk
      refine ⟨.bar :: cts ++ zs, ws, ct :: cs, t, next, ?_, fun ts c' hc => (Reads.choices hc (b2 _ _ c2)).cast (by simp), b3, b4, fun M hM s v o ho => ?_⟩
      · rw [safter, if_pos hs, sstrAlts_some]
        exact (closes_bar c1 b1).cast rfl (by simp)
      · exact sselect_choice (c3' _ (hM s)) (fun o ho => b4 M hM s o (by rw [← ho]; exact eqbL_execs _ _ hs M s)) (b5 M hM s v) ho
    · obtain ⟨ts, t, h1, h2, h3⟩ := sgood_joined hn hk
      obtain ⟨us, u, s1, s2, s3⟩ := second
      refine ⟨[], .arrow :: ts ++ us, [], t, some u, ?_, fun us c hc => by simpa using Reads.choice hc,
        fun us cs hc => (SReads.alts hc h2 s2).cast (by simp), h3, fun M hM s v o ho => ?_⟩
      · exact (closes_arrow.append ((h1.indent 3).append (fun r => s1.scan r))).cast (by simp [safter, hs]) (by simp)
      · have := s3 M hM s v o ho
        simpa [sselect_alt, Tree.covers, branch, nextExec] using this

theorem piece_case : Piece ['c', 'a', 's', 'e', ' '] [kw "case"] :=
  piece_word (w := ['c', 'a', 's', 'e']) (by decide) (by decide) (by decide +kernel) (.inl rfl)

theorem closes_sis {s : PyStr} {ts : List Tok} (h : Closes ('\n' :: s) ts) : Closes ([' ', 'i', 's'] ++ indent ('\n' :: s) 3) (kw "is" :: ts) := by
  refine ⟨fun _ => (by decide : inWord ' ' = false), fun rest => ?_⟩
  have hi : ∃ r, indent ('\n' :: s) 3 ++ rest = '\n' :: r := by
    rw [(indent_go ('\n' :: s)).1]
    exact ⟨indentGo 3 true s ++ rest, by simp [indentGo]⟩
  obtain ⟨r, hr'⟩ := hi
  have h1 : scan [] (indent ('\n' :: s) 3 ++ rest) = ts ++ scan [] rest := by rw [scan_indent, h.scan rest]
  rw [hr'] at h1
  simp only [List.cons_append, List.nil_append, hr', scan_space]
  rw [show 'i' :: 's' :: '\n' :: r = ['i', 's'] ++ '\n' :: r from rfl,
    scan_kw _ (t := kw "is") (by decide) (by decide) (by decide +kernel) (by decide), h1]

theorem sgood_case {c : AExpr} {as : List (AExpr × List AStmt)} (hc : IsText c) (hn : as ≠ []) (h : AltsGood as) :
    SGood .statement (AStmt.strF (.case c as)) (fun M s => AStmt.exec M s (.case c as)) := by
  obtain ⟨us, u, h1, h2, h3⟩ := (salts_good h).2 hn
  obtain ⟨ts, t, c1, c2, c3⟩ := hc.good.expr
  obtain ⟨s, hs⟩ : ∃ s, AStmt.strAlts none as = '\n' :: s := by
    obtain ⟨⟨a, b⟩, as, rfl⟩ := List.exists_cons_of_ne_nil hn
    exact ⟨_, by rw [sstrAlts_none]; rfl⟩
  rw [hs] at h1
  refine ⟨_, .case t u, ((piece_case.append (c1.piece (closes_sis h1))).append fun r => closes_endCase.scan r).cast (by simp [AStmt.strF, hs]) rfl,
    (SReads.case c2 h2).cast (by simp), fun M hM st o ho => ?_⟩
  simp only [AStmt.exec, STree.exec, c3 _ (hM st)] at ho ⊢
  cases hv : AExpr.value (M.world st) c with
  | none => simp [hv] at ho
  | some v =>
    simp only [hv, Option.bind_some] at ho ⊢
    exact h3 M hM st v o ho

/-! ## Induction -/

open AStmt in
mutual

theorem sgood : ∀ s : AStmt, s.WF → SGood .statement s.strF (fun M st => exec M st s)
  | .null, _ => sgood_null
  | .assign t e, h => by rw [WF] at h; exact sgood_assign (isText t h.1) h.2.1 (isText e h.2.2)
  | .call i args, h => by rw [WF] at h; exact sgood_call h.1 h.2.1 (isTextL args h.2.2)
  | .pragma i ps, h => by rw [WF] at h; obtain ⟨⟨x, hi, hx⟩, h2⟩ := h; exact sgood_pragma hi hx (isTextL ps h2)
  | .ret e, h => by rw [WF] at h; exact sgood_ret (isText e h)
  | .ife arms none, h => by
    simp only [WF] at h
    exact sgood_ife h.1 (sgoodP arms h.2.1) (fun ss hs => by simp at hs)
  | .ife arms (some es), h => by
    simp only [WF] at h
    have := sgoodL es h.2.2
    exact sgood_ife h.1 (sgoodP arms h.2.1) (fun ss hs => by cases hs; exact this)
  | .case c alts, h => by rw [WF] at h; exact sgood_case (isText c h.1) h.2.1 (sgoodA alts h.2.2)

theorem sgoodL : ∀ ss : List AStmt, WFL ss → ∀ s ∈ ss, SGood .statement s.strF (fun M st => exec M st s)
  | [], _, s, hs => by simp at hs
  | x :: xs, h, s, hs => by
    rw [WFL] at h
    have hx := sgood x h.1
    have hxs := sgoodL xs h.2
    rcases List.mem_cons.1 hs with rfl | hs
    · exact hx
    · exact hxs s hs

theorem sgoodP : ∀ as : List (AExpr × List AStmt), WFP as → ArmsGood as
  | [], _, a, ha => by simp at ha
  | (c, ss) :: xs, h, a, ha => by
    rw [WFP] at h
    have hss := sgoodL ss h.2.2.1
    have hxs := sgoodP xs h.2.2.2
    rcases List.mem_cons.1 ha with rfl | ha
    · exact ⟨isText c h.1, h.2.1, hss⟩
    · exact hxs a ha

theorem sgoodA : ∀ as : List (AExpr × List AStmt), WFA as → AltsGood as
  | [], _, a, ha => by simp at ha
  | (c, ss) :: xs, h, a, ha => by
    rw [WFA] at h
    have hc : GoodChoice c := by
      by_cases ho : c.isOthers = true
      · exact goodChoice_others ho
      · have hc := h.1.resolve_right ho
        exact (isText c hc).choice (by simpa using ho)
    have hss := sgoodL ss h.2.2.1
    have hxs := sgoodA xs h.2.2.2
    rcases List.mem_cons.1 ha with rfl | ha
    · exact ⟨hc, h.2.1, hss⟩
    · exact hxs a ha

end

end Verif.Ada
