import Verif.Ada.StmtMain
import Verif.Ada.Props

/-! # C64: the text of an Ada statement does what the statement stands for

The specification (`Ada/StmtGrammar.lean`) reads text as statements of Ada and gives their effect in an arbitrary machine. `AStmt.exec`
(`Ada/StmtValue.lean`) is the effect the object stands for. -/

namespace Verif.Ada
open Verif

/-! ## No exception -/

open AStmt in
mutual

theorem snot_raises : ∀ s : AStmt, s.WF → s.raises = none
  | .null, _ => rfl
  | .assign t e, h => by rw [WF] at h; rw [raises, not_raises t h.1, not_raises e h.2.2]; rfl
  | .call _ args, h => by rw [WF] at h; rw [raises, not_raisesL args h.2.2]
  | .pragma _ ps, h => by rw [WF] at h; rw [raises, not_raisesL ps h.2]
  | .ret e, h => by rw [WF] at h; rw [raises, not_raises e h]
  | .ife arms none, h => by simp only [WF] at h; simp only [raises, snot_raisesP arms h.2.1]; rfl
  | .ife arms (some es), h => by simp only [WF] at h; simp only [raises, snot_raisesP arms h.2.1, snot_raisesL es h.2.2]; rfl
  | .case c alts, h => by rw [WF] at h; rw [raises, snot_raisesC alts h.2.2, snot_raisesS alts h.2.2, not_raises c h.1]; rfl

theorem snot_raisesL : ∀ ss : List AStmt, WFL ss → raisesL ss = none
  | [], _ => rfl
  | s :: ss, h => by rw [WFL] at h; rw [raisesL, snot_raises s h.1, snot_raisesL ss h.2]; rfl

theorem snot_raisesP : ∀ as : List (AExpr × List AStmt), WFP as → raisesP as = none
  | [], _ => rfl
  | (c, ss) :: as, h => by rw [WFP] at h; rw [raisesP, not_raises c h.1, snot_raisesL ss h.2.2.1, snot_raisesP as h.2.2.2]; rfl

theorem snot_raisesC : ∀ as : List (AExpr × List AStmt), WFA as → raisesC as = none
  | [], _ => rfl
  | (c, ss) :: as, h => by
    rw [WFA] at h
    have hc : c.raises = none := by
      by_cases ho : c.isOthers = true
      · unfold AExpr.isOthers at ho
        split at ho
        · rfl
        · simp at ho
      · exact not_raises c (h.1.resolve_right ho)
    rw [raisesC, hc, snot_raisesC as h.2.2.2]; rfl

theorem snot_raisesS : ∀ as : List (AExpr × List AStmt), WFA as → raisesS as = none
  | [], _ => rfl
  | (c, ss) :: as, h => by rw [WFA] at h; rw [raisesS, snot_raisesL ss h.2.2.1, snot_raisesS as h.2.2.2]; rfl

end

/-! ## The property -/

/-- **C64.** Every statement built from names of Ada has a text; the text is a statement of Ada, it can be read in one way only, and it does what
the statement stands for in every machine and every state. -/
theorem C64_text_partial {st : AStmt} (h : st.WF) :
    ∃ x t, st.str = .ok x ∧ SReads .statement (elements x) t ∧ (∀ u, SReads .statement (elements x) u → u = t) ∧
      ∀ M : Machine, (∀ s, (M.world s).Std) → ∀ s o, st.exec M s = some o → t.exec M s = some o := by
  obtain ⟨ts, t, h1, h2, h3⟩ := sgood st h
  refine ⟨st.strF, t, by rw [AStmt.str, snot_raises st h], by rwa [h1.elements], fun u hu => ?_, h3⟩
  rw [h1.elements] at hu
  exact hu.unique h2

/-- **C64.** The texts of statements in successive lines, at any indentation, are a sequence of statements that does what the statements do one
after another. -/
theorem C64_sequence_partial {ss : List AStmt} (hn : ss ≠ []) (h : AStmt.WFL ss) (k : Nat) :
    ∃ t, SReads .sequence (elements (indent (joinLines (ss.map AStmt.strF)) k)) t ∧
      (∀ u, SReads .sequence (elements (indent (joinLines (ss.map AStmt.strF)) k)) u → u = t) ∧
      ∀ M : Machine, (∀ s, (M.world s).Std) → ∀ s o, AStmt.execs M s ss = some o → t.exec M s = some o := by
  obtain ⟨ts, t, h1, h2, h3⟩ := sgood_joined hn (sgoodL ss h)
  have hs : AStmt.strs ss = ss.map AStmt.strF := by
    clear hn h h1 h3
    induction ss with
    | nil => rfl
    | cons s ss ih => rw [AStmt.strs, List.map_cons, ih]
  rw [hs] at h1
  rw [(h1.indent k).elements]
  exact ⟨t, h2, fun u hu => hu.unique h2, h3⟩

/-- **C64.** Statements with the same text never have different effects. -/
theorem C64_same_text {a b : AStmt} (ha : a.WF) (hb : b.WF) (hs : a.str = b.str) {M : Machine} (hM : ∀ s, (M.world s).Std) {s : M.State}
    {o p : Outcome M.State} (ho : a.exec M s = some o) (hp : b.exec M s = some p) : o = p := by
  obtain ⟨x, t, h1, h2, _, h4⟩ := C64_text_partial ha
  obtain ⟨y, u, k1, _, k3, k4⟩ := C64_text_partial hb
  rw [h1, k1] at hs
  cases hs
  have := h4 M hM s o ho
  rw [k3 t h2, k4 M hM s p hp] at this
  exact (Option.some.inj this).symm

/-- **C64.** An assignment to an identifier reads `name := expression;`, it is among the statements whose text is claimed to be right, and it
changes what the name denotes to the value of the expression. -/
theorem C64_assignment {i : ID} {e : AExpr} (hi : Dotted i) (he : e.WF) :
    (mkAssign i e).WF ∧ (∀ y, e.str = .ok y → (mkAssign i e).str = .ok (dotted i ++ " := ".toList ++ y ++ ";".toList)) ∧
      ∀ (M : Machine) (s : M.State) n v, (AExpr.var false i).ent (M.world s) = some n → e.value (M.world s) = some v →
        (mkAssign i e).exec M s = (M.assign s n v).map .next := by
  have hw : (mkAssign i e).WF := by
    rw [mkAssign, AStmt.WF]
    exact ⟨by rw [AExpr.WF]; exact hi, rfl, he⟩
  refine ⟨hw, fun y hy => ?_, fun M s n v hn hv => ?_⟩
  · rw [AExpr.str, not_raises e he] at hy
    cases hy
    rw [AStmt.str, snot_raises _ hw]
    simp [mkAssign, AStmt.strF, AExpr.strF, wrapNeg]
  · rw [mkAssign, AStmt.exec, hn, hv]
    rfl

/-- **C64.** The grammar of statements is unambiguous. -/
theorem C64_unambiguous {c : SCat} {ts : List Tok} {t u : STree} (ht : SReads c ts t) (hu : SReads c ts u) : t = u := ht.unique hu

/-! ## Examples -/

/-- A machine with integer variables: the procedure `decrement` subtracts one from a variable, `pragma Assert` requires a true argument. -/
def exMachine : Machine where
  State := List (PyStr × Int)
  world s :=
    { Ent := PyStr
      id := fun x => x
      sel := fun n _ => n
      attr := fun n _ => n
      app := fun n _ => n
      slice := fun n _ _ => n
      record := fun _ => []
      lit := fun _ => []
      val := fun n => if n = "true".toList then some (.bool true) else if n = "false".toList then some (.bool false) else (s.lookup n).map .int }
  out _ _ i := i == 0
  assign s n v := match v with | .int i => some ((n, i) :: s) | _ => none
  call s _ as := match as with | [.var n] => (s.lookup n).map fun v => (n, v - 1) :: s | _ => none
  pragma s _ as := match as with | [some (.bool true)] => some s | _ => none

theorem exMachine_std (s : exMachine.State) : (exMachine.world s).Std :=
  ⟨by simp [exMachine], by simp [exMachine]⟩

/-- An `if` statement with three branches, the last one a case statement with an alternative for two choices. -/
def exStmt : AStmt :=
  .ife
    [(.bool .andThen [.rel .gt exX (.num 5 .b0), .rel .lt exX (.num 9 .b0)], [.call ⟨["Decrement".toList]⟩ [exX], .assign exX (.add [exX, .num 7 .b0])]),
     (.rel .gt exX (.num 4 .b0), [.null])]
    (some [.case exX
      [(.num 1 .b0, [.pragma ⟨["Assert".toList]⟩ [.rel .gt exX (.num 0 .b0)], .ret exX]),
       (.num 2 .b0, [.pragma ⟨["Assert".toList]⟩ [.rel .gt exX (.num 0 .b0)], .ret exX]),
       (.var false ⟨["others".toList]⟩, [.assign exX (.num 3 .b0)])]])

theorem exStmt_WF : exStmt.WF := by
  have hX : Dotted ⟨[['X']]⟩ := by decide +kernel
  have hD : Dotted ⟨["Decrement".toList]⟩ := by decide +kernel
  have hA : Word ['A', 's', 's', 'e', 'r', 't'] := by decide +kernel
  have hv : (AExpr.var false ⟨["others".toList]⟩).isOthers = true := by decide +kernel
  simp only [exStmt, exX, AStmt.WF, AStmt.WFL, AStmt.WFP, AStmt.WFA, AExpr.WF, AExpr.WFL, AExpr.headOK, AExpr.isName, AExpr.prec, AExpr.hasPrec, hX, hD, hv]
  simp [AExpr.prec, AExpr.hasPrec, hA]

example : (mkAssign ⟨["P".toList, "X".toList]⟩ (.add [exX, .num 7 .b0])).str = .ok "P.X := X + 7;".toList :=
  (C64_assignment (by decide +kernel) (by
    have hX : Dotted ⟨[['X']]⟩ := by decide +kernel
    simp [exX, AExpr.WF, AExpr.WFL, AExpr.headOK, AExpr.prec, AExpr.hasPrec, hX])).2.1 "X + 7".toList (by with_unfolding_all rfl)

/-- Its text. -/
example : (match exStmt.str with
    | .ok s => decide (s = ("if\n  X > 5\n  and then X < 9\nthen\n   Decrement (X);\n   X := X + 7;\nelsif X > 4 then\n   null;\nelse\n" ++
        "   case X is\n      when 1 | 2 =>\n         pragma Assert (X > 0);\n         return X;\n      when others =>\n         X := 3;\n   end case;\nend if;").toList)
    | .error _ => false) = true := by
  decide +kernel

/-- Its effects: the first branch, and the merged alternative. -/
example : exStmt.exec exMachine [(['x'], 6)] = some (.next [(['x'], 12), (['x'], 5), (['x'], 6)]) ∧
    exStmt.exec exMachine [(['x'], 2)] = some (.returned [(['x'], 2)] (.int 2)) := by
  constructor <;> with_unfolding_all rfl

/-! ## Where the text is wrong -/

/-- A call without arguments is printed with empty parentheses (`rflx/ada.py:1315-1317`): that is no statement of Ada. -/
theorem C64_call_counterexample {x : PyStr} (hx : Word x) :
    (AStmt.call ⟨[x]⟩ []).str = .ok (x ++ " ();".toList) ∧ ∀ t, ¬ SReads .statement (elements (x ++ " ();".toList)) t := by
  refine ⟨by simp [AStmt.str, AStmt.raises, AExpr.raisesL, AStmt.strF, AExpr.strL, joinComma, dotted, joinDot], fun t h => ?_⟩
  have he : elements (x ++ " ();".toList) = [.ident x.lower, .lpar, .rpar, .semi] := by
    have : Closes [' ', '(', ')', ';'] [.lpar, .rpar, .semi] :=
      ⟨fun _ => (by decide : inWord ' ' = false), fun s => by
        simp only [List.cons_append, List.nil_append, scan_space, scan_lpar, scan_rpar, scan_semi]⟩
    exact (hx.scans.piece this).elements
  rw [he] at h
  rcases inv_name (r := []) h (by simp; exact ⟨rfl, rfl⟩) with ⟨ns, vs, n, e, h1, h2, rfl, h3⟩ | ⟨ns, n, h1, rfl, h3⟩
  · have := congrArg (fun l => l.contains Tok.assign) h3
    simp at this
  · have h4 : ns = [.ident x.lower, .lpar, .rpar] := by
      have : [.ident x.lower, .lpar, .rpar] ++ [.semi] = ns ++ [Tok.semi] := by simpa using h3
      exact (List.append_cancel_right this).symm
    subst h4
    generalize hl : [Tok.ident x.lower, .lpar, .rpar] = l at h1
    cases h1 with
    | ident => simp at hl
    | selected _ => simp [List.append_eq_cons_iff, List.cons_eq_append_iff] at hl
    | dereference _ => simp [List.append_eq_cons_iff, List.cons_eq_append_iff] at hl
    | «attribute» _ => simp [List.append_eq_cons_iff, List.cons_eq_append_iff] at hl
    | range _ => simp [List.append_eq_cons_iff, List.cons_eq_append_iff] at hl
    | apply a b =>
      obtain ⟨_, _, rfl⟩ := name_first a
      obtain ⟨_, _, rfl, _⟩ := (fit b).2
      have := congrArg List.length hl
      simp at this
      omega
    | slice a b c =>
      obtain ⟨_, _, rfl⟩ := name_first a
      have := congrArg List.length hl
      simp at this
      omega

/-- A branch without statements is printed as such (`rflx/ada.py:1364-1365`): that is no statement of Ada, which requires `null`. -/
theorem C64_branch_counterexample {c : AExpr} (hc : c.WF) :
    ∃ x, (AStmt.ife [(c, [])] none).str = .ok x ∧ ∀ t, ¬ SReads .statement (elements x) t := by
  refine ⟨(AStmt.ife [(c, [])] none).strF, ?_, fun t h => ?_⟩
  · simp only [AStmt.str, AStmt.raises, AStmt.raisesP, AStmt.raisesL, not_raises c hc]; rfl
  · obtain ⟨ts, a, h1, h2, h3⟩ := (isText c hc).good.expr
    have he : elements (AStmt.ife [(c, [])] none).strF = .if_ :: (ts ++ .then_ :: [kw "end", .if_, .semi]) := by
      have := ((piece_condition (w := ['i', 'f']) (by decide) (by decide) (by decide +kernel : _ = Tok.if_) h1).append piece_endIf)
      rw [(this.cast (s' := (AStmt.ife [(c, [])] none).strF) (by simp [AStmt.strF, AStmt.strLines, AStmt.strArms]) rfl).elements]
      simp
    rw [he] at h
    obtain ⟨as, ss, vs, c', t', e', g1, g2, g3, rfl, g4⟩ := inv_ite (r := []) (w := ts ++ [.then_, kw "end", .if_, .semi]) h (by simp)
    obtain ⟨_, _, g5⟩ := expr_prefix (k := .then_) (k' := .then_) (r := [kw "end", .if_, .semi]) h2 g1 rfl rfl g4
    obtain ⟨k, w, rfl, hk⟩ := statement_first g2 (.inr rfl)
    simp at g5
    rw [← g5.1] at hk
    simp [opening, kw] at hk

/-- An `if` statement without branches and a case statement without alternatives are no statements of Ada either. -/
theorem C64_empty_counterexample {c : AExpr} (hc : c.WF) :
    (AStmt.ife [] none).str = .ok "end if;".toList ∧ (∀ t, ¬ SReads .statement (elements "end if;".toList) t) ∧
      ∃ x, (AStmt.case c []).str = .ok x ∧ ∀ t, ¬ SReads .statement (elements x) t := by
  refine ⟨by with_unfolding_all rfl, fun t h => ?_, (AStmt.case c []).strF, ?_, fun t h => ?_⟩
  · rw [show elements "end if;".toList = [kw "end", .if_, .semi] by decide +kernel] at h
    obtain ⟨k, w, hw, hk⟩ := statement_first h (.inl rfl)
    simp at hw
    rw [← hw.1] at hk
    simp [opening, kw] at hk
  · simp only [AStmt.str, AStmt.raises, AStmt.raisesC, AStmt.raisesS, not_raises c hc]; rfl
  · obtain ⟨ts, a, h1, h2, h3⟩ := (isText c hc).good.expr
    have he : elements (AStmt.case c []).strF = kw "case" :: (ts ++ kw "is" :: [kw "end", kw "case", .semi]) := by
      have hi : Closes [' ', 'i', 's', '\n', 'e', 'n', 'd', ' ', 'c', 'a', 's', 'e', ';'] [kw "is", kw "end", kw "case", .semi] := by
        refine ⟨fun _ => (by decide : inWord ' ' = false), fun r => ?_⟩
        have := scan_kw ['i', 's'] (t := kw "is") (c := '\n') (s := ['e', 'n', 'd', ' ', 'c', 'a', 's', 'e', ';'] ++ r) (by decide) (by decide)
          (by decide +kernel) (by decide)
        have h4 := closes_endCase.scan r
        simp only [List.cons_append, List.nil_append, scan_space] at this h4 ⊢
        rw [this, h4]
      have := piece_case.append (h1.piece hi)
      rw [(this.cast (s' := (AStmt.case c []).strF) (by simp [AStmt.strF, AStmt.strAlts, show indent [] 3 = [] from rfl]) rfl).elements]
      simp
    rw [he] at h
    obtain ⟨as, ss, c', a', g1, g2, rfl, g4⟩ := inv_case (r := []) (w := ts ++ [kw "is", kw "end", kw "case", .semi]) h (by simp)
    obtain ⟨_, _, g5⟩ := expr_prefix (k := kw "is") (k' := kw "is") (r := [kw "end", kw "case", .semi]) h2 g1 rfl rfl g4
    obtain ⟨w, rfl⟩ := alternatives_when g2
    simp [kw] at g5

end Verif.Ada
