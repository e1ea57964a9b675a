import Verif.Ada.Main
import Verif.Ada.Parse

/-! # C50: the text of an Ada expression means what the expression means

`rflx/ada.py` turns expressions into text. The specification (`Ada/Grammar.lean`) reads text as Ada: lexical elements, the syntax of
expressions with its precedences, values in an arbitrary world of names. `AExpr.value` (`Ada/Value.lean`) is the meaning of the object. -/

namespace Verif.Ada
open Verif

/-! ## No exception -/

open AExpr in
mutual

theorem not_raises : ∀ e : AExpr, e.WF → e.raises = none
  | .num _ _, _ => rfl
  | .var _ _, _ => rfl
  | .attr _ _ pre, h => by rw [WF] at h; rw [raises, not_raises pre h.1]
  | .fn _ pre e, h => by rw [WF] at h; rw [raises, not_raises pre h.1, not_raises e h.2.2]; rfl
  | .indexed _ pre es, h => by rw [WF] at h; rw [raises, not_raises pre h.1, not_raisesL es h.2.2.2]; rfl
  | .sel _ pre _, h => by rw [WF] at h; rw [raises, not_raises pre h.1]
  | .call _ _ args, h => by rw [WF] at h; rw [raises, not_raisesL args h.2]
  | .slice pre lo hi, h => by
    rw [WF] at h; rw [raises, not_raises pre h.1, not_raises lo h.2.2.1, not_raises hi h.2.2.2.1]; rfl
  | .not e, h => by rw [WF] at h; rw [raises, not_raises e h.1, operand, h.2]; rfl
  | .bool _ ts, h => by rw [WF] at h; rw [raises, not_raisesR ts h.1 h.2.2]
  | .add [], h => by rw [WF, headOK] at h; exact h.2.1.elim
  | .add (t :: ts), h => by
    rw [WF, WFL] at h
    rw [raises]
    simp only [not_raises t h.1.1, not_raisesO ts h.1.2 fun x hx => h.2.2 x (List.mem_cons_of_mem _ hx)]
    rfl
  | .mul ts, h => by rw [WF] at h; rw [raises, not_raisesO ts h.1 h.2.2]
  | .bin _ l r, h => by rw [WF] at h; rw [raises, not_raises l h.1, not_raises r h.2.1, operand, operand, h.2.2.1, h.2.2.2]; rfl
  | .rel _ l r, h => by rw [WF] at h; rw [raises, not_raises l h.1, not_raises r h.2.1, operand, operand, h.2.2.2.1, h.2.2.2.2]; rfl
  | .agg es, h => by rw [WF] at h; rw [raises, not_raisesL es h.1]
  | .named es, h => by rw [WF] at h; rw [raises, not_raisesN es h.2]
  | .ife arms none, h => by rw [WF] at h; rw [raises, not_raisesP arms h.2.1]; rfl
  | .ife arms (some e), h => by rw [WF] at h; rw [raises, not_raisesP arms h.2.1]; simp only [not_raises e h.2.2]; rfl
  | .case c as, h => by rw [WF] at h; rw [raises, not_raisesC as h.2.2, not_raisesE as h.2.2, not_raises c h.1]; rfl
  | .quant _ _ it pr, h => by rw [WF] at h; rw [raises, not_raises it h.1, not_raises pr h.2.2.1]; rfl
  | .quantR _ _ lo hi pr, h => by
    rw [WF] at h; rw [raises, not_raises lo h.1, not_raises hi h.2.1, not_raises pr h.2.2.2.2.2.1]; rfl
  | .conv _ e, h => by rw [WF] at h; rw [raises, not_raises e h.2]

theorem not_raisesL : ∀ es : List AExpr, WFL es → raisesL es = none
  | [], _ => rfl
  | e :: es, h => by rw [WFL] at h; rw [raisesL, not_raises e h.1, not_raisesL es h.2]; rfl

theorem not_raisesO : ∀ es : List AExpr, WFL es → (∀ e ∈ es, e.hasPrec = true) → raisesO es = none
  | [], _, _ => rfl
  | e :: es, h, hp => by
    rw [WFL] at h
    rw [raisesO, not_raises e h.1, not_raisesO es h.2 fun x hx => hp x (List.mem_cons_of_mem _ hx), operand, hp e (by simp)]
    rfl

theorem not_raisesR : ∀ es : List AExpr, WFL es → (∀ e ∈ es, e.hasPrec = true) → raisesR es = none
  | [], _, _ => rfl
  | e :: es, h, hp => by
    rw [WFL] at h
    rw [raisesR, not_raises e h.1, not_raisesR es h.2 fun x hx => hp x (List.mem_cons_of_mem _ hx), operand, hp e (by simp)]
    rfl

theorem not_raisesP : ∀ as : List (AExpr × AExpr), WFP as → raisesP as = none
  | [], _ => rfl
  | (c, e) :: as, h => by rw [WFP] at h; rw [raisesP, not_raises c h.1, not_raises e h.2.1, not_raisesP as h.2.2]; rfl

theorem not_raisesC : ∀ as : List (AExpr × AExpr), WFA as → raisesC as = none
  | [], _ => rfl
  | (c, e) :: as, h => by
    rw [WFA] at h
    have hc : c.raises = none := by
      by_cases ho : c.isOthers = true
      · unfold isOthers at ho
        split at ho
        · rfl
        · simp at ho
      · exact not_raises c (h.1.resolve_right ho)
    rw [raisesC, hc, not_raisesC as h.2.2]; rfl

theorem not_raisesE : ∀ as : List (AExpr × AExpr), WFA as → raisesE as = none
  | [], _ => rfl
  | (c, e) :: as, h => by rw [WFA] at h; rw [raisesE, not_raises e h.2.1, not_raisesE as h.2.2]; rfl

theorem not_raisesN : ∀ es : List (ID × AExpr), WFN es → raisesN es = none
  | [], _ => rfl
  | (_, e) :: es, h => by rw [WFN] at h; rw [raisesN, not_raises e h.2.1, not_raisesN es h.2.2]; rfl

end

/-! ## The property -/

/-- **C50.** Every expression built from names of Ada has a text; the text is an expression of Ada, it can be read in one way only, and it has
the value of the expression, whatever the names mean. -/
theorem C50_text_partial {e : AExpr} (h : e.WF) :
    ∃ s t, e.str = .ok s ∧ Reads .expression (elements s) t ∧ (∀ u, Reads .expression (elements s) u → u = t) ∧
      ∀ W : World, W.Std → t.value W = e.value W := by
  obtain ⟨ts, t, h1, h2, h3⟩ := (isText e h).good.expr
  refine ⟨e.strF false, t, ?_, ?_, fun u hu => ?_, h3⟩
  · rw [AExpr.str, not_raises e h]
  · rwa [h1.elements]
  · rw [h1.elements] at hu
    exact hu.unique h2

/-- **C50.** Expressions with the same text have the same value. -/
theorem C50_same_text {e e' : AExpr} (h : e.WF) (h' : e'.WF) (hs : e.str = e'.str) {W : World} (hW : W.Std) : e.value W = e'.value W := by
  obtain ⟨s, t, h1, h2, _, h4⟩ := C50_text_partial h
  obtain ⟨s', t', h1', _, h3', h4'⟩ := C50_text_partial h'
  rw [h1, h1'] at hs
  cases hs
  rw [← h4 W hW, ← h4' W hW, h3' t h2]

/-- **C50.** The grammar of expressions is unambiguous: no sequence of lexical elements is read as two expressions. -/
theorem C50_unambiguous {ts : List Tok} {t u : Tree} (ht : Reads .expression ts t) (hu : Reads .expression ts u) : t = u := ht.unique hu

/-- **C50.** Indentation (`rflx/common.py:59-64`) does not change what a text means: its lexical elements stay the same. -/
theorem C50_indentation (s : PyStr) (k : Nat) : elements (indent s k) = elements s ∧ elements (indentNext s k) = elements s := by
  have h1 := scan_indent (s := s) (rest := []) (k := k)
  have h2 := scan_indentNext (s := s) (rest := []) (k := k)
  simp only [List.append_nil] at h1 h2
  exact ⟨h1, h2⟩

/-- **C50.** Leaving out a true condition (`If`, `rflx/ada.py:571-575`) does not change the value. -/
theorem C50_if (arms : List (AExpr × AExpr)) (els : Option AExpr) {W : World} (hW : W.Std) :
    (AExpr.mkIf arms els).value W = (AExpr.ife arms els).value W := by
  unfold AExpr.mkIf
  split
  · next c e =>
    split
    · next hc =>
      have hi : ∃ v, (AExpr.ife [(c, e)] els).value W = condVal (c.value W) (e.value W) (some v) := by
        cases els with
        | none => exact ⟨_, by rw [AExpr.value, AExpr.condVals]⟩
        | some d => exact ⟨_, by rw [AExpr.value, AExpr.condVals]⟩
      obtain ⟨v, hi⟩ := hi
      unfold AExpr.isTrue at hc
      split at hc
      · next i =>
        have : (AExpr.var false i).value W = some (.bool true) := by
          rw [AExpr.value, path_key hc]
          exact hW.tru
        rw [hi, this]
        rfl
      · simp at hc
    · rfl
  · rfl

/-- **C50.** Leaving out a case with `others` only (`Case`, `rflx/ada.py:603-608`) does not change the value. -/
theorem C50_case (c : AExpr) (alts : List (AExpr × AExpr)) {W : World} (hc : (c.value W).isSome) :
    (AExpr.mkCase c alts).value W = (AExpr.case c alts).value W := by
  unfold AExpr.mkCase
  split
  · next x e =>
    split
    · next hx =>
      obtain ⟨v, hv⟩ := Option.isSome_iff_exists.mp hc
      simp only [AExpr.value, hv, Option.bind_some, AExpr.caseVals, hx, if_true]
    · rfl
  · rfl

/-! ## Examples -/

/-- The name `X`. -/
def exX : AExpr := .var false ⟨[['X']]⟩

/-- `X'Last - 3 * (X - 1)`, `(if X > 0 then F (X, -1) elsif True then X'Pos (..) else ..)`, ... combined. -/
def exAda : AExpr :=
  .bool .andThen
    [.rel .ge (.add [.attr false .last exX, .num (-3) .b0, .mul [.num 255 .b16, .add [exX, .var true ⟨[['P'], ['Y']]⟩]]]) (.bin .sub exX (.bin .sub exX (.num 1 .b0))),
     .bool .orElse [.not (.rel .eq exX (.num 1 .b0)), .rel .isIn exX (.attr false .range (.var false ⟨[['P'], ['T']]⟩))],
     .rel .eq (.ife [(.rel .gt exX (.num 0 .b0), .call true ⟨[['F']]⟩ [exX, .num (-1) .b0]), (.not exX, .fn .pos exX (.num 2 .b2))]
       (some (.bin .pow (.num 2 .b0) (.bin .mod exX (.num 8 .b0))))) (.conv ⟨[['P'], ['T']]⟩ (.slice exX (.num 1 .b0) (.attr false .last exX))),
     .quant .allIn ⟨[['I']]⟩ (.attr false .range exX) (.rel .ne (.indexed false exX [.var false ⟨[['I']]⟩]) (.agg [exX, .sel false exX ⟨[['A']]⟩]))]

example : exAda.WF := by
  have hX : Dotted ⟨[['X']]⟩ := by decide +kernel
  have hI : Dotted ⟨[['I']]⟩ := by decide +kernel
  have hA : Dotted ⟨[['A']]⟩ := by decide +kernel
  have hF : Dotted ⟨[['F']]⟩ := by decide +kernel
  have hT : Dotted ⟨[['P'], ['T']]⟩ := by decide +kernel
  have hY : Dotted ⟨[['P'], ['Y']]⟩ := by decide +kernel
  simp only [exAda, exX, AExpr.WF, AExpr.WFL, AExpr.WFP, AExpr.headOK, AExpr.isName, AExpr.prec, hX, hI, hA, hF, hT, hY]
  simp [arithPrec]
  decide +kernel

/-- A choice by cases with an alternative for two choices, an aggregate with named components, a quantified expression over a range and a
dereferenced name combined. -/
def exCase : AExpr :=
  .bool .and
    [.rel .eq
      (.case (.sel false exX ⟨[['A'], ['a', 'l', 'l']]⟩)
        [(exX, .num 1 .b0), (.num 2 .b0, .num 1 .b0), (.attr false .last exX, .call false ⟨[['F']]⟩ [.named [(⟨[['A']]⟩, exX), (⟨["others".toList]⟩, .num 0 .b0)]]),
         (.var false ⟨["others".toList]⟩, .num 3 .b0)])
      (.num 1 .b0),
     .quantR .allIn ⟨[['I']]⟩ (.num 1 .b0) (.add [exX, .num 1 .b0]) (.rel .gt (.var false ⟨[['I']]⟩) (.num 0 .b0))]

theorem exCase_WF : exCase.WF := by
  have hX : Dotted ⟨[['X']]⟩ := by decide +kernel
  have hI : Dotted ⟨[['I']]⟩ := by decide +kernel
  have hF : Dotted ⟨[['F']]⟩ := by decide +kernel
  have hA : Part ['A'] := by decide +kernel
  have hl : Part ['a', 'l', 'l'] := by decide +kernel
  have hs : AExpr.Selector ⟨[['A']]⟩ := ⟨_, rfl, .inl (by decide +kernel)⟩
  have ho : AExpr.Selector ⟨["others".toList]⟩ := ⟨_, rfl, .inr (by decide +kernel)⟩
  have hv : (AExpr.var false ⟨["others".toList]⟩).isOthers = true := by decide +kernel
  simp only [exCase, exX, AExpr.WF, AExpr.WFL, AExpr.WFA, AExpr.WFN, AExpr.headOK, AExpr.isName, AExpr.prec, AExpr.hasPrec, hX, hI, hF, hs, ho, hv]
  simp [arithPrec, hA, hl, AExpr.prec, AExpr.hasPrec]
  decide +kernel

/-- Its text: the first two alternatives have the same expression and are printed as one. -/
example : (match exCase.str with
    | .ok s => decide (s = "(case X.A.all is\n    when X | 2 =>\n       1,\n    when X'Last =>\n       F ((A => X, others => 0)),\n".toList ++
        "    when others =>\n       3) = 1\nand (for all I in 1 .. X + 1 =>\n        I > 0)".toList)
    | .error _ => false) = true := by
  decide +kernel

/-- The text of a small expression. -/
example : (AExpr.add [.num 1 .b0, .var true ⟨[['X']]⟩, .mul [.num 16 .b16, .add [exX, .num (-2) .b0]]]).str = .ok "1 - X + 16#10# * (X - 2)".toList := by
  with_unfolding_all rfl

/-! ## Where the text is wrong -/

/-- The parameter `negative` of `Val` and `Pos` has no effect (`rflx/ada.py:386-391`). -/
theorem C50_negative_counterexample :
    ∃ pre e, pre.WF ∧ pre.isName = true ∧ e.WF ∧ (AExpr.mkFn .pos pre e true).str = .ok "X'Pos (1)".toList ∧
      (AExpr.mkFn .pos pre e false).str = .ok "X'Pos (1)".toList ∧
      ∃ W : World, W.Std ∧ (AExpr.mkFn .pos pre e true).value W ≠ negVal ((AExpr.mkFn .pos pre e false).value W) := by
  refine ⟨exX, .num 1 .b0, by simp only [exX, AExpr.WF]; decide +kernel, rfl, by simp [AExpr.WF], by with_unfolding_all rfl, by with_unfolding_all rfl, ?_⟩
  refine ⟨⟨PyStr, fun x => x, fun n _ => n, fun n _ => n, fun n _ => n, fun n _ _ => n, fun _ => [], fun _ => [],
    fun n => if n = "true".toList then some (.bool true) else if n = "false".toList then some (.bool false) else some (.int 1)⟩,
    ⟨by decide +kernel, by decide +kernel⟩, ?_⟩
  simp only [AExpr.mkFn, exX, AExpr.value, AExpr.ent, path, selPath, List.foldl_nil, Option.map_some, appEnt, Option.bind_some]
  decide +kernel

/-- An aggregate with one element is printed as a parenthesised expression (`rflx/ada.py:481-482`): Ada reads the element. -/
theorem C50_aggregate_counterexample :
    ∃ t, Reads .expression (elements ((AExpr.agg [.num 1 .b0]).strF false)) t ∧
      ∀ W : World, t.value W = some (.int 1) ∧ (AExpr.agg [.num 1 .b0]).value W = some (.seq [1]) := by
  refine ⟨.num 1, ?_, fun W => ⟨rfl, ?_⟩⟩
  · have : elements ((AExpr.agg [.num 1 .b0]).strF false) = .lpar :: [.num 1] ++ [.rpar] := by decide +kernel
    rw [this]
    exact .relation (.simple (.term (.factor (.primary (.paren (.relation (.simple (.term (.factor (.primary .num))))))))))
  · simp [AExpr.value, AExpr.values, aggVal, allSome, Val.int?]

/-- An empty disjunction is printed as `True` (`rflx/ada.py:139-141`), though it is false. -/
theorem C50_empty_or_counterexample :
    (AExpr.bool .or []).str = .ok "True".toList ∧ ∀ W : World, (AExpr.bool .or []).value W = some (.bool false) :=
  ⟨by with_unfolding_all rfl, fun W => by simp [AExpr.value, BoolOp.isAnd]⟩

/-- An aggregate with named components cannot be an operand: its precedence raises an exception (`rflx/ada.py:512-514`), though the aggregate alone
has a text. -/
theorem C50_named_operand_counterexample :
    ∃ e : AExpr, e.WF ∧ e.str = .ok "(A => 1)".toList ∧ (AExpr.rel .eq exX e).str = .error .notImplemented := by
  refine ⟨.named [(⟨[['A']]⟩, .num 1 .b0)], ?_, by with_unfolding_all rfl, by with_unfolding_all rfl⟩
  simp only [AExpr.WF, AExpr.WFN]
  exact ⟨by simp, ⟨_, rfl, .inl (by decide +kernel)⟩, trivial, trivial⟩

/-- An empty sum has no text (`rflx/ada.py:225`); the text of an empty product is empty (`rflx/ada.py:124`). -/
theorem C50_empty_sum_counterexample : (AExpr.add []).str = .error .indexError ∧ (AExpr.mul []).str = .ok [] ∧
    ∀ t, ¬ Reads .expression (elements []) t := by
  refine ⟨by with_unfolding_all rfl, by with_unfolding_all rfl, fun t h => ?_⟩
  obtain ⟨k, r, hk, _⟩ := (fit h).2
  simp [elements, scan, endWord] at hk

/-- The first operand of a sum is not parenthesised (`rflx/ada.py:225`): a relation as first operand is read with the sum as right operand. -/
theorem C50_sum_counterexample :
    ∃ t, Reads .expression (elements ((AExpr.add [.rel .eq (.num 1 .b0) (.num 2 .b0), .num 3 .b0]).strF false)) t ∧
      ∀ W : World, t.value W = some (.bool false) ∧ (AExpr.add [.rel .eq (.num 1 .b0) (.num 2 .b0), .num 3 .b0]).value W = none := by
  refine ⟨.rel .eq (.num 1) (.math .add (.num 2) (.num 3)), ?_, fun W => ⟨?_, ?_⟩⟩
  · have : elements ((AExpr.add [.rel .eq (.num 1 .b0) (.num 2 .b0), .num 3 .b0]).strF false) =
        [.num 1] ++ relational .eq ++ ([.num 2] ++ .plus :: [.num 3]) := by decide +kernel
    rw [this]
    have h : ∀ n, Reads .term [.num n] (.num n) := fun n => .factor (.primary .num)
    exact .relation (.compare (.term (h 1)) (.adding rfl (.term (h 2)) (h 3)))
  · simp [Tree.value, mathVal, MathOp.eval, relVal, RelOp.eval]
  · simp [AExpr.value, AExpr.mathVals, relVal, RelOp.eval, mathVal]

/-- A membership test in an aggregate is printed as such (`rflx/ada.py:559-568`): Ada compares with the aggregate instead of its elements. -/
theorem C50_membership_counterexample :
    ∃ t, Reads .expression (elements ((AExpr.rel .isIn (.num 1 .b0) (.agg [.num 1 .b0, .num 2 .b0])).strF false)) t ∧
      ∀ W : World, t.value W = none ∧ (AExpr.rel .isIn (.num 1 .b0) (.agg [.num 1 .b0, .num 2 .b0])).value W = some (.bool true) := by
  refine ⟨.rel .isIn (.num 1) (.agg [.num 1, .num 2]), ?_, fun W => ⟨?_, ?_⟩⟩
  · have : elements ((AExpr.rel .isIn (.num 1 .b0) (.agg [.num 1 .b0, .num 2 .b0])).strF false) =
        [.num 1] ++ relational .isIn ++ (.lpar :: ([.num 1] ++ .comma :: [.num 2]) ++ [.rpar]) := by decide +kernel
    rw [this]
    have h : ∀ n, Reads .term [.num n] (.num n) := fun n => .factor (.primary .num)
    have e : ∀ n, Reads .expression [.num n] (.num n) := fun n => .relation (.simple (.term (h n)))
    exact .relation (.compare (.term (h 1)) (.term (.factor (.primary (.aggregate (.cons (e 1) (.one (e 2))) (by simp))))))
  · simp [Tree.value, Tree.values, aggVal, allSome, Val.int?, relVal, Tree.isName]
  · simp [AExpr.value, AExpr.values, aggVal, allSome, Val.int?, relVal, RelOp.eval]

end Verif.Ada
