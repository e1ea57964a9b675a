import Verif.Merge.Ends
import Verif.Verify.Example

/-! # Merging of a message, and what goes wrong

```
type I is
   message
      L : U8
         then V
            with Size => L * 8
            if L > 0
         then null
            if L = 0;
      V : Opaque;
   end message;

type O is
   message
      T : U8;
      P : I
         then E
            if P_L > 0
         then null
            if P_L = 0;
      E : U8;
   end message;
``` -/

namespace Verif.Merge
open Verif Verif.Graph Verif.Types Verif.Verify

def exInner : UMsg := ⟨⟨[['M'], ['I']]⟩, exLinks, [(fld 'l', .plain exU8), (fld 'v', .plain .opaque)]⟩

def exPL : Expr := .v ⟨[['p', '_', 'L']]⟩

def exOuter : UMsg :=
  ⟨⟨[['M'], ['O']]⟩,
   [lnk INITIAL (fld 't'), lnk (fld 't') (fld 'p'), lnk (fld 'p') (fld 'e') (.rel .gt exPL (.n 0)),
    lnk (fld 'p') FINAL (.rel .eq exPL (.n 0)), lnk (fld 'e') FINAL],
   [(fld 't', .plain exU8), (fld 'p', exInner.toTy), (fld 'e', .plain exU8)]⟩

/-- A hash function. -/
def exHash : List PyStr → Int := fun _ => 0

def exValues (x : Int) : ZModel :=
  ⟨fun
    | .var _ => x
    | .attr .first _ _ => 1
    | .attr .size _ _ => 8
    | _ => 0, fun _ => 0, fun _ => 0, fun _ _ => 0⟩

def exConflicts : List (List Expr) :=
  [[.bool .and [.rel .gt exPL (.n 0), .rel .eq exPL (.n 0)]],
   [.bool .and [.rel .eq exPL (.n 0), .tru], .rel .gt exPL (.n 0)]]

theorem exConflicts_unsat : ∀ u ∈ exConflicts, ¬ ∃ M, Verify.Holds M u := by
  intro u hu
  simp only [exConflicts, List.mem_cons, List.not_mem_nil, or_false] at hu
  rcases hu with rfl | rfl <;>
  · rintro ⟨M, h⟩
    simp [Verify.Holds, zeval, zevalL, exPL, Expr.v, Expr.n, Bind.bind, Except.bind, pure, Except.pure, ZVal.int?,
      ZVal.bool?, zRel, zArith, zEqual, ZVal.cast, intSum, intProd, BoolOp.isAnd] at h
    try omega

def exMergeSolver : Solver := tableSolver (exValues 1) [exValues 1, exValues 0] exConflicts exConflicts_unsat

theorem exOuter_created : exOuter.Created := ⟨20, exOuter.id, exOuter.links, exOuter.types, rfl⟩

theorem exInner_created : exInner.Created := ⟨20, exInner.id, exInner.links, exInner.types, rfl⟩

def exFld (c : Char) : Field := ⟨[['p', '_', c]]⟩

def exMerged : UMsg :=
  ⟨⟨[['M'], ['O']]⟩,
   [lnk INITIAL (fld 't'), lnk (fld 't') (exFld 'l'), lnk (exFld 'v') (fld 'e') (.rel .gt exPL (.n 0)),
    lnk (exFld 'l') FINAL (.bool .and [.rel .eq exPL (.n 0), .rel .eq exPL (.n 0)]), lnk (fld 'e') FINAL,
    ⟨exFld 'l', exFld 'v', .rel .gt exPL (.n 0), .mul [exPL, .n 8], .undefined⟩],
   [(fld 't', .plain exU8), (exFld 'l', .plain exU8), (exFld 'v', .plain .opaque), (fld 'e', .plain exU8)]⟩

theorem exOuter_merged : exOuter.merged exMergeSolver exHash 20 = .ok exMerged := by with_unfolding_all rfl

/-- The embedded message. -/
def exPrefixed : UMsg :=
  ⟨⟨[['M'], ['I']]⟩,
   [lnk INITIAL (exFld 'l'), ⟨exFld 'l', exFld 'v', .rel .gt exPL (.n 0), .mul [exPL, .n 8], .undefined⟩,
    lnk (exFld 'l') FINAL (.rel .eq exPL (.n 0)), lnk (exFld 'v') FINAL],
   [(exFld 'l', .plain exU8), (exFld 'v', .plain .opaque)]⟩

theorem exInner_prefixed : exInner.prefixed exHash 20 (fieldPrefix (fld 'p')) = .ok exPrefixed := by with_unfolding_all rfl

/-- The hypotheses of `C21_field_partial` are met. -/
example : ∃ inner, exInner.prefixed exHash 20 (fieldPrefix (fld 'p')) = .ok inner ∧ Embedded 20 exOuter (fld 'p') inner exMerged :=
  C21_field_partial exMergeSolver exHash 20 exOuter exInner exMerged (fld 'p') exOuter_created (by simp [exOuter]) (by simp [exInner])
    (by with_unfolding_all rfl)

/-- The hypotheses of `C21_merged_partial` are met. -/
example : Merges exHash 20 exOuter exMerged ∧ exMerged.Plain :=
  C21_merged_partial exMergeSolver exHash 20 exOuter exMerged exOuter_created
    (by simp [exOuter, exInner, UMsg.toTy, FilledL, UTy.Filled]) exOuter_merged

/-- The hypotheses of `C21_prefixed` are met: the path `INITIAL`, `L`, `FINAL`. -/
example : Path exPrefixed.links INITIAL [lnk INITIAL (exFld 'l'), lnk (exFld 'l') FINAL (.rel .eq exPL (.n 0))] FINAL :=
  (C21_prefixed exHash 20 (fld 'p') exInner exPrefixed exInner_created (by simp [exInner])
    (by simp only [exInner, List.mem_cons, List.not_mem_nil, or_false, forall_eq_or_imp, forall_eq, ID.Valid]; decide)
    exInner_prefixed _).mpr
    ⟨[lnk INITIAL (fld 'l'), lnk (fld 'l') FINAL (.rel .eq exL (.n 0))], ⟨[['M']]⟩, rfl,
      Path.cons (l := lnk INITIAL (fld 'l')) (by simp [exInner, exLinks])
        (Path.single (l := lnk (fld 'l') FINAL (.rel .eq exL (.n 0))) (by simp [exInner, exLinks])), by with_unfolding_all rfl⟩

def exZero : Env := ⟨fun _ => .int 0, fun _ _ => .int 0, fun _ _ => .int 0, fun _ _ => .int 0⟩

def exOut : Link := lnk (fld 'p') FINAL (.rel .eq exPL (.n 0))
def exLast : Link := lnk (exFld 'l') FINAL (.rel .eq exPL (.n 0))

/-- The path `INITIAL`, `T`, `P`, `FINAL` becomes `INITIAL`, `T`, `P_L`, `FINAL`. -/
theorem exExpands : Expands (fld 'p') exPrefixed.links (fun _ _ => True) [lnk INITIAL (fld 't'), lnk (fld 't') (fld 'p'), exOut]
    [lnk INITIAL (fld 't'), lnk (fld 't') (exFld 'l'), lnk (exFld 'l') FINAL (.bool .and [.rel .eq exPL (.n 0), .rel .eq exPL (.n 0)])]
    [[lnk INITIAL (exFld 'l'), exLast]] :=
  .keep (by decide) (by decide)
    (.pass (a := lnk (fld 't') (fld 'p')) (o := exOut) (i := lnk INITIAL (exFld 'l')) (q := exLast) (mid := []) rfl rfl (by decide)
      (Path.cons (l := lnk INITIAL (exFld 'l')) (by simp [exPrefixed])
        (Path.single (l := exLast) (by simp [exPrefixed, exLast]))) trivial (by with_unfolding_all rfl) .nil)

/-- The hypotheses of `C21_conditions_partial` are met. -/
example : (∀ l ∈ [lnk INITIAL (fld 't'), lnk (fld 't') (fld 'p'), exOut],
      l.condition.Good Division.ada.Odd false ∧ l.condition.WF ∧ ∃ b, eval .ada exZero l.condition = some (.bool b)) ∧
    (∀ q ∈ [[lnk INITIAL (exFld 'l'), exLast]], ∀ l ∈ q,
      l.condition.Good Division.ada.Odd false ∧ l.condition.WF ∧ ∃ b, eval .ada exZero l.condition = some (.bool b)) := by
  have h : (Expr.rel .eq exPL (.n 0)).Good Division.ada.Odd false ∧ (Expr.rel .eq exPL (.n 0)).WF ∧
      ∃ b, eval .ada exZero (.rel .eq exPL (.n 0)) = some (.bool b) := by
    refine ⟨by simp [Expr.Good, exPL, Expr.v, Expr.n], ?_, true, rfl⟩
    simp only [Expr.WF, exPL, Expr.v, Expr.n]; decide
  have h' : Expr.tru.Good Division.ada.Odd false ∧ Expr.tru.WF ∧ ∃ b, eval .ada exZero .tru = some (.bool b) :=
    ⟨by simp [Expr.Good], by simp [Expr.WF], true, rfl⟩
  constructor
  · intro l hl
    simp only [List.mem_cons, List.not_mem_nil, or_false] at hl
    rcases hl with rfl | rfl | rfl
    · exact h'
    · exact h'
    · exact h
  · intro q hq l hl
    simp only [List.mem_cons, List.not_mem_nil, or_false] at hq
    subst hq
    simp only [List.mem_cons, List.not_mem_nil, or_false] at hl
    rcases hl with rfl | rfl
    · exact h'
    · exact h

theorem lex_one {c : Char} (h1 : c.isDigit = false) (h2 : wordChar c = true) (h3 : ∀ w ∈ keywords, [[c]] ≠ [w])  :
    ID.Lex ⟨[[c]]⟩ := by
  refine ⟨by simp, ?_, h3⟩
  intro p hp
  rw [List.mem_singleton.mp hp]
  exact ⟨⟨c, [], rfl, h1⟩, by simpa using h2⟩

/-- The hypotheses of `C21_names_partial` are met. -/
example : ∃ r, prefixedExpr exHash (fieldPrefix ⟨[['p']]⟩) ⟨[['M']]⟩ [fld 'l', fld 'v'] (.rel .eq exL (.n 0)) = .ok r ∧
    eval .ada exZero r = some (.bool true) :=
  ⟨.rel .eq exPL (.n 0), by with_unfolding_all rfl,
    C21_names_partial .ada exHash ['p'] ⟨[['M']]⟩ [fld 'l', fld 'v'] (.rel .eq exL (.n 0)) _ (lex_one (by decide) (by decide) (by decide))
      (lex_one (by decide) (by decide) (by decide))
      (by simp [fld]) (by simp [Simple, exL, Expr.v, Expr.n]) (by simp only [Expr.WF, exL, Expr.v, Expr.n]; decide)
      (by simp [Expr.Good, exL, Expr.v, Expr.n]) (by with_unfolding_all rfl) exZero _ rfl⟩

/-! ## What goes wrong -/

/-- The condition of the first link of an embedded message is lost: instances of the message `I` are invalid unless `Message'Size = 8`,
the conditions of the merged message are all true. -/
theorem C21_first_condition_counterexample : ∃ (s : Solver) (m im m' : UMsg) (f : Field), m.Created ∧ im.Created ∧
    (f, im.toTy) ∈ m.types ∧ m.merged s exHash 20 = .ok m' ∧
    (∀ p, Path im.links INITIAL p FINAL → ¬ ∀ l ∈ p, eval .ada exZero l.condition = some (.bool true)) ∧
    ∃ p, Path m'.links INITIAL p FINAL ∧ ∀ l ∈ p, eval .ada exZero l.condition = some (.bool true) := by
  let im : UMsg := ⟨⟨[['M'], ['I']]⟩, [lnk INITIAL (fld 'l') (.rel .eq (.attr false .size (.v MESSAGE)) (.n 8)), lnk (fld 'l') FINAL], [(fld 'l', .plain exU8)]⟩
  let m : UMsg := ⟨⟨[['M'], ['O']]⟩, [lnk INITIAL (fld 'p'), lnk (fld 'p') FINAL], [(fld 'p', im.toTy)]⟩
  let m' : UMsg := ⟨⟨[['M'], ['O']]⟩, [lnk INITIAL (exFld 'l'), lnk (exFld 'l') FINAL], [(exFld 'l', .plain exU8)]⟩
  refine ⟨exMergeSolver, m, im, m', fld 'p', ⟨20, m.id, m.links, m.types, rfl⟩, ⟨20, im.id, im.links, im.types, rfl⟩,
    by simp [m], by with_unfolding_all rfl, ?_,
    [lnk INITIAL (exFld 'l'), lnk (exFld 'l') FINAL], ?_, ?_⟩
  · intro p hp hall
    rw [path_walk] at hp
    generalize h1 : INITIAL = a at hp
    generalize h2 : FINAL = b at hp
    cases hp with
    | nil => rw [← h2] at h1; exact absurd h1 (by decide)
    | @cons l p _ hl hp =>
      simp only [im, List.mem_cons, List.not_mem_nil, or_false] at hl
      rcases hl with rfl | rfl
      · have hf : eval .ada exZero (.rel .eq (.attr false .size (.v MESSAGE)) (.n 8)) = some (.bool false) := rfl
        have ht := hall _ List.mem_cons_self
        simp only [lnk, hf] at ht
        cases ht
      · exact absurd h1 (by decide)
  · exact Path.cons (l := lnk INITIAL (exFld 'l')) (by simp [m']) (Path.single (l := lnk (exFld 'l') FINAL) (by simp [m']))
  · intro l hl
    simp only [List.mem_cons, List.not_mem_nil, or_false] at hl
    rcases hl with rfl | rfl <;> rfl

/-- Variables with a minus sign are not renamed: `-L < 0` in the message `I` refers to a field `L` of the outer message afterwards. -/
theorem C21_negative_counterexample : ∃ (e r : Expr) (ρ : Env),
    prefixedExpr exHash (fieldPrefix (fld 'p')) ⟨[['M']]⟩ [fld 'l'] e = .ok r ∧ e.WF ∧ e.Good Division.ada.Odd false ∧
    eval .ada (via (outerName [[['l']]] ['p', '_'] [['m']]) ρ) e = some (.bool true) ∧ eval .ada ρ r = some (.bool false) := by
  refine ⟨.rel .lt (.var true false ⟨[['L']]⟩) (.n 0), .rel .lt (.var true false ⟨[['L']]⟩) (.n 0),
    ⟨fun x => if x = [['p', '_', 'l']] then .int 1 else .int 0, fun _ _ => .int 0, fun _ _ => .int 0, fun _ _ => .int 0⟩,
    by with_unfolding_all rfl, ?_, by simp [Expr.Good, Expr.n], by with_unfolding_all rfl, by with_unfolding_all rfl⟩
  simp only [Expr.WF, Expr.n]; decide

/-- `Message'Last` in an embedded message refers to the outer message afterwards. -/
theorem C21_message_counterexample (a : AttrKind) :
    prefixedExpr exHash (fieldPrefix (fld 'p')) ⟨[['M']]⟩ [fld 'l'] (.attr false a (.v MESSAGE)) = .ok (.attr false a (.v MESSAGE)) := by
  cases a <;> with_unfolding_all rfl

/-- An embedded message without fields leads to an `IndexError`. -/
theorem C21_null_counterexample : ∃ (m im : UMsg) (f : Field), m.Created ∧ im.Created ∧ (f, im.toTy) ∈ m.types ∧
    ∀ s : Solver, m.merged s exHash 20 = .error .indexError := by
  let im : UMsg := ⟨⟨[['M'], ['I']]⟩, [], []⟩
  let m : UMsg := ⟨⟨[['M'], ['O']]⟩, [lnk INITIAL (fld 'p'), lnk (fld 'p') FINAL], [(fld 'p', im.toTy)]⟩
  exact ⟨m, im, fld 'p', ⟨20, m.id, m.links, m.types, rfl⟩, ⟨20, im.id, im.links, im.types, rfl⟩, by simp [m],
    fun s => by with_unfolding_all rfl⟩

end Verif.Merge
