import Verif.Gen.Lookup

/-! # The values of what the generator substitutes -/

namespace Verif.Gen
open Verif Verif.Graph Verif.Verify Verif.Types Verif.Merge

/-- The types that the generator converts to. -/
def Target (o : Opts) : Prop := o.target = none ∨ o.target = some U64 ∨ o.target = some BIT_LENGTH ∨ o.target = some BIT_INDEX

/-- An expression with a numeric value that can be negated. -/
structure Num (D : Division) (ρ : Env) (x : Expr) (i : Int) : Prop extends Leaf D ρ x i where
  neg : x.Neg D.Odd

section
variable {D : Division} {V : View} {emb : Bool} {o : Opts}

theorem Leaf.conv {x : Expr} {i : Int} (ht : Target o) (h : Leaf D (V.env emb) x i) : Leaf D (V.env emb) (o.conv x) i := by
  have call : ∀ t : ID, t.Lex → (∀ v, V.call t.key [v] = v) → Leaf D (V.env emb) (.call false t [x]) i := by
    intro t h1 h2
    refine ⟨⟨h1, h.wf, trivial⟩, by simp [Expr.Good], fun _ => by simp [Expr.headOK], ?_, ?_⟩
    · rintro (hq | hq)
      · exact h.quant hq
      · exact hq
    · rw [eval, evalL, evalL, h.value]
      simp [View.env, h2, Val.negIf]
  rcases ht with ht | ht | ht | ht <;> simp only [Opts.conv, ht]
  · exact h
  · exact call U64 (by decide) fun v => by simp [View.call, U64, BYTE_INDEX, ID.key, PyStr.lower, TYPES]
  · exact call BIT_LENGTH (by decide) fun v => by simp [View.call, BIT_LENGTH, BYTE_INDEX, ID.key, PyStr.lower, TYPES]
  · exact call BIT_INDEX (by decide) fun v => by simp [View.call, BIT_INDEX, BYTE_INDEX, ID.key, PyStr.lower, TYPES]

theorem Num.conv {x : Expr} {i : Int} (ht : Target o) (h : Num D (V.env emb) x i) : Num D (V.env emb) (o.conv x) i := by
  refine ⟨h.toLeaf.conv ht, ?_⟩
  unfold Opts.conv
  split
  · simp [Expr.Neg]
  · exact h.neg

theorem Leaf.convNum {x : Expr} {i : Int} (ht : Target o) (hs : o.target ≠ none) (h : Leaf D (V.env emb) x i) :
    Num D (V.env emb) (o.conv x) i := by
  refine ⟨h.conv ht, ?_⟩
  unfold Opts.conv
  split
  · simp [Expr.Neg]
  · contradiction

theorem num_pref_first : Num D (V.env o.embedded) (o.pref FIRST) V.first := by
  cases he : o.embedded <;> simp only [Opts.pref, he]
  all_goals refine ⟨⟨?_, by simp [Expr.Good], fun _ => by simp [Expr.headOK], by simp [Expr.HQ], ?_⟩, by simp [Expr.Neg]⟩
  all_goals first
    | (simp only [Expr.WF]; decide)
    | simp [eval, View.env, View.var, ID.key, PyStr.lower, CTX, FIRST, Val.negIf]

theorem num_pref_last : Num D (V.env o.embedded) (o.pref LAST) V.last := by
  cases he : o.embedded <;> simp only [Opts.pref, he]
  all_goals refine ⟨⟨?_, by simp [Expr.Good], fun _ => by simp [Expr.headOK], by simp [Expr.HQ], ?_⟩, by simp [Expr.Neg]⟩
  all_goals first
    | (simp only [Expr.WF]; decide)
    | simp [eval, View.env, View.var, ID.key, PyStr.lower, CTX, LAST, Val.negIf]

theorem num_message_size : Num D (V.env o.embedded)
    (.add [o.pref LAST, .var true false ⟨if o.embedded then [FIRST] else [CTX, FIRST]⟩, .n 1]) (V.last - V.first + 1) := by
  have hl : eval D (V.env o.embedded) (o.pref LAST) = some (.int V.last) := num_pref_last.value
  have hw : (o.pref LAST).WF := (num_pref_last (D := D) (V := V)).wf
  have hf : eval D (V.env o.embedded) (.var true false ⟨if o.embedded then [FIRST] else [CTX, FIRST]⟩) = some (.int (-V.first)) := by
    cases he : o.embedded <;> simp [eval, View.env, View.var, ID.key, PyStr.lower, CTX, FIRST, Val.negIf, Val.int?]
  refine ⟨⟨⟨⟨hw, ?_, ?_, trivial⟩, ?_⟩, ?_, fun _ => ?_, ?_, ?_⟩, ?_⟩
  · cases o.embedded <;> simp only [Expr.WF] <;> decide
  · simp [Expr.WF]
  · simp [Opts.pref, Expr.headOK]
  · simp [Expr.Good, Expr.GoodL, Opts.pref]
  · simp [Expr.headOK]
  · simp [Expr.HQ, Expr.HQL, Opts.pref]
  · simp only [eval, evalL, hl] at hf ⊢
    rw [hf]
    simp [allSome, Val.int?, intSum]
    omega
  · simp [Expr.Neg, Expr.NegL, Opts.pref]

/-- A word, as name of a field. -/
theorem affixed_lex {n : PyStr} (h : (⟨[n]⟩ : ID).Lex) : (⟨[affixed n]⟩ : ID).Lex := by
  obtain ⟨h1, h2, h3⟩ := h
  refine ⟨by simp, ?_, ?_⟩
  · intro p hp
    rw [List.mem_singleton] at hp
    subst hp
    refine ⟨⟨'F', '_' :: n, rfl, by decide⟩, ?_⟩
    intro c hc
    simp only [affixed, List.mem_cons] at hc
    rcases hc with rfl | rfl | hc
    · decide
    · decide
    · exact (h2 n (by simp)).2 c hc
  · intro w hw he
    have : affixed n = w := by simpa using he
    exact keyword_underscore w hw (by rw [← this]; simp [affixed])

theorem cursor_lex {n : PyStr} (h : (⟨[n]⟩ : ID).Lex) :
    (⟨if o.embedded then [CURSORS, affixed n] else [CTX, CURSORS, affixed n]⟩ : ID).Lex := by
  have ha := affixed_lex h
  have hc : (∃ c s, CURSORS = c :: s ∧ c.isDigit = false) ∧ ∀ c ∈ CURSORS, wordChar c = true :=
    ⟨⟨'C', _, rfl, by decide⟩, by decide⟩
  have hx : (∃ c s, CTX = c :: s ∧ c.isDigit = false) ∧ ∀ c ∈ CTX, wordChar c = true :=
    ⟨⟨'C', _, rfl, by decide⟩, by decide⟩
  have hn := ha.2.1 (affixed n) (by simp)
  cases o.embedded
  · refine ⟨by simp, ?_, by simp⟩
    intro p hp
    simp only [Bool.false_eq_true, if_false, List.mem_cons, List.not_mem_nil, or_false] at hp
    rcases hp with rfl | rfl | rfl
    · exact hx
    · exact hc
    · exact hn
  · refine ⟨by simp, ?_, by simp⟩
    intro p hp
    simp only [if_true, List.mem_cons, List.not_mem_nil, or_false] at hp
    rcases hp with rfl | rfl
    · exact hc
    · exact hn

theorem lower_affixed (n : PyStr) : PyStr.lower (affixed n) = 'f' :: '_' :: PyStr.lower n := by
  simp [PyStr.lower, affixed]

theorem sel_first {pre : List PyStr} {n : PyStr} (h : pre.getLast? = some ('f' :: '_' :: n)) :
    V.sel pre [['f', 'i', 'r', 's', 't']] = .int (V.cFirst n) := by simp [View.sel, h, unaffixed]

theorem sel_last {pre : List PyStr} {n : PyStr} (h : pre.getLast? = some ('f' :: '_' :: n)) :
    V.sel pre [['l', 'a', 's', 't']] = .int (V.cLast n) := by simp [View.sel, h, unaffixed]

theorem sel_value {pre : List PyStr} {n : PyStr} (w : PyStr) (h : pre.getLast? = some ('f' :: '_' :: n)) :
    V.sel pre [['v', 'a', 'l', 'u', 'e'], w] = .int (V.cValue n) := by simp [View.sel, h, unaffixed]

theorem cursor_last (n : PyStr) :
    (ID.key ⟨if o.embedded then [CURSORS, affixed n] else [CTX, CURSORS, affixed n]⟩).getLast? = some ('f' :: '_' :: PyStr.lower n) := by
  cases o.embedded <;> simp [ID.key, lower_affixed]

theorem num_sel {n : PyStr} {s : ID} {i : Int} (h : (⟨[n]⟩ : ID).Lex) (hs : s.Lex)
    (hv : V.sel (ID.key ⟨if o.embedded then [CURSORS, affixed n] else [CTX, CURSORS, affixed n]⟩) s.key = .int i) :
    Num D (V.env o.embedded) (.sel false (o.cursor n) s) i :=
  ⟨⟨⟨rfl, cursor_lex h, hs⟩, by simp [Expr.Good], fun _ => by simp [Expr.headOK], by simp [Expr.HQ],
    by simp only [Opts.cursor, eval, View.env]; rw [hv]; rfl⟩, by simp [Expr.Neg]⟩

theorem valName_nameVal (n : PyStr) : valName (nameVal n) = n := by
  simp only [valName, nameVal, List.map_map]
  induction n with
  | nil => rfl
  | cons c n ih => rw [List.map_cons, ih]; simp

theorem eval_fieldVar (n : PyStr) : eval D (V.env emb) (fieldVar n) = some (nameVal (PyStr.lower n)) := by
  have : V.var emb (ID.key ⟨[affixed n]⟩) = nameVal (PyStr.lower n) := by
    simp only [ID.key, List.map_cons, List.map_nil, lower_affixed, View.var]
    cases emb <;> simp [unaffixed]
  simp only [fieldVar, eval, View.env, this, Val.negIf]
  rfl

theorem eval_ctxVar : eval D (V.env emb) ctxVar = some (.bool true) := by
  cases emb <;> simp [ctxVar, eval, View.env, View.var, ID.key, PyStr.lower, CTX, Val.negIf]

theorem ctxVar_wf : ctxVar.WF := by simp only [ctxVar, Expr.WF]; decide

theorem num_call {i : ID} {as : List Expr} {x : Int} (hi : i.Lex) (hw : Expr.WFL as) (hq : ¬ Expr.HQL as)
    (hv : eval D (V.env emb) (.call false i as) = some (.int x)) : Num D (V.env emb) (.call false i as) x :=
  ⟨⟨⟨hi, hw⟩, by simp [Expr.Good], fun _ => by simp [Expr.headOK], by simpa [Expr.HQ] using hq, hv⟩, by simp [Expr.Neg]⟩

theorem num_fieldCall {n : PyStr} {i : ID} {x : Int} (h : (⟨[n]⟩ : ID).Lex) (hi : i.Lex) (hb : i.key ≠ BUFFER_ALL.key)
    (hv : V.fieldCall i.key (PyStr.lower n) = .int x) : Num D (V.env emb) (.call false i [ctxVar, fieldVar n]) x := by
  refine num_call hi ⟨ctxVar_wf, affixed_lex h, trivial⟩ (by simp [Expr.HQL, Expr.HQ, ctxVar, fieldVar]) ?_
  have h1 := eval_ctxVar (D := D) (V := V) (emb := emb)
  have h2 := eval_fieldVar (D := D) (V := V) (emb := emb) n
  simp only [eval, evalL, h1, h2]
  simp only [View.env, View.call, if_neg hb, valName_nameVal, hv]
  rfl

theorem get_lex {n : PyStr} (h : (⟨[n]⟩ : ID).Lex) : (⟨['G' :: 'e' :: 't' :: '_' :: n]⟩ : ID).Lex := by
  obtain ⟨h1, h2, h3⟩ := h
  refine ⟨by simp, ?_, ?_⟩
  · intro p hp
    rw [List.mem_singleton] at hp
    subst hp
    refine ⟨⟨'G', _, rfl, by decide⟩, ?_⟩
    intro c hc
    simp only [List.mem_cons] at hc
    rcases hc with rfl | rfl | rfl | rfl | hc
    · decide
    · decide
    · decide
    · decide
    · exact (h2 n (by simp)).2 c hc
  · intro w hw he
    have : 'G' :: 'e' :: 't' :: '_' :: n = w := by simpa using he
    exact keyword_underscore w hw (by rw [← this]; simp)

theorem value_lex {n : PyStr} (h : (⟨[n]⟩ : ID).Lex) : (⟨[VALUE, n ++ ['_', 'V', 'a', 'l', 'u', 'e']]⟩ : ID).Lex := by
  obtain ⟨h1, h2, h3⟩ := h
  refine ⟨by simp, ?_, by simp⟩
  intro p hp
  simp only [List.mem_cons, List.not_mem_nil, or_false] at hp
  rcases hp with rfl | rfl
  · exact ⟨⟨'V', _, rfl, by decide⟩, by decide⟩
  · obtain ⟨⟨c, s, rfl, hc⟩, h5⟩ := h2 n (by simp)
    refine ⟨⟨c, s ++ _, rfl, hc⟩, ?_⟩
    intro x hx
    rcases List.mem_append.mp hx with hx | hx
    · exact h5 x hx
    · exact (by decide : ∀ x ∈ ['_', 'V', 'a', 'l', 'u', 'e'], wordChar x = true) x hx

theorem num_get {n : PyStr} (h : (⟨[n]⟩ : ID).Lex) : Num D (V.env emb) (getCall n) (V.get (PyStr.lower n)) := by
  refine num_call (get_lex h) ⟨ctxVar_wf, trivial⟩ (by simp [Expr.HQL, Expr.HQ, ctxVar]) ?_
  have h1 := eval_ctxVar (D := D) (V := V) (emb := emb)
  simp only [eval, evalL, h1]
  have : ID.key ⟨['G' :: 'e' :: 't' :: '_' :: n]⟩ = ['g' :: 'e' :: 't' :: '_' :: PyStr.lower n] := by
    simp [ID.key, PyStr.lower]
  rw [this]
  simp [View.env, View.call, BYTE_INDEX, ID.key, Val.negIf]

theorem num_raw {n : PyStr} (h : (⟨[n]⟩ : ID).Lex) :
    Num D (V.env o.embedded) (o.rawValue n) (if o.pub then V.get (PyStr.lower n) else V.cValue (PyStr.lower n)) := by
  cases hp : o.pub <;> simp only [Opts.rawValue, hp, Bool.false_eq_true, if_false, if_true]
  · refine num_sel h (value_lex h) ?_
    have : ID.key ⟨[VALUE, n ++ ['_', 'V', 'a', 'l', 'u', 'e']]⟩ =
        [['v', 'a', 'l', 'u', 'e'], PyStr.lower (n ++ ['_', 'V', 'a', 'l', 'u', 'e'])] := by
      simp [ID.key, VALUE, PyStr.lower]
    rw [this]
    exact sel_value _ (cursor_last n)
  · exact num_get h

theorem num_first {n : PyStr} (h : (⟨[n]⟩ : ID).Lex) :
    Num D (V.env o.embedded) (o.fieldFirst n) (if o.pub then V.fFirst (PyStr.lower n) else V.cFirst (PyStr.lower n)) := by
  cases hp : o.pub <;> simp only [Opts.fieldFirst, hp, Bool.false_eq_true, if_false, if_true]
  · exact num_sel h (by decide) (sel_first (cursor_last n))
  · exact num_fieldCall h (by decide) (by decide) (by simp [View.fieldCall])

theorem num_last {n : PyStr} (h : (⟨[n]⟩ : ID).Lex) :
    Num D (V.env o.embedded) (o.fieldLast n) (if o.pub then V.fLast (PyStr.lower n) else V.cLast (PyStr.lower n)) := by
  cases hp : o.pub <;> simp only [Opts.fieldLast, hp, Bool.false_eq_true, if_false, if_true]
  · exact num_sel h (by decide) (sel_last (cursor_last n))
  · refine num_fieldCall h (by decide) (by decide) ?_
    have : FIELD_LAST.key ≠ FIELD_FIRST.key := by decide
    simp [View.fieldCall, this]

theorem leaf_size {n : PyStr} (h : (⟨[n]⟩ : ID).Lex) :
    Leaf D (V.env o.embedded) (o.fieldSize n)
      (if o.pub then V.fSize (PyStr.lower n) else V.cLast (PyStr.lower n) - V.cFirst (PyStr.lower n) + 1) := by
  cases hp : o.pub <;> simp only [Opts.fieldSize, hp, Bool.false_eq_true, if_false, if_true]
  · have hf : Num D (V.env o.embedded) (.sel false (o.cursor n) ⟨[FIRST]⟩) (V.cFirst (PyStr.lower n)) :=
      num_sel h (by decide) (sel_first (cursor_last n))
    have hl : Num D (V.env o.embedded) (.sel false (o.cursor n) ⟨[LAST]⟩) (V.cLast (PyStr.lower n)) :=
      num_sel h (by decide) (sel_last (cursor_last n))
    refine ⟨⟨⟨⟨hl.wf, hf.wf⟩, by simp [Expr.WF], trivial⟩, by simp [Expr.headOK]⟩, by simp [Expr.Good, Expr.GoodL],
      fun _ => by simp [Expr.headOK], by simp [Expr.HQ, Expr.HQL], ?_⟩
    have h1 := hf.value
    have h2 := hl.value
    have h3 : eval D (V.env o.embedded) (.bin .sub (.sel false (o.cursor n) ⟨[LAST]⟩) (.sel false (o.cursor n) ⟨[FIRST]⟩)) =
        some (.int (V.cLast (PyStr.lower n) - V.cFirst (PyStr.lower n))) := by
      rw [eval, h1, h2]; rfl
    rw [eval, evalL, evalL, evalL, h3]
    simp [eval, allSome, Val.int?, intSum]
  · refine (num_fieldCall h (by decide) (by decide) ?_).toLeaf
    have h1 : FIELD_SIZE.key ≠ FIELD_FIRST.key := by decide
    have h2 : FIELD_SIZE.key ≠ FIELD_LAST.key := by decide
    simp [View.fieldCall, h1, h2]

theorem num_value {n : PyStr} {t : FTy} (h : (⟨[n]⟩ : ID).Lex) (ht : Scalar t) :
    Num D (V.env o.embedded) (o.fieldValue n t) (if o.pub then V.get (PyStr.lower n) else V.cValue (PyStr.lower n)) := by
  cases t with
  | int => exact num_raw h
  | enum e =>
    cases hp : o.pub <;> simp only [Opts.fieldValue, hp, Bool.false_eq_true, if_false, if_true]
    · have := num_raw (D := D) (V := V) (o := o) h
      simpa [hp] using this
    · have hg := num_get (D := D) (V := V) (emb := o.embedded) h
      refine num_call (by decide) ⟨hg.wf, trivial⟩ (by simp [Expr.HQL, hg.quant]) ?_
      rw [eval, evalL, evalL, hg.value]
      simp [View.env, View.call, TO_BASE, BYTE_INDEX, ID.key, PyStr.lower, Val.negIf]
  | _ => simp [Scalar] at ht

theorem var_plain {k : List PyStr} (h : Plain emb k) : V.var emb k = .int (V.lit k) := by
  obtain ⟨h1, h2, h3, h4, h5, h6⟩ := h
  simp only [View.var, if_neg h1, if_neg h2, if_neg h3, if_neg h4, if_neg h5]
  split
  · rename_i w
    rw [h6 w rfl]
  · rfl

theorem num_literal {l : ID} (hl : l.Lex) (hp : Plain emb l.key) :
    Num D (V.env emb) (.call false TO_BASE [.v l]) (V.lit l.key) := by
  refine num_call (by decide) ⟨hl, trivial⟩ (by simp [Expr.HQL, Expr.HQ]) ?_
  have : eval D (V.env emb) (.v l) = some (.int (V.lit l.key)) := by
    simp only [eval, View.env, var_plain hp]; rfl
  rw [eval, evalL, evalL, this]
  simp [View.env, View.call, TO_BASE, BYTE_INDEX, ID.key, PyStr.lower, Val.negIf]

end

end Verif.Gen
