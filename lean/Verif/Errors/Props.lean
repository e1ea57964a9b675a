import Verif.Errors.Model

/-! # Property C40: no error is lost -/

namespace Verif.Errors

/-! ## Specification -/

/-- The objects an operation uses exist. -/
def Op.Valid (n : Nat) : Op → Prop
  | .new => True
  | .append i _ | .appendleft i _ | .extendList i _ => i < n
  | .extend i j | .add i j | .iadd i j => i < n ∧ j < n

/-- Number of objects after an operation. -/
def Op.count (n : Nat) : Op → Nat
  | .new | .add _ _ => n + 1
  | _ => n

/-- All operations of a program use existing objects only. -/
def Valid (n : Nat) : List Op → Prop
  | [] => True
  | o :: os => o.Valid n ∧ Valid (o.count n) os

/-- Entry `e` has been recorded in object `i` by a program (given in reverse, with the number `n` of
objects before the latest operation): it was appended, or was part of an appended list, or was taken over
from another object in which it had been recorded, and it stays recorded. -/
inductive Recorded : List Op → Nat → Entry → Prop
  | append {os i e} : Recorded (.append i e :: os) i e
  | appendleft {os i e} : Recorded (.appendleft i e :: os) i e
  | extendList {os i es e} : e ∈ es → Recorded (.extendList i es :: os) i e
  | extend {os i j e} : Recorded os j e → Recorded (.extend i j :: os) i e
  | iadd {os i j e} : Recorded os j e → Recorded (.iadd i j :: os) i e
  | addLeft {os i j e} : Recorded os i e → Recorded (.add i j :: os) (os.foldr (fun o n => o.count n) 0) e
  | addRight {os i j e} : Recorded os j e → Recorded (.add i j :: os) (os.foldr (fun o n => o.count n) 0) e
  | keep {o os i e} : Recorded os i e → Recorded (o :: os) i e

/-! ## Lemmas -/

theorem extendLoop_eq (d es : List Entry) : extendLoop d es = d ++ es := by
  induction es generalizing d with
  | nil => simp [extendLoop]
  | cons e es ih => simp [extendLoop, ih]

theorem length_step (h : Heap) (o : Op) : (step h o).length = o.count h.length := by
  cases o <;> simp [step, Op.count]

theorem errors_set (h : Heap) (i : Nat) (hi : i < h.length) (d : List Entry) (k : Nat) :
    errors (h.set i d) k = if k = i then d else errors h k := by
  unfold errors
  rw [List.getD_eq_getElem?_getD, List.getElem?_set]
  by_cases hk : i = k
  · subst hk; simp [hi]
  · rw [if_neg hk, if_neg (Ne.symm hk), List.getD_eq_getElem?_getD]

theorem errors_snoc (h : Heap) (k : Nat) : errors (h ++ [[]]) k = errors h k := by
  unfold errors
  rw [List.getD_eq_getElem?_getD, List.getD_eq_getElem?_getD]
  by_cases hk : k < h.length
  · rw [List.getElem?_append_left hk]
  · rw [List.getElem?_append_right (by omega), List.getElem?_eq_none (by omega : h.length ≤ k)]
    cases hc : k - h.length <;> simp

theorem errors_ge (h : Heap) (k : Nat) (hk : h.length ≤ k) : errors h k = [] := by
  unfold errors; rw [List.getD_eq_getElem?_getD, List.getElem?_eq_none hk]; rfl

/-- What one operation does to each object. -/
theorem errors_step (h : Heap) (o : Op) (hv : o.Valid h.length) (k : Nat) :
    errors (step h o) k = match o with
      | .new => errors h k
      | .append i e => if k = i then errors h i ++ [e] else errors h k
      | .appendleft i e => if k = i then e :: errors h i else errors h k
      | .extendList i es => if k = i then errors h i ++ es else errors h k
      | .extend i j => if k = i then errors h i ++ errors h j else errors h k
      | .iadd i j => if k = i then errors h i ++ errors h j else errors h k
      | .add i j => if k = h.length then errors h i ++ errors h j else errors h k := by
  cases o with
  | new => exact errors_snoc h k
  | append i e => exact errors_set h i hv _ k
  | appendleft i e => exact errors_set h i hv _ k
  | extendList i es =>
    simp only [step]
    rw [errors_set h i hv _ k, extendLoop_eq]
  | extend i j => exact errors_set h i hv.1 _ k
  | iadd i j => exact errors_set h i hv.1 _ k
  | add i j =>
    simp only [Op.Valid] at hv
    simp only [step]
    rw [errors_set _ _ (by simp), errors_set _ _ (by simp), errors_set _ _ (by simp),
      errors_set _ _ (by simp)]
    simp only [errors_snoc]
    have h1 : j ≠ h.length := by omega
    by_cases hk : k = h.length
    · simp only [hk, if_true, if_neg h1]
      rw [errors_ge h h.length (Nat.le_refl _), List.nil_append]
    · simp only [if_neg hk]

theorem run_append (h : Heap) (as bs : List Op) : run h (as ++ bs) = run (run h as) bs := by
  induction as generalizing h with
  | nil => rfl
  | cons a as ih => exact ih _

theorem valid_append (n : Nat) (as bs : List Op) :
    Valid n (as ++ bs) ↔ Valid n as ∧ Valid (as.foldl (fun n o => o.count n) n) bs := by
  induction as generalizing n with
  | nil => simp [Valid]
  | cons a as ih => simp [Valid, ih, and_assoc]

theorem length_run (h : Heap) (os : List Op) :
    (run h os).length = os.foldl (fun n o => o.count n) h.length := by
  induction os generalizing h with
  | nil => rfl
  | cons o os ih => rw [run, ih, length_step, List.foldl_cons]

theorem sublist_step (h : Heap) (o : Op) (hv : o.Valid h.length) (k : Nat) (hk : k < h.length) :
    (errors h k).Sublist (errors (step h o) k) := by
  rw [errors_step h o hv k]
  cases o <;> simp only <;> (try split) <;> (try subst_vars) <;>
    first
    | exact List.Sublist.refl _
    | exact List.sublist_append_left _ _
    | exact List.sublist_cons_self _ _
    | omega

/-! ## Theorems -/

/-- After any program an object contains exactly the entries that were recorded in it. -/
theorem C40_exactly_recorded (os : List Op) (hv : Valid 0 os) (i : Nat) (e : Entry) :
    e ∈ errors (run [] os) i ↔ Recorded os.reverse i e := by
  suffices H : ∀ r : List Op, Valid 0 r.reverse →
      ∀ i e, e ∈ errors (run [] r.reverse) i ↔ Recorded r i e by
    have := H os.reverse (by rw [List.reverse_reverse]; exact hv) i e
    rw [List.reverse_reverse] at this; exact this
  intro r
  induction r with
  | nil =>
    intro _ i e
    constructor
    · intro h; simp [run, errors] at h
    · intro h; cases h
  | cons o r ih =>
    intro hv i e
    rw [List.reverse_cons, valid_append] at hv
    have ih := ih hv.1
    have hcount : (run [] r.reverse).length = r.foldr (fun o n => o.count n) 0 := by
      rw [length_run, List.foldl_reverse]; rfl
    have hvo : o.Valid (run [] r.reverse).length := by
      rw [length_run]; exact hv.2.1
    rw [List.reverse_cons, run_append, run, run, errors_step _ _ hvo]
    have keep : e ∈ errors (run [] r.reverse) i → Recorded (o :: r) i e :=
      fun h => .keep ((ih i e).mp h)
    constructor
    · cases o <;> simp only <;> (try split) <;> (try subst_vars) <;> intro h
      · exact keep h
      · rcases List.mem_append.mp h with h | h
        · exact keep h
        · rw [List.mem_singleton.mp h]; exact .append
      · exact keep h
      · rcases List.mem_cons.mp h with h | h
        · rw [h]; exact .appendleft
        · exact keep h
      · exact keep h
      · rcases List.mem_append.mp h with h | h
        · exact keep h
        · exact .extendList h
      · exact keep h
      · rcases List.mem_append.mp h with h | h
        · exact keep h
        · exact .extend ((ih _ e).mp h)
      · exact keep h
      · rename_i hi
        rw [hcount]
        rcases List.mem_append.mp h with h | h
        · exact .addLeft ((ih _ e).mp h)
        · exact .addRight ((ih _ e).mp h)
      · exact keep h
      · rcases List.mem_append.mp h with h | h
        · exact keep h
        · exact .iadd ((ih _ e).mp h)
      · exact keep h
    · intro h
      cases h with
      | append => simp
      | appendleft => simp
      | extendList h => simp [h]
      | extend h => simp [(ih _ e).mpr h]
      | iadd h => simp [(ih _ e).mpr h]
      | addLeft h => simp only; rw [if_pos hcount.symm]; simp [(ih _ e).mpr h]
      | addRight h => simp only; rw [if_pos hcount.symm]; simp [(ih _ e).mpr h]
      | keep h =>
        have h := (ih _ e).mpr h
        have hlt : i < (run [] r.reverse).length := by
          by_cases hlt : i < (run [] r.reverse).length
          · exact hlt
          · rw [errors_ge _ _ (by omega)] at h; simp at h
        have := (sublist_step _ o hvo i hlt).subset h
        rw [errors_step _ _ hvo] at this
        exact this

/-- `propagate` raises exactly when something was recorded in the object, and it raises the object
itself, whose entries are all recorded ones. -/
theorem C40_propagate_raises_iff (os : List Op) (hv : Valid 0 os) (i : Nat) :
    propagate (run [] os) i = some i ↔ ∃ e, Recorded os.reverse i e := by
  simp only [← C40_exactly_recorded os hv i]
  unfold propagate check
  cases h : errors (run [] os) i with
  | nil => simp
  | cons e es => simp

theorem C40_propagate_returns (h : Heap) (i : Nat) :
    propagate h i = none ∨ propagate h i = some i := by
  unfold propagate; split <;> simp

/-- No operation removes or reorders the entries of any object. -/
theorem C40_nothing_lost (h : Heap) (os : List Op) (hv : Valid h.length os) (k : Nat)
    (hk : k < h.length) : (errors h k).Sublist (errors (run h os) k) := by
  induction os generalizing h with
  | nil => exact List.Sublist.refl _
  | cons o os ih =>
    have hl : k < (step h o).length := by
      rw [length_step]; cases o <;> simp only [Op.count] <;> omega
    exact (sublist_step h o hv.1 k hk).trans (ih (step h o) (by rw [length_step]; exact hv.2) hl)

/-- `a + b` reports the entries of `a`, then those of `b`, and changes neither. -/
theorem C40_add (h : Heap) (i j : Nat) (hi : i < h.length) (hj : j < h.length) :
    errors (step h (.add i j)) h.length = errors h i ++ errors h j ∧
    ∀ k < h.length, errors (step h (.add i j)) k = errors h k := by
  constructor
  · rw [errors_step h (.add i j) ⟨hi, hj⟩]; simp
  · intro k hk; rw [errors_step h (.add i j) ⟨hi, hj⟩]; simp only; rw [if_neg (by omega)]

/-- `a += b` and `a.extend(b)` append the entries of `b` in order (also if both are the same object)
and change no other object. -/
theorem C40_iadd (h : Heap) (i j : Nat) (hi : i < h.length) (hj : j < h.length) :
    (errors (step h (.iadd i j)) i = errors h i ++ errors h j ∧
      ∀ k, k ≠ i → errors (step h (.iadd i j)) k = errors h k) ∧
    step h (.extend i j) = step h (.iadd i j) := by
  refine ⟨⟨?_, ?_⟩, rfl⟩
  · rw [errors_step h (.iadd i j) ⟨hi, hj⟩]; simp
  · intro k hk; rw [errors_step h (.iadd i j) ⟨hi, hj⟩]; simp only; rw [if_neg hk]

/-- Appended entries are reported in the order of the calls. -/
theorem C40_append_order (h : Heap) (i : Nat) (hi : i < h.length) (es : List Entry) :
    errors (run h (es.map (.append i))) i = errors h i ++ es ∧
    errors (step h (.extendList i es)) i = errors h i ++ es := by
  constructor
  · induction es generalizing h with
    | nil => simp [run]
    | cons e es ih =>
      rw [List.map_cons, run, ih (step h (.append i e)) (by rw [length_step]; exact hi),
        errors_step h (.append i e) hi]
      simp
  · rw [errors_step h (.extendList i es) hi]; simp

/-- `(a + b) + c` and `a + (b + c)` report the same; a new error is neutral on both sides. -/
theorem C40_add_assoc (h : Heap) (a b c : Nat) (ha : a < h.length) (hb : b < h.length)
    (hc : c < h.length) :
    errors (run h [.add a b, .add h.length c]) (h.length + 1)
      = errors (run h [.add b c, .add a h.length]) (h.length + 1) := by
  have l (i j) : (step h (.add i j)).length = h.length + 1 := length_step _ _
  simp only [run]
  rw [errors_step _ (.add h.length c) ⟨by rw [l]; omega, by rw [l]; omega⟩,
    errors_step _ (.add a h.length) ⟨by rw [l]; omega, by rw [l]; omega⟩]
  simp only [l, if_true]
  rw [(C40_add h a b ha hb).1, (C40_add h a b ha hb).2 c hc, (C40_add h b c hb hc).1,
    (C40_add h b c hb hc).2 a ha, List.append_assoc]

theorem C40_add_new (h : Heap) (a : Nat) (ha : a < h.length) :
    errors (run h [.new, .add a h.length]) (h.length + 1) = errors h a ∧
    errors (run h [.new, .add h.length a]) (h.length + 1) = errors h a := by
  have l : (step h .new).length = h.length + 1 := length_step _ _
  have e (k) : errors (step h .new) k = errors h k := errors_snoc h k
  have n := errors_ge h h.length (Nat.le_refl _)
  constructor
  · simp only [run]
    rw [errors_step _ (.add a h.length) ⟨by rw [l]; omega, by rw [l]; omega⟩]
    simp [l, e, n]
  · simp only [run]
    rw [errors_step _ (.add h.length a) ⟨by rw [l]; omega, by rw [l]; omega⟩]
    simp [l, e, n]

/-- `fail` always raises, with exactly the given entry. -/
theorem C40_fail (e : Entry) : fail e = some [e] := rfl

/-- The hypotheses are met by a program that shares objects. -/
example : Valid 0 [.new, .append 0 ⟨['a'], .model, .error, none⟩, .new, .iadd 1 0, .add 0 1, .iadd 2 2] := by
  simp [Valid, Op.Valid, Op.count]
example : (errors (run [] [.new, .append 0 ⟨['a'], .model, .error, none⟩, .new, .iadd 1 0, .add 0 1, .iadd 2 2]) 2).length = 4 := rfl

end Verif.Errors
