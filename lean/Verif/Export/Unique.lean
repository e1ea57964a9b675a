import Verif.Export.Spec
import Verif.Ident.Props

/-! # A document describes one model only -/

namespace Verif.Export

open Verif Verif.Types

/-- The kind of an expression. -/
def kindName : Expr.Cls → String
  | .tru => "BooleanTrue"
  | .fls => "BooleanFalse"
  | .undefined => "UndefinedExpr"
  | .num => "Number"
  | .var => "Variable"
  | .attr k => attrName k
  | .sel => "Selected"
  | .call => "Call"
  | .not => "Not"
  | .bool op => opName op
  | .add => "Add"
  | .mul => "Mul"
  | .bin op => arithName op
  | .rel op => relName op
  | .agg => "Aggregate"
  | .quant k => quantName k

/-- All classes of expressions. -/
def allCls : List Expr.Cls :=
  [.tru, .fls, .undefined, .num, .var, .sel, .call, .not, .add, .mul, .agg] ++
  [.size, .length, .first, .last, .validChecksum, .valid, .present, .head, .opaque].map .attr ++
  [.and, .andThen, .or, .orElse].map .bool ++ [.sub, .div, .pow, .mod].map .bin ++
  [.lt, .le, .eq, .ge, .gt, .ne, .isIn, .notIn].map .rel ++ [.allOf, .allIn, .someIn].map .quant

theorem mem_allCls (c : Expr.Cls) : c ∈ allCls := by
  cases c with
  | attr k => cases k <;> decide
  | bool k => cases k <;> decide
  | bin k => cases k <;> decide
  | rel k => cases k <;> decide
  | quant k => cases k <;> decide
  | _ => decide

theorem kindName_all : ∀ a ∈ allCls, ∀ b ∈ allCls, kindName a = kindName b → a = b := by decide +kernel

theorem kindName_inj {a b : Expr.Cls} (h : (kindName a).toList = (kindName b).toList) : a = b :=
  kindName_all a (mem_allCls a) b (mem_allCls b) (String.toList_inj.1 h)

theorem hasKind_unique {j : Json} {a b : String} (h : j.HasKind a) (h' : j.HasKind b) : a.toList = b.toList := by
  obtain ⟨s, hs, rfl⟩ := h
  obtain ⟨t, ht, rfl⟩ := h'
  rw [hs] at ht
  injection ht with ht; injection ht

theorem describes_kind (e : Expr) (j : Json) (h : Describes e j) : j.HasKind (kindName e.cls) := by
  cases e with
  | tru => exact h
  | fls => exact h
  | undefined => exact h
  | _ => exact h.1

theorem isID_unique {i i' : ID} {j : Json} (h : IsID i j) (h' : IsID i' j) : i = i' := by
  unfold IsID at h h'
  rw [h] at h'
  injection h' with h'
  obtain ⟨p⟩ := i; obtain ⟨q⟩ := i'
  have : p = q := (List.map_inj_right (fun a b h => by injection h)).1 h'
  rw [this]

theorem base_inj {a b : NBase} (h : baseNumber a = baseNumber b) : a = b := by
  cases a <;> cases b <;> first | rfl | (exact absurd h (by decide))

theorem id_part {j : Json} {k : String} {i i' : ID} (h : ∃ a, j.part k = some a ∧ IsID i a)
    (h' : ∃ a, j.part k = some a ∧ IsID i' a) : i = i' := by
  obtain ⟨a, h1, h2⟩ := h
  obtain ⟨b, h3, h4⟩ := h'
  rw [h1] at h3; cases h3
  exact isID_unique h2 h4

theorem bool_part {j : Json} {k : String} {b b' : Bool} (h : j.part k = some (.bool b))
    (h' : j.part k = some (.bool b')) : b = b' := by
  rw [h] at h'; injection h' with h'; injection h'

mutual

theorem expr_unique : ∀ (a b : Expr) (j : Json), Describes a j → Describes b j → plain a = plain b
  | a, b, j, ha, hb => by
    have hc : a.cls = b.cls := kindName_inj (hasKind_unique (describes_kind a j ha) (describes_kind b j hb))
    have part : ∀ (p q : Expr) (k : String), sizeOf p < sizeOf a → (∃ x, j.part k = some x ∧ Describes p x) →
        (∃ x, j.part k = some x ∧ Describes q x) → plain p = plain q := by
      intro p q k hlt ⟨x, h1, h2⟩ ⟨y, h3, h4⟩
      rw [h1] at h3; cases h3
      exact expr_unique p q x h2 h4
    have parts : ∀ (p q : List Expr) (k : String), sizeOf p < sizeOf a →
        (∃ x, j.part k = some (.list x) ∧ DescribesAll p x) →
        (∃ x, j.part k = some (.list x) ∧ DescribesAll q x) → plains p = plains q := by
      intro p q k hlt ⟨x, h1, h2⟩ ⟨y, h3, h4⟩
      rw [h1] at h3; cases h3
      exact exprs_unique p q x h2 h4
    cases a with
    | tru => cases b <;> simp only [Expr.cls, reduceCtorEq] at hc; rfl
    | fls => cases b <;> simp only [Expr.cls, reduceCtorEq] at hc; rfl
    | undefined => cases b <;> simp only [Expr.cls, reduceCtorEq] at hc; rfl
    | num v x =>
      cases b <;> simp only [Expr.cls, reduceCtorEq] at hc
      obtain ⟨_, h1, h2⟩ := ha
      obtain ⟨_, h3, h4⟩ := hb
      rw [h1] at h3; rw [h2] at h4
      injection h3 with h3; injection h3 with h3
      injection h4 with h4; injection h4 with h4
      rw [h3, base_inj h4]
    | var neg imm i =>
      cases b <;> simp only [Expr.cls, reduceCtorEq] at hc
      simp only [plain]
      rw [bool_part ha.2.1 hb.2.1, id_part ha.2.2 hb.2.2]
    | attr neg k p =>
      cases b <;> simp only [Expr.cls, reduceCtorEq] at hc
      simp only [plain]
      injection hc with hc
      rw [hc, bool_part ha.2.1 hb.2.1, part _ _ "prefix" (by simp +arith) ha.2.2 hb.2.2]
    | sel neg p s =>
      cases b <;> simp only [Expr.cls, reduceCtorEq] at hc
      simp only [plain]
      rw [bool_part ha.2.1 hb.2.1, part _ _ "prefix" (by simp +arith) ha.2.2.1 hb.2.2.1, id_part ha.2.2.2 hb.2.2.2]
    | call neg i args =>
      cases b <;> simp only [Expr.cls, reduceCtorEq] at hc
      simp only [plain]
      rw [bool_part ha.2.1 hb.2.1, id_part ha.2.2.1 hb.2.2.1, parts _ _ "args" (by simp +arith) ha.2.2.2 hb.2.2.2]
    | not e =>
      cases b <;> simp only [Expr.cls, reduceCtorEq] at hc
      simp only [plain]
      rw [part _ _ "expr" (by simp +arith) ha.2 hb.2]
    | bool op ts =>
      cases b <;> simp only [Expr.cls, reduceCtorEq] at hc
      simp only [plain]
      injection hc with hc
      rw [hc, parts _ _ "terms" (by simp +arith) ha.2 hb.2]
    | add ts =>
      cases b <;> simp only [Expr.cls, reduceCtorEq] at hc
      simp only [plain]
      rw [parts _ _ "terms" (by simp +arith) ha.2 hb.2]
    | mul ts =>
      cases b <;> simp only [Expr.cls, reduceCtorEq] at hc
      simp only [plain]
      rw [parts _ _ "terms" (by simp +arith) ha.2 hb.2]
    | bin op l r =>
      cases b <;> simp only [Expr.cls, reduceCtorEq] at hc
      simp only [plain]
      injection hc with hc
      rw [hc, part _ _ "left" (by simp +arith) ha.2.1 hb.2.1, part _ _ "right" (by simp +arith) ha.2.2 hb.2.2]
    | rel op l r =>
      cases b <;> simp only [Expr.cls, reduceCtorEq] at hc
      simp only [plain]
      injection hc with hc
      rw [hc, part _ _ "left" (by simp +arith) ha.2.1 hb.2.1, part _ _ "right" (by simp +arith) ha.2.2 hb.2.2]
    | agg es =>
      cases b <;> simp only [Expr.cls, reduceCtorEq] at hc
      simp only [plain]
      rw [parts _ _ "elements" (by simp +arith) ha.2 hb.2]
    | quant k p it pr =>
      cases b <;> simp only [Expr.cls, reduceCtorEq] at hc
      simp only [plain]
      injection hc with hc
      rw [hc, id_part ha.2.1 hb.2.1, part _ _ "iterable" (by simp +arith) ha.2.2.1 hb.2.2.1,
        part _ _ "predicate" (by simp +arith) ha.2.2.2 hb.2.2.2]
termination_by a => (sizeOf a, 0)

theorem exprs_unique : ∀ (as bs : List Expr) (l : List Json), DescribesAll as l → DescribesAll bs l → plains as = plains bs
  | [], bs, l, ha, hb => by
    simp only [DescribesAll] at ha; subst ha
    cases bs with
    | nil => rfl
    | cons b bs => obtain ⟨_, _, h, _⟩ := hb; cases h
  | a :: as, bs, l, ha, hb => by
    obtain ⟨j, js, rfl, h1, h2⟩ := ha
    cases bs with
    | nil => simp only [DescribesAll, reduceCtorEq] at hb
    | cons b bs =>
      obtain ⟨_, _, h, h3, h4⟩ := hb; cases h
      simp only [plains]
      rw [expr_unique a b j h1 h3, exprs_unique as bs js h2 h4]
termination_by as => (sizeOf as, 0)

end

end Verif.Export
