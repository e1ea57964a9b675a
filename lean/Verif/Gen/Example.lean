import Verif.Gen.Props
import Verif.Verify.Example

/-! # C43: an example, and what the generator gets wrong

```
type T is (A => 1, B => 2) with Size => 8;
type M is
   message
      Tag : T;
      Len : U8
         then Data
            with Size => Len * 8
            if ...;
      Data : Opaque;
   end message;
``` -/

namespace Verif.Gen
open Verif Verif.Graph Verif.Verify Verif.Types

def exT : Enum := ⟨⟨[['P'], ['T']]⟩, [(⟨[['A']]⟩, 1), (⟨[['B']]⟩, 2)], .n 8, false⟩

def exTag : Field := ⟨[['t', 'a', 'g']]⟩
def exLen : Field := ⟨[['l', 'e', 'n']]⟩
def exData : Field := ⟨[['d', 'a', 't', 'a']]⟩

def exSpell (f : Field) : PyStr :=
  if f = exTag then ['T', 'a', 'g'] else if f = exLen then ['L', 'e', 'n'] else ['D', 'a', 't', 'a']

def exMsg : GMsg :=
  ⟨⟨⟨[['P'], ['M']]⟩, [], [exTag, exLen, exData], [(exTag, .enum exT), (exLen, exU8), (exData, .opaque)], []⟩, exSpell⟩

def exTagV : Expr := .v ⟨[['T', 'a', 'g']]⟩
def exLenV : Expr := .v ⟨[['L', 'e', 'n']]⟩
def exDataV : Expr := .v ⟨[['D', 'a', 't', 'a']]⟩
def exDataSize : Expr := .attr false .size exDataV

/-- `(Tag = P.A or Len < 3) and Data'Size = Len * 8 and Data /= [1, 2] and Message'Last - Data'Last >= 0`. -/
def exCond : Expr :=
  .bool .and [.bool .or [.rel .eq exTagV (.v ⟨[['P'], ['A']]⟩), .rel .lt exLenV (.n 3)],
    .rel .eq exDataSize (.mul [exLenV, .n 8]), .rel .ne exDataV (.agg [.n 1, .n 2]),
    .rel .ge (.bin .sub (.attr false .last (.v MESSAGE)) (.attr false .last exDataV)) (.n 0)]

/-- A context: the tag is `A`, the length 2, the data `[1, 3]` at the bits 17 to 32. -/
def exView : View where
  first := 1
  last := 32
  cFirst n := if n = ['d', 'a', 't', 'a'] then 17 else if n = ['l', 'e', 'n'] then 9 else 1
  cLast n := if n = ['d', 'a', 't', 'a'] then 32 else if n = ['l', 'e', 'n'] then 16 else 8
  cValue n := if n = ['l', 'e', 'n'] then 2 else 1
  lit k := if k = [['b']] ∨ k = [['p'], ['b']] then 2 else 1
  equal _ es := decide ([1, 3] = es)
  slice _ _ := [1, 3]
  fFirst n := if n = ['d', 'a', 't', 'a'] then 17 else if n = ['l', 'e', 'n'] then 9 else 1
  fLast n := if n = ['d', 'a', 't', 'a'] then 32 else if n = ['l', 'e', 'n'] then 16 else 8
  fSize n := if n = ['d', 'a', 't', 'a'] then 16 else 8
  get n := if n = ['l', 'e', 'n'] then 2 else 1
  valid _ := true
  structuralValid _ := true
  val := 0
  size := 0

/-- The values of the message. -/
def exEnv43 : Env where
  var k := if k = [['l', 'e', 'n']] then .int 2 else if k = [['d', 'a', 't', 'a']] then .seq [1, 3]
    else if k = [['b']] ∨ k = [['p'], ['b']] then .int 2 else .int 1
  attr a k :=
    match a with
    | .first => if k = [['d', 'a', 't', 'a']] then .int 17 else if k = [['l', 'e', 'n']] then .int 9 else .int 1
    | .last => if k = [['d', 'a', 't', 'a']] ∨ k = [['m', 'e', 's', 's', 'a', 'g', 'e']] then .int 32
      else if k = [['l', 'e', 'n']] then .int 16 else .int 8
    | .size => if k = [['d', 'a', 't', 'a']] then .int 16 else if k = [['m', 'e', 's', 's', 'a', 'g', 'e']] then .int 32 else .int 8
    | _ => .bool true
  sel _ _ := .int 0
  call _ _ := .int 0

theorem exLits {id : ID} (h : LitName exMsg id) :
    id.key = [['a']] ∨ id.key = [['b']] ∨ id.key = [['p'], ['a']] ∨ id.key = [['p'], ['b']] := by
  obtain ⟨t, ht, l, hl, h⟩ := h
  have : t = exT := by simpa [exMsg, enums, exU8] using ht
  subst this
  simp only [exT, List.mem_cons, List.not_mem_nil, or_false] at hl
  rcases hl with rfl | rfl <;> rcases h with h | h
  · exact .inl h
  · exact .inr (.inr (.inl h))
  · exact .inr (.inl h)
  · exact .inr (.inr (.inr h))

theorem exNames (o : Opts) : Names exMsg o where
  field := by
    intro f hf
    have : f = exTag ∨ f = exLen ∨ f = exData := by simpa [exMsg] using hf
    rcases this with rfl | rfl | rfl <;> exact ⟨by decide, by decide⟩
  typed := by
    intro e he
    have : e = (exTag, .enum exT) ∨ e = (exLen, exU8) ∨ e = (exData, .opaque) := by simpa [exMsg] using he
    rcases this with rfl | rfl | rfl <;> simp [exMsg]
  once := by
    have : exMsg.msg.types.map (·.1) = [exTag, exLen, exData] := rfl
    rw [this]; decide
  enum := by
    intro t ht
    have : t = exT := by simpa [exMsg, enums, exU8] using ht
    subst this
    decide
  literal := by
    intro id h
    have plain : ∀ emb, Plain emb [['a']] ∧ Plain emb [['b']] ∧ Plain emb [['p'], ['a']] ∧ Plain emb [['p'], ['b']] := by
      intro emb
      cases emb <;> simp [Plain, unaffixed]
    rcases exLits h with h | h | h | h <;> rw [h]
    · exact ⟨by simp [exMsg]; decide, (plain _).1⟩
    · exact ⟨by simp [exMsg]; decide, (plain _).2.1⟩
    · exact ⟨by simp [exMsg]; decide, (plain _).2.2.1⟩
    · exact ⟨by simp [exMsg]; decide, (plain _).2.2.2⟩
  checksum := by simp [exMsg]
  message := by simp [exMsg]; decide
  ctx := by simp [exMsg]; decide

/-- The fields of the message are known. -/
def exKnown (f : Field) : Prop := f = exTag ∨ f = exLen ∨ f = exData

theorem exRepresents (o : Opts) : Represents exMsg o exView exKnown exEnv43 where
  first := rfl
  last := rfl
  size := rfl
  literal id h := by rcases exLits h with h | h | h | h <;> rw [h] <;> rfl
  fieldFirst f n h hn := by
    rcases h with rfl | rfl | rfl <;> cases hn <;> cases o.pub <;> rfl
  fieldLast f n h hn := by
    rcases h with rfl | rfl | rfl <;> cases hn <;> cases o.pub <;> rfl
  fieldSize f n h hn := by
    rcases h with rfl | rfl | rfl <;> cases hn <;> cases o.pub <;> rfl
  scalar f n t h hn ht hs := by
    rcases h with rfl | rfl | rfl <;> cases hn
    · cases o.pub <;> rfl
    · cases o.pub <;> rfl
    · have : t = .opaque := by
        have h := nodup_pair (exNames o).once ht (by simp [exMsg] : (exData, FTy.opaque) ∈ exMsg.msg.types)
        exact h
      subst this
      simp [Scalar] at hs
  composite f n t h hn ht hs := by
    rcases h with rfl | rfl | rfl <;> cases hn
    · have h := nodup_pair (exNames o).once ht (by simp [exMsg] : (exTag, FTy.enum exT) ∈ exMsg.msg.types)
      subst h
      simp [Scalar] at hs
    · have h := nodup_pair (exNames o).once ht (by simp [exMsg] : (exLen, exU8) ∈ exMsg.msg.types)
      subst h
      simp [Scalar, exU8] at hs
    · refine ⟨[1, 3], rfl, ?_⟩
      cases o.embedded
      · intro es; rfl
      · rfl

theorem exCond_ok (o : Opts) (h : o.embedded = false) : Cond exMsg o exKnown exCond := by
  have tag : ScalarField exMsg exKnown ⟨[['T', 'a', 'g']]⟩ := ⟨.inl (by decide), .enum exT, List.mem_cons_self, trivial⟩
  have len : ScalarField exMsg exKnown ⟨[['L', 'e', 'n']]⟩ :=
    ⟨.inr (.inl (by decide)), exU8, List.mem_cons_of_mem _ List.mem_cons_self, trivial⟩
  have data : exKnown ⟨ID.key ⟨[['D', 'a', 't', 'a']]⟩⟩ ∧ ∃ t, (⟨ID.key ⟨[['D', 'a', 't', 'a']]⟩⟩, t) ∈ exMsg.msg.types ∧ ¬ Scalar t :=
    ⟨.inr (.inr (by decide)), .opaque, List.mem_cons_of_mem _ (List.mem_cons_of_mem _ List.mem_cons_self), by simp [Scalar]⟩
  have lit : LitName exMsg ⟨[['P'], ['A']]⟩ := ⟨exT, by simp [exMsg, enums], _, List.mem_cons_self, .inr (by decide)⟩
  have attr : ∀ a, a = .first ∨ a = .last ∨ a = .size → Attribute exMsg o exKnown false a ⟨[['D', 'a', 't', 'a']]⟩ :=
    fun a ha => ⟨ha, .inr ⟨exData, by simp [exMsg], .inr (.inr rfl), by decide, by simp⟩⟩
  refine ⟨⟨⟨⟨rfl, .inl tag⟩, rfl, .inr lit⟩, ⟨rfl, .inl ⟨rfl, len⟩⟩, trivial⟩, ⟨⟨rfl, rfl, attr _ (by simp)⟩, ⟨rfl, .inl len⟩, trivial, trivial⟩,
    ⟨rfl, data, by simp, .inr ⟨rfl, h⟩⟩, ⟨⟨⟨rfl, rfl, by simp, .inl rfl⟩, rfl, rfl, attr _ (by simp)⟩, trivial⟩, trivial⟩

example : ∃ r, (⟨false, false, some U64⟩ : Opts).generate exMsg exCond = .ok r ∧
    eval Division.ada (exView.env false) r = some (.bool true) := by
  refine C43_condition_partial (exNames _) (.inr (.inl rfl)) (exRepresents ⟨false, false, some U64⟩) (exCond_ok _ rfl) ?_ ?_ _ rfl
  · simp only [exCond, exTagV, exLenV, exDataV, exDataSize, Expr.WF, Expr.WFL, MESSAGE, Expr.headOK]; decide
  · simp [exCond, exTagV, exLenV, exDataV, exDataSize, Expr.Good, Expr.GoodL]

/-! ## What goes wrong -/

/-- The generator writes for `e` an expression with another value (or with none). -/
def Wrong (m : GMsg) (o : Opts) (V : View) (σ : Env) (e : Expr) : Prop :=
  ∃ r v, o.generate m e = .ok r ∧ eval Division.ada σ e = some v ∧ eval Division.ada (V.env o.embedded) r ≠ some v

/-- `-Len < 1` is true of the length 2; the generated condition is `Len_Value < 1`. -/
theorem C43_negative_counterexample : ∃ m o V σ e, Names m o ∧ Target o ∧ Represents m o V (· ∈ m.msg.fields) σ ∧ e.WF ∧
    Wrong m o V σ e := by
  refine ⟨exMsg, ⟨false, false, some U64⟩, exView, exEnv43, .rel .lt (.var true false ⟨[['L', 'e', 'n']]⟩) (.n 1), exNames _, .inr (.inl rfl),
    ?_, ?_, _, .bool true, rfl, rfl, ?_⟩
  · have := exRepresents ⟨false, false, some U64⟩
    have hk : (fun f => f ∈ exMsg.msg.fields) = exKnown := by
      funext f; simp [exMsg, exKnown]
    rw [hk]; exact this
  · simp only [Expr.WF]; decide
  · intro h
    have h' : eval Division.ada (exView.env false) (.rel .lt (.sel false (.var false true ⟨[CTX, CURSORS, affixed ['L', 'e', 'n']]⟩)
        ⟨[VALUE, ['L', 'e', 'n', '_', 'V', 'a', 'l', 'u', 'e']]⟩) (.n 1)) = some (.bool false) := rfl
    have h2 := h'.symm.trans h
    cases h2

/-- In the predicate of the context, `Data /= [1, 2]` becomes `Data = [1, 2]`. -/
theorem C43_embedded_inequality_counterexample : ∃ m o V σ e, Names m o ∧ Target o ∧ Represents m o V (· ∈ m.msg.fields) σ ∧ e.WF ∧
    Wrong m o V σ e := by
  refine ⟨exMsg, ⟨true, false, some U64⟩, exView, exEnv43, .rel .ne exDataV (.agg [.n 1, .n 2]), exNames _, .inr (.inl rfl),
    ?_, ?_, _, .bool true, rfl, rfl, ?_⟩
  · have := exRepresents ⟨true, false, some U64⟩
    have hk : (fun f => f ∈ exMsg.msg.fields) = exKnown := by
      funext f; simp [exMsg, exKnown]
    rw [hk]; exact this
  · simp only [exDataV, Expr.WF, Expr.WFL]; decide
  · intro h
    have h' : eval Division.ada (exView.env true) ((⟨true, false, some U64⟩ : Opts).aggregate ['D', 'a', 't', 'a'] false [.n 1, .n 2]) =
        some (.bool false) := rfl
    have h2 := h'.symm.trans h
    cases h2

/-- `DATA'Size` is not recognised as the size of `Data`: the generated code contains the attribute of a conversion of the
value. -/
theorem C43_letter_case_counterexample : ∃ m o V σ e, Names m o ∧ Target o ∧ Represents m o V (· ∈ m.msg.fields) σ ∧ e.WF ∧
    Wrong m o V σ e := by
  refine ⟨exMsg, ⟨false, false, some U64⟩, exView, exEnv43, .rel .eq (.attr false .size (.v ⟨[['D', 'A', 'T', 'A']]⟩)) (.n 16), exNames _,
    .inr (.inl rfl), ?_, ?_, _, .bool true, rfl, rfl, ?_⟩
  · have := exRepresents ⟨false, false, some U64⟩
    have hk : (fun f => f ∈ exMsg.msg.fields) = exKnown := by
      funext f; simp [exMsg, exKnown]
    rw [hk]; exact this
  · simp only [Expr.WF]; decide
  · intro h
    have h' : eval Division.ada (exView.env false) (.rel .eq (.attr false .size (.call false U64 [exDataV])) (.n 16)) = none := rfl
    have h2 := h'.symm.trans h
    cases h2

/-- The message with a checksum `Len`. -/
def exChkMsg : GMsg := { exMsg with msg := { exMsg.msg with checksums := [(⟨[['L', 'e', 'n']]⟩, [])] } }

/-- The conditions of checksums become `True`: a wrong checksum does not make the generated condition false. -/
theorem C43_checksum_counterexample : ∃ m o V σ e, Names m o ∧ Target o ∧ Represents m o V (· ∈ m.msg.fields) σ ∧ e.WF ∧
    Wrong m o V σ e := by
  have hN : Names exChkMsg ⟨false, false, some U64⟩ :=
    { exNames ⟨false, false, some U64⟩ with
      literal := (exNames ⟨false, false, some U64⟩).literal
      checksum := by
        intro c hc
        have : c = (⟨[['L', 'e', 'n']]⟩, []) := by simpa [exChkMsg] using hc
        subst this
        decide }
  refine ⟨exChkMsg, ⟨false, false, some U64⟩, exView,
    { exEnv43 with attr := fun a k => if a = .validChecksum then .bool false else exEnv43.attr a k },
    .attr false .validChecksum exLenV, hN, .inr (.inl rfl), ?_, ?_, .tru, .bool false, rfl, rfl, ?_⟩
  · have R := exRepresents ⟨false, false, some U64⟩
    have hk : (fun f => f ∈ exChkMsg.msg.fields) = exKnown := by
      funext f; simp [exChkMsg, exMsg, exKnown]
    rw [hk]
    exact ⟨R.first, R.last, R.size, R.literal, R.fieldFirst, R.fieldLast, R.fieldSize, R.scalar, R.composite⟩
  · simp only [exLenV, Expr.WF]; decide
  · intro h; cases h

end Verif.Gen
