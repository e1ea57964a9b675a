import Verif.SpecParser.PackageLemmas

/-! # Helper lemmas: the types of declarations -/

namespace Verif.SpecParser
open Verif Verif.Types

variable {M S : Type}

/-! ## Aspects of enumerations -/

theorem eq_var {e : Expr} {i : ID} (h : e.eq (.var false false i) = true) : ∃ imm j, e = .var false imm j ∧ j.key = i.key := by
  cases e with
  | var ng imm j =>
    simp only [Expr.eq, Bool.and_eq_true, beq_iff_eq, key_eq] at h
    exact ⟨imm, j, by rw [h.2.1], h.2.2⟩
  | bool op ts => cases op <;> (exfalso; revert h; simp [Expr.eq, Expr.cls, Expr.Cls.sub])
  | bin op l r => cases op <;> (exfalso; revert h; simp [Expr.eq, Expr.cls, Expr.Cls.sub])
  | rel op l r => cases op <;> (exfalso; revert h; simp [Expr.eq, Expr.cls, Expr.Cls.sub])
  | attr ng k e => cases k <;> (exfalso; revert h; simp [Expr.eq, Expr.cls, Expr.Cls.sub])
  | quant k p it pr => cases k <;> (exfalso; revert h; simp [Expr.eq, Expr.cls, Expr.Cls.sub])
  | _ => exfalso; revert h; simp [Expr.eq, Expr.cls, Expr.Cls.sub]

theorem eq_undefined {e : Expr} (h : e.eq .undefined = true) : e = .undefined := by
  cases e with
  | undefined => rfl
  | bool op ts => cases op <;> (exfalso; revert h; simp [Expr.eq, Expr.cls, Expr.Cls.sub])
  | bin op l r => cases op <;> (exfalso; revert h; simp [Expr.eq, Expr.cls, Expr.Cls.sub])
  | rel op l r => cases op <;> (exfalso; revert h; simp [Expr.eq, Expr.cls, Expr.Cls.sub])
  | attr ng k e => cases k <;> (exfalso; revert h; simp [Expr.eq, Expr.cls, Expr.Cls.sub])
  | quant k p it pr => cases k <;> (exfalso; revert h; simp [Expr.eq, Expr.cls, Expr.Cls.sub])
  | _ => exfalso; revert h; simp [Expr.eq, Expr.cls, Expr.Cls.sub]

/-- Expressions other than names do not become variables, and no expression becomes `UNDEFINED`. -/
theorem create_shape : ∀ (t : Tree) {m : Mode} {e : Expr}, Lexical t → create m t = .ok e →
    e ≠ .undefined ∧ ∀ ng imm j, e = .var ng imm j → ∃ n, t.name? = some n ∧ j.key = n.key
  | .numeral s, m, e, hl, h => by
    obtain ⟨n, hn⟩ := (by simpa [Lexical] using hl : ∃ n, Numeral s n)
    simp only [create] at h
    split at h
    · cases h
    · obtain ⟨b, rfl⟩ := createNumeral_value hn h
      exact ⟨by simp, by simp⟩
  | .paren t, m, e, hl, h => create_shape t (by simpa [Lexical] using hl) (by simpa [create] using h)
  | .var id, m, e, hl, h => by
    simp only [create] at h
    obtain ⟨i, hi, rfl⟩ := map_ok' h
    refine ⟨by simp, ?_⟩
    intro ng imm j hj
    cases hj
    exact ⟨id, rfl, createId_key (by simpa [Lexical] using hl) hi⟩
  | .attribute k t, m, e, hl, h => by
    simp only [create] at h
    obtain ⟨a, _, h⟩ := bind_ok' h
    have : ∃ k' e', e = .attr false k' e' := by
      cases m <;> cases k <;> first | (cases h; done) | exact ⟨_, _, (Except.ok.inj h).symm⟩
    obtain ⟨k', e', rfl⟩ := this
    exact ⟨by simp, by simp⟩
  | .aggregate ts, m, e, hl, h => by
    simp only [create] at h
    split at h
    · cases h
    · obtain ⟨_, _, rfl⟩ := map_ok' h
      exact ⟨by simp, by simp⟩
  | .string s, m, e, hl, h => by
    simp only [create] at h
    split at h
    · unfold createString at h
      split at h
      · cases h; exact ⟨by simp, by simp⟩
      · cases h
    · cases h
  | .call id as, m, e, hl, h => by
    simp only [create] at h
    obtain ⟨_, _, h⟩ := bind_ok' h
    obtain ⟨_, _, rfl⟩ := map_ok' h
    exact ⟨by simp, by simp⟩
  | .quantified ex p it pr, m, e, hl, h => by
    simp only [create] at h
    split at h
    · cases h
    · obtain ⟨_, _, h⟩ := bind_ok' h
      obtain ⟨_, _, h⟩ := bind_ok' h
      obtain ⟨_, _, rfl⟩ := map_ok' h
      exact ⟨by simp, by simp⟩
  | .negation t, m, e, hl, h => by
    simp only [create] at h
    split at h
    · cases h
    · obtain ⟨a, _, h⟩ := bind_ok' h
      cases a <;> simp only [negated, reduceCtorEq, Except.ok.injEq] at h
      subst h
      exact ⟨by simp, by simp⟩
  | .concatenation l r, m, e, hl, h => by
    simp only [create] at h
    split at h
    · obtain ⟨a, _, h⟩ := bind_ok' h
      obtain ⟨b, _, h⟩ := bind_ok' h
      unfold concatenated at h
      split at h
      · cases h; exact ⟨by simp, by simp⟩
      · cases h
    · cases h
  | .select t s, m, e, hl, h => by
    simp only [create] at h
    obtain ⟨_, _, h⟩ := bind_ok' h
    obtain ⟨_, _, rfl⟩ := map_ok' h
    exact ⟨by simp, by simp⟩
  | .binop op l r, m, e, hl, h => by
    simp only [create] at h
    obtain ⟨c, hc, h⟩ := bind_ok' h
    obtain ⟨a, _, h⟩ := bind_ok' h
    obtain ⟨b, _, rfl⟩ := map_ok' h
    cases m <;> cases op <;> first | (cases hc; done) | (cases hc; exact ⟨by simp, by simp⟩)

theorem lastAspect_cons {n : PyStr} {a b : AspectNode} {as : List AspectNode} (h : LastAspect n as a) : LastAspect n (b :: as) a := by
  obtain ⟨bs, cs, rfl, h1, h2⟩ := h
  exact ⟨b :: bs, cs, rfl, h1, h2⟩

theorem lastAspect_head {n : PyStr} {a : AspectNode} {as : List AspectNode} (h : a.name = n) (hn : ∀ b ∈ as, b.name ≠ n) : LastAspect n (a :: as) a :=
  ⟨[], as, rfl, h, hn⟩

/-- What the aspects of an enumeration say about its validity, if there is an aspect. -/
def ValidSays (as : List AspectNode) (b : Bool) : Prop :=
  ∃ a, LastAspect ['A', 'l', 'w', 'a', 'y', 's', '_', 'V', 'a', 'l', 'i', 'd'] as a ∧
    (a.value = none ∧ b = true ∨
      ∃ t n, a.value = some t ∧ t.name? = some n ∧
        (n.key = [['t', 'r', 'u', 'e']] ∧ b = true ∨ n.key = [['f', 'a', 'l', 's', 'e']] ∧ b = false))

theorem validSays_cons {b : Bool} {a : AspectNode} {as : List AspectNode} (h : ValidSays as b) : ValidSays (a :: as) b := by
  obtain ⟨c, h1, h2⟩ := h
  exact ⟨c, lastAspect_cons h1, h2⟩

theorem enumAspects_spec : ∀ (as : List AspectNode) (s0 s : Option Expr) (b0 b : Bool), (∀ a ∈ as, a.Lexical) →
    enumAspects as (s0, b0) = .ok (s, b) →
    ((s = s0 ∧ ∀ a ∈ as, a.name ≠ ['S', 'i', 'z', 'e']) ∨
      ∃ a t e, LastAspect ['S', 'i', 'z', 'e'] as a ∧ a.value = some t ∧ create .math t = .ok e ∧ s = some e) ∧
    ((b = b0 ∧ ∀ a ∈ as, a.name ≠ ['A', 'l', 'w', 'a', 'y', 's', '_', 'V', 'a', 'l', 'i', 'd']) ∨ ValidSays as b)
  | [], s0, s, b0, b, _, h => by
    simp only [enumAspects, Except.ok.injEq, Prod.mk.injEq] at h
    exact ⟨.inl ⟨h.1.symm, by simp⟩, .inl ⟨h.2.symm, by simp⟩⟩
  | a :: as, s0, s, b0, b, hl, h => by
    have hl' : ∀ a ∈ as, a.Lexical := fun b hb => hl b (by simp [hb])
    unfold enumAspects at h
    split at h
    · rename_i hn
      obtain ⟨t, ht, h⟩ := bind_ok' h
      obtain ⟨e, he, h⟩ := bind_ok' h
      obtain ⟨h1, h2⟩ := enumAspects_spec as _ _ _ _ hl' h
      have hv : a.value = some t := by
        unfold AspectNode.tree at ht
        cases hv : a.value with
        | none => rw [hv] at ht; cases ht
        | some u => rw [hv] at ht; cases ht; rfl
      refine ⟨.inr ?_, ?_⟩
      · rcases h1 with ⟨h1, h3⟩ | ⟨c, t', e', h1, h3⟩
        · exact ⟨a, t, e, lastAspect_head hn h3, hv, he, h1⟩
        · exact ⟨c, t', e', lastAspect_cons h1, h3⟩
      · rcases h2 with ⟨h2, h3⟩ | h2
        · refine .inl ⟨h2, ?_⟩
          intro c hc
          rcases List.mem_cons.1 hc with rfl | hc
          · rw [hn]; decide
          · exact h3 c hc
        · exact .inr (validSays_cons h2)
    · rename_i hn
      split at h
      · rename_i hav
        have size : ∀ b1, enumAspects as (s0, b1) = .ok (s, b) →
            ((s = s0 ∧ ∀ a' ∈ a :: as, a'.name ≠ ['S', 'i', 'z', 'e']) ∨
              ∃ a' t e, LastAspect ['S', 'i', 'z', 'e'] (a :: as) a' ∧ a'.value = some t ∧ create .math t = .ok e ∧ s = some e) := by
          intro b1 h
          rcases (enumAspects_spec as _ _ _ _ hl' h).1 with ⟨h1, h3⟩ | ⟨c, t', e', h1, h3⟩
          · refine .inl ⟨h1, ?_⟩
            intro c hc
            rcases List.mem_cons.1 hc with rfl | hc
            · exact hn
            · exact h3 c hc
          · exact .inr ⟨c, t', e', lastAspect_cons h1, h3⟩
        split at h
        · rename_i hv
          refine ⟨size _ h, .inr ?_⟩
          rcases (enumAspects_spec as _ _ _ _ hl' h).2 with ⟨h2, h3⟩ | h2
          · exact ⟨a, lastAspect_head hav h3, .inl ⟨hv, h2⟩⟩
          · exact validSays_cons h2
        · rename_i t hv
          obtain ⟨e, he, h⟩ := bind_ok' h
          have hs := create_shape t (hl a (by simp) t hv) he
          split at h
          · rename_i hq
            obtain ⟨imm, j, hj, hk⟩ := eq_var hq
            obtain ⟨n, hn1, hn2⟩ := hs.2 _ _ _ hj
            refine ⟨size _ h, .inr ?_⟩
            rcases (enumAspects_spec as _ _ _ _ hl' h).2 with ⟨h2, h3⟩ | h2
            · exact ⟨a, lastAspect_head hav h3, .inr ⟨t, n, hv, hn1, .inl ⟨by rw [← hn2, hk]; decide, h2⟩⟩⟩
            · exact validSays_cons h2
          · split at h
            · rename_i hq
              obtain ⟨imm, j, hj, hk⟩ := eq_var hq
              obtain ⟨n, hn1, hn2⟩ := hs.2 _ _ _ hj
              refine ⟨size _ h, .inr ?_⟩
              rcases (enumAspects_spec as _ _ _ _ hl' h).2 with ⟨h2, h3⟩ | h2
              · exact ⟨a, lastAspect_head hav h3, .inr ⟨t, n, hv, hn1, .inr ⟨by rw [← hn2, hk]; decide, h2⟩⟩⟩
              · exact validSays_cons h2
            · cases h
      · rename_i hav
        obtain ⟨h1, h2⟩ := enumAspects_spec as _ _ _ _ hl' h
        constructor
        · rcases h1 with ⟨h1, h3⟩ | ⟨c, t', e', h1, h3⟩
          · refine .inl ⟨h1, ?_⟩
            intro c hc
            rcases List.mem_cons.1 hc with rfl | hc
            · exact hn
            · exact h3 c hc
          · exact .inr ⟨c, t', e', lastAspect_cons h1, h3⟩
        · rcases h2 with ⟨h2, h3⟩ | h2
          · refine .inl ⟨h2, ?_⟩
            intro c hc
            rcases List.mem_cons.1 hc with rfl | hc
            · exact hav
            · exact h3 c hc
          · exact .inr (validSays_cons h2)

/-! ## Enumerations -/

theorem namedLiterals_spec : ∀ (es : List (PyStr × Tree)) (ls : List (StrID × Int)), (∀ e ∈ es, IsName e.1 ∧ Lexical e.2) →
    namedLiterals es = .ok ls →
    ∃ l : List (ID × Int), ls = l.map (fun kv => (.id kv.1, kv.2)) ∧ (∀ kv ∈ l, kv.1.Valid ∧ kv.1.parts.length = 1) ∧
      List.Forall₂ (fun (e : PyStr × Tree) (l : ID × Int) => l.1.key = [e.1.lower] ∧ HasValue e.2 l.2) es l
  | [], ls, _, h => by
    cases h
    exact ⟨[], rfl, by simp, .nil⟩
  | (n, t) :: es, ls, hl, h => by
    unfold namedLiterals at h
    obtain ⟨i, hi, h⟩ := bind_ok' h
    obtain ⟨e, he, h⟩ := bind_ok' h
    obtain ⟨hn, ht⟩ := hl (n, t) (by simp)
    split at h
    · rename_i v _
      obtain ⟨ls', h1, h2⟩ := bind_ok' h
      cases h2
      obtain ⟨l, rfl, h3, h4⟩ := namedLiterals_spec es ls' (fun e he => hl e (by simp [he])) h1
      refine ⟨(i, v) :: l, rfl, ?_, .cons ⟨?_, ?_⟩ h4⟩
      · intro kv hkv
        rcases List.mem_cons.1 hkv with rfl | hkv
        · exact ⟨createId_valid hi, by rw [createId_simple hn hi]; rfl⟩
        · exact h3 kv hkv
      · rw [createId_simple hn hi]; rfl
      · intro D ρ
        exact (C52_value t _ ht he D ρ _).1 rfl
    · cases h

theorem positionalLiterals_spec : ∀ (es : List PyStr) (k : Nat) (ls : List (StrID × Int)), (∀ e ∈ es, IsName e) →
    positionalLiterals k es = .ok ls →
    ∃ l : List (ID × Int), ls = l.map (fun kv => (.id kv.1, kv.2)) ∧ (∀ kv ∈ l, kv.1.Valid ∧ kv.1.parts.length = 1) ∧
      l.map (fun l => (l.1.key, l.2)) = (es.zipIdx k).map (fun e => ([PyStr.lower e.1], (e.2 : Int)))
  | [], k, ls, _, h => by
    cases h
    exact ⟨[], rfl, by simp, rfl⟩
  | n :: es, k, ls, hl, h => by
    unfold positionalLiterals at h
    obtain ⟨i, hi, h⟩ := bind_ok' h
    obtain ⟨ls', h1, h2⟩ := bind_ok' h
    cases h2
    have hn := hl n (by simp)
    obtain ⟨l, rfl, h3, h4⟩ := positionalLiterals_spec es (k + 1) ls' (fun e he => hl e (by simp [he])) h1
    refine ⟨(i, (k : Int)) :: l, rfl, ?_, ?_⟩
    · intro kv hkv
      rcases List.mem_cons.1 hkv with rfl | hkv
      · exact ⟨createId_valid hi, by rw [createId_simple hn hi]; rfl⟩
      · exact h3 kv hkv
    · rw [List.zipIdx_cons, List.map_cons, List.map_cons, h4, createId_simple hn hi]
      rfl

theorem scalarSize_ok {e : Expr} {n : Num} (h : e.simplified = .ok n.expr) : scalarSize e = .ok n := by
  unfold scalarSize
  rw [h]
  rfl

/-- The enumeration of a declaration. -/
theorem createEnumeration_spec {id : ID} {l : List (ID × Int)} {as : List AspectNode} {t : MTy M} (hv : ∀ kv ∈ l, kv.1.Valid)
    (hl : ∀ a ∈ as, a.Lexical) (hc : ∀ a ∈ as, a.name = ['S', 'i', 'z', 'e'] → ∀ t, a.value = some t → Constant t)
    (h : createEnumeration id (l.map fun kv => (.id kv.1, kv.2)) as = .ok t) :
    ∃ e size, t = .enum e ∧ e.id = id ∧ e.literals = l ∧ SizeAspect as size ∧ (∃ n, scalarSize e.size = .ok n ∧ n.v = size) ∧
      AlwaysValid as e.alwaysValid ∧ Proper e.literals size := by
  unfold createEnumeration at h
  obtain ⟨⟨s, av⟩, ha, h⟩ := bind_ok' h
  obtain ⟨h1, h2⟩ := enumAspects_spec as _ _ _ _ hl ha
  cases s with
  | none => cases h
  | some s =>
    simp only at h
    obtain ⟨e, he, h⟩ := bind_ok' h
    cases h
    obtain ⟨_, hd, sn, hs, g, rfl⟩ := (C06_iff id l hv s av e).1 he
    rcases h1 with ⟨h1, _⟩ | ⟨a, t, s', h1, h3, h4, h5⟩
    · cases h1
    · cases h5
      have ham : a ∈ as := by obtain ⟨bs, cs, rfl, _⟩ := h1; simp
      have han : a.name = ['S', 'i', 'z', 'e'] := by obtain ⟨bs, cs, _, h, _⟩ := h1; exact h
      refine ⟨_, sn.v, rfl, rfl, rfl, ⟨a, t, h1, h3, constant_value (hl a ham t h3) (hc a ham han t h3) h4 hs⟩,
        ⟨sn, scalarSize_ok hs, rfl⟩, ?_, hd, g.distinct, g.size, ?_⟩
      · rcases h2 with h2 | h2
        · exact .inl h2
        · exact .inr h2
      · intro kv hkv
        have := g.range kv hkv
        exact ⟨this.1, this.2.2.1, this.2.2.2⟩

/-! ## Integers -/

theorem createModular_spec {id : ID} {m : Tree} {t : MTy M} (hl : Lexical m) (hc : Constant m) (h : createModular id m = .ok t) :
    ∃ (e : ModInt) (k : Nat), t = .modular e ∧ e.id = id ∧ k ≤ 64 ∧ HasValue m (2 ^ k) ∧ Interval (.modular e) 0 (2 ^ k - 1) k := by
  unfold createModular at h
  obtain ⟨e, he, h⟩ := bind_ok' h
  obtain ⟨u, hu, h⟩ := bind_ok' h
  cases h
  obtain ⟨_, k, hk, ⟨b, hs⟩, rfl⟩ := (C05_modular_iff id e u).1 hu
  refine ⟨_, k, rfl, rfl, hk, constant_value hl hc he hs, ⟨_, rfl, rfl⟩, ⟨Num.n (2 ^ k - 1), ?_, rfl⟩, ⟨Num.n k, rfl, rfl⟩⟩
  show IntType.last _ = _
  simp only [IntType.last, hs]
  rfl

theorem createRange_spec {id : ID} {f l : Tree} {a : AspectNode} {t : MTy M} (h1 : Lexical f) (h2 : Lexical l) (h3 : a.Lexical)
    (c1 : Constant f) (c2 : Constant l) (c3 : ∀ t, a.value = some t → Constant t) (h : createRange id f l a = .ok t) :
    ∃ (e : RangeInt) (s : Tree) (first last size : Int), t = .range e ∧ e.id = id ∧ a.name = ['S', 'i', 'z', 'e'] ∧ a.value = some s ∧
      HasValue f first ∧ HasValue l last ∧ HasValue s size ∧ 0 ≤ first ∧ first ≤ last ∧ last < 2 ^ 63 ∧ 0 ≤ size ∧ last < 2 ^ size.toNat ∧
      size ≤ 64 ∧ Interval (.range e) first last size := by
  unfold createRange at h
  split at h
  · cases h
  · rename_i hn
    obtain ⟨st, hst, h⟩ := bind_ok' h
    obtain ⟨se, hse, h⟩ := bind_ok' h
    obtain ⟨fe, hfe, h⟩ := bind_ok' h
    obtain ⟨le, hle, h⟩ := bind_ok' h
    obtain ⟨u, hu, h⟩ := bind_ok' h
    cases h
    have hv : a.value = some st := by
      unfold AspectNode.tree at hst
      cases hv : a.value with
      | none => rw [hv] at hst; cases hst
      | some u => rw [hv] at hst; cases hst; rfl
    obtain ⟨_, fn, ln, sn, s1, s2, s3, g1, g2, g3, g4, g5, g6, rfl⟩ := (C05_range_iff id fe le se u).1 hu
    refine ⟨_, st, fn.v, ln.v, sn.v, rfl, rfl, by simpa using hn, hv, constant_value h1 c1 hfe s1, constant_value h2 c2 hle s2,
      constant_value (h3 st hv) (c3 st hv) hse s3, g1, g2, g3, g4, g5, g6, ⟨fn, rfl, rfl⟩, ⟨ln, rfl, rfl⟩, ⟨sn, scalarSize_ok s3, rfl⟩⟩

/-! ## Arrays -/

theorem newArray_spec {B : Backend M S} {id : ID} {e t : MTy M} (h : newArray B id e = .ok t) : t = .array id e ∧
    ((∃ s n, e.scalarSize? = some s ∧ s = .ok n ∧ 8 ∣ n.v) ∨ ∃ i m, e = .message i m ∧ B.nonNull m = true) := by
  unfold newArray at h
  split at h
  · rename_i s hs
    obtain ⟨n, hn, h⟩ := bind_ok' h
    split at h
    · cases h
    · rename_i hb
      cases h
      refine ⟨rfl, .inl ⟨s, n, hs, hn, ?_⟩⟩
      simp only [Bool.or_eq_true, bne_iff_ne, ne_eq, not_or, Decidable.not_not] at hb
      exact Int.dvd_of_emod_eq_zero hb.2
  · rename_i i m hs
    split at h
    · cases h
    · rename_i hb
      cases h
      simp only [Bool.or_eq_true, Bool.not_eq_true', not_or, Bool.not_eq_false] at hb
      exact ⟨rfl, .inr ⟨i, m, rfl, hb.2⟩⟩
  · cases h

theorem lookup_spec {types : List (MTy M)} {i : ID} {t : MTy M} (h : lookup types i = some t) : t ∈ types ∧ t.identifier.key = i.key := by
  have h1 := List.mem_of_find?_eq_some h
  have h2 := List.find?_some h
  rw [key_eq] at h2
  exact ⟨h1, h2.symm⟩

theorem createArray_spec {B : Backend M S} {types : List (MTy M)} {id : ID} {pkg : PyStr} {n : IdNode} {t : MTy M} (hn : n.Lexical) (hp : IsName pkg)
    (hid : id.parent = .ok ⟨[pkg]⟩) (h : createArray B types id n = .ok t) :
    ∃ e, t = .array id e ∧ e ∈ types ∧ IsType pkg n e ∧
      ((∃ s n, e.scalarSize? = some s ∧ s = .ok n ∧ 8 ∣ n.v) ∨ ∃ i m, e = .message i m ∧ B.nonNull m = true) := by
  unfold createArray at h
  obtain ⟨i, hi, h⟩ := bind_ok' h
  rw [hid] at h
  obtain ⟨q, hq, h⟩ := bind_ok' (show (qualifiedType i ⟨[pkg]⟩ >>= _) = _ from h)
  obtain ⟨_, hk⟩ := qualified_key hn hp hi hq
  split at h
  · cases h
  · rename_i e he
    obtain ⟨h1, h2⟩ := lookup_spec he
    obtain ⟨rfl, h3⟩ := newArray_spec h
    exact ⟨e, rfl, h1, by rw [IsType, h2, hk], h3⟩

end Verif.SpecParser
