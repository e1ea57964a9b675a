import Verif.SpecParser.Checksums
import Verif.SpecParser.TreeProps
import Verif.Verify.ChecksumProps

/-! # C76: checksum aspects of specifications -/

namespace Verif.SpecParser
open Verif Verif.Verify

/-! ## Specification -/

/-- The expression has the value that the text has. -/
def SameValue (t : Tree) (e : Expr) : Prop := ∀ (D : Division) (ρ : Env) (v : Val), eval D ρ e = some v ↔ Means D ρ t v

/-- What the text says a checksum covers. -/
inductive Stated : CoverTree → ChkExpr → Prop
  | value {t e} : SameValue t e → Stated (.value t) (.plain e)
  | range {a b l u} : SameValue a l → SameValue b u → Stated (.range a b) (.range l u)

/-- The definition of a checksum is the one in the text. -/
def Defines (a : SumTree) (c : ID × List ChkExpr) : Prop := c.1.key = a.id.key ∧ List.Forall₂ Stated a.covered c.2

/-- What the lexical analysis ensures. -/
def CoverTree.Lexical : CoverTree → Prop
  | .value t => SpecParser.Lexical t
  | .range a b => SpecParser.Lexical a ∧ SpecParser.Lexical b

/-- What the lexical analysis ensures. -/
def SumTree.Lexical (a : SumTree) : Prop := a.id.Lexical ∧ ∀ t ∈ a.covered, t.Lexical

/-- The texts `X'First` and `X'Last + 1`. -/
inductive LowerText (x : IdNode) : Tree → Prop
  | first : LowerText x (.attribute .first (.var x))
  | behind {s} : Numeral s 1 → IsPrintable s → LowerText x (.binop .add (.attribute .last (.var x)) (.numeral s))

/-- The texts `X'Last` and `X'First - 1`. -/
inductive UpperText (x : IdNode) : Tree → Prop
  | last : UpperText x (.attribute .last (.var x))
  | before {s} : Numeral s 1 → IsPrintable s → UpperText x (.binop .sub (.attribute .first (.var x)) (.numeral s))

/-- The texts that checksums are defined by: `X`, `X'Size` and ranges. -/
inductive Usual : CoverTree → Prop
  | field {x : IdNode} : x.Lexical → x.Free → Usual (.value (.var x))
  | size {x : IdNode} : x.Lexical → x.Free → Usual (.value (.attribute .size (.var x)))
  | range {x y : IdNode} {a b} : x.Lexical → x.Free → y.Lexical → y.Free → LowerText x a → UpperText y b → Usual (.range a b)

/-! ## Lemmas -/

theorem createCover_stated {t : CoverTree} {e : ChkExpr} (hl : t.Lexical) (h : createCover t = .ok e) : Stated t e := by
  cases t with
  | value t =>
    cases hc : create .math t with
    | error x => rw [createCover, hc] at h; cases h
    | ok y =>
      rw [createCover, hc] at h
      cases h
      exact .value fun D ρ v => C52_value t y hl hc D ρ v
  | range a b =>
    cases hc : create .math a with
    | error x => rw [createCover, hc] at h; cases h
    | ok y =>
      cases hd : create .math b with
      | error x => rw [createCover, hc, hd] at h; cases h
      | ok z =>
        rw [createCover, hc, hd] at h
        cases h
        exact .range (fun D ρ v => C52_value a y hl.1 hc D ρ v) (fun D ρ v => C52_value b z hl.2 hd D ρ v)

theorem createCovers_stated {ts : List CoverTree} {es : List ChkExpr} (hl : ∀ t ∈ ts, t.Lexical) (h : createCovers ts = .ok es) :
    List.Forall₂ Stated ts es := by
  induction ts generalizing es with
  | nil => cases h; exact .nil
  | cons t ts ih =>
    cases hc : createCover t with
    | error x => rw [createCovers, hc] at h; cases h
    | ok e =>
      cases hd : createCovers ts with
      | error x => rw [createCovers, hc, hd] at h; cases h
      | ok es' =>
        rw [createCovers, hc, hd] at h
        cases h
        exact .cons (createCover_stated (hl t (by simp)) hc) (ih (fun t' h' => hl t' (by simp [h'])) hd)

/-- One round of the loop. -/
theorem sumLoop_cons {a : SumTree} {as : List SumTree} {d d' : List (ID × List ChkExpr)} (hl : a.Lexical) (h : sumLoop (a :: as) d = .ok d') :
    ∃ i es, Defines a (i, es) ∧ createId a.id = .ok i ∧ createCovers a.covered = .ok es ∧ sumLoop as (setSum i es d) = .ok d' := by
  cases hc : createCovers a.covered with
  | error x => rw [sumLoop, hc] at h; cases h
  | ok es =>
    cases hi : createId a.id with
    | error x => rw [sumLoop, hc, hi] at h; cases h
    | ok i =>
      rw [sumLoop, hc, hi] at h
      exact ⟨i, es, ⟨createId_key hl.1 hi, createCovers_stated hl.2 hc⟩, rfl, rfl, h⟩

theorem setSum_keys {i : ID} {es : List ChkExpr} (d : List (ID × List ChkExpr)) :
    ((∃ c ∈ d, c.1.key = i.key) ∧ (setSum i es d).map (·.1.key) = d.map (·.1.key)) ∨
      ((∀ c ∈ d, c.1.key ≠ i.key) ∧ setSum i es d = d ++ [(i, es)]) := by
  induction d with
  | nil => exact .inr ⟨by simp, rfl⟩
  | cons c d ih =>
    rw [setSum]
    by_cases hc : c.1.eq i = true
    · rw [if_pos hc]
      exact .inl ⟨⟨c, by simp, (ID.eq_iff_key _ _).mp hc⟩, rfl⟩
    · rw [if_neg hc]
      have hk : c.1.key ≠ i.key := fun h => hc ((ID.eq_iff_key _ _).mpr h)
      rcases ih with ⟨⟨c', h1, h2⟩, h3⟩ | ⟨h1, h2⟩
      · exact .inl ⟨⟨c', by simp [h1], h2⟩, by simp [h3]⟩
      · refine .inr ⟨?_, by rw [h2]; rfl⟩
        intro c' hc'
        rcases List.mem_cons.mp hc' with rfl | hc'
        · exact hk
        · exact h1 c' hc'

/-- Afterwards the checksum has the definition; the definitions of other checksums are the same. -/
theorem setSum_mem {i : ID} {es : List ChkExpr} (d : List (ID × List ChkExpr)) :
    (∃ c ∈ setSum i es d, c.1.key = i.key ∧ c.2 = es) ∧ ∀ c ∈ d, c.1.key ≠ i.key → c ∈ setSum i es d := by
  induction d with
  | nil => exact ⟨⟨(i, es), by simp [setSum], rfl, rfl⟩, by simp⟩
  | cons c d ih =>
    rw [setSum]
    by_cases hc : c.1.eq i = true
    · rw [if_pos hc]
      have hk := (ID.eq_iff_key _ _).mp hc
      refine ⟨⟨(c.1, es), by simp, hk, rfl⟩, fun c' hc' hn => ?_⟩
      rcases List.mem_cons.mp hc' with rfl | hc'
      · exact absurd hk hn
      · exact List.mem_cons_of_mem _ hc'
    · rw [if_neg hc]
      obtain ⟨⟨c', h1, h2⟩, h3⟩ := ih
      refine ⟨⟨c', by simp [h1], h2⟩, fun c' hc' hn => ?_⟩
      rcases List.mem_cons.mp hc' with rfl | hc'
      · simp
      · exact List.mem_cons_of_mem _ (h3 c' hc' hn)

/-! ## C76 -/

theorem sumLoop_distinct {as : List SumTree} {d d' : List (ID × List ChkExpr)} {R : SumTree → ID × List ChkExpr → Prop}
    (hR : ∀ a ∈ as, ∀ i es, createId a.id = .ok i → createCovers a.covered = .ok es → R a (i, es)) (hl : ∀ a ∈ as, a.Lexical)
    (hn : (d.map (·.1.key) ++ as.map (·.id.key)).Nodup) (h : sumLoop as d = .ok d') : ∃ r, d' = d ++ r ∧ List.Forall₂ R as r := by
  induction as generalizing d with
  | nil => cases h; exact ⟨[], by simp, .nil⟩
  | cons a as ih =>
    obtain ⟨i, es, hd, hi, he, h⟩ := sumLoop_cons (hl a (by simp)) h
    have hk : i.key = a.id.key := hd.1
    rcases setSum_keys (i := i) (es := es) d with ⟨⟨c, hc, hc'⟩, _⟩ | ⟨_, hs⟩
    · refine absurd rfl ((List.nodup_append.mp hn).2.2 c.1.key (List.mem_map.mpr ⟨c, hc, rfl⟩) c.1.key ?_)
      rw [hc', hk]; simp
    · rw [hs] at h
      obtain ⟨r, hr, hf⟩ := ih (fun b hb => hR b (by simp [hb])) (fun b hb => hl b (by simp [hb])) (by simpa [hk, List.append_assoc] using hn) h
      exact ⟨(i, es) :: r, by simp [hr], .cons (hR a (by simp) i es hi he) hf⟩

/-- C76: if no checksum is defined twice, the checksums of a message are those in the text, in order: each has the name in the text, and what
it covers has the values that the texts have. -/
theorem C76_distinct_partial {as : List SumTree} {d : List (ID × List ChkExpr)} (hl : ∀ a ∈ as, a.Lexical) (hn : (as.map (·.id.key)).Nodup)
    (h : createSums (some as) = .ok d) : List.Forall₂ Defines as d := by
  obtain ⟨r, hr, hf⟩ := sumLoop_distinct (d := []) (R := Defines)
    (fun a ha i es hi he => ⟨createId_key (hl a ha).1 hi, createCovers_stated (hl a ha).2 he⟩) hl (by simpa using hn) h
  rw [hr]; exact hf

theorem sumLoop_keep {as : List SumTree} {d d' : List (ID × List ChkExpr)} (hl : ∀ a ∈ as, a.Lexical) (h : sumLoop as d = .ok d')
    {c : ID × List ChkExpr} (hc : c ∈ d) (hn : ∀ a ∈ as, a.id.key ≠ c.1.key) : c ∈ d' := by
  induction as generalizing d with
  | nil => cases h; exact hc
  | cons a as ih =>
    obtain ⟨i, es, hd, _, _, h⟩ := sumLoop_cons (hl a (by simp)) h
    have hk : i.key = a.id.key := hd.1
    exact ih (fun b hb => hl b (by simp [hb])) h ((setSum_mem d).2 c hc fun he => hn a (by simp) (by rw [← hk, he]))
      (fun b hb => hn b (by simp [hb]))

theorem sumLoop_last {as bs : List SumTree} {a : SumTree} {d d' : List (ID × List ChkExpr)} (hl : ∀ x ∈ as ++ a :: bs, x.Lexical)
    (h : sumLoop (as ++ a :: bs) d = .ok d') (hn : ∀ b ∈ bs, b.id.key ≠ a.id.key) : ∃ c ∈ d', Defines a c := by
  induction as generalizing d with
  | nil =>
    obtain ⟨i, es, hd, _, _, h⟩ := sumLoop_cons (hl a (by simp)) h
    obtain ⟨c, hc, h1, h2⟩ := (setSum_mem (i := i) (es := es) d).1
    have hk : i.key = a.id.key := hd.1
    refine ⟨c, sumLoop_keep (fun x hx => hl x (by simp [hx])) h hc fun b hb => ?_, ?_⟩
    · rw [h1, hk]; exact hn b hb
    · exact ⟨by rw [h1, hk], by rw [h2]; exact hd.2⟩
  | cons x as ih =>
    obtain ⟨i, es, hd, _, _, h⟩ := sumLoop_cons (hl x (by simp)) h
    exact ih (fun y hy => hl y (List.mem_cons_of_mem _ hy)) h

/-- C76: the last definition of a checksum counts. -/
theorem C76_last {as bs : List SumTree} {a : SumTree} {d : List (ID × List ChkExpr)} (hl : ∀ x ∈ as ++ a :: bs, x.Lexical)
    (h : createSums (some (as ++ a :: bs)) = .ok d) (hn : ∀ b ∈ bs, b.id.key ≠ a.id.key) : ∃ c ∈ d, Defines a c :=
  sumLoop_last hl h hn

theorem sumLoop_names {as : List SumTree} {d d' : List (ID × List ChkExpr)} (hl : ∀ a ∈ as, a.Lexical) (hd : (d.map (·.1.key)).Nodup)
    (h : sumLoop as d = .ok d') : (d'.map (·.1.key)).Nodup ∧ ∀ k, k ∈ d'.map (·.1.key) ↔ k ∈ d.map (·.1.key) ∨ k ∈ as.map (·.id.key) := by
  induction as generalizing d with
  | nil => cases h; exact ⟨hd, by simp⟩
  | cons a as ih =>
    obtain ⟨i, es, hda, _, _, h⟩ := sumLoop_cons (hl a (by simp)) h
    have hk : i.key = a.id.key := hda.1
    have hl' : ∀ b ∈ as, b.Lexical := fun b hb => hl b (by simp [hb])
    rcases setSum_keys (i := i) (es := es) d with ⟨⟨c, hc, hc'⟩, hs⟩ | ⟨hno, hs⟩
    · obtain ⟨h1, h2⟩ := ih hl' (by rw [hs]; exact hd) h
      refine ⟨h1, fun k => ?_⟩
      rw [h2, hs, List.map_cons, List.mem_cons]
      have : a.id.key ∈ d.map (·.1.key) := List.mem_map.mpr ⟨c, hc, by rw [hc', hk]⟩
      constructor
      · rintro (h | h)
        · exact .inl h
        · exact .inr (.inr h)
      · rintro (h | h | h)
        · exact .inl h
        · rw [h]; exact .inl this
        · exact .inr h
    · have hnd : ((setSum i es d).map (·.1.key)).Nodup := by
        rw [hs, List.map_append, List.nodup_append]
        refine ⟨hd, by simp, fun x hx y hy => ?_⟩
        obtain ⟨c, hc, rfl⟩ := List.mem_map.mp hx
        simp only [List.map_cons, List.map_nil, List.mem_singleton] at hy
        rw [hy]; exact hno c hc
      obtain ⟨h1, h2⟩ := ih hl' hnd h
      refine ⟨h1, fun k => ?_⟩
      rw [h2, hs]
      simp [hk, or_assoc]

/-- C76: the checksums of a message are those that the text names, each one once. -/
theorem C76_names {as : List SumTree} {d : List (ID × List ChkExpr)} (hl : ∀ a ∈ as, a.Lexical) (h : createSums (some as) = .ok d) :
    (d.map (·.1.key)).Nodup ∧ ∀ k, (∃ c ∈ d, c.1.key = k) ↔ ∃ a ∈ as, a.id.key = k := by
  obtain ⟨h1, h2⟩ := sumLoop_names (d := []) hl (by simp) h
  refine ⟨h1, fun k => ?_⟩
  have := h2 k
  simpa using this

/-! ### Texts of the usual forms -/

/-- What the usual texts mean: the field, its size, the range between two fields. -/
inductive DenotesCover : CoverTree → ChkExpr → Prop
  | field {n : IdNode} {x : ID} : x.key = n.key → DenotesCover (.value (.var n)) (.plain (.var false false x))
  | size {n : IdNode} {x : ID} : x.key = n.key → DenotesCover (.value (.attribute .size (.var n))) (.plain (.attr false .size (.var false false x)))
  | range {n k : IdNode} {x y : ID} {a b l u} : LowerText n a → UpperText k b → x.key = n.key → y.key = k.key → Lower x l → Upper y u →
      DenotesCover (.range a b) (.range l u)

theorem create_var {x : IdNode} (hx : x.Lexical) (hf : x.Free) : ∃ i, (∀ m, create m (.var x) = .ok (.var false false i)) ∧ i.key = x.key := by
  obtain ⟨i, h1, h2⟩ := createId_of hx hf
  exact ⟨i, fun m => by rw [create, h1]; rfl, h2⟩

theorem create_one {s : PyStr} (h : Numeral s 1) (hp : IsPrintable s) : ∃ b, create .math (.numeral s) = .ok (.num 1 b) := by
  obtain ⟨e, he⟩ := createNumeral_ok h hp
  obtain ⟨b, rfl⟩ := createNumeral_value h he
  exact ⟨b, by rw [create, if_neg (by decide), he]; rfl⟩

theorem create_lower {x : IdNode} {t : Tree} (hx : x.Lexical) (hf : x.Free) (h : LowerText x t) :
    ∃ i e, create .math t = .ok e ∧ i.key = x.key ∧ Lower i e := by
  obtain ⟨i, hi, hk⟩ := create_var hx hf
  cases h with
  | first => exact ⟨i, .attr false .first (.var false false i), by rw [create, hi]; rfl, hk, .first⟩
  | behind hn hp =>
    obtain ⟨b, hb⟩ := create_one hn hp
    exact ⟨i, .add [.attr false .last (.var false false i), .num 1 b],
      by
        have ha : create .math (.attribute .last (.var x)) = .ok (.attr false .last (.var false false i)) := by rw [create, hi]; rfl
        rw [create]
        show (create .math _).bind _ = _
        rw [ha]
        show (create .math _).map _ = _
        rw [hb]; rfl, hk, .behind⟩

theorem create_upper {x : IdNode} {t : Tree} (hx : x.Lexical) (hf : x.Free) (h : UpperText x t) :
    ∃ i e, create .math t = .ok e ∧ i.key = x.key ∧ Upper i e := by
  obtain ⟨i, hi, hk⟩ := create_var hx hf
  cases h with
  | last => exact ⟨i, .attr false .last (.var false false i), by rw [create, hi]; rfl, hk, .last⟩
  | before hn hp =>
    obtain ⟨b, hb⟩ := create_one hn hp
    exact ⟨i, .bin .sub (.attr false .first (.var false false i)) (.num 1 b),
      by
        have ha : create .math (.attribute .first (.var x)) = .ok (.attr false .first (.var false false i)) := by rw [create, hi]; rfl
        rw [create]
        show (create .math _).bind _ = _
        rw [ha]
        show (create .math _).map _ = _
        rw [hb]; rfl, hk, .before⟩

theorem createCover_usual {t : CoverTree} (h : Usual t) : ∃ e, createCover t = .ok e ∧ DenotesCover t e := by
  cases h with
  | field hx hf =>
    obtain ⟨i, hi, hk⟩ := create_var hx hf
    exact ⟨_, by rw [createCover, hi]; rfl, .field hk⟩
  | size hx hf =>
    obtain ⟨i, hi, hk⟩ := create_var hx hf
    exact ⟨.plain (.attr false .size (.var false false i)), by rw [createCover, create, hi]; rfl, .size hk⟩
  | range hx hf hy hg ha hb =>
    obtain ⟨i, l, hl, hk, h1⟩ := create_lower hx hf ha
    obtain ⟨j, u, hu, hj, h2⟩ := create_upper hy hg hb
    exact ⟨.range l u, by rw [createCover, hl, hu]; rfl, .range ha hb hk hj h1 h2⟩

theorem createCovers_usual {ts : List CoverTree} (h : ∀ t ∈ ts, Usual t) : ∃ es, createCovers ts = .ok es ∧ List.Forall₂ DenotesCover ts es := by
  induction ts with
  | nil => exact ⟨[], rfl, .nil⟩
  | cons t ts ih =>
    obtain ⟨e, he, hd⟩ := createCover_usual (h t (by simp))
    obtain ⟨es, hes, hds⟩ := ih fun t' h' => h t' (by simp [h'])
    exact ⟨e :: es, by rw [createCovers, he, hes]; rfl, .cons hd hds⟩

theorem usual_lexical {t : CoverTree} (h : Usual t) : t.Lexical := by
  cases h with
  | field hx _ => simpa [CoverTree.Lexical, Lexical] using hx
  | size hx _ => simpa [CoverTree.Lexical, Lexical] using hx
  | range hx _ hy _ ha hb =>
    refine ⟨?_, ?_⟩
    · cases ha with
      | first => simpa [Lexical] using hx
      | behind hn _ => simpa [Lexical, hx] using ⟨1, hn⟩
    · cases hb with
      | last => simpa [Lexical] using hy
      | before hn _ => simpa [Lexical, hy] using ⟨1, hn⟩

/-- C76 (usual texts): definitions of different checksums by fields, sizes of fields and ranges are always created, as checksums of the fields that
are named, covering what is named. -/
theorem C76_usual_partial {as : List SumTree} (hn : (as.map (·.id.key)).Nodup) (hi : ∀ a ∈ as, a.id.Lexical ∧ a.id.Free)
    (hu : ∀ a ∈ as, ∀ t ∈ a.covered, Usual t) : ∃ d, createSums (some as) = .ok d ∧
      List.Forall₂ (fun a c => c.1.key = a.id.key ∧ List.Forall₂ DenotesCover a.covered c.2) as d := by
  have ok : ∀ (xs : List SumTree) d, (∀ a ∈ xs, a ∈ as) → ∃ d', sumLoop xs d = .ok d' := by
    intro xs
    induction xs with
    | nil => exact fun d _ => ⟨d, rfl⟩
    | cons a xs ih =>
      intro d hs
      have ha := hs a (by simp)
      obtain ⟨es, he, _⟩ := createCovers_usual (hu a ha)
      obtain ⟨i, hi', _⟩ := createId_of (hi a ha).1 (hi a ha).2
      obtain ⟨d', hd⟩ := ih (setSum i es d) fun b hb => hs b (by simp [hb])
      exact ⟨d', by rw [sumLoop, he, hi']; exact hd⟩
  obtain ⟨d, hd⟩ := ok as [] fun _ h => h
  have hl : ∀ a ∈ as, a.Lexical := fun a ha => ⟨(hi a ha).1, fun t ht => usual_lexical (hu a ha t ht)⟩
  obtain ⟨r, hr, hf⟩ := sumLoop_distinct (d := []) (R := fun a c => c.1.key = a.id.key ∧ List.Forall₂ DenotesCover a.covered c.2)
    (fun a ha i es hi' he => by
      obtain ⟨es', he', hd'⟩ := createCovers_usual (hu a ha)
      rw [he] at he'
      cases he'
      exact ⟨createId_key (hi a ha).1 hi', hd'⟩) hl (by simpa using hn) hd
  exact ⟨d, hd, by rw [hr]; exact hf⟩

/-! ## Examples and counterexamples -/

/-- `C => (T, D'Size, T'First .. C'First - 1)`. -/
def exSum : SumTree :=
  ⟨.unqualified ['C'], [.value (exName 'T'), .value (.attribute .size (exName 'D')),
    .range (.attribute .first (exName 'T')) (.binop .sub (.attribute .first (exName 'C')) (.numeral ['1']))]⟩

/-- `E => (T)`. -/
def exSum2 : SumTree := ⟨.unqualified ['E'], [.value (exName 'T')]⟩

/-- `c => (D)`. -/
def exSum3 : SumTree := ⟨.unqualified ['c'], [.value (exName 'D')]⟩

theorem exSum_usual : (∀ t ∈ exSum.covered, Usual t) ∧ (∀ t ∈ exSum2.covered, Usual t) ∧ ∀ t ∈ exSum3.covered, Usual t := by
  have hl : ∀ c ∈ ['T', 'D', 'C'], (IdNode.qualified none [c]).Lexical := by simp [IdNode.Lexical, IsName]
  have hf : ∀ c, (IdNode.qualified none [c]).Free := fun _ => trivial
  have hp : IsPrintable ['1'] := by simp [IsPrintable]
  refine ⟨?_, ?_, ?_⟩ <;> intro t ht
  · simp only [exSum, List.mem_cons, List.not_mem_nil, or_false] at ht
    rcases ht with rfl | rfl | rfl
    · exact .field (hl _ (by simp)) (hf _)
    · exact .size (hl _ (by simp)) (hf _)
    · exact .range (hl _ (by simp)) (hf _) (hl _ (by simp)) (hf _) .first (.before exNumeral1 hp)
  · simp only [exSum2, List.mem_singleton] at ht
    rw [ht]; exact .field (hl _ (by simp)) (hf _)
  · simp only [exSum3, List.mem_singleton] at ht
    rw [ht]; exact .field (hl _ (by simp)) (hf _)

theorem exSum_names : ∀ a ∈ [exSum, exSum2, exSum3], a.id.Lexical ∧ a.id.Free := by
  simp [exSum, exSum2, exSum3, IdNode.Lexical, IsName, IdNode.Free]
  decide

theorem exSum_lexical : ∀ a ∈ [exSum, exSum2, exSum3], a.Lexical := by
  intro a ha
  refine ⟨(exSum_names a ha).1, fun t ht => usual_lexical ?_⟩
  simp only [List.mem_cons, List.not_mem_nil, or_false] at ha
  rcases ha with rfl | rfl | rfl
  · exact exSum_usual.1 t ht
  · exact exSum_usual.2.1 t ht
  · exact exSum_usual.2.2 t ht

/-- The hypotheses of the theorems can be met. -/
example : ∃ d, createSums (some [exSum, exSum2]) = .ok d ∧ List.Forall₂ Defines [exSum, exSum2] d := by
  have hn : ([exSum, exSum2].map (·.id.key)).Nodup := by decide
  have hs : ∀ a ∈ [exSum, exSum2], a ∈ [exSum, exSum2, exSum3] := by simp +contextual
  obtain ⟨d, hd, _⟩ := C76_usual_partial hn (fun a ha => exSum_names a (hs a ha)) (fun a ha => by
    rcases List.mem_cons.mp ha with rfl | ha
    · exact exSum_usual.1
    · rw [List.mem_singleton.mp ha]; exact exSum_usual.2.1)
  exact ⟨d, hd, C76_distinct_partial (fun a ha => exSum_lexical a (hs a ha)) hn hd⟩

/-- C76: the definition of a checksum is lost if another one follows; there is no error. -/
theorem C76_duplicate_counterexample : ∃ (as : List SumTree) (d : List (ID × List ChkExpr)), (∀ a ∈ as, a.Lexical) ∧
    createSums (some as) = .ok d ∧ ∃ a ∈ as, ∀ c ∈ d, ¬ Defines a c := by
  refine ⟨[exSum, exSum2, exSum3], [(⟨[['C']]⟩, [.plain (.var false false ⟨[['D']]⟩)]), (⟨[['E']]⟩, [.plain (.var false false ⟨[['T']]⟩)])],
    exSum_lexical, by with_unfolding_all rfl, exSum, by simp, ?_⟩
  intro c hc hd
  have h : ∀ {ts es}, List.Forall₂ Stated ts es → ts.length = es.length := fun h => by
    induction h with
    | nil => rfl
    | cons _ _ ih => simp [ih]
  have h := h hd.2
  simp only [List.mem_cons, List.not_mem_nil, or_false] at hc
  rcases hc with rfl | rfl <;> simp [exSum] at h

end Verif.SpecParser
