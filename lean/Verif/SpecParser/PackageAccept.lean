import Verif.SpecParser.PackageProps

/-! # Which declarations of enumerations and arrays are accepted (C53) -/

namespace Verif.SpecParser
open Verif Verif.Types

variable {M S : Type}

/-! ## Specification -/

/-- The sizes given for an enumeration are constants with values, in numbers that can be printed. -/
def SizesGiven (as : List AspectNode) : Prop :=
  ∀ a ∈ as, a.name = ['S', 'i', 'z', 'e'] → ∃ t v, a.value = some t ∧ Constant t ∧ Supported .math t ∧ HasValue t v

/-- All aspects `Always_Valid` are written without value or with one of the names `True` and `False`. -/
def LegalValid (as : List AspectNode) : Prop :=
  ∀ a ∈ as, a.name = ['A', 'l', 'w', 'a', 'y', 's', '_', 'V', 'a', 'l', 'i', 'd'] →
    a.value = none ∨ ∃ t n, a.value = some t ∧ t.name? = some n ∧ (n.key = [['t', 'r', 'u', 'e']] ∨ n.key = [['f', 'a', 'l', 's', 'e']])

/-- The values of an enumeration are different, below `2 ** 63` and fit in `size` bits (at most 64), and if all encodings are valid
(`always`), not all of them have a name. -/
def EnumFits (vs : List Int) (size : Int) (always : Bool) : Prop :=
  size ≤ 64 ∧ vs.Pairwise (· ≠ ·) ∧ (∀ v ∈ vs, 0 ≤ v ∧ v < 2 ^ 63 ∧ 0 ≤ size ∧ v < 2 ^ size.toNat) ∧
  (always = true → 0 ≤ size → (vs.length : Int) ≠ 2 ^ size.toNat)

/-- The same for the values `0`, `1`, … of `n` names. -/
def CountFits (n : Nat) (size : Int) (always : Bool) : Prop :=
  size ≤ 64 ∧ (0 < n → 0 ≤ size ∧ n ≤ 2 ^ 63 ∧ n ≤ 2 ^ size.toNat) ∧ (always = true → 0 ≤ size → n ≠ 2 ^ size.toNat)

/-! ## Lemmas -/

theorem lastAspect_find {n : PyStr} {as : List AspectNode} {a : AspectNode} (h : LastAspect n as a) :
    as.reverse.find? (fun b => b.name = n) = some a := by
  obtain ⟨bs, cs, rfl, h1, h2⟩ := h
  have hc : cs.reverse.find? (fun b => decide (b.name = n)) = none := by
    rw [List.find?_eq_none]
    intro c hc
    simpa using h2 c (by simpa using hc)
  simp only [List.reverse_append, List.reverse_cons, List.append_assoc, List.find?_append, hc]
  simp [h1]

theorem lastAspect_unique {n : PyStr} {as : List AspectNode} {a b : AspectNode} (h : LastAspect n as a) (h' : LastAspect n as b) : a = b := by
  have := (lastAspect_find h).symm.trans (lastAspect_find h')
  exact Option.some.inj this

theorem lastAspect_mem {n : PyStr} {as : List AspectNode} {a : AspectNode} (h : LastAspect n as a) : a ∈ as ∧ a.name = n := by
  obtain ⟨bs, cs, rfl, h1, _⟩ := h
  exact ⟨by simp, h1⟩

theorem alwaysValid_unique {as : List AspectNode} {b c : Bool} (h : AlwaysValid as b) (h' : AlwaysValid as c) : b = c := by
  rcases h with ⟨rfl, h⟩ | ⟨a, h1, h2⟩
  · rcases h' with ⟨rfl, _⟩ | ⟨a, h1, _⟩
    · rfl
    · exact absurd (lastAspect_mem h1).2 (h a (lastAspect_mem h1).1)
  · rcases h' with ⟨rfl, h⟩ | ⟨a', h1', h2'⟩
    · exact absurd (lastAspect_mem h1).2 (h a (lastAspect_mem h1).1)
    · obtain rfl := lastAspect_unique h1 h1'
      rcases h2 with ⟨h2, rfl⟩ | ⟨t, n, h2, h3, h4⟩
      · rcases h2' with ⟨_, rfl⟩ | ⟨t, n, h5, _⟩
        · rfl
        · rw [h2] at h5; cases h5
      · rcases h2' with ⟨h5, rfl⟩ | ⟨t', n', h5, h6, h7⟩
        · rw [h2] at h5; cases h5
        · rw [h2] at h5
          cases h5
          rw [h3] at h6
          cases h6
          rcases h4 with ⟨h4, rfl⟩ | ⟨h4, rfl⟩ <;> rcases h7 with ⟨h7, rfl⟩ | ⟨h7, rfl⟩
          · rfl
          · rw [h4] at h7; exact absurd h7 (by decide)
          · rw [h4] at h7; exact absurd h7 (by decide)
          · rfl

theorem name_supported {m : Mode} : ∀ {t : Tree} {n : IdNode}, t.name? = some n → n.Free → Supported m t
  | .var id, n, h, hf => by cases h; simpa only [Supported] using hf
  | .paren e, n, h, hf => by simp only [Supported]; exact name_supported (t := e) h hf
  | .numeral _, _, h, _ => by cases h
  | .attribute .., _, h, _ => by cases h
  | .aggregate _, _, h, _ => by cases h
  | .string _, _, h, _ => by cases h
  | .call .., _, h, _ => by cases h
  | .quantified .., _, h, _ => by cases h
  | .negation _, _, h, _ => by cases h
  | .concatenation .., _, h, _ => by cases h
  | .select .., _, h, _ => by cases h
  | .binop .., _, h, _ => by cases h

theorem free_of_key {n : IdNode} {x : PyStr} (h : n.key = [x]) (hx : x ∉ reservedWords) : n.Free := by
  cases n with
  | unqualified t =>
    simp only [IdNode.key, List.cons.injEq, and_true] at h
    simpa only [IdNode.Free, h] using hx
  | qualified p n => trivial

/-- The expression of a name compared with a simple name. -/
theorem name_compared {t : Tree} {n : IdNode} {e : Expr} (hl : Lexical t) (hn : t.name? = some n) (he : create .bool t = .ok e) {x : PyStr}
    (h : n.key = [PyStr.lower x]) : e.eq (.var false false ⟨[x]⟩) = true := by
  obtain ⟨i, rfl, hi⟩ := name_create hn he
  have hk := createId_key (name_lexical hn hl) hi
  have : i.key = ID.key ⟨[x]⟩ := by rw [hk, h]; rfl
  simp only [Expr.eq, Expr.cls, Bool.and_eq_true, beq_iff_eq, key_eq]
  exact ⟨by decide, trivial, this⟩

theorem enumAspects_total : ∀ (as : List AspectNode) (s0 : Option Expr) (b0 : Bool), (∀ a ∈ as, a.Lexical) → SizesGiven as → LegalValid as →
    ∃ r, enumAspects as (s0, b0) = .ok r
  | [], s0, b0, _, _, _ => ⟨_, rfl⟩
  | a :: as, s0, b0, hl, hs, hv => by
    have hl' : ∀ a ∈ as, a.Lexical := fun b hb => hl b (by simp [hb])
    have hs' : SizesGiven as := fun b hb => hs b (by simp [hb])
    have hv' : LegalValid as := fun b hb => hv b (by simp [hb])
    unfold enumAspects
    split
    · rename_i hn
      obtain ⟨t, v, h1, h2, h3, h4⟩ := hs a (by simp) hn
      obtain ⟨e, he⟩ := created_constant (hl a (by simp) t h1) h3 h4
      simp only [AspectNode.tree, h1]
      show ∃ r, (create .math t >>= _) = _
      rw [he]
      exact enumAspects_total as _ _ hl' hs' hv'
    · split
      · rename_i hn
        split
        · exact enumAspects_total as _ _ hl' hs' hv'
        · rename_i t ht
          rcases hv a (by simp) hn with h1 | ⟨t', n, h1, h2, h3⟩
          · rw [ht] at h1; cases h1
          · rw [ht] at h1
            cases h1
            have hlt := hl a (by simp) t ht
            have hf : n.Free := by
              rcases h3 with h3 | h3
              · exact free_of_key h3 (by decide)
              · exact free_of_key h3 (by decide)
            obtain ⟨e, he⟩ := name_created (m := .bool) h2 hlt (name_supported h2 hf)
            rw [he]
            simp only [bind, Except.bind]
            split
            · exact enumAspects_total as _ _ hl' hs' hv'
            · rename_i h4
              split
              · exact enumAspects_total as _ _ hl' hs' hv'
              · rename_i h5
                rcases h3 with h3 | h3
                · exact absurd (name_compared hlt h2 he (x := ['T', 'r', 'u', 'e']) h3) h4
                · exact absurd (name_compared hlt h2 he (x := ['F', 'a', 'l', 's', 'e']) h3) h5
      · exact enumAspects_total as _ _ hl' hs' hv'

theorem enumAspects_legal : ∀ (as : List AspectNode) (s0 : Option Expr) (b0 : Bool) (r : Option Expr × Bool), (∀ a ∈ as, a.Lexical) →
    enumAspects as (s0, b0) = .ok r → LegalValid as
  | [], _, _, _, _, _ => fun a ha => by cases ha
  | a :: as, s0, b0, r, hl, h => by
    have hl' : ∀ a ∈ as, a.Lexical := fun b hb => hl b (by simp [hb])
    have key : ∀ s b, enumAspects as (s, b) = .ok r →
        (a.name = ['A', 'l', 'w', 'a', 'y', 's', '_', 'V', 'a', 'l', 'i', 'd'] →
          a.value = none ∨ ∃ t n, a.value = some t ∧ t.name? = some n ∧ (n.key = [['t', 'r', 'u', 'e']] ∨ n.key = [['f', 'a', 'l', 's', 'e']])) →
        LegalValid (a :: as) := by
      intro s b h1 h2 c hc hcn
      rcases List.mem_cons.1 hc with rfl | hc
      · exact h2 hcn
      · exact enumAspects_legal as s b r hl' h1 c hc hcn
    unfold enumAspects at h
    split at h
    · rename_i hn
      obtain ⟨t, ht, h⟩ := bind_ok' h
      obtain ⟨e, he, h⟩ := bind_ok' h
      exact key _ _ h (fun hv => by rw [hn] at hv; exact absurd hv (by decide))
    · split at h
      · rename_i hav
        split at h
        · rename_i hv
          exact key _ _ h (fun _ => .inl hv)
        · rename_i t hv
          obtain ⟨e, he, h⟩ := bind_ok' h
          have hs := create_shape t (hl a (by simp) t hv) he
          split at h
          · rename_i hq
            obtain ⟨imm, j, hj, hk⟩ := eq_var hq
            obtain ⟨n, hn1, hn2⟩ := hs.2 _ _ _ hj
            exact key _ _ h (fun _ => .inr ⟨t, n, hv, hn1, .inl (by rw [← hn2, hk]; decide)⟩)
          · split at h
            · rename_i hq
              obtain ⟨imm, j, hj, hk⟩ := eq_var hq
              obtain ⟨n, hn1, hn2⟩ := hs.2 _ _ _ hj
              exact key _ _ h (fun _ => .inr ⟨t, n, hv, hn1, .inr (by rw [← hn2, hk]; decide)⟩)
            · cases h
      · rename_i hav
        exact key _ _ h (fun hv => absurd hv hav)

theorem goodLiterals_iff {l : List (ID × Int)} {s : Int} {b : Bool} : GoodLiterals l s b ↔ EnumFits (l.map (·.2)) s b := by
  constructor
  · intro g
    refine ⟨g.size, List.pairwise_map.2 g.distinct, ?_, ?_⟩
    · intro v hv
      obtain ⟨kv, hkv, rfl⟩ := List.mem_map.1 hv
      exact g.range kv hkv
    · simpa using g.unnamed
  · rintro ⟨h1, h2, h3, h4⟩
    exact ⟨h1, List.pairwise_map.1 h2, fun kv hkv => h3 kv.2 (List.mem_map_of_mem hkv), by simpa using h4⟩

/-- The end of the creation of enumerations. -/
theorem createEnumeration_iff {id : ID} {l : List (ID × Int)} {as : List AspectNode} (hid : id.parts.length = 2) (hv : ∀ kv ∈ l, kv.1.Valid)
    (hl : ∀ a ∈ as, a.Lexical) (hs : SizesGiven as) :
    (∃ t : MTy M, createEnumeration id (l.map fun kv => (.id kv.1, kv.2)) as = .ok t) ↔
      l.Pairwise (fun a b => a.1.key ≠ b.1.key) ∧ LegalValid as ∧
      ∃ size always, SizeAspect as size ∧ AlwaysValid as always ∧ EnumFits (l.map (·.2)) size always := by
  have size : ∀ {a t e sn}, LastAspect ['S', 'i', 'z', 'e'] as a → a.value = some t → create .math t = .ok e → e.simplified = .ok (Num.expr sn) →
      SizeAspect as sn.v := by
    intro a t e sn h1 h2 h3 h4
    obtain ⟨hm, hn⟩ := lastAspect_mem h1
    obtain ⟨t', v, g1, g2, g3, g4⟩ := hs a hm hn
    rw [h2] at g1
    cases g1
    exact ⟨a, t, h1, h2, constant_value (hl a hm t h2) g2 h3 h4⟩
  constructor
  · rintro ⟨t, h⟩
    unfold createEnumeration at h
    obtain ⟨⟨s, av⟩, ha, h⟩ := bind_ok' h
    obtain ⟨h1, h2⟩ := enumAspects_spec as _ _ _ _ hl ha
    cases s with
    | none => cases h
    | some s =>
      simp only at h
      obtain ⟨e, he, h⟩ := bind_ok' h
      obtain ⟨_, hd, sn, hsn, g, rfl⟩ := (C06_iff id l hv s av e).1 he
      rcases h1 with ⟨h1, _⟩ | ⟨a, t, s', h1, h3, h4, h5⟩
      · cases h1
      · cases h5
        refine ⟨hd, enumAspects_legal as _ _ _ hl ha, sn.v, av, size h1 h3 h4 hsn, ?_, goodLiterals_iff.1 g⟩
        rcases h2 with h2 | h2
        · exact .inl h2
        · exact .inr h2
  · rintro ⟨hd, hlv, sz, always, hsz, hav, hf⟩
    obtain ⟨⟨s, av⟩, ha⟩ := enumAspects_total as none false hl hs hlv
    obtain ⟨h1, h2⟩ := enumAspects_spec as _ _ _ _ hl ha
    have hav' : AlwaysValid as av := by
      rcases h2 with h2 | h2
      · exact .inl h2
      · exact .inr h2
    obtain rfl := alwaysValid_unique hav hav'
    obtain ⟨a, t, g1, g2, g3⟩ := hsz
    rcases h1 with ⟨_, h1⟩ | ⟨a', t', e, h1, h3, h4, rfl⟩
    · exact absurd (lastAspect_mem g1).2 (h1 a (lastAspect_mem g1).1)
    · obtain rfl := lastAspect_unique g1 h1
      rw [g2] at h3
      cases h3
      obtain ⟨hm, hn⟩ := lastAspect_mem g1
      obtain ⟨t', v, k1, k2, _, _⟩ := hs a hm hn
      rw [g2] at k1
      cases k1
      obtain ⟨b, hb⟩ := value_constant (hl a hm t g2) k2 h4 g3
      refine ⟨.enum ⟨id, l, e, always⟩, ?_⟩
      unfold createEnumeration
      rw [ha]
      show (Enum.new id _ e always >>= fun u => pure (MTy.enum u)) = _
      rw [(C06_iff id l hv e always _).2 ⟨hid, hd, ⟨sz, b⟩, hb, goodLiterals_iff.2 hf, rfl⟩]
      rfl

/-- The literals of an enumeration with positions. -/
theorem positionalLiterals_total : ∀ (es : List PyStr) (k : Nat), (∀ e ∈ es, IsName e ∧ PyStr.lower e ∉ reservedWords) →
    ∃ ls, positionalLiterals k es = .ok ls
  | [], _, _ => ⟨_, rfl⟩
  | e :: es, k, h => by
    obtain ⟨i, hi, _⟩ := createId_of (id := .unqualified e) (h e (by simp)).1 (h e (by simp)).2
    obtain ⟨ls, hls⟩ := positionalLiterals_total es (k + 1) (fun e he => h e (by simp [he]))
    unfold positionalLiterals
    rw [hi]
    show ∃ r, (positionalLiterals (k + 1) es >>= _) = _
    rw [hls]
    exact ⟨_, rfl⟩

theorem positionalLiterals_free : ∀ (es : List PyStr) (k : Nat) (ls : List (StrID × Int)), positionalLiterals k es = .ok ls →
    ∀ e ∈ es, PyStr.lower e ∉ reservedWords
  | [], _, _, _ => by simp
  | e :: es, k, ls, h => by
    unfold positionalLiterals at h
    obtain ⟨i, hi, h⟩ := bind_ok' h
    obtain ⟨ls', h1, _⟩ := bind_ok' h
    intro x hx
    rcases List.mem_cons.1 hx with rfl | hx
    · exact createId_free hi
    · exact positionalLiterals_free es (k + 1) ls' h1 x hx

theorem namedLiterals_total : ∀ (es : List (PyStr × Tree)), (∀ e ∈ es, IsName e.1 ∧ PyStr.lower e.1 ∉ reservedWords ∧ ∃ s n, e.2 = .numeral s ∧ Numeral s n ∧
    IsPrintable s) → ∃ ls, namedLiterals es = .ok ls
  | [], _ => ⟨_, rfl⟩
  | (x, t) :: es, h => by
    obtain ⟨g1, g2, s, n, rfl, g3, g4⟩ := h (x, t) (by simp)
    obtain ⟨i, hi, _⟩ := createId_of (id := .unqualified x) g1 g2
    obtain ⟨ls, hls⟩ := namedLiterals_total es (fun e he => h e (by simp [he]))
    obtain ⟨e, he⟩ := createNumeral_ok g3 g4
    obtain ⟨b, rfl⟩ := createNumeral_value g3 he
    unfold namedLiterals
    rw [hi]
    show ∃ r, (create .math (.numeral s) >>= _) = _
    have : create .math (.numeral s) = .ok (.num n b) := by simp only [create]; exact he
    rw [this]
    show ∃ r, (namedLiterals es >>= _) = _
    rw [hls]
    exact ⟨_, rfl⟩

theorem namedLiterals_free : ∀ (es : List (PyStr × Tree)) (ls : List (StrID × Int)), namedLiterals es = .ok ls →
    ∀ e ∈ es, PyStr.lower e.1 ∉ reservedWords
  | [], _, _ => by simp
  | (n, t) :: es, ls, h => by
    unfold namedLiterals at h
    obtain ⟨i, hi, h⟩ := bind_ok' h
    obtain ⟨e, he, h⟩ := bind_ok' h
    split at h
    · obtain ⟨ls', h1, _⟩ := bind_ok' h
      intro x hx
      rcases List.mem_cons.1 hx with rfl | hx
      · exact createId_free hi
      · exact namedLiterals_free es ls' h1 x hx
    · cases h

theorem enumFits_range (n : Nat) (size : Int) (b : Bool) : EnumFits ((List.range n).map fun (i : Nat) => (i : Int)) size b ↔ CountFits n size b := by
  constructor
  · rintro ⟨h1, _, h3, h4⟩
    refine ⟨h1, ?_, ?_⟩
    · intro hn
      obtain ⟨_, g1, g2, g3⟩ := h3 ((n - 1 : Nat) : Int) (List.mem_map.2 ⟨n - 1, List.mem_range.2 (by omega), rfl⟩)
      refine ⟨g2, ?_, ?_⟩
      · have : ((n - 1 : Nat) : Int) < ((2 ^ 63 : Nat) : Int) := by simpa using g1
        have := Int.ofNat_lt.1 this
        omega
      · have : ((n - 1 : Nat) : Int) < ((2 ^ size.toNat : Nat) : Int) := by simpa using g3
        have := Int.ofNat_lt.1 this
        omega
    · intro hb hs he
      apply h4 hb hs
      simp [he]
  · rintro ⟨h1, h2, h3⟩
    refine ⟨h1, ?_, ?_, ?_⟩
    · rw [List.pairwise_map]
      refine List.Pairwise.imp ?_ List.pairwise_lt_range
      intro a b hab he
      have : (a : Int) = b := he
      omega
    · intro v hv
      obtain ⟨i, hi, rfl⟩ := List.mem_map.1 hv
      have hi := List.mem_range.1 hi
      obtain ⟨g1, g2, g3⟩ := h2 (by omega)
      refine ⟨by omega, ?_, g1, ?_⟩
      · have : (i : Int) < ((2 ^ 63 : Nat) : Int) := by omega
        simpa using this
      · have : (i : Int) < ((2 ^ size.toNat : Nat) : Int) := by omega
        simpa using this
    · intro hb hs he
      apply h3 hb hs
      have : ((n : Nat) : Int) = ((2 ^ size.toNat : Nat) : Int) := by simpa using he
      exact Int.ofNat.inj this

/-! ## Enumerations -/

/-- **C53**, acceptance of enumerations with positions: `type T is (A, B, …) with Size => s, Always_Valid => b` is accepted exactly if the names
are different from each other (without regard to case) and not reserved, all aspects `Always_Valid` are legal, a size is given, the size is at
most 64, the positions are below `2 ** 63` and fit in the size, and, if all encodings are valid, some encoding has no name. -/
theorem C53_positional_accepted (B : Backend M S) (types : List (MTy M)) (id : ID) (es : List PyStr) (as : List AspectNode)
    (hid : id.parts.length = 2) (hd : (TypeDef.positional es as).Lexical) (hs : SizesGiven as) :
    (∃ t, createType B types id (.positional es as) = .ok t) ↔
      (∀ e ∈ es, PyStr.lower e ∉ reservedWords) ∧ es.Pairwise (fun a b => PyStr.lower a ≠ PyStr.lower b) ∧ LegalValid as ∧
      ∃ size always, SizeAspect as size ∧ AlwaysValid as always ∧ CountFits es.length size always := by
  have key : ∀ ls, positionalLiterals 0 es = .ok ls → ((∃ t : MTy M, createEnumeration id ls as = .ok t) ↔
      es.Pairwise (fun a b => PyStr.lower a ≠ PyStr.lower b) ∧ LegalValid as ∧
      ∃ size always, SizeAspect as size ∧ AlwaysValid as always ∧ CountFits es.length size always) := by
    intro ls h
    obtain ⟨l, rfl, h1, h2⟩ := positionalLiterals_spec es 0 ls hd.1 h
    rw [createEnumeration_iff hid (fun kv hkv => (h1 kv hkv).1) hd.2 hs]
    have hk : l.map (fun kv => kv.1.key) = es.map (fun e => [PyStr.lower e]) := by
      have := congrArg (List.map Prod.fst) h2
      simp only [List.map_map] at this
      rw [show (Prod.fst ∘ fun (l : ID × Int) => (l.1.key, l.2)) = fun kv => kv.1.key from rfl] at this
      rw [this]
      have h3 : es = es.zipIdx.map Prod.fst := by simp
      conv => rhs; rw [h3]
      rw [List.map_map]
      rfl
    have hv : l.map (·.2) = (List.range es.length).map fun (i : Nat) => (i : Int) := by
      have := congrArg (List.map Prod.snd) h2
      simp only [List.map_map] at this
      rw [show (Prod.snd ∘ fun (l : ID × Int) => (l.1.key, l.2)) = fun kv => kv.2 from rfl] at this
      rw [this]
      have h3 : List.range es.length = es.zipIdx.map Prod.snd := by simp [List.range_eq_range']
      rw [h3, List.map_map]
      rfl
    have hp : l.Pairwise (fun a b => a.1.key ≠ b.1.key) ↔ es.Pairwise (fun a b => PyStr.lower a ≠ PyStr.lower b) := by
      have e1 : l.Pairwise (fun a b => a.1.key ≠ b.1.key) ↔ (l.map fun kv => kv.1.key).Pairwise (· ≠ ·) := List.pairwise_map.symm
      rw [e1, hk, List.pairwise_map]
      simp
    rw [hp, hv]
    simp only [enumFits_range]
  constructor
  · rintro ⟨t, h⟩
    obtain ⟨ls, h1, h2⟩ := bind_ok' (show (positionalLiterals 0 es >>= _) = _ from h)
    exact ⟨positionalLiterals_free es 0 ls h1, (key ls h1).1 ⟨t, h2⟩⟩
  · rintro ⟨hr, h⟩
    obtain ⟨ls, h1⟩ := positionalLiterals_total es 0 (fun e he => ⟨hd.1 e he, hr e he⟩)
    obtain ⟨t, ht⟩ := (key ls h1).2 h
    refine ⟨t, ?_⟩
    show (positionalLiterals 0 es >>= _) = _
    rw [h1]
    exact ht

/-- **C53**, acceptance of enumerations with numbers: `type T is (A => 1, B => 4) with Size => s, Always_Valid => b` with the numbers `vs` is accepted
exactly if the names are different and not reserved, all aspects `Always_Valid` are legal, a size is given, and the numbers are different, below `2 ** 63`
and fit in the size, which is at most 64, and, if all encodings are valid, some encoding has no name. -/
theorem C53_named_accepted (B : Backend M S) (types : List (MTy M)) (id : ID) (es : List (PyStr × Tree)) (vs : List Nat) (as : List AspectNode)
    (hid : id.parts.length = 2) (hd : (TypeDef.named es as).Lexical) (hs : SizesGiven as)
    (hv : List.Forall₂ (fun (e : PyStr × Tree) v => ∃ s, e.2 = .numeral s ∧ Numeral s v ∧ IsPrintable s) es vs) :
    (∃ t, createType B types id (.named es as) = .ok t) ↔
      (∀ e ∈ es, PyStr.lower e.1 ∉ reservedWords) ∧ es.Pairwise (fun a b => PyStr.lower a.1 ≠ PyStr.lower b.1) ∧ LegalValid as ∧
      ∃ size always, SizeAspect as size ∧ AlwaysValid as always ∧ EnumFits (vs.map fun (v : Nat) => (v : Int)) size always := by
  have key : ∀ ls, namedLiterals es = .ok ls → ((∃ t : MTy M, createEnumeration id ls as = .ok t) ↔
      es.Pairwise (fun a b => PyStr.lower a.1 ≠ PyStr.lower b.1) ∧ LegalValid as ∧
      ∃ size always, SizeAspect as size ∧ AlwaysValid as always ∧ EnumFits (vs.map fun (v : Nat) => (v : Int)) size always) := by
    intro ls h
    obtain ⟨l, rfl, h1, h2⟩ := namedLiterals_spec es ls hd.1 h
    rw [createEnumeration_iff hid (fun kv hkv => (h1 kv hkv).1) hd.2 hs]
    have hk : l.map (fun kv => kv.1.key) = es.map (fun e => [PyStr.lower e.1]) := by
      clear h h1 hv hd
      induction h2 with
      | nil => rfl
      | cons h _ ih => simp only [List.map_cons, ih, h.1]
    have hn : l.map (·.2) = vs.map fun (v : Nat) => (v : Int) := by
      clear h h1 hd hk
      induction h2 generalizing vs with
      | nil => cases hv; rfl
      | @cons e kv es l h _ ih =>
        cases hv with
        | @cons _ v _ vs hv hvs =>
        obtain ⟨s, hs1, hs2, _⟩ := hv
        simp only [List.map_cons, ih vs hvs]
        congr 1
        have := h.2 Division.ada ⟨fun _ => .int 0, fun _ _ => .int 0, fun _ _ => .int 0, fun _ _ => .int 0⟩
        rw [hs1] at this
        generalize hx : kv.2 = x at this
        cases this with
        | numeral hn => rw [numeral_unique hn hs2]
    have hp : l.Pairwise (fun a b => a.1.key ≠ b.1.key) ↔ es.Pairwise (fun a b => PyStr.lower a.1 ≠ PyStr.lower b.1) := by
      have e1 : l.Pairwise (fun a b => a.1.key ≠ b.1.key) ↔ (l.map fun kv => kv.1.key).Pairwise (· ≠ ·) := List.pairwise_map.symm
      rw [e1, hk, List.pairwise_map]
      simp
    rw [hp, hn]
  constructor
  · rintro ⟨t, h⟩
    obtain ⟨ls, h1, h2⟩ := bind_ok' (show (namedLiterals es >>= _) = _ from h)
    exact ⟨namedLiterals_free es ls h1, (key ls h1).1 ⟨t, h2⟩⟩
  · rintro ⟨hr, h⟩
    obtain ⟨ls, h1⟩ := namedLiterals_total es (by
      intro e he
      refine ⟨(hd.1 e he).1, hr e he, ?_⟩
      clear key h hr hd hs
      induction hv with
      | nil => cases he
      | @cons _ v _ _ h _ ih =>
        rcases List.mem_cons.1 he with rfl | he
        · obtain ⟨s, g1, g2, g3⟩ := h
          exact ⟨s, v, g1, g2, g3⟩
        · exact ih he)
    obtain ⟨t, ht⟩ := (key ls h1).2 h
    refine ⟨t, ?_⟩
    show (namedLiterals es >>= _) = _
    rw [h1]
    exact ht

/-! ## Arrays and derived messages -/

theorem name_total {i : ID} (hi : i.Valid) : ∃ j, i.name = .ok j ∧ j.Valid := by
  unfold ID.name
  cases hp : i.parts.getLast? with
  | none => exact absurd (List.getLast?_eq_none_iff.1 hp) hi.1
  | some p =>
    have hv := hi.2 p (List.mem_of_getLast? hp)
    exact ⟨_, ofStr_name ⟨hv.1, hv.2.1, hv.2.2.1, hv.2.2.2⟩, by simp, by simpa using hv⟩

theorem qualified_total {i : ID} {pkg : PyStr} (hi : i.Valid) (hp : IsName pkg) : ∃ q, qualifiedType i ⟨[pkg]⟩ = .ok q := by
  have hpv : ID.Valid ⟨[pkg]⟩ := ⟨by simp, by simpa [IsName] using hp⟩
  obtain ⟨j, hj, hjv⟩ := name_total hi
  unfold qualifiedType
  split
  · obtain ⟨q, hq, _⟩ := ID.C38_mul _ _ valid_builtins hjv
    rw [hj]
    exact ⟨q, hq⟩
  · split
    · obtain ⟨q, hq, _⟩ := ID.C38_mul _ _ valid_internal hjv
      rw [hj]
      exact ⟨q, hq⟩
    · split
      · obtain ⟨q, hq, _⟩ := ID.C38_mul _ _ hpv hi
        exact ⟨q, hq⟩
      · exact ⟨i, rfl⟩

/-- The identifier of the type that a name stands for. -/
theorem resolved {n : IdNode} {pkg : PyStr} (hn : n.Lexical) (hf : n.Free) (hp : IsName pkg) :
    ∃ i q, createId n = .ok i ∧ qualifiedType i ⟨[pkg]⟩ = .ok q ∧ q.key = refersTo pkg n := by
  obtain ⟨i, hi, _⟩ := createId_of hn hf
  obtain ⟨q, hq⟩ := qualified_total (createId_valid hi) hp
  exact ⟨i, q, hi, hq, (qualified_key hn hp hi hq).2⟩

/-- **C53**, acceptance of arrays: `type T is array of U` in package `pkg`, after the declarations of `types`, is accepted exactly if `U` stands for a declared
scalar type whose size is a multiple of 8, or for a declared message with fields. -/
theorem C53_array_accepted (B : Backend M S) (types : List (MTy M)) (id : ID) (pkg name : PyStr) (n : IdNode) (hp : IsName pkg)
    (hid : id.parts = [pkg, name]) (hn : n.Lexical)
    (hd : types.Pairwise fun a b => a.identifier.key ≠ b.identifier.key) :
    (∃ t, createType B types id (.array n) = .ok t) ↔
      n.Free ∧ ∃ e ∈ types, IsType pkg n e ∧
        ((∃ k : Num, e.scalarSize? = some (.ok k) ∧ 8 ∣ k.v) ∨ ∃ i m, e = .message i m ∧ B.nonNull m = true) := by
  have hpar := parent_pair hp hid
  constructor
  · rintro ⟨t, h⟩
    have h : createArray B types id n = .ok t := h
    obtain ⟨e, _, h1, h2, h3⟩ := createArray_spec hn hp hpar h
    unfold createArray at h
    obtain ⟨i, hi, _⟩ := bind_ok' h
    refine ⟨createId_free hi, e, h1, h2, ?_⟩
    rcases h3 with ⟨s, k, g1, rfl, g2⟩ | h3
    · exact .inl ⟨k, g1, g2⟩
    · exact .inr h3
  · rintro ⟨hf, e, h1, h2, h3⟩
    obtain ⟨i, q, hi, hq, hk⟩ := resolved hn hf hp
    have hl : lookup types q = some e := by
      unfold lookup
      cases hfd : types.find? fun t => q.eq t.identifier with
      | none =>
        rw [List.find?_eq_none] at hfd
        exact absurd (key_eq.2 (by rw [hk, h2])) (hfd e h1)
      | some e' =>
        obtain ⟨g1, g2⟩ := lookup_spec (show lookup types q = some e' from hfd)
        rw [Distinct.unique (types := types) hd g1 h1 (by rw [g2, hk, h2])]
    have hb : badId id = false := by simp [badId, hid]
    refine ⟨.array id e, ?_⟩
    show createArray B types id n = _
    unfold createArray
    rw [hi, hpar]
    show (qualifiedType i ⟨[pkg]⟩ >>= _) = _
    rw [hq]
    simp only [bind, Except.bind, hl]
    unfold newArray
    rcases h3 with ⟨k, g1, g2⟩ | ⟨j, m, rfl, g2⟩
    · rw [g1]
      simp only [bind, Except.bind, hb, Bool.false_or]
      rw [Int.emod_eq_zero_of_dvd g2]
      rfl
    · simp only [MTy.scalarSize?, hb, g2]
      rfl

/-- **C53**, acceptance of derived messages: `type T is new U` is accepted exactly if `U` stands for a declared message that can be derived. -/
theorem C53_derived_accepted (B : Backend M S) (types : List (MTy M)) (id : ID) (pkg name : PyStr) (n : IdNode) (hp : IsName pkg)
    (hid : id.parts = [pkg, name]) (hn : n.Lexical)
    (hd : types.Pairwise fun a b => a.identifier.key ≠ b.identifier.key) :
    (∃ t, createType B types id (.derived n) = .ok t) ↔
      n.Free ∧ ∃ i m m', MTy.message i m ∈ types ∧ IsType pkg n (.message i m) ∧ B.derived id m = .ok m' := by
  have hpar := parent_pair hp hid
  constructor
  · rintro ⟨t, h⟩
    have h : createDerived B types id n = .ok t := h
    obtain ⟨hi2, h2⟩ := createDerived_spec hn hp hpar h
    unfold createDerived at h
    obtain ⟨i, hi, _⟩ := bind_ok' h
    refine ⟨createId_free hi, ?_⟩
    cases h2 with
    | derived g1 g2 g3 =>
      cases hi2
      exact ⟨_, _, _, g1, g2, g3⟩
  · rintro ⟨hf, i, m, m', h1, h2, h3⟩
    obtain ⟨j, q, hj, hq, hk⟩ := resolved hn hf hp
    refine ⟨.message id m', ?_⟩
    show createDerived B types id n = _
    unfold createDerived
    rw [hj, hpar]
    show (qualifiedType j ⟨[pkg]⟩ >>= _) = _
    rw [hq]
    simp only [bind, Except.bind]
    have hm : (i, m) ∈ (types.filter fun t => t.identifier.eq q).filterMap MTy.message? :=
      List.mem_filterMap.2 ⟨_, List.mem_filter.2 ⟨h1, key_eq.2 (by rw [hk, ← h2])⟩, rfl⟩
    split
    · rename_i he
      rw [he] at hm
      cases hm
    · rename_i k u rest he
      have hu : (k, u) ∈ (types.filter fun t => t.identifier.eq q).filterMap MTy.message? := by rw [he]; simp
      obtain ⟨x, hx, hxk⟩ := List.mem_filterMap.1 hu
      obtain ⟨hx1, hx2⟩ := List.mem_filter.1 hx
      have := message?_some hxk
      subst this
      have := Distinct.unique (types := types) hd hx1 h1 (by rw [key_eq.1 hx2, hk, ← h2])
      cases this
      rw [h3]
      rfl

/-! ## Examples -/

/-- `Always_Valid => e`. -/
def exValid (e : Option Tree) : AspectNode := ⟨['A', 'l', 'w', 'a', 'y', 's', '_', 'V', 'a', 'l', 'i', 'd'], e⟩

/-- `Size => 8, Always_Valid => (True)`. -/
def exAspects : List AspectNode := [exSize (exNum '8'), exValid (some (.paren (.var (.unqualified ['T', 'r', 'u', 'e']))))]

theorem exAspects_lexical : ∀ a ∈ exAspects, a.Lexical := by
  intro a ha
  simp only [exAspects, List.mem_cons, List.not_mem_nil, or_false] at ha
  rcases ha with rfl | rfl
  · exact exSize_lexical (exNum_lexical exNumeral8)
  · intro t ht
    cases ht
    simp [Lexical, IdNode.Lexical, IsName]

theorem exAspects_sizes : SizesGiven exAspects := by
  intro a ha hn
  simp only [exAspects, List.mem_cons, List.not_mem_nil, or_false] at ha
  rcases ha with rfl | rfl
  · exact ⟨_, 8, rfl, by simp [Constant, exNum], by simp only [Supported, exNum]; exact .inl (by decide), fun _ _ => .numeral exNumeral8⟩
  · exact absurd hn (by decide)

theorem exAspects_legal : LegalValid exAspects ∧ SizeAspect exAspects 8 ∧ AlwaysValid exAspects true := by
  refine ⟨?_, ⟨exSize (exNum '8'), _, ⟨[], _, rfl, rfl, ?_⟩, rfl, fun _ _ => .numeral exNumeral8⟩, .inr ⟨exValid _, ⟨[exSize (exNum '8')], [], rfl, rfl, by simp⟩,
    .inr ⟨_, .unqualified ['T', 'r', 'u', 'e'], rfl, rfl, .inl ⟨by decide, rfl⟩⟩⟩⟩
  · intro a ha hn
    simp only [exAspects, List.mem_cons, List.not_mem_nil, or_false] at ha
    rcases ha with rfl | rfl
    · exact absurd hn (by decide)
    · exact .inr ⟨_, .unqualified ['T', 'r', 'u', 'e'], rfl, rfl, .inl (by decide)⟩
  · intro c hc
    simp only [List.mem_cons, List.not_mem_nil, or_false] at hc
    subst hc
    decide

/-- `type E is (X, Y) with Size => 8, Always_Valid => (True)` is accepted, `(X, x)` and `(X, End)` are not: `C53_positional_accepted`. -/
example : (∃ t, createType exBackend [] ⟨[['P'], ['E']]⟩ (.positional [['X'], ['Y']] exAspects) = .ok t) ∧
    (¬ ∃ t, createType exBackend [] ⟨[['P'], ['E']]⟩ (.positional [['X'], ['x']] exAspects) = .ok t) ∧
    ¬ ∃ t, createType exBackend [] ⟨[['P'], ['E']]⟩ (.positional [['X'], ['E', 'n', 'd']] exAspects) = .ok t := by
  refine ⟨(C53_positional_accepted _ _ _ _ _ rfl ⟨by simp [IsName], exAspects_lexical⟩ exAspects_sizes).2 ⟨by decide, by decide, exAspects_legal.1, 8, true,
    exAspects_legal.2.1, exAspects_legal.2.2, by decide, by decide, by decide⟩, fun h => ?_, fun h => ?_⟩
  · have := ((C53_positional_accepted _ _ _ _ _ rfl ⟨by simp [IsName], exAspects_lexical⟩ exAspects_sizes).1 h).2.1
    exact absurd this (by decide)
  · have := ((C53_positional_accepted _ _ _ _ _ rfl ⟨by simp [IsName], exAspects_lexical⟩ exAspects_sizes).1 h).1
    exact absurd this (by decide)

/-- `type E is (X => 3, Y => 9) with Size => 8, Always_Valid => (True)`: `C53_named_accepted`. -/
example : ∃ t, createType exBackend [] ⟨[['P'], ['E']]⟩ (.named [(['X'], exNum '3'), (['Y'], exNum '9')] exAspects) = .ok t := by
  refine (C53_named_accepted _ _ _ _ [3, 9] _ rfl ⟨?_, exAspects_lexical⟩ exAspects_sizes
    (.cons ⟨_, rfl, exNumeral3, .inl (by decide)⟩ (.cons ⟨_, rfl, exNumeral9, .inl (by decide)⟩ .nil))).2 ⟨by decide, by decide, exAspects_legal.1, 8, true,
    exAspects_legal.2.1, exAspects_legal.2.2, by decide, by decide, ?_, by decide⟩
  · intro e he
    simp only [List.mem_cons, List.not_mem_nil, or_false] at he
    rcases he with rfl | rfl
    · exact ⟨by simp [IsName], exNum_lexical exNumeral3⟩
    · exact ⟨by simp [IsName], exNum_lexical exNumeral9⟩
  · intro v hv
    simp only [List.map_cons, List.map_nil, List.mem_cons, List.not_mem_nil, or_false] at hv
    rcases hv with rfl | rfl <;> decide

/-- `type L is array of E` in package `P` for an enumeration `E` of 8 bits: `C53_array_accepted`. An array of `Boolean` is rejected. -/
example : (∃ t, createType exBackend [.enum BOOLEAN, .opaqueType, .enum ⟨⟨[['P'], ['E']]⟩, [(⟨[['X']]⟩, 3)], .n 8, false⟩] ⟨[['P'], ['L']]⟩
      (.array (.qualified none ['E'])) = .ok t) ∧
    ¬ ∃ t, createType exBackend [.enum BOOLEAN, .opaqueType, .enum ⟨⟨[['P'], ['E']]⟩, [(⟨[['X']]⟩, 3)], .n 8, false⟩] ⟨[['P'], ['L']]⟩
      (.array (.qualified none booleanText)) = .ok t := by
  constructor
  · refine (C53_array_accepted _ _ _ ['P'] ['L'] _ (by simp [IsName]) rfl (by simp [IdNode.Lexical, IsName]) (by decide)).2
      ⟨trivial, .enum ⟨⟨[['P'], ['E']]⟩, [(⟨[['X']]⟩, 3)], .n 8, false⟩, by simp, by simp only [IsType]; decide, .inl ⟨Num.n 8, rfl, by decide⟩⟩
  · intro h
    obtain ⟨_, e, h1, h2, h3⟩ := (C53_array_accepted _ _ _ ['P'] ['L'] _ (by simp [IsName]) rfl
      (by simp [IdNode.Lexical, IsName, booleanText]) (by decide)).1 h
    simp only [List.mem_cons, List.not_mem_nil, or_false] at h1
    rcases h1 with rfl | rfl | rfl
    · rcases h3 with ⟨k, h3, h4⟩ | ⟨i, m, h3, _⟩
      · have : k = Num.n 1 := by
          have h5 : some (.ok (Num.n 1)) = some (Except.ok k : Py Num) := h3
          cases h5
          rfl
        subst this
        exact absurd h4 (by decide)
      · cases h3
    · exact absurd h2 (by simp only [IsType]; decide)
    · exact absurd h2 (by simp only [IsType]; decide)

/-- `type D is new T` in package `P`: `C53_derived_accepted`. -/
example : ∃ t, createType exBackend [.enum BOOLEAN, .opaqueType, .message ⟨[['P'], ['T']]⟩ []] ⟨[['P'], ['D']]⟩ (.derived (.qualified none ['T'])) = .ok t :=
  (C53_derived_accepted _ _ _ ['P'] ['D'] _ (by simp [IsName]) rfl (by simp [IdNode.Lexical, IsName]) (by decide)).2
    ⟨trivial, ⟨[['P'], ['T']]⟩, [], [], by simp, by simp only [IsType]; decide, rfl⟩

end Verif.SpecParser
