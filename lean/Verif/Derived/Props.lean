import Verif.Derived.Model
import Verif.Merge.Names
import Verif.Verify.Example

/-! # Property C63: a derived message has the structure of its base -/

namespace Verif.Derived
open Verif Verif.Graph Verif.Types Verif.Verify Verif.Merge

/-! ## Specification -/

/-- `x` is the name of a literal of an enumeration that is declared in the package of the message and is the type of one of
its fields. -/
def IsLiteral (package : ID) (m : Msg) (x : List PyStr) : Prop :=
  ∃ f t p, (f, FTy.enum t) ∈ m.types ∧ t.id.parent = .ok p ∧ p.key = package.key ∧ ∃ l ∈ t.literals, l.1.key = x

/-- Two assignments, one for the base (`ρ`) and one for the derived message (`ρ'`): literals of the package of the base are
named with their package in the derived message, all other names are the same. -/
structure Through (package : ID) (m : Msg) (ρ ρ' : Env) : Prop where
  literal : ∀ x, IsLiteral package m x → ρ.var x = ρ'.var (package.key ++ x) ∧ ∀ a, ρ.attr a x = ρ'.attr a (package.key ++ x)
  other : ∀ x, ¬ IsLiteral package m x → ρ.var x = ρ'.var x ∧ ∀ a, ρ.attr a x = ρ'.attr a x
  sel : ρ.sel = ρ'.sel
  call : ρ.call = ρ'.call

/-- A link of the base and the link of the derived message: same ends, size and position, and a condition with the same value
for all values of names. -/
structure SameLink (package : ID) (m : Msg) (l l' : Link) : Prop where
  source : l'.source = l.source
  target : l'.target = l.target
  size : l'.size = l.size
  first : l'.first = l.first
  condition : ∀ D ρ ρ', Through package m ρ ρ' → eval D ρ' l'.condition = eval D ρ l.condition

/-! ## Lemmas -/

theorem literals_spec {package : ID} : ∀ {ts : List (Field × FTy)} {ls : List ID}, literals package ts = .ok ls →
    ∀ x, (∃ l ∈ ls, l.key = x) ↔
      ∃ f t p, (f, FTy.enum t) ∈ ts ∧ t.id.parent = .ok p ∧ p.key = package.key ∧ ∃ l ∈ t.literals, l.1.key = x := by
  intro ts
  induction ts with
  | nil => intro ls h x; cases h; simp
  | cons e ts ih =>
    intro ls h x
    obtain ⟨f, t⟩ := e
    by_cases he : ∃ t', t = .enum t'
    · obtain ⟨t', rfl⟩ := he
      simp only [literals, bind, Except.bind] at h
      split at h
      · cases h
      rename_i p hp
      split at h
      · cases h
      rename_i ls' hls
      have := ih hls x
      cases h
      constructor
      · rintro ⟨l, hl, hx⟩
        split at hl
        · rename_i hpe
          rcases List.mem_append.mp hl with hl | hl
          · obtain ⟨q, hq, rfl⟩ := List.mem_map.mp hl
            exact ⟨f, t', p, by simp, hp, (ID.eq_iff_key _ _).mp hpe, q, hq, hx⟩
          · obtain ⟨f', t'', p', h1, h2⟩ := this.mp ⟨l, hl, hx⟩
            exact ⟨f', t'', p', List.mem_cons_of_mem _ h1, h2⟩
        · obtain ⟨f', t'', p', h1, h2⟩ := this.mp ⟨l, hl, hx⟩
          exact ⟨f', t'', p', List.mem_cons_of_mem _ h1, h2⟩
      · rintro ⟨f', t'', p', h1, h2, h3, q, hq, hx⟩
        rcases List.mem_cons.mp h1 with h1 | h1
        · obtain ⟨rfl, h1⟩ := Prod.mk.inj h1
          cases h1
          obtain rfl : p = p' := by rw [hp] at h2; cases h2; rfl
          have hpe : p.eq package = true := (ID.eq_iff_key _ _).mpr h3
          simp only [hpe, if_true]
          exact ⟨q.1, List.mem_append.mpr (.inl (List.mem_map.mpr ⟨q, hq, rfl⟩)), hx⟩
        · obtain ⟨l, hl, hx⟩ := this.mpr ⟨f', t'', p', h1, h2, h3, q, hq, hx⟩
          refine ⟨l, ?_, hx⟩
          split
          · exact List.mem_append.mpr (.inr hl)
          · exact hl
    · have hl : literals package ((f, t) :: ts) = literals package ts := by
        cases t <;> first | rfl | exact absurd ⟨_, rfl⟩ he
      rw [hl] at h
      rw [ih h x]
      constructor
      · rintro ⟨f', t'', p', h1, h2⟩; exact ⟨f', t'', p', List.mem_cons_of_mem _ h1, h2⟩
      · rintro ⟨f', t'', p', h1, h2⟩
        rcases List.mem_cons.mp h1 with h1 | h1
        · obtain ⟨rfl, rfl⟩ := Prod.mk.inj h1; exact absurd ⟨_, rfl⟩ he
        · exact ⟨f', t'', p', h1, h2⟩

open Classical in
/-- The name in the derived message of a name of the base. -/
noncomputable def newName (package : ID) (m : Msg) (x : List PyStr) : List PyStr :=
  if IsLiteral package m x then package.key ++ x else x

theorem literals_mem {package : ID} : ∀ {ts : List (Field × FTy)} {ls : List ID}, literals package ts = .ok ls →
    ∀ l ∈ ls, ∃ f t, (f, FTy.enum t) ∈ ts ∧ ∃ q ∈ t.literals, q.1 = l := by
  intro ts
  induction ts with
  | nil => intro ls h l hl; cases h; cases hl
  | cons e ts ih =>
    intro ls h l hl
    obtain ⟨f, t⟩ := e
    have rest : ∀ ls', literals package ts = .ok ls' → l ∈ ls' →
        ∃ f' t', (f', FTy.enum t') ∈ (f, t) :: ts ∧ ∃ q ∈ t'.literals, q.1 = l := by
      intro ls' h' hl'
      obtain ⟨f', t', h1, h2⟩ := ih h' l hl'
      exact ⟨f', t', List.mem_cons_of_mem _ h1, h2⟩
    cases t with
    | enum t =>
      simp only [literals, bind, Except.bind] at h
      split at h
      · cases h
      split at h
      · cases h
      rename_i ls' hls
      cases h
      split at hl
      · rcases List.mem_append.mp hl with hl | hl
        · obtain ⟨q, hq, rfl⟩ := List.mem_map.mp hl
          exact ⟨f, t, by simp, q, hq, rfl⟩
        · exact rest _ hls hl
      · exact rest _ hls hl
    | int t => exact rest ls h hl
    | array i t => exact rest ls h hl
    | «opaque» => exact rest ls h hl
    | message i => exact rest ls h hl

theorem mul_lex {a b c : ID} (ha : a.Lex) (hb : b.Lex) (h : a.mul b = .ok c) : c.Lex ∧ c.key = a.key ++ b.key := by
  obtain ⟨c', hc, hv, hparts⟩ := ID.C38_mul a b ha.valid hb.valid
  rw [h] at hc
  cases hc
  obtain ⟨ha1, ha2, ha3⟩ := ha
  obtain ⟨hb1, hb2, hb3⟩ := hb
  refine ⟨⟨by simp [hparts, ha1], ?_, ?_⟩, ?_⟩
  · intro p hp
    rw [hparts] at hp
    rcases List.mem_append.mp hp with hp | hp
    · exact ha2 p hp
    · exact hb2 p hp
  · intro w _ he
    have := congrArg List.length he
    rw [hparts] at this
    have h1 : 0 < a.parts.length := List.length_pos_iff.mpr ha1
    have h2 : 0 < b.parts.length := List.length_pos_iff.mpr hb1
    simp at this
    omega
  · simp [ID.key, hparts]

theorem derived_renaming {package : ID} {m : Msg} {ls : List ID} {map : List (Expr × Expr)} (hpkg : package.Lex)
    (hlex : ∀ l ∈ ls, l.Lex) (hls : literals package m.types = .ok ls) (hmap : mapping package ls = .ok map) :
    Renaming (newName package m) (substitution map) (fun _ => True) := by
  simp only [mapping, bind, Except.bind] at hmap
  split at hmap
  · cases hmap
  rename_i es hes
  cases hmap
  obtain ⟨m1, m2⟩ := mapM_mem hes
  have hkv : ∀ kv ∈ es.reverse, ∃ l ∈ ls, ∃ id', kv = (.var false false l, .var false false id') ∧ id'.Lex ∧
      id'.key = package.key ++ l.key := by
    intro kv hkv
    obtain ⟨l, hl, h⟩ := m2 kv (List.mem_reverse.mp hkv)
    split at h
    · cases h
    rename_i id' hid
    cases h
    exact ⟨l, hl, id', rfl, (mul_lex hpkg (hlex l hl) hid).1, (mul_lex hpkg (hlex l hl) hid).2⟩
  refine ⟨?_, fun e he => substitution_nonname _ _ he, ?_⟩
  · intro id _
    rcases substitution_cases es.reverse (.var false false id) rfl with ⟨kv, hm, he, hs⟩ | ⟨hno, hs⟩
    · obtain ⟨l, hl, id', rfl, h1, h2⟩ := hkv kv hm
      rw [hs]
      have hk : l.key = id.key := by
        simp only [Expr.eq, Expr.cls, Expr.Cls.sub] at he
        simpa [ID.eq_iff_key] using he
      refine ⟨id', rfl, ?_, fun _ => h1⟩
      have : IsLiteral package m id.key := (literals_spec hls _).mp ⟨l, hl, hk⟩
      rw [newName, if_pos this, h2, hk]
    · rw [hs]
      refine ⟨id, rfl, ?_, fun h => h⟩
      have : ¬ IsLiteral package m id.key := by
        intro hl
        obtain ⟨l, hl, hk⟩ := (literals_spec hls _).mpr hl
        obtain ⟨kv, hkv', h⟩ := m1 l hl
        split at h
        · cases h
        rename_i id' hid
        cases h
        have := hno _ (List.mem_reverse.mpr hkv')
        simp [Expr.eq, Expr.cls, Expr.Cls.sub] at this
        rw [← Bool.not_eq_true, ID.eq_iff_key] at this
        exact this hk
      rw [newName, if_neg this]
  · intro a p
    rcases substitution_cases es.reverse (.attr false a p) rfl with ⟨kv, hm, he, hs⟩ | ⟨hno, hs⟩
    · obtain ⟨l, hl, id', rfl, h1, h2⟩ := hkv kv hm
      simp [Expr.eq, Expr.cls, Expr.Cls.sub] at he
    · exact hs

theorem through_via {package : ID} {m : Msg} {ρ ρ' : Env} (h : Through package m ρ ρ') : ρ = via (newName package m) ρ' := by
  obtain ⟨v, a, s, c⟩ := ρ
  obtain ⟨v', a', s', c'⟩ := ρ'
  obtain ⟨h1, h2, h3, h4⟩ := h
  simp only [via, Env.mk.injEq]
  refine ⟨?_, ?_, h3, h4⟩
  · funext x
    by_cases hl : IsLiteral package m x
    · rw [newName, if_pos hl]; exact (h1 x hl).1
    · rw [newName, if_neg hl]; exact (h2 x hl).1
  · funext k x
    by_cases hl : IsLiteral package m x
    · rw [newName, if_pos hl]; exact (h1 x hl).2 k
    · rw [newName, if_neg hl]; exact (h2 x hl).2 k

theorem forall₂_of_mapM {α β : Type} {f : α → Py β} {R : α → β → Prop} : ∀ {as : List α} {bs : List β},
    as.mapM f = .ok bs → (∀ a ∈ as, ∀ b, f a = .ok b → R a b) → List.Forall₂ R as bs := by
  intro as
  induction as with
  | nil => intro bs h _; rw [List.mapM_nil] at h; cases h; exact .nil
  | cons a as ih =>
    intro bs h hR
    rw [List.mapM_cons] at h
    simp only [bind, Except.bind] at h
    split at h
    · cases h
    rename_i b hb
    split at h
    · cases h
    rename_i bs' hbs
    cases h
    exact .cons (hR a List.mem_cons_self b hb) (ih hbs fun a ha => hR a (List.mem_cons_of_mem _ ha))

theorem derivedStructure_same {m : Msg} {package : ID} {links : List Link} (hp : m.id.parent = .ok package) (hpkg : package.Lex)
    (hlex : ∀ f t, (f, FTy.enum t) ∈ m.types → ∀ l ∈ t.literals, l.1.Lex)
    (hs : ∀ l ∈ m.links, Simple (fun _ => True) l.condition) (h : derivedStructure m = .ok links) :
    List.Forall₂ (SameLink package m) m.links links := by
  simp only [derivedStructure, Msg.package, hp, bind, Except.bind] at h
  split at h
  · cases h
  rename_i ls hls
  split at h
  · cases h
  rename_i map hmap
  have hL : ∀ l ∈ ls, l.Lex := by
    intro l hl
    obtain ⟨f, t, h1, q, hq, rfl⟩ := literals_mem hls l hl
    exact hlex f t h1 q hq
  have F := derived_renaming hpkg hL hls hmap
  refine forall₂_of_mapM h ?_
  intro l hl l' hl'
  simp only [deriveLink, bind, Except.bind] at hl'
  split at hl'
  · cases hl'
  rename_i c hc
  cases hl'
  refine ⟨rfl, rfl, rfl, rfl, ?_⟩
  intro D ρ ρ' ht
  obtain ⟨r, hr, R⟩ := rename_ok (D := D) F l.condition (hs l hl) (depth l.condition + 1) (by omega)
  rw [Expr.substituted, hr] at hc
  cases hc
  rw [R.value, through_via ht]

theorem derive_ok {s : Solver} {typeError : Msg → Py Bool} {k : Nat} {id : ID} {b : Base} {m : Msg}
    (h : derive s typeError k id b = .ok m) :
    ∃ links, derivedStructure b.msg = .ok links ∧ b.derived = false ∧ Msg.new s typeError id links b.msg.types b.aspects k = .ok m := by
  simp only [derive, bind, Except.bind] at h
  split at h
  · cases h
  rename_i links hl
  cases hd : b.derived with
  | true => simp [hd] at h
  | false => rw [hd] at h; exact ⟨links, hl, rfl, h⟩

theorem new_ok {s : Solver} {typeError : Msg → Py Bool} {k : Nat} {id : ID} {links : List Link} {types : List (Field × FTy)}
    {cs : List (ID × List ChkExpr)} {m : Msg} (h : Msg.new s typeError id links types cs k = .ok m) :
    m.id = id ∧ m.types = types ∧ m.links = links ∧ m.checksums = cs ∧ m.verify s (typeError m) k = .ok () ∧
      ∃ literals, (Def.mk links (types.map (·.1)) literals).construct k = .ok m.fields := by
  unfold Msg.new at h
  by_cases hid : id.parts.length ≤ 1
  · rw [if_pos hid] at h; cases h
  rw [if_neg hid] at h
  obtain ⟨pk, _, h⟩ := bind_ok (h : Except.bind _ _ = _)
  obtain ⟨ls, _, h⟩ := bind_ok (h : Except.bind _ _ = _)
  obtain ⟨fields, hf, h⟩ := bind_ok (h : Except.bind _ _ = _)
  obtain ⟨_, hv, h⟩ := bind_ok (h : Except.bind _ _ = _)
  cases h
  exact ⟨rfl, rfl, rfl, rfl, hv, ls, hf⟩

theorem derivedStructure_ends {m : Msg} {links : List Link} (h : derivedStructure m = .ok links) :
    List.Forall₂ (fun l l' : Link => l'.source = l.source ∧ l'.target = l.target) m.links links := by
  simp only [derivedStructure, Msg.package, bind, Except.bind] at h
  split at h
  · cases h
  split at h
  · cases h
  split at h
  · cases h
  refine forall₂_of_mapM h ?_
  intro l _ l' hl'
  simp only [deriveLink, bind, Except.bind] at hl'
  split at hl'
  · cases hl'
  cases hl'
  exact ⟨rfl, rfl⟩

theorem forall₂_left {α β : Type} {R : α → β → Prop} : ∀ {as : List α} {bs : List β}, List.Forall₂ R as bs → ∀ {a}, a ∈ as →
    ∃ b ∈ bs, R a b := by
  intro as bs h
  induction h with
  | nil => intro a ha; cases ha
  | cons h _ ih =>
    intro a ha
    rcases List.mem_cons.mp ha with rfl | ha
    · exact ⟨_, List.mem_cons_self, h⟩
    · obtain ⟨b, hb, hr⟩ := ih ha
      exact ⟨b, List.mem_cons_of_mem _ hb, hr⟩

theorem forall₂_right {α β : Type} {R : α → β → Prop} : ∀ {as : List α} {bs : List β}, List.Forall₂ R as bs → ∀ {b}, b ∈ bs →
    ∃ a ∈ as, R a b := by
  intro as bs h
  induction h with
  | nil => intro a ha; cases ha
  | cons h _ ih =>
    intro a ha
    rcases List.mem_cons.mp ha with rfl | ha
    · exact ⟨_, List.mem_cons_self, h⟩
    · obtain ⟨b, hb, hr⟩ := ih ha
      exact ⟨b, List.mem_cons_of_mem _ hb, hr⟩

/-! ## Property -/

/-- **C63.** A derived message has the name given in the derivation, the fields with the types of its base, and for each link
of the base, in the same order, a link with the same ends, size and position whose condition has the same value for all values
of fields, where literals of the base's package are qualified. The base is not a derived message itself.

Missing: conditions with minus signs before names, `not`, quantifiers, selections, calls or aggregates; checksums
(`C63_checksum_counterexample`). -/
theorem C63_derived_partial (s : Solver) (typeError : Msg → Py Bool) (k : Nat) (id package : ID) (b : Base) (m : Msg)
    (h : derive s typeError k id b = .ok m) (hp : b.msg.id.parent = .ok package) (hpkg : package.Lex)
    (hlex : ∀ f t, (f, FTy.enum t) ∈ b.msg.types → ∀ l ∈ t.literals, l.1.Lex)
    (hs : ∀ l ∈ b.msg.links, Simple (fun _ => True) l.condition) :
    m.id = id ∧ m.types = b.msg.types ∧ b.derived = false ∧ List.Forall₂ (SameLink package b.msg) b.msg.links m.links := by
  obtain ⟨links, hl, hd, hn⟩ := derive_ok h
  obtain ⟨h1, h2, h3, _⟩ := new_ok hn
  refine ⟨h1, h2, hd, ?_⟩
  rw [h3]
  exact derivedStructure_same hp hpkg hlex hs hl

/-- **C63**, fields: if base and derived message are accepted, they have the same fields. -/
theorem C63_fields (s s' : Solver) (typeError : Msg → Py Bool) (k : Nat) (id : ID) (b : Base) (m : Msg)
    (h : derive s typeError k id b = .ok m) (ha : b.msg.Accepted s') (hr : b.msg.Regular) (hr' : m.Regular) :
    m.fields.Perm b.msg.fields := by
  obtain ⟨links, hl, _, hn⟩ := derive_ok h
  obtain ⟨_, h2, h3, _, _, ls, hc⟩ := new_ok hn
  obtain ⟨⟨ls', hacc⟩, _⟩ := accepted_verified ha
  obtain ⟨n1, m1, _⟩ := C14_order_partial ⟨links, b.msg.types.map (·.1), ls⟩ (by rw [← h3]; exact hr') m.fields ⟨k, hc⟩
  obtain ⟨n2, m2, _⟩ := C14_order_partial ⟨b.msg.links, b.msg.types.map (·.1), ls'⟩ hr b.msg.fields hacc
  rw [List.perm_ext_iff_of_nodup n1 n2]
  intro f
  rw [m1, m2]
  have := derivedStructure_ends hl
  simp only [Def.IsField]
  constructor
  · rintro ⟨⟨l, hl, ht⟩, hf⟩
    obtain ⟨l', hl', h1, h2⟩ := forall₂_right this hl
    exact ⟨⟨l', hl', by rw [h1, h2] at ht; exact ht⟩, hf⟩
  · rintro ⟨⟨l, hl, ht⟩, hf⟩
    obtain ⟨l', hl', h1, h2⟩ := forall₂_left this hl
    exact ⟨⟨l', hl', by rw [h1, h2]; exact ht⟩, hf⟩

/-! ### The hypotheses can be met -/

/-- `type E is (A => 1, B => 2) with Size => 8`. -/
private def exEnum : FTy := .enum ⟨⟨[['M'], ['E']]⟩, [(⟨[['A']]⟩, 1), (⟨[['B']]⟩, 2)], .n 8, false⟩

private def exTag : Expr := .v ⟨[['T']]⟩

private def exBaseLinks : List Link :=
  [lnk INITIAL (fld 't'), ⟨fld 't', fld 'v', .rel .eq exTag (.v ⟨[['A']]⟩), .n 16, .undefined⟩, lnk (fld 'v') FINAL]

/-- `type T is message T : E then V with Size => 16 if T = A; V : Opaque; end message;` -/
private def exBase : Msg :=
  ⟨⟨[['M'], ['T']]⟩, exBaseLinks, [fld 't', fld 'v'], [(fld 't', exEnum), (fld 'v', .opaque)], []⟩

private def exZ : ZModel :=
  ⟨fun
    | .var k => if k = [['b']] ∨ k = [['m'], ['b']] then 2 else 1
    | .attr .first _ k => if k = [['v']] then 9 else if k = FINAL.key then 25 else 1
    | .attr .size _ k => if k = [['v']] then 16 else if k = MESSAGE.key then 24 else if k = FINAL.key then 0 else 8
    | .attr .last _ k => if k = [['t']] then 8 else 24
    | _ => 0, fun _ => 0, fun _ => 0, fun _ _ => 0⟩

private def exFalse : List (List Expr) :=
  let first := at' .first MESSAGE
  let last := at' .last MESSAGE
  let lastT := at' .last (fld 't')
  let endT := Expr.bin .sub (.add [first, .n 8]) (.n 1)
  let beginV := Expr.add [lastT, .n 1]
  let endV := Expr.bin .sub (.add [beginV, .n 16]) (.n 1)
  let lastFact := Expr.rel .eq lastT endT
  [[.rel .ge bitVar first, .rel .le bitVar last, .not (.bool .and [.rel .ge bitVar first, .rel .le bitVar endT]),
    .not (.bool .and [.rel .ge bitVar beginV, .rel .le bitVar endV]), .rel .eq endV last, lastFact],
   [.rel .lt (.n 8) (.n 0)],
   [.rel .lt (.n 0) (.n 0)],
   [.rel .lt (.n 16) (.n 0)],
   [.not (.rel .eq (.bin .mod beginV (.n 8)) (.n 1)), lastFact, .rel .eq (.bin .mod first (.n 8)) (.n 1)],
   [.not (.rel .eq (.bin .mod (.n 16) (.n 8)) (.n 0))],
   [.rel .ne (.bin .mod (.add [at' .size (fld 't'), at' .size (fld 'v')]) (.n 8)) (.n 0),
    .rel .eq (at' .size (fld 't')) (.n 8), .rel .eq (at' .size (fld 'v')) (.n 16)]]

private theorem exFalse_unsat : ∀ u ∈ exFalse, ¬ ∃ M, Verify.Holds M u := by
  intro u hu
  simp only [exFalse, List.mem_cons, List.not_mem_nil, or_false] at hu
  rcases hu with rfl | rfl | rfl | rfl | rfl | rfl | rfl <;>
  · rintro ⟨M, h⟩
    simp [Verify.Holds, zeval, zevalL, at', bitVar, Expr.n, Bind.bind, Except.bind, pure, Except.pure, ZVal.int?,
      ZVal.bool?, zRel, zArith, zEqual, ZVal.cast, intSum, BoolOp.isAnd] at h
    try omega

private def exSolver : Solver := tableSolver exZ [exZ] exFalse exFalse_unsat

private def exDerivedLinks : List Link :=
  [lnk INITIAL (fld 't'), ⟨fld 't', fld 'v', .rel .eq exTag (.v ⟨[['M'], ['A']]⟩), .n 16, .undefined⟩, lnk (fld 'v') FINAL]

/-- `package Q is type D is new M::T; end Q;`: the literal of the condition is qualified. -/
private theorem exDerived : derive exSolver (fun _ => .ok false) 20 ⟨[['Q'], ['D']]⟩ (proven exBase) =
    .ok ⟨⟨[['Q'], ['D']]⟩, exDerivedLinks, [fld 't', fld 'v'], exBase.types, []⟩ := rfl

private theorem exBase_accepted : exBase.Accepted exSolver := ⟨fun _ => .ok false, 20, rfl⟩

private theorem exBase_simple : ∀ l ∈ exBase.links, Simple (fun _ => True) l.condition := by
  intro l hl
  simp only [exBase, exBaseLinks, List.mem_cons, List.not_mem_nil, or_false] at hl
  rcases hl with rfl | rfl | rfl <;> simp [Simple, lnk, exTag, Expr.v]

private theorem exBase_lex : ∀ f t, (f, FTy.enum t) ∈ exBase.types → ∀ l ∈ t.literals, l.1.Lex := by
  intro f t h
  simp only [exBase, exEnum, List.mem_cons, Prod.mk.injEq, List.not_mem_nil, or_false, reduceCtorEq, and_false,
    FTy.enum.injEq] at h
  obtain ⟨_, rfl⟩ := h
  decide

/-- The hypotheses of `C63_derived_partial`, and what it says about the condition. -/
example : ∀ D ρ ρ', Through ⟨[['M']]⟩ exBase ρ ρ' →
    eval D ρ' (.rel .eq exTag (.v ⟨[['M'], ['A']]⟩)) = eval D ρ (.rel .eq exTag (.v ⟨[['A']]⟩)) := by
  have h := (C63_derived_partial exSolver (fun _ => .ok false) 20 ⟨[['Q'], ['D']]⟩ ⟨[['M']]⟩ (proven exBase) _ exDerived rfl
    (by decide) exBase_lex exBase_simple).2.2.2
  exact (match h with | .cons _ (.cons h _) => h).condition

/-- There are such assignments. -/
example : ∃ ρ ρ' : Env, Through ⟨[['M']]⟩ exBase ρ ρ' :=
  let ρ : Env := ⟨fun _ => .int 1, fun _ _ => .int 8, fun _ _ => .int 0, fun _ _ => .int 0⟩
  ⟨ρ, ρ, fun _ _ => ⟨rfl, fun _ => rfl⟩, fun _ _ => ⟨rfl, fun _ => rfl⟩, rfl, rfl⟩

/-- The hypotheses of `C63_fields`. -/
example := C63_fields exSolver exSolver (fun _ => .ok false) 20 ⟨[['Q'], ['D']]⟩ (proven exBase) _ exDerived exBase_accepted
  (by simp only [Msg.Regular]; decide) (by simp only [Msg.Regular]; decide)

/-! ### Where the property is false -/

private def exChecksum : Expr := .attr false .validChecksum (.var false false ⟨[['L']]⟩)

/-- The message of `Verif/Verify/Example.lean` with `L'Valid_Checksum` as condition of the last link and
`with Checksum => (L => (V))`. -/
private def exChk : Msg :=
  ⟨⟨[['M'], ['T']]⟩,
   [lnk INITIAL (fld 'l'), ⟨fld 'l', fld 'v', .rel .gt exL (.n 0), .mul [exL, .n 8], .undefined⟩,
    lnk (fld 'l') FINAL (.rel .eq exL (.n 0)), lnk (fld 'v') FINAL exChecksum],
   [fld 'l', fld 'v'], [(fld 'l', exU8), (fld 'v', .opaque)], [(⟨[['L']]⟩, [.plain (.var false false ⟨[['V']]⟩)])]⟩

private theorem exChk_structure : derivedStructure exChk = .ok exChk.links := rfl

private theorem exChk_rejected (k : Nat) (id : ID) (fields : List Field) :
    (⟨id, exChk.links, fields, exChk.types, []⟩ : Msg).verifyChecksums k ≠ .ok false := by
  match k with
  | 0 => simp [Msg.verifyChecksums, anyM', fieldCondition, computeFieldCondition, bind, Except.bind, pure, Except.pure]
  | 1 => intro h; cases h
  | 2 => intro h; cases h
  | 3 => intro h; cases h
  | k + 4 =>
    have : (⟨id, exChk.links, fields, exChk.types, []⟩ : Msg).verifyChecksums (k + 4) = .ok true := rfl
    rw [this]
    intro h
    cases h

/-- A message with a checksum is accepted, but no message can be derived from it: a proven message has no aspects, so the
definition of the checksum is lost, and the check of the checksum in the conditions is an error. -/
theorem C63_checksum_counterexample : ∃ m : Msg, (∃ s, m.Accepted s) ∧
    ∀ s typeError k id m', derive s typeError k id (proven m) ≠ .ok m' := by
  refine ⟨exChk, ⟨Verify.exSolver, fun _ => .ok false, 20, rfl⟩, ?_⟩
  intro s ty k id m' h
  obtain ⟨links, hl, _, hn⟩ := derive_ok h
  rw [show (proven exChk).msg = exChk from rfl, exChk_structure] at hl
  cases hl
  obtain ⟨h1, h2, h3, h4, hv, _⟩ := new_ok hn
  obtain ⟨id', links', fields, types, cs⟩ := m'
  simp only at h1 h2 h3 h4
  subst h1 h2 h3 h4
  have hl : (exChk.links.isEmpty && (proven exChk).msg.types.isEmpty) = false := rfl
  simp only [Msg.verify, hl, Bool.false_eq_true, if_false] at hv
  obtain ⟨e1, _, hv⟩ := bind_ok (hv : Except.bind _ _ = _)
  obtain ⟨e2, _, hv⟩ := bind_ok (hv : Except.bind _ _ = _)
  obtain ⟨e3, hc, hv⟩ := bind_ok (hv : Except.bind _ _ = _)
  cases e3 with
  | false => exact exChk_rejected k _ _ hc
  | true => simp [Bind.bind, Except.bind] at hv

end Verif.Derived
