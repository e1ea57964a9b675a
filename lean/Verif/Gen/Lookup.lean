import Verif.Gen.Spec
import Verif.Gen.Generic

/-! # What the generator substitutes for a name -/

namespace Verif.Gen
open Verif Verif.Graph Verif.Verify Verif.Types Verif.Merge

/-- The entries of the dictionary of `substitution_facts`. -/
inductive Entry (o : Opts) (m : GMsg) : Expr × Expr → Prop
  | mfirst : Entry o m (at' .first MESSAGE, o.conv (o.pref FIRST))
  | mlast : Entry o m (at' .last MESSAGE, o.conv (o.pref LAST))
  | msize : Entry o m (at' .size MESSAGE,
      o.conv (.add [o.pref LAST, .var true false ⟨if o.embedded then [FIRST] else [CTX, FIRST]⟩, .n 1]))
  | first (f) : f ∈ m.msg.fields → Entry o m (at' .first ⟨[m.spell f]⟩, o.conv (o.fieldFirst (m.spell f)))
  | last (f) : f ∈ m.msg.fields → Entry o m (at' .last ⟨[m.spell f]⟩, o.conv (o.fieldLast (m.spell f)))
  | size (f) : f ∈ m.msg.fields → Entry o m (at' .size ⟨[m.spell f]⟩, o.conv (o.fieldSize (m.spell f)))
  | value (e) : e ∈ m.msg.types → Entry o m (.v ⟨[m.spell e.1]⟩, o.conv (o.fieldValue (m.spell e.1) e.2))
  | lit (l) : LitName m l → l.Lex → Entry o m (o.literal l)
  | chk (c) : c ∈ m.msg.checksums → Entry o m (at' .validChecksum c.1, .tru)

theorem mapM_total {α β : Type} {f : α → Py β} {Q : α → β → Prop} : ∀ {l : List α}, (∀ a ∈ l, ∃ b, f a = .ok b ∧ Q a b) →
    ∃ bs, l.mapM f = .ok bs ∧ (∀ b ∈ bs, ∃ a ∈ l, Q a b) ∧ ∀ a ∈ l, ∃ b ∈ bs, Q a b := by
  intro l
  induction l with
  | nil => intro _; exact ⟨[], rfl, by simp, by simp⟩
  | cons a l ih =>
    intro h
    obtain ⟨b, hb, q⟩ := h a List.mem_cons_self
    obtain ⟨bs, hbs, h1, h2⟩ := ih fun a ha => h a (List.mem_cons_of_mem _ ha)
    refine ⟨b :: bs, by rw [List.mapM_cons, hb, hbs]; rfl, ?_, ?_⟩
    · intro x hx
      rcases List.mem_cons.mp hx with rfl | hx
      · exact ⟨a, List.mem_cons_self, q⟩
      · obtain ⟨y, hy, r⟩ := h1 x hx; exact ⟨y, List.mem_cons_of_mem _ hy, r⟩
    · intro x hx
      rcases List.mem_cons.mp hx with rfl | hx
      · exact ⟨b, List.mem_cons_self, q⟩
      · obtain ⟨y, hy, r⟩ := h2 x hx; exact ⟨y, List.mem_cons_of_mem _ hy, r⟩

/-- The dictionary. -/
theorem facts_ok {o : Opts} {m : GMsg} (hN : Names m o) : ∃ fs, facts o m = .ok fs ∧ (∀ kv ∈ fs, Entry o m kv) ∧
    (∀ kv, Entry o m kv → ∃ kv' ∈ fs, kv'.1.eq kv.1 = true) := by
  have hl : ∀ t ∈ enums m.msg.types, ∃ b, ((do
      let p ← t.id.parent
      t.literals.mapM fun l => do return o.literal (← p.mul l.1)) : Py (List (Expr × Expr))) = .ok b ∧
      ((∀ kv ∈ b, ∃ l ∈ t.literals, ∃ id : ID, kv = o.literal id ∧ id.key = t.id.key.dropLast ++ l.1.key ∧ id.Lex) ∧
        ∀ l ∈ t.literals, ∃ kv ∈ b, ∃ id : ID, kv = o.literal id ∧ id.key = t.id.key.dropLast ++ l.1.key) := by
    intro t ht
    obtain ⟨h1, h2, h3⟩ := hN.enum t ht
    have hne : t.id.parts.dropLast ≠ [] := by
      intro h
      have := congrArg List.length h
      simp at this; omega
    have hp : t.id.parent = .ok ⟨t.id.parts.dropLast⟩ := by
      apply ID.checked_ok ⟨t.id.parts.dropLast⟩
      exact ⟨hne, fun p hp => h1.valid.2 p (List.dropLast_subset _ hp)⟩
    have hpv : ID.Valid ⟨t.id.parts.dropLast⟩ := ⟨hne, fun p hp => h1.valid.2 p (List.dropLast_subset _ hp)⟩
    obtain ⟨bs, hbs, b1, b2⟩ := mapM_total (l := t.literals) (f := fun l => do
        return o.literal (← (⟨t.id.parts.dropLast⟩ : ID).mul l.1))
      (Q := fun l kv => ∃ id : ID, kv = o.literal id ∧ id.key = t.id.key.dropLast ++ l.1.key ∧ id.Lex) (by
        intro l hl
        obtain ⟨c, hc, hv, hparts⟩ := ID.C38_mul ⟨t.id.parts.dropLast⟩ l.1 hpv (h3 l hl).valid
        refine ⟨o.literal c, by rw [hc]; rfl, c, rfl, by simp [ID.key, hparts, List.map_dropLast], ?_, ?_, ?_⟩
        · exact hv.1
        · intro p hp
          rw [hparts] at hp
          rcases List.mem_append.mp hp with hp | hp
          · exact h1.2.1 p (List.dropLast_subset _ hp)
          · exact (h3 l hl).2.1 p hp
        · intro w _ he
          have := congrArg List.length he
          rw [hparts] at this
          have h4 := (h3 l hl).1
          have h5 := List.length_pos_iff.mpr h4
          have h6 := List.length_pos_iff.mpr hne
          simp only [List.length_append, List.length_cons, List.length_nil] at this h6
          omega)
    refine ⟨bs, ?_, b1, ?_⟩
    · rw [hp]; exact hbs
    · intro l hl
      obtain ⟨kv, hkv, id, r1, r2, _⟩ := b2 l hl
      exact ⟨kv, hkv, id, r1, r2⟩
  obtain ⟨q, hq, q1, q2⟩ := mapM_total hl
  refine ⟨_, by simp only [facts]; rw [hq]; rfl, ?_, ?_⟩
  · intro kv hkv
    simp only [List.mem_append, List.mem_map, List.mem_cons, List.not_mem_nil, or_false, List.mem_flatMap, List.mem_flatten] at hkv
    rcases hkv with (((((((rfl | rfl | rfl) | ⟨f, hf, rfl⟩) | ⟨f, hf, rfl⟩) | ⟨f, hf, rfl⟩) | ⟨e, he, rfl⟩) | ⟨t, ht, l, hlm, rfl⟩) |
      ⟨b, hb, hkb⟩) | ⟨c, hc, rfl⟩
    · exact .mfirst
    · exact .mlast
    · exact .msize
    · exact .first f hf
    · exact .last f hf
    · exact .size f hf
    · exact .value e he
    · exact .lit l.1 ⟨t, ht, l, hlm, .inl rfl⟩ ((hN.enum t ht).2.2 l hlm)
    · obtain ⟨t, ht, r, _⟩ := q1 b hb
      obtain ⟨l, hlm, id, rfl, hk, hlex⟩ := r kv hkb
      exact .lit id ⟨t, ht, l, hlm, .inr hk⟩ hlex
    · exact .chk c hc
  · intro kv hkv
    simp only [List.mem_append, List.mem_map, List.mem_cons, List.not_mem_nil, or_false, List.mem_flatMap, List.mem_flatten]
    cases hkv with
    | mfirst => exact ⟨_, .inl (.inl (.inl (.inl (.inl (.inl (.inl (.inl rfl))))))), C11_eq_refl _⟩
    | mlast => exact ⟨_, .inl (.inl (.inl (.inl (.inl (.inl (.inl (.inr (.inl rfl)))))))), C11_eq_refl _⟩
    | msize => exact ⟨_, .inl (.inl (.inl (.inl (.inl (.inl (.inl (.inr (.inr rfl)))))))), C11_eq_refl _⟩
    | first f hf => exact ⟨_, .inl (.inl (.inl (.inl (.inl (.inl (.inr ⟨f, hf, rfl⟩)))))), C11_eq_refl _⟩
    | last f hf => exact ⟨_, .inl (.inl (.inl (.inl (.inl (.inr ⟨f, hf, rfl⟩))))), C11_eq_refl _⟩
    | size f hf => exact ⟨_, .inl (.inl (.inl (.inl (.inr ⟨f, hf, rfl⟩)))), C11_eq_refl _⟩
    | value e he => exact ⟨_, .inl (.inl (.inl (.inr ⟨e, he, rfl⟩))), C11_eq_refl _⟩
    | lit id h hlex =>
      obtain ⟨t, ht, l, hlm, h | h⟩ := h
      · refine ⟨_, .inl (.inl (.inr ⟨t, ht, l, hlm, rfl⟩)), ?_⟩
        simp [Opts.literal, Expr.eq, Expr.cls, Expr.Cls.sub, ID.eq_iff_key, h]
      · obtain ⟨b, hb, _, r⟩ := q2 t ht
        obtain ⟨kv, hkv, id', rfl, hk⟩ := r l hlm
        refine ⟨_, .inl (.inr ⟨b, hb, hkv⟩), ?_⟩
        simp [Opts.literal, Expr.eq, Expr.cls, Expr.Cls.sub, ID.eq_iff_key, h, hk]
    | chk c hc => exact ⟨_, .inr ⟨c, hc, rfl⟩, C11_eq_refl _⟩

/-- What the dictionary has for a name. -/
theorem func_name {o : Opts} {m : GMsg} {fs : List (Expr × Expr)} {e : Expr} (hn : e.isName = true) {Q : Expr → Prop}
    (hex : ∃ kv ∈ fs, kv.1.eq e = true) (hall : ∀ kv ∈ fs, kv.1.eq e = true → Q kv.2) : Q (o.func m fs e) := by
  simp only [Opts.func, hn, if_true]
  cases hf : fs.reverse.find? (fun kv => kv.1.eq e) with
  | none =>
    obtain ⟨kv, hkv, he⟩ := hex
    have := List.find?_eq_none.mp hf kv (List.mem_reverse.mpr hkv)
    exact absurd he this
  | some kv =>
    exact hall kv (List.mem_reverse.mp (List.mem_of_find?_eq_some hf)) (by simpa using List.find?_some hf)

/-- A name that the dictionary does not have. -/
theorem func_none {o : Opts} {m : GMsg} {fs : List (Expr × Expr)} {e : Expr} (hn : e.isName = true)
    (hall : ∀ kv ∈ fs, kv.1.eq e = false) : o.func m fs e = e := by
  simp only [Opts.func, hn, if_true]
  cases hf : fs.reverse.find? (fun kv => kv.1.eq e) with
  | none => rfl
  | some kv =>
    have := hall kv (List.mem_reverse.mp (List.mem_of_find?_eq_some hf))
    rw [show kv.1.eq e = true by simpa using List.find?_some hf] at this
    cases this

/-- Attributes that compare equal are the same, up to the case of letters. -/
theorem attr_eq {a b : AttrKind} {i j : ID} (hi : i.Lex) (hj : j.Lex) (h : (at' a i).eq (at' b j) = true) : a = b ∧ i.key = j.key := by
  have := C11_eq_same_value (D := Division.ada) (at' a i) (at' b j) ⟨rfl, hi⟩ ⟨rfl, hj⟩ h
    ⟨fun _ => .int 0, fun k x => .bool (decide (k = a ∧ x = i.key)), fun _ _ => .int 0, fun _ _ => .int 0⟩
    (.bool true) (.bool (decide (b = a ∧ j.key = i.key))) (by simp [at', eval, Val.negIf]) (by simp [at', eval, Val.negIf])
  have h' : decide (b = a ∧ j.key = i.key) = true := by simpa using this.symm
  have := of_decide_eq_true h'
  exact ⟨this.1.symm, this.2.symm⟩

/-- Entries only have attributes and variables as keys. -/
theorem Entry.key {o : Opts} {m : GMsg} {kv : Expr × Expr} (h : Entry o m kv) :
    (∃ a i, kv.1 = at' a i) ∨ ∃ i, kv.1 = .v i := by
  cases h <;> simp [at', Opts.literal]

theorem Entry.call_ne {o : Opts} {m : GMsg} {kv : Expr × Expr} (h : Entry o m kv) (ng : Bool) (i : ID) (as : List Expr) :
    kv.1.eq (.call ng i as) = false := by
  rcases h.key with ⟨a, i, h⟩ | ⟨i, h⟩ <;> rw [h] <;> simp [at', Expr.eq, Expr.cls, Expr.Cls.sub]

theorem Entry.sel_ne {o : Opts} {m : GMsg} {kv : Expr × Expr} (h : Entry o m kv) (ng : Bool) (p : Expr) (s : ID) :
    kv.1.eq (.sel ng p s) = false := by
  rcases h.key with ⟨a, i, h⟩ | ⟨i, h⟩ <;> rw [h] <;> simp [at', Expr.eq, Expr.cls, Expr.Cls.sub]

end Verif.Gen
