import Verif.Bridge.Env

/-! # From messages in a buffer to assignments of the model verification: the assignment -/

namespace Verif.Bridge
open Verif Verif.Graph Verif.Verify Verif.Types Verif.Gen Verif.Spark Verif.Ctx

/-- The names of a message can be told apart: names of types are not names of fields or `Message`, types with the same name have the same
size, literals with the same name have the same number. Enumerations have no values without names. -/
structure Distinct (m : Msg) : Prop where
  types : ∀ e ∈ m.types, ∀ s, e.2.size = .ok s → ⟨e.2.typeName⟩ ∉ m.fields ∧ e.2.typeName ≠ MESSAGE.key
  same : ∀ e ∈ m.types, ∀ e' ∈ m.types, e.2.typeName = e'.2.typeName → ∀ s s', e.2.size = .ok s → e'.2.size = .ok s' → s.v = s'.v
  literals : ∀ t ∈ enums m.types, ∀ t' ∈ enums m.types, ∀ l ∈ t.literals, ∀ l' ∈ t'.literals, ∀ k,
    (k = l.1.key ∨ k = t.id.key.dropLast ++ l.1.key) → (k = l'.1.key ∨ k = t'.id.key.dropLast ++ l'.1.key) → l.2 = l'.2
  closed : ∀ f t, (f, FTy.enum t) ∈ m.types → t.alwaysValid = false

/-- The size of the field or type with a given name. -/
def sizeOf (m : Msg) (k : List PyStr) : Int :=
  (m.types.findSome? fun e =>
    match e.2.size with
    | .ok s => if e.1 = ⟨k⟩ ∨ e.2.typeName = k then some s.v else none
    | .error _ => none).getD 0

/-- The values of names in a message that begins with the fields `es`; the other fields have the values `dflt`. -/
def fullEnv (m : Msg) (b : Bytes) (lo hi : Int) (es : List Item) (dflt : Field → Int) : Env where
  var k :=
    match m.type? ⟨k⟩, es.find? (fun e => e.f == ⟨k⟩) with
    | some t, none => if t.isScalar then .int (dflt ⟨k⟩) else .seq []
    | _, _ => (itemEnv m b lo hi es).var k
  attr a k :=
    if k = MESSAGE.key then (itemEnv m b lo hi es).attr a k
    else
      match es.find? (fun e => e.f == ⟨k⟩), a with
      | none, .size => .int (sizeOf m k)
      | _, _ => (itemEnv m b lo hi es).attr a k
  sel := (itemEnv m b lo hi es).sel
  call := (itemEnv m b lo hi es).call

section
variable {P : Pkg} {b : Bytes} {lo hi : Int} {es : List Item} {p : Field} {pos : Int} {dflt : Field → Int}

theorem toLower_toLower (c : Char) : c.toLower.toLower = c.toLower := by
  unfold Char.toLower
  by_cases h : c.val ≥ 'A'.val ∧ c.val ≤ 'Z'.val
  · rw [dif_pos h]
    rw [dif_neg]
    simp only
    have h1 : c.val.toNat ≤ 90 := h.2
    have h0 : 65 ≤ c.val.toNat := h.1
    intro h2
    have h3 : (c.val + ('a'.val - 'A'.val)).toNat ≤ 90 := h2.2
    have h4 : ('a'.val - 'A'.val) = 32 := rfl
    rw [h4, UInt32.toNat_add] at h3
    have h5 : (32 : UInt32).toNat = 32 := rfl
    rw [h5] at h3
    omega
  · simp only [dif_neg h]

theorem field_parts {m : GMsg} {o : Opts} (hN : Names m o) {f : Field} (hf : f ∈ m.msg.fields) : f.key = f.parts := by
  rw [ID.key, field_key hN hf]
  simp [PyStr.lower, toLower_toLower]

theorem field_single {m : GMsg} {o : Opts} (hN : Names m o) {f : Field} (hf : f ∈ m.msg.fields) : f.key ≠ MESSAGE.key := by
  rw [field_parts hN hf]
  intro h
  apply hN.message
  rw [← h]
  exact hf

theorem sizeOf_eq {m : GMsg} {o : Opts} (hN : Names m o) (hd : Distinct m.msg) {e : Field × FTy} (he : e ∈ m.msg.types) {s : Num} (hs : e.2.size = .ok s)
    {k : List PyStr} (hk : e.1 = ⟨k⟩ ∨ e.2.typeName = k) : sizeOf m.msg k = s.v := by
  unfold sizeOf
  cases hf : m.msg.types.findSome? fun e =>
    match e.2.size with
    | .ok s => if e.1 = ⟨k⟩ ∨ e.2.typeName = k then some s.v else none
    | .error _ => none with
  | none =>
    have := List.findSome?_eq_none_iff.mp hf e he
    simp [hs, hk] at this
  | some v =>
    obtain ⟨e', he', h⟩ := List.exists_of_findSome?_eq_some hf
    simp only [Option.getD_some]
    cases hs' : e'.2.size with
    | error => rw [hs'] at h; cases h
    | ok s' =>
      rw [hs'] at h
      simp only [Option.ite_none_right_eq_some, Option.some.injEq] at h
      obtain ⟨hk', rfl⟩ := h
      rcases hk with hk | hk <;> rcases hk' with hk' | hk'
      · obtain ⟨f, t⟩ := e
        obtain ⟨f', t'⟩ := e'
        cases hk.trans hk'.symm
        cases nodup_pair hN.once he he'
        cases hs.symm.trans hs'
        rfl
      · refine ((hd.types e' he' s' hs').1 ?_).elim
        rw [hk', ← hk]
        exact hN.typed _ he
      · refine ((hd.types e he s hs).1 ?_).elim
        rw [hk, ← hk']
        exact hN.typed _ he'
      · exact (hd.same e he e' he' (hk.trans hk'.symm) s s' hs hs').symm

theorem enums_mem {ts : List (Field × FTy)} {t : Enum} : t ∈ enums ts ↔ ∃ f, (f, FTy.enum t) ∈ ts := by
  induction ts with
  | nil => simp [enums]
  | cons e ts ih =>
    obtain ⟨f, u⟩ := e
    cases u <;> simp [enums, ih]
    constructor
    · rintro (rfl | ⟨g, hg⟩)
      · exact ⟨f, .inl ⟨rfl, rfl⟩⟩
      · exact ⟨g, .inr hg⟩
    · rintro ⟨g, ⟨_, rfl⟩ | hg⟩
      · exact .inl rfl
      · exact .inr ⟨g, hg⟩

theorem literalNumber_eq {m : Msg} (hd : Distinct m) {t : Enum} (ht : t ∈ enums m.types) {l : ID × Int} (hl : l ∈ t.literals) {k : List PyStr}
    (hk : k = l.1.key ∨ k = t.id.key.dropLast ++ l.1.key) : literalNumber m k = l.2 := by
  unfold literalNumber
  generalize hL : ((enums m.types).flatMap fun t => t.literals.flatMap fun l =>
    [(l.1.key, l.2), (t.id.key.dropLast ++ l.1.key, l.2)]) = L
  have hmem : ∀ q, q ∈ L → ∃ t' ∈ enums m.types, ∃ l' ∈ t'.literals, (q.1 = l'.1.key ∨ q.1 = t'.id.key.dropLast ++ l'.1.key) ∧ q.2 = l'.2 := by
    intro q hq
    rw [← hL] at hq
    simp only [List.mem_flatMap, List.mem_cons, List.not_mem_nil, or_false] at hq
    obtain ⟨t', ht', l', hl', rfl | rfl⟩ := hq
    · exact ⟨t', ht', l', hl', .inl rfl, rfl⟩
    · exact ⟨t', ht', l', hl', .inr rfl, rfl⟩
  have hin : (k, l.2) ∈ L := by
    rw [← hL]
    simp only [List.mem_flatMap, List.mem_cons, List.not_mem_nil, or_false]
    rcases hk with rfl | rfl
    · exact ⟨t, ht, l, hl, .inl rfl⟩
    · exact ⟨t, ht, l, hl, .inr rfl⟩
  cases hv : L.lookup k with
  | none =>
    exact absurd hv (by
      rw [List.lookup_eq_none_iff]
      intro h
      have := h _ hin
      simp at this)
  | some v =>
    obtain ⟨_, _, h, _⟩ := List.lookup_eq_some_iff.mp hv
    obtain ⟨t', ht', l', hl', h1, h2⟩ := hmem (k, v) (by rw [h]; simp)
    simp only [Option.getD_some]
    simp only at h1 h2
    rw [h2]
    exact (hd.literals t ht t' ht' l hl l' hl' k hk h1).symm

/-- An item of the message. -/
theorem fullEnv_item {m : Msg} (hn : (es.map (·.f)).Nodup) {e : Item} (he : e ∈ es) :
    (fullEnv m b lo hi es dflt).var e.f.parts = (itemEnv m b lo hi es).var e.f.parts ∧
    ∀ a, (fullEnv m b lo hi es dflt).attr a e.f.parts = (itemEnv m b lo hi es).attr a e.f.parts := by
  have hf := find_item hn he (k := e.f.parts) rfl
  constructor
  · simp only [fullEnv, hf]
    cases m.type? ⟨e.f.parts⟩ <;> rfl
  · intro a
    simp only [fullEnv, hf]
    split <;> rfl

theorem itemEnv_attr {m : Msg} (hn : (es.map (·.f)).Nodup) {e : Item} (he : e ∈ es) (hm : e.f.parts ≠ MESSAGE.key) :
    (itemEnv m b lo hi es).attr .first e.f.parts = .int e.first ∧ (itemEnv m b lo hi es).attr .last e.f.parts = .int e.last ∧
    (itemEnv m b lo hi es).attr .size e.f.parts = .int (e.last - e.first + 1) := by
  have hf := find_item hn he (k := e.f.parts) rfl
  simp only [itemEnv, if_neg hm, hf, and_self]

theorem itemEnv_var {m : Msg} (hn : (es.map (·.f)).Nodup) {e : Item} (he : e ∈ es) {t : FTy} (ht : m.type? e.f = some t) :
    (itemEnv m b lo hi es).var e.f.parts = if t.isScalar then .int e.value else .seq (bytesAt b e.first e.last) := by
  have hf := find_item hn he (k := e.f.parts) rfl
  simp only [itemEnv, hf]
  show (match m.type? e.f, some e with | none, _ => _ | some t, some e => _ | some t, none => _) = _
  rw [ht]

/-- Names in conditions of links after the fields `es` have the same values in any longer message. -/
theorem agreeOn (W : WellFormed P) {xs : List Item} (hn : ((xs ++ es).map (·.f)).Nodup) :
    AgreeOn P.m (· ∈ es.map (·.f)) (fullEnv P.m.msg b lo hi (xs ++ es) dflt) (itemEnv P.m.msg b lo hi es) := by
  have hn' : (es.map (·.f)).Nodup := by
    rw [List.map_append] at hn
    exact (List.nodup_append.mp hn).2.1
  refine ⟨?_, ?_, ?_, ?_⟩
  · rintro f hf hS
    obtain ⟨e, he, rfl⟩ := List.mem_map.mp hS
    rw [(fullEnv_item hn (List.mem_append_right _ he)).1]
    obtain ⟨t, ht⟩ := W.typed _ hf
    have ht := type?_some W.names ht
    rw [itemEnv_var hn (List.mem_append_right _ he) ht, itemEnv_var hn' he ht]
  · intro id h
    have ht := type?_none W.names (W.names.literal id h).1
    simp only [fullEnv, itemEnv, ht]
  · intro a _
    simp only [fullEnv, itemEnv, if_true]
  · rintro a ha f hf hS
    obtain ⟨e, he, rfl⟩ := List.mem_map.mp hS
    rw [(fullEnv_item hn (List.mem_append_right _ he)).2]
    have hne : e.f.parts ≠ MESSAGE.key := by rw [← field_parts W.names hf]; exact field_single W.names hf
    obtain ⟨h1, h2, h3⟩ := itemEnv_attr (m := P.m.msg) (b := b) (lo := lo) (hi := hi) hn (List.mem_append_right _ he) hne
    obtain ⟨k1, k2, k3⟩ := itemEnv_attr (m := P.m.msg) (b := b) (lo := lo) (hi := hi) hn' he hne
    rcases ha with rfl | rfl | rfl
    · rw [h1, k1]
    · rw [h2, k2]
    · rw [h3, k3]

theorem fullEnv_typed (W : WellFormed P) : Typed P.m (fullEnv P.m.msg b lo hi es dflt) where
  scalar f t h hs := by
    have ht := type?_some W.names h
    obtain ⟨i, hi⟩ := (itemEnv_typed (b := b) (lo := lo) (hi := hi) (es := es) W).scalar f t h hs
    simp only [fullEnv]
    show ∃ i, (match P.m.msg.type? f, es.find? (fun e => e.f == f) with | some t, none => _ | _, _ => _) = Val.int i
    rw [ht]
    cases es.find? (fun e => e.f == f) with
    | none => simp [(scalar_iff t).mpr hs]
    | some e => exact ⟨i, hi⟩
  composite f t h hs := by
    have ht := type?_some W.names h
    obtain ⟨i, hi⟩ := (itemEnv_typed (b := b) (lo := lo) (hi := hi) (es := es) W).composite f t h hs
    simp only [fullEnv]
    show ∃ i, (match P.m.msg.type? f, es.find? (fun e => e.f == f) with | some t, none => _ | _, _ => _) = Val.seq i
    rw [ht]
    cases es.find? (fun e => e.f == f) with
    | none => simp [mt (scalar_iff t).mp hs]
    | some e => exact ⟨i, hi⟩
  literal id h := by
    have ht := type?_none W.names (W.names.literal id h).1
    simp [fullEnv, itemEnv, ht]
  attr a k := by
    obtain ⟨i, hi⟩ := (itemEnv_typed (b := b) (lo := lo) (hi := hi) (es := es) W).attr a k
    simp only [fullEnv]
    split
    · exact ⟨i, hi⟩
    · split
      · exact ⟨_, rfl⟩
      · exact ⟨i, hi⟩

theorem contains_of_inType (hd : Distinct P.m.msg) {f : Field} {t : FTy} (h : (f, t) ∈ P.m.msg.types) {v : Int} (hv : InType t v) : t.Contains v := by
  cases t with
  | int t => exact hv
  | enum t =>
    rcases hv with hv | hv
    · rw [hd.closed f t h] at hv; cases hv
    · obtain ⟨l, hl, rfl⟩ := List.mem_map.mp hv
      exact ⟨l.1, hl⟩
  | _ => exact hv.elim

/-- Every scalar type of a message has a value. -/
theorem exists_values (W : WellFormed P) : ∃ dflt : Field → Int, ∀ e ∈ P.m.msg.types, Scalar e.2 → e.2.Contains (dflt e.1) := by
  have : ∀ f : Field, ∃ v : Int, ∀ t, (f, t) ∈ P.m.msg.types → Scalar t → t.Contains v := by
    intro f
    by_cases h : ∃ t, (f, t) ∈ P.m.msg.types ∧ Scalar t
    · obtain ⟨t, ht, hs⟩ := h
      have : ∃ v, t.Contains v := by
        cases t with
        | int t =>
          obtain ⟨f', l', s', hf, hl, _, _, hle, _⟩ := C05_accepted t (W.int f t ht)
          exact ⟨f'.v, f', l', hf, hl, by omega, by omega⟩
        | enum t =>
          obtain ⟨_, hl⟩ := W.enum f t ht
          obtain ⟨l, ls, hl⟩ := List.exists_cons_of_ne_nil hl
          exact ⟨l.2, l.1, by rw [hl]; simp⟩
        | _ => exact hs.elim
      obtain ⟨v, hv⟩ := this
      refine ⟨v, fun t' ht' _ => ?_⟩
      cases nodup_pair W.names.once ht ht'
      exact hv
    · exact ⟨0, fun t ht hs => (h ⟨t, ht, hs⟩).elim⟩
  obtain ⟨g, hg⟩ := Classical.axiomOfChoice this
  exact ⟨g, fun e he hs => hg e.1 e.2 he hs⟩

/-- The assignment is one that the types allow. -/
theorem fullEnv_allowed (W : WellFormed P) (hd : Distinct P.m.msg) (hlo : lo % 8 = 1) (hhi : hi % 8 = 0)
    (hdf : ∀ e ∈ P.m.msg.types, Scalar e.2 → e.2.Contains (dflt e.1)) (hn : (es.map (·.f)).Nodup)
    (hes : ∀ e ∈ es, ∃ t, (e.f, t) ∈ P.m.msg.types ∧ (Scalar t → ∃ n, t.size = .ok n ∧ e.last = e.first + n.v - 1 ∧ InType t e.value)) :
    Allowed P.m.msg (fullEnv P.m.msg b lo hi es dflt) where
  start := ⟨lo, by simp [fullEnv, itemEnv], hlo⟩
  total := ⟨hi - lo + 1, by simp [fullEnv, itemEnv], by omega⟩
  value e he hs := by
    rw [scalar_iff] at hs
    have hf := W.names.typed e he
    rw [field_parts W.names hf]
    have ht := type?_some W.names (show (e.1, e.2) ∈ P.m.msg.types from he)
    by_cases hin : ∃ x ∈ es, x.f = e.1
    · obtain ⟨x, hx, hxe⟩ := hin
      obtain ⟨t, htx, h⟩ := hes x hx
      rw [hxe] at htx
      cases nodup_pair W.names.once (show (e.1, e.2) ∈ P.m.msg.types from he) htx
      obtain ⟨n, _, _, hv⟩ := h hs
      refine ⟨x.value, .inl ?_, contains_of_inType hd he hv⟩
      rw [← hxe, (fullEnv_item hn hx).1, itemEnv_var hn hx (hxe ▸ ht), if_pos ((scalar_iff _).mpr hs)]
    · refine ⟨dflt e.1, .inl ?_, hdf e he hs⟩
      have hnone : es.find? (fun x => x.f == e.1) = none := by
        rw [List.find?_eq_none]
        intro x hx h
        exact hin ⟨x, hx, by simpa using h⟩
      simp only [fullEnv]
      show (match P.m.msg.type? e.1, es.find? (fun x => x.f == e.1) with | some t, none => _ | _, _ => _) = _
      rw [ht, hnone]
      simp only [(scalar_iff _).mpr hs, if_true]
  size e he s hs := by
    have hf := W.names.typed e he
    have hne := field_single W.names hf
    rw [field_parts W.names hf] at hne ⊢
    have hsc : Scalar e.2 := by
      obtain ⟨f, t⟩ := e
      cases t <;> simp [FTy.size] at hs <;> trivial
    by_cases hin : ∃ x ∈ es, x.f = e.1
    · obtain ⟨x, hx, hxe⟩ := hin
      obtain ⟨t, htx, h⟩ := hes x hx
      rw [hxe] at htx
      cases nodup_pair W.names.once (show (e.1, e.2) ∈ P.m.msg.types from he) htx
      obtain ⟨n, hsn, hl, _⟩ := h hsc
      cases hs.symm.trans hsn
      rw [← hxe] at hne ⊢
      rw [(fullEnv_item hn hx).2, (itemEnv_attr hn hx hne).2.2, hl]
      congr 1
      omega
    · have hnone : es.find? (fun x => x.f == ⟨e.1.parts⟩) = none := by
        rw [List.find?_eq_none]
        intro x hx h
        exact hin ⟨x, hx, by simpa using h⟩
      simp only [fullEnv, if_neg hne, hnone]
      rw [sizeOf_eq W.names hd he hs (.inl rfl)]
  literals e he t het n v hv := by
    have hte : t ∈ enums P.m.msg.types := enums_mem.mpr ⟨e.1, by rw [← het]; exact he⟩
    obtain ⟨l, hl, hk⟩ := hv
    have hpk : t.package.key = t.id.key.dropLast := by simp [Enum.package, ID.key, List.map_dropLast]
    have hk' : n = l.key ∨ n = t.id.key.dropLast ++ l.key := by
      rcases hk with ⟨h, _⟩ | ⟨h, _⟩
      · exact .inl h
      · exact .inr (by rw [← hpk]; exact h)
    left
    have hnt : P.m.msg.type? ⟨n⟩ = none := by
      apply type?_none W.names
      rcases hk' with rfl | rfl
      · exact (W.names.literal l ⟨t, hte, _, hl, .inl rfl⟩).1
      · have hk : (⟨t.package.parts ++ l.parts⟩ : ID).key = t.id.key.dropLast ++ l.key := by rw [key_append, hpk]
        rw [← hk]
        exact (W.names.literal ⟨t.package.parts ++ l.parts⟩ ⟨t, hte, _, hl, .inr hk⟩).1
    simp only [fullEnv, itemEnv, hnt]
    rw [literalNumber_eq hd hte hl hk']
  typeSize e he s hs := by
    obtain ⟨h1, h2⟩ := hd.types e he s hs
    have hnone : es.find? (fun x => x.f == ⟨e.2.typeName⟩) = none := by
      rw [List.find?_eq_none]
      intro x hx h
      obtain ⟨t, ht, _⟩ := hes x hx
      apply h1
      rw [← show x.f = ⟨e.2.typeName⟩ by simpa using h]
      exact W.names.typed _ ht
    simp only [fullEnv, if_neg h2, hnone]
    rw [sizeOf_eq W.names hd he hs (.inr rfl)]

end
end Verif.Bridge
