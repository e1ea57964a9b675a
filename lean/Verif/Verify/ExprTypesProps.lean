import Verif.Verify.ExprTypes
import Verif.Verify.Props
import Verif.Typing.CheckProps

/-! # Property C48 for messages: conditions and aspects of accepted messages are well typed -/

namespace Verif.Verify
open Verif Verif.Graph Verif.Types Verif.Typing

/-! ## Specification -/

/-- The kind of the values of a type. Messages are no values. -/
def FTy.kind : FTy → Option Kind
  | .int _ => some .int
  | .enum t => some (if String.ofList t.id.str = "__BUILTINS__::Boolean" then .bool else .int)
  | .array _ _ => some .seq
  | .opaque => some .seq
  | .message _ => none

/-- The kind of the values of an attribute of a name of a type. -/
def FTy.attrKind (t : FTy) : AttrKind → Option Kind
  | .size | .length | .first | .last => some .int
  | .validChecksum | .valid | .present => some .bool
  | .head => (match t with
    | .array _ e => e.kind
    | .opaque => some .int
    | _ => none)
  | .opaque => some .seq

/-- The names that can be used in the expressions of a message, if the fields `S` are known: the message, the fields,
the literals of enumeration types, and the types. -/
inductive Named (m : Msg) (S : Field → Prop) : List PyStr → FTy → Prop
  | message : Named m S MESSAGE.key .opaque
  | field {f t} : S f → (f, t) ∈ m.types → Named m S f.key t
  | literal {f t n v} : (f, FTy.enum t) ∈ m.types →
    t.Visible (decide (packageKey m.id = packageKey t.id)) n v → Named m S n (.enum t)
  | typeName {f t} : (f, t) ∈ m.types → Named m S t.typeName t

/-- All names have values of the kinds of their types. -/
structure WellKinded (m : Msg) (ρ : Env) : Prop where
  var : ∀ x t k, Named m (fun _ => True) x t → t.kind = some k → Typing.kindOf (ρ.var x) = k
  attr : ∀ x t a k, Named m (fun _ => True) x t → t.attrKind a = some k → Typing.kindOf (ρ.attr a x) = k

/-- Some assignment that the types allow makes the conditions of a path true and gives the targets their sizes. -/
def Consistent (m : Msg) (p : List Link) : Prop :=
  ∃ D ρ, Allowed m ρ ∧ ∀ l ∈ p, Plain D ρ l.condition ∧ eval D ρ l.condition = some (.bool true) ∧
    (l.size ≠ .undefined → Plain D ρ l.size ∧ ∃ n, eval D ρ l.size = some (.int n) ∧ ρ.attr .size l.target.key = .int n)

/-- Expressions without selected names, calls, quantifiers and memberships; aggregates are lists of numbers, and only
attributes of names other than `Head` are used. -/
inductive Flat : Expr → Prop
  | tru : Flat .tru
  | fls : Flat .fls
  | num {v b} : Flat (.num v b)
  | var {imm id} : Flat (.var false imm id)
  | attr {k imm id} : k ≠ .head → Flat (.attr false k (.var false imm id))
  | not {e} : Flat e → Flat (.not e)
  | bool {op ts} : (∀ t ∈ ts, Flat t) → Flat (.bool op ts)
  | add {ts} : ts ≠ [] → (∀ t ∈ ts, Flat t) → Flat (.add ts)
  | mul {ts} : ts ≠ [] → (∀ t ∈ ts, Flat t) → Flat (.mul ts)
  | bin {op l r} : Flat l → Flat r → Flat (.bin op l r)
  | rel {op l r} : op ≠ .isIn → op ≠ .notIn → Flat l → Flat r → Flat (.rel op l r)
  | agg {es} : (∀ e ∈ es, ∃ v b, e = .num v b) → Flat (.agg es)

/-! ## Lemmas -/

variable {m : Msg}

theorem setType_fold {ls : List ID} {t : FTy} {d : List (ID × FTy)} {e : ID × FTy}
    (h : e ∈ ls.foldl (fun d l => setType d l t) d) : e ∈ d ∨ ((∃ l ∈ ls, e.1.key = l.key) ∧ e.2 = t) := by
  induction ls generalizing d with
  | nil => exact .inl h
  | cons l ls ih =>
    rcases ih h with h | ⟨⟨l', hl', h1⟩, h2⟩
    · rcases setType_mem h with h | ⟨h1, h2⟩
      · exact .inl h
      · exact .inr ⟨⟨l, by simp, h1⟩, h2⟩
    · exact .inr ⟨⟨l', by simp [hl'], h1⟩, h2⟩

theorem mapM_mem {α β : Type} {f : α → Py β} : ∀ {as : List α} {bs : List β}, as.mapM f = .ok bs →
    ∀ b ∈ bs, ∃ a ∈ as, f a = .ok b
  | [], bs, h, b, hb => by cases h; cases hb
  | a :: as, bs, h, b, hb => by
    rw [List.mapM_cons] at h
    obtain ⟨x, hx, h⟩ := bind_ok (h : Except.bind _ _ = _)
    obtain ⟨xs, hxs, h⟩ := bind_ok (h : Except.bind _ _ = _)
    cases h
    rcases List.mem_cons.mp hb with rfl | hb
    · exact ⟨a, by simp, hx⟩
    · obtain ⟨a', ha', h'⟩ := mapM_mem hxs b hb
      exact ⟨a', by simp [ha'], h'⟩

theorem enumLiterals_one {package : ID} {t : Enum} (hs : t.Simple) {ls : List ID}
    (h : enumLiterals package [.enum t] = .ok ls) (l : ID) (hl : l ∈ ls) :
    ∃ v, t.Visible (decide (package.key = packageKey t.id)) l.key v := by
  rw [enumLiterals] at h
  obtain ⟨p, hp, h⟩ := bind_ok (h : Except.bind _ _ = _)
  obtain ⟨xs, hxs, h⟩ := bind_ok (h : Except.bind _ _ = _)
  have h : (Except.ok (xs.flatten ++ []) : Py (List ID)) = .ok ls := h
  cases h
  simp only [List.append_nil, List.mem_flatten] at hl
  obtain ⟨x, hx, hlx⟩ := hl
  obtain ⟨kv, hkv, hx'⟩ := mapM_mem hxs x hx
  have hpk := parent_eq hp
  have hpe : t.package = p := by
    have : ID.checked t.id.parts.dropLast = .ok p := hp
    exact ((ID.checked_ok_iff _ _).mp this).1.symm
  have hpv : p.Valid := by
    have : ID.checked t.id.parts.dropLast = .ok p := hp
    have h := (ID.checked_ok_iff _ _).mp this
    rw [h.1]; exact h.2
  obtain ⟨b, hb, hx'⟩ := bind_ok (hx' : Except.bind _ _ = _)
  cases hx'
  refine ⟨kv.2, kv.1, hkv, ?_⟩
  rw [hpe]
  have hbi : isBuiltins p = true ↔ p.key = builtinsPackage.key := ID.eq_iff_key _ _
  rcases List.mem_append.mp hlx with ha | ha
  · left
    split at ha
    · rename_i hc
      obtain rfl := List.mem_singleton.mp ha
      refine ⟨rfl, ?_⟩
      simp only [Bool.or_eq_true] at hc
      rcases hc with hc | hc
      · exact .inl (hbi.mp hc)
      · right
        rw [← hpk]
        exact decide_eq_true ((ID.eq_iff_key _ _).mp hc).symm
    · cases ha
  · right
    cases hb' : isBuiltins p with
    | true => rw [hb'] at hb; cases hb; cases ha
    | false =>
      rw [hb'] at hb
      obtain ⟨q, hq, hb⟩ := bind_ok (hb : Except.bind _ _ = _)
      cases hb
      obtain rfl := List.mem_singleton.mp ha
      obtain ⟨c, hc, hcp⟩ := ID.C38_mul p kv.1 hpv (hs.single _ hkv).1
      rw [hc] at hq
      cases hq
      refine ⟨by simp [ID.key, hcp], fun hh => ?_⟩
      rw [hbi.mpr hh] at hb'
      cases hb'

theorem enumLiteralTypes_mem {package : ID} : ∀ {ts : List FTy} {d r : List (ID × FTy)}, (∀ t ∈ ts, t.Ok) →
    enumLiteralTypes package ts d = .ok r → ∀ e ∈ r, e ∈ d ∨ ∃ t, e.2 = .enum t ∧ FTy.enum t ∈ ts ∧
      ∃ v, t.Visible (decide (package.key = packageKey t.id)) e.1.key v
  | [], d, r, _, h, e, he => by cases h; exact .inl he
  | t :: ts, d, r, hok, h, e, he => by
    cases t with
    | enum t =>
      rw [enumLiteralTypes] at h
      obtain ⟨ls, hls, h⟩ := bind_ok (h : Except.bind _ _ = _)
      rcases enumLiteralTypes_mem (fun t ht => hok t (by simp [ht])) h e he with h1 | ⟨u, h1, h2, h3⟩
      · rcases setType_fold h1 with h1 | ⟨⟨l, hl, h1⟩, h2⟩
        · exact .inl h1
        · obtain ⟨v, hv⟩ := enumLiterals_one (hok (.enum t) (by simp)).2 hls l hl
          exact .inr ⟨t, h2, by simp, v, h1 ▸ hv⟩
      · exact .inr ⟨u, h1, by simp [h2], h3⟩
    | _ =>
      rw [enumLiteralTypes] at h
      · rcases enumLiteralTypes_mem (fun t ht => hok t (by simp [ht])) h e he with h1 | ⟨u, h1, h2, h3⟩
        · exact .inl h1
        · exact .inr ⟨u, h1, by simp [h2], h3⟩
      · intro t; simp

theorem typeLiterals_name : ∀ {ts : List FTy} {d r : List (ID × FTy)}, (∀ t ∈ ts, t.id.Valid) → typeLiterals ts d = .ok r →
    ∀ e ∈ r, e ∈ d ∨ (e.2 ∈ ts ∧ e.1.key = e.2.typeName)
  | [], d, r, _, h, e, he => by cases h; exact .inl he
  | t :: ts, d, r, hok, h, e, he => by
    obtain ⟨p, hp, h⟩ := bind_ok (h : (t.id.parent).bind _ = _)
    obtain ⟨k, hk, h⟩ := bind_ok (h : Except.bind _ _ = _)
    rcases typeLiterals_name (fun t ht => hok t (by simp [ht])) h e he with h | ⟨h1, h2⟩
    · rcases setType_mem h with h | ⟨h1, h2⟩
      · exact .inl h
      · subst h2
        refine .inr ⟨by simp, ?_⟩
        rw [h1]
        have hb : isBuiltins p = true ↔ packageKey e.2.id = builtinsPackage.key := by
          rw [← parent_eq hp]; exact ID.eq_iff_key _ _
        unfold FTy.typeName
        by_cases hh : packageKey e.2.id = builtinsPackage.key
        · rw [if_pos hh]
          rw [hb.mpr hh] at hk
          exact name_eq (hok e.2 (by simp)) hk
        · rw [if_neg hh]
          cases hb' : isBuiltins p with
          | true => exact absurd (hb.mp hb') hh
          | false => rw [hb'] at hk; cases hk; rfl
    · exact .inr ⟨by simp [h1], h2⟩

/-- The names of a context. -/
theorem ctx_names (hok : ∀ e ∈ m.types, e.2.Ok) (hv : ∀ e ∈ m.types, e.2.id.Valid) {seen : List (Field × FTy)} {S : Field → Prop}
    (hs : ∀ e ∈ seen, S e.1 ∧ e ∈ m.types) {Γ : Ctx Unit} (h : m.ctx seen = .ok Γ) (x : List PyStr)
    (hx : Γ.var x ≠ .undefined) : ∃ t, Named m S x t ∧ t.ty = .ok (Γ.var x) := by
  obtain ⟨names, hn, h⟩ := bind_ok (h : Except.bind _ _ = _)
  obtain ⟨d, hd, h⟩ := bind_ok (h : Except.bind _ _ = _)
  cases h
  simp only [typedCtx] at hx ⊢
  by_cases hm : x = MESSAGE.key
  · subst hm
    exact ⟨.opaque, .message, by simp [FTy.ty]⟩
  rw [if_neg hm] at hx ⊢
  cases hf : d.find? (fun e => e.1 == x) with
  | none => rw [hf] at hx; exact absurd rfl hx
  | some e =>
    simp only [Option.map_some, Option.getD_some]
    have h1 := List.mem_of_find?_eq_some hf
    have h2 := List.find?_some hf
    simp only [beq_iff_eq] at h2
    obtain ⟨a, ha, hae⟩ := mapM_mem hd e h1
    obtain ⟨ty, hty, hae⟩ := bind_ok (hae : Except.bind _ _ = _)
    cases hae
    subst h2
    refine ⟨a.2, ?_, hty⟩
    obtain ⟨package, hp, hn⟩ := bind_ok (hn : Except.bind _ _ = _)
    obtain ⟨ls, hls, hn⟩ := bind_ok (hn : Except.bind _ _ = _)
    obtain ⟨ts, hts, hn⟩ := bind_ok (hn : Except.bind _ _ = _)
    cases hn
    rcases List.mem_append.mp ha with ha | ha
    · rcases List.mem_append.mp ha with ha | ha
      · exact .field (hs a ha).1 (hs a ha).2
      · have hpk : package.key = packageKey m.id := parent_eq hp
        rcases enumLiteralTypes_mem (fun t ht => by
          obtain ⟨e, he, rfl⟩ := List.mem_map.mp ht; exact hok e he) hls a ha with h | ⟨t, h1, h2, v, h3⟩
        · cases h
        · obtain ⟨e, he, het⟩ := List.mem_map.mp h2
          rw [h1]
          rw [hpk] at h3
          refine .literal (f := e.1) ?_ h3
          rw [← het]; exact he
    · rcases typeLiterals_name (fun t ht => by
        obtain ⟨e, he, rfl⟩ := List.mem_map.mp ht; exact hv e he) hts a ha with h | ⟨h1, h2⟩
      · cases h
      · obtain ⟨e, he, het⟩ := List.mem_map.mp h1
        rw [h2]
        refine .typeName (f := e.1) ?_
        rw [← het]; exact he

theorem ty_kind {t : FTy} {u : Ty Unit} (h : t.ty = .ok u) : u.kind = t.kind := by
  cases t with
  | int t =>
    rw [FTy.ty] at h
    obtain ⟨f, _, h⟩ := bind_ok (h : Except.bind _ _ = _)
    obtain ⟨l, _, h⟩ := bind_ok (h : Except.bind _ _ = _)
    obtain ⟨b, _, h⟩ := bind_ok (h : Except.bind _ _ = _)
    cases h; rfl
  | enum t => rw [FTy.ty] at h; cases h; rfl
  | array id e =>
    rw [FTy.ty] at h
    obtain ⟨f, _, h⟩ := bind_ok (h : Except.bind _ _ = _)
    cases h; rfl
  | «opaque» => rw [FTy.ty] at h; cases h; rfl
  | message id => rw [FTy.ty] at h; cases h; rfl

theorem ty_attrKind {t : FTy} {u : Ty Unit} (h : t.ty = .ok u) (a : AttrKind) : Typing.attrKind u a = t.attrKind a := by
  cases a <;> try rfl
  cases t with
  | int t =>
    rw [FTy.ty] at h
    obtain ⟨f, _, h⟩ := bind_ok (h : Except.bind _ _ = _)
    obtain ⟨l, _, h⟩ := bind_ok (h : Except.bind _ _ = _)
    obtain ⟨b, _, h⟩ := bind_ok (h : Except.bind _ _ = _)
    cases h; rfl
  | enum t => rw [FTy.ty] at h; cases h; rfl
  | array id e =>
    rw [FTy.ty] at h
    obtain ⟨f, hf, h⟩ := bind_ok (h : Except.bind _ _ = _)
    cases h
    exact ty_kind hf
  | «opaque» => rw [FTy.ty] at h; cases h; rfl
  | message id => rw [FTy.ty] at h; cases h; rfl

theorem ctx_call {seen : List (Field × FTy)} {Γ : Ctx Unit} (h : m.ctx seen = .ok Γ) :
    (∀ f, Γ.call f = (.undefined, [])) ∧ ∀ b s, Γ.field b s = none := by
  obtain ⟨names, _, h⟩ := bind_ok (h : Except.bind _ _ = _)
  obtain ⟨d, _, h⟩ := bind_ok (h : Except.bind _ _ = _)
  cases h
  exact ⟨fun _ => rfl, fun _ _ => rfl⟩

theorem named_mono {S S' : Field → Prop} (h : ∀ f, S f → S' f) {x : List PyStr} {t : FTy} (hn : Named m S x t) : Named m S' x t := by
  cases hn with
  | message => exact .message
  | field h1 h2 => exact .field (h _ h1) h2
  | literal h1 h2 => exact .literal h1 h2
  | typeName h1 => exact .typeName h1

theorem wellKinded_respects (hok : ∀ e ∈ m.types, e.2.Ok) (hv : ∀ e ∈ m.types, e.2.id.Valid) {seen : List (Field × FTy)}
    (hs : ∀ e ∈ seen, e ∈ m.types) {Γ : Ctx Unit} (h : m.ctx seen = .ok Γ) {ρ : Env} (hρ : WellKinded m ρ) : Respects Γ ρ := by
  have key := ctx_names hok hv (S := fun _ => True) (fun e he => ⟨trivial, hs e he⟩) h
  obtain ⟨hc, hf⟩ := ctx_call h
  refine ⟨?_, ?_, ?_, ?_, ?_⟩
  · intro x k hk
    obtain ⟨t, hn, ht⟩ := key x (by intro hu; rw [hu] at hk; cases hk)
    exact hρ.var x t k hn (by rw [← ty_kind ht]; exact hk)
  · intro x a k _ hu hk
    obtain ⟨t, hn, ht⟩ := key x hu
    exact hρ.attr x t a k hn (by rw [← ty_attrKind ht]; exact hk)
  · intro x s n b t k _ h2
    rw [hf] at h2; cases h2
  · intro f vs k h1
    rw [hc] at h1; cases h1
  · intro f k _ h1
    rw [hc] at h1; cases h1

theorem flat_regular {e : Expr} (he : Flat e) : ∀ {Γ : Ctx Unit}, (∀ x, Γ.var x = .undefined ∨ (Γ.var x).kind.isSome) → Regular Γ [] e := by
  induction he with
  | tru => exact fun _ => .tru
  | fls => exact fun _ => .fls
  | num => exact fun _ => .num
  | var => exact fun h => .var (h _) (fun h => by cases h)
  | @attr k imm id hk =>
    intro Γ h
    refine .attr (by simp) ?_ (fun h => by cases h)
    cases k <;> first
      | exact .inr rfl
      | exact absurd rfl hk
  | not _ ih => exact fun _ => .not (ih fun x => .inl rfl)
  | bool _ ih => exact fun h => .bool fun t ht => ih t ht h
  | add hne _ ih => exact fun h => .add hne fun t ht => ih t ht h
  | mul hne _ ih => exact fun h => .mul hne fun t ht => ih t ht h
  | bin _ _ ih1 ih2 => exact fun h => .bin (ih1 h) (ih2 h)
  | rel h1 h2 _ _ ih1 ih2 => exact fun h => .rel (ih1 h) (ih2 h) (fun h => by rcases h with h | h; exact absurd h h1; exact absurd h h2)
  | agg hes =>
    intro Γ _
    refine .agg (fun e he => ?_) (fun e he => ?_)
    · obtain ⟨v, b, rfl⟩ := hes e he; exact .num
    · obtain ⟨v, b, rfl⟩ := hes e he; rfl

/-- The context in which the expressions of a link are checked. -/
theorem pathTypes_link {q r : List Link} {l : Link} : ∀ {seen : List (Field × FTy)} {S : Field → Prop},
    (∀ e ∈ seen, S e.1 ∧ e ∈ m.types) → m.pathTypes seen (q ++ l :: r) = .ok false →
    ∃ seen' Γ, (∀ e ∈ seen', (S e.1 ∨ ∃ l' ∈ q ++ [l], l'.source = e.1) ∧ e ∈ m.types) ∧ m.ctx seen' = .ok Γ ∧
      typeErrorIn Γ l.condition = .ok false ∧ typeErrorIn Γ l.size = .ok false ∧ typeErrorIn Γ l.first = .ok false := by
  have hsee : ∀ {seen : List (Field × FTy)} {S : Field → Prop} (x : Link), (∀ e ∈ seen, S e.1 ∧ e ∈ m.types) →
      ∀ e ∈ m.see seen x, (S e.1 ∨ x.source = e.1) ∧ e ∈ m.types := by
    intro seen S x h e he
    unfold Msg.see at he
    cases ht : m.type? x.source with
    | none => rw [ht] at he; exact ⟨.inl (h e he).1, (h e he).2⟩
    | some t =>
      rw [ht] at he
      rcases List.mem_cons.mp he with rfl | he
      · refine ⟨.inr rfl, ?_⟩
        unfold Msg.type? at ht
        cases hf : m.types.find? (fun e => e.1 == x.source) with
        | none => rw [hf] at ht; cases ht
        | some e =>
          rw [hf] at ht
          cases ht
          have h1 := List.mem_of_find?_eq_some hf
          have h2 := List.find?_some hf
          simp only [beq_iff_eq] at h2
          rw [← h2]; exact h1
      · exact ⟨.inl (h e he).1, (h e he).2⟩
  have hstep : ∀ {seen : List (Field × FTy)} {x : Link} {p : List Link}, m.pathTypes seen (x :: p) = .ok false →
      ∃ Γ, m.ctx (m.see seen x) = .ok Γ ∧ typeErrorIn Γ x.condition = .ok false ∧ typeErrorIn Γ x.size = .ok false ∧
        typeErrorIn Γ x.first = .ok false ∧ m.pathTypes (m.see seen x) p = .ok false := by
    intro seen x p h
    rw [Msg.pathTypes] at h
    obtain ⟨Γ, hΓ, h⟩ := bind_ok (h : Except.bind _ _ = _)
    obtain ⟨a, ha, h⟩ := bind_ok (h : Except.bind _ _ = _)
    obtain ⟨b, hb, h⟩ := bind_ok (h : Except.bind _ _ = _)
    obtain ⟨c, hc, h⟩ := bind_ok (h : Except.bind _ _ = _)
    obtain ⟨d, hd, h⟩ := bind_ok (h : Except.bind _ _ = _)
    have h := Except.ok.inj h
    simp only [Bool.or_eq_false_iff] at h
    obtain ⟨⟨⟨rfl, rfl⟩, rfl⟩, rfl⟩ := h
    exact ⟨Γ, hΓ, ha, hb, hc, hd⟩
  induction q with
  | nil =>
    intro seen S hs h
    obtain ⟨Γ, h1, h2, h3, h4, _⟩ := hstep h
    refine ⟨_, Γ, fun e he => ?_, h1, h2, h3, h4⟩
    obtain ⟨h5, h6⟩ := hsee l hs e he
    exact ⟨h5.imp id fun h => ⟨l, by simp, h⟩, h6⟩
  | cons x q ih =>
    intro seen S hs h
    obtain ⟨_, _, _, _, _, h5⟩ := hstep h
    obtain ⟨seen', Γ, h1, h2⟩ := ih (S := fun f => S f ∨ x.source = f) (hsee x hs) h5
    refine ⟨seen', Γ, fun e he => ?_, h2⟩
    obtain ⟨h3, h4⟩ := h1 e he
    refine ⟨?_, h4⟩
    rcases h3 with (h3 | h3) | ⟨l', hl', h3⟩
    · exact .inl h3
    · exact .inr ⟨x, by simp, h3⟩
    · exact .inr ⟨l', by simp only [List.cons_append, List.mem_cons]; exact .inr hl', h3⟩

theorem typeErrorIn_false {Γ : Ctx Unit} {e : Expr} (h : typeErrorIn Γ e = .ok false) (he : e ≠ .undefined) :
    check Γ e (.ty .any) = .ok true := by
  unfold typeErrorIn at h
  rw [if_neg (fun h => he ((undef_eq e).mp h))] at h
  obtain ⟨a, ha, h⟩ := bind_ok (h : Except.bind _ _ = _)
  have h := Except.ok.inj h
  simp only [Bool.not_eq_eq_eq_not, Bool.not_false] at h
  rw [ha, h]

/-- A consistent path is checked. -/
theorem consistent_checked {s : Solver} (hok : ∀ e ∈ m.types, e.2.Ok) {p : List Link} (hc : Consistent m p)
    (h : m.pathTypeError s p = .ok false) : m.pathTypes [] p = .ok false := by
  obtain ⟨c, hcc, h⟩ := bind_ok (h : Except.bind _ _ = _)
  cases c with
  | false => exact h
  | true =>
    exfalso
    obtain ⟨fs, hfs, hcc⟩ := bind_ok (hcc : Except.bind _ _ = _)
    obtain ⟨ts, hts, hfs⟩ := bind_ok (hfs : Except.bind _ _ = _)
    cases hfs
    obtain ⟨D, ρ, ha, hp⟩ := hc
    split at hcc
    · rename_i r hr
      have hr' : r = .unsat := by
        have := Except.ok.inj hcc
        simpa using this
      refine not_unsat (M := model ρ) hr (fun ht => ?_) hr'
      intro c hcm
      have hct := ht c hcm
      rcases List.mem_cons.mp hcm with rfl | hcm
      · rfl
      rcases List.mem_append.mp hcm with hcm | hcm
      · rcases List.mem_append.mp hcm with hcm | hcm
        · exact type_facts ha hok (plain_findall .tru (by simp [Plain] : Plain D ρ .tru)) hts
            (fun c hc => ht c (by simp [hc])) c hcm
        · obtain ⟨hc1, _⟩ := List.mem_filter.mp hcm
          obtain ⟨l, hl, rfl⟩ := List.mem_map.mp hc1
          exact holds_of_eval (hp l hl).1 (hp l hl).2.1 hct
      · obtain ⟨l, hl, rfl⟩ := List.mem_map.mp hcm
        obtain ⟨hl, hne⟩ := List.mem_filter.mp hl
        have hne : l.size ≠ .undefined := fun h => by rw [(undef_eq _).mpr h] at hne; cases hne
        obtain ⟨h1, n, h2, h3⟩ := (hp l hl).2.2 hne
        refine holds_of_eval (D := D) ?_ ?_ hct
        · simp [Plain, h1, at', h3, Atomic]
        · simp [eval, at', h3, h2, Val.negIf, RelOp.eval]
    · cases hcc
    · cases hcc

theorem acceptedTyped {s : Solver} (h : m.AcceptedTyped s) : m.Accepted s ∧
    (m.links ≠ [] → ∃ k, m.verifyExpressionTypes s k = .ok false) := by
  obtain ⟨k, h⟩ := h
  refine ⟨⟨_, k, h⟩, fun hne => ⟨k, ?_⟩⟩
  unfold Msg.new at h
  by_cases hid : m.id.parts.length ≤ 1
  · rw [if_pos hid] at h; cases h
  rw [if_neg hid] at h
  obtain ⟨pk, _, h⟩ := bind_ok (h : Except.bind _ _ = _)
  obtain ⟨ls, _, h⟩ := bind_ok (h : Except.bind _ _ = _)
  obtain ⟨fields, hf, h⟩ := bind_ok (h : Except.bind _ _ = _)
  obtain ⟨_, hv, h⟩ := bind_ok (h : Except.bind _ _ = _)
  have h : (Msg.mk m.id m.links fields m.types m.checksums) = m := by
    have := Except.ok.inj h
    exact this
  rw [h] at hv
  unfold Msg.verify at hv
  rw [if_neg (by cases hl : m.links <;> simp_all)] at hv
  obtain ⟨e1, h1, hv⟩ := bind_ok (hv : Except.bind _ _ = _)
  obtain ⟨e2, h2, hv⟩ := bind_ok (hv : Except.bind _ _ = _)
  obtain ⟨e3, h3, hv⟩ := bind_ok (hv : Except.bind _ _ = _)
  by_cases he : (e1 || e2 || e3) = true
  · rw [if_pos he] at hv; cases hv
  simp only [Bool.or_eq_true, not_or, Bool.not_eq_true] at he
  rw [he.1.1] at h1
  exact h1

/-- The context for the expressions of a link of a path of an accepted message. -/
theorem accepted_link {s : Solver} (ha : m.AcceptedTyped s) (hr : m.Regular) (hok : ∀ e ∈ m.types, e.2.Ok) {q r : List Link}
    {l : Link} (hpath : Path m.links INITIAL (q ++ l :: r) FINAL) (hc : Consistent m (q ++ l :: r)) {e : Expr}
    (he : e = l.condition ∨ e = l.size ∨ e = l.first) (hu : e ≠ .undefined) :
    ∃ seen Γ, (∀ e ∈ seen, (∃ l' ∈ q ++ [l], l'.source = e.1) ∧ e ∈ m.types) ∧ m.ctx seen = .ok Γ ∧
      check Γ e (.ty .any) = .ok true := by
  obtain ⟨hacc, hv⟩ := acceptedTyped ha
  have hne : m.links ≠ [] := by
    intro hn
    have := hpath.mem l (by simp)
    rw [hn] at this
    cases this
  obtain ⟨k, hk⟩ := hv hne
  obtain ⟨ps, hps, hk⟩ := bind_ok (hk : Except.bind _ _ = _)
  have h1 := anyM_false hk _ ((mem_paths hacc hr hps _).mpr ⟨by simp, hpath⟩)
  have h2 := consistent_checked hok hc h1
  obtain ⟨seen, Γ, h3, h4, h5, h6, h7⟩ := pathTypes_link (S := fun _ => False) (fun e he => by cases he) h2
  refine ⟨seen, Γ, fun e he => ⟨(h3 e he).1.resolve_left id, (h3 e he).2⟩, h4, typeErrorIn_false ?_ hu⟩
  rcases he with rfl | rfl | rfl
  · exact h5
  · exact h6
  · exact h7

/-! ## Theorems -/

/-- C48 (part): in an accepted message, every name used in a condition, size or first aspect of a link is the message, a
field that occurs as source of a link of the path up to (and including) the link, a visible enumeration literal, or a type.

Missing: only paths that are consistent are checked by the code (and thus here), and the consistency is assumed for a
semantics of the translated expressions (`Plain`). -/
theorem C48_message_scope_partial {s : Solver} (ha : m.AcceptedTyped s) (hr : m.Regular) (hok : ∀ e ∈ m.types, e.2.Ok)
    (hv : ∀ e ∈ m.types, e.2.id.Valid) {q r : List Link} {l : Link} (hpath : Path m.links INITIAL (q ++ l :: r) FINAL)
    (hc : Consistent m (q ++ l :: r)) {e : Expr} (he : e = l.condition ∨ e = l.size ∨ e = l.first) (hu : e ≠ .undefined)
    {x : List PyStr} (hx : Free x e) :
    ∃ t, Named m (fun f => ∃ l' ∈ q ++ [l], l'.source = f) x t := by
  obtain ⟨seen, Γ, h1, h2, h3⟩ := accepted_link ha hr hok hpath hc he hu
  obtain ⟨t, ht, _⟩ := ctx_names (S := fun f => ∃ l' ∈ q ++ [l], l'.source = f) hok hv h1 h2 x (C48_scope Γ e _ h3 x hx)
  exact ⟨t, ht⟩

/-- C48 (part): the conditions, sizes and first aspects of the links of an accepted message have values or fault (by a
division by zero, a remainder by zero or a negative exponent) whenever all names have values of the kinds of their types.

Missing: `Flat` excludes calls, selected names, quantifiers and memberships (`C48_member_counterexample`), and messages have
no fields of message types. -/
theorem C48_message_value_partial {s : Solver} (ha : m.AcceptedTyped s) (hr : m.Regular) (hok : ∀ e ∈ m.types, e.2.Ok)
    (hv : ∀ e ∈ m.types, e.2.id.Valid) (hnm : ∀ e ∈ m.types, e.2.kind.isSome) {q r : List Link} {l : Link}
    (hpath : Path m.links INITIAL (q ++ l :: r) FINAL) (hc : Consistent m (q ++ l :: r)) {e : Expr}
    (he : e = l.condition ∨ e = l.size ∨ e = l.first) (hu : e ≠ .undefined) (hf : Flat e) (D : Division) {ρ : Env}
    (hρ : WellKinded m ρ) : (∃ v, eval D ρ e = some v) ∨ Faults D ρ e := by
  obtain ⟨seen, Γ, h1, h2, h3⟩ := accepted_link ha hr hok hpath hc he hu
  have hreg : Regular Γ [] e := by
    refine flat_regular hf fun x => ?_
    by_cases hx : Γ.var x = .undefined
    · exact .inl hx
    · right
      obtain ⟨t, ht, hty⟩ := ctx_names (S := fun f => ∃ l' ∈ q ++ [l], l'.source = f) hok hv h1 h2 x hx
      rw [ty_kind hty]
      cases ht with
      | message => rfl
      | field _ hm => exact hnm _ hm
      | literal hm _ => exact hnm _ hm
      | typeName hm => exact hnm _ hm
  exact C48_value_partial D Γ e _ h3 hreg ρ (wellKinded_respects hok hv (fun e he => (h1 e he).2) h2 hρ)

end Verif.Verify
