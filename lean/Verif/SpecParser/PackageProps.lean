import Verif.SpecParser.PackageMessages
import Verif.ModelPkg.Props

/-! # Property C53: the types of a model are those declared -/

namespace Verif.SpecParser
open Verif Verif.Types

variable {M S : Type}

/-! ## Declarations -/

theorem createType_spec {B : Backend M S} {types : List (MTy M)} {id : ID} {pkg : PyStr} {d : TypeDef} {t : MTy M} (hl : d.Lexical)
    (hs : d.Simple) (h : createType B types id d = .ok t) :
    t.identifier = id ∧ (Distinct types → IsName pkg → id.parent = .ok ⟨[pkg]⟩ → Declares B types pkg d t) := by
  cases d with
  | array e =>
    have hi : t.identifier = id := by
      simp only [createType, createArray] at h
      obtain ⟨i, _, h⟩ := bind_ok' h
      obtain ⟨p, _, h⟩ := bind_ok' h
      obtain ⟨q, _, h⟩ := bind_ok' h
      split at h
      · cases h
      · rw [(newArray_spec h).1]; rfl
    refine ⟨hi, fun _ hp hid => ?_⟩
    obtain ⟨u, rfl, h1, h2, h3⟩ := createArray_spec hl hp hid h
    exact .array h1 h2 h3
  | modular m =>
    obtain ⟨e, k, rfl, h1, h2, h3, h4⟩ := createModular_spec hl hs h
    exact ⟨h1, fun _ _ _ => .modular h2 h3 h4⟩
  | range f l a =>
    obtain ⟨e, s, v1, v2, v3, rfl, h1, h2, h3, h4, h5, h6, h7, h8, h9, h10, h11, h12, h13⟩ :=
      createRange_spec hl.1 hl.2.1 hl.2.2 hs.1 hs.2.1 hs.2.2 h
    exact ⟨h1, fun _ _ _ => .range h2 h3 h4 h5 h6 h7 h8 h9 h10 h11 h12 h13⟩
  | named es as =>
    simp only [createType] at h
    obtain ⟨ls, hls, h⟩ := bind_ok' h
    obtain ⟨l, rfl, h1, h2⟩ := namedLiterals_spec es ls hl.1 hls
    obtain ⟨e, size, rfl, g1, rfl, g2, g3, g4, g5⟩ := createEnumeration_spec (fun kv hkv => (h1 kv hkv).1) hl.2 hs h
    exact ⟨g1, fun _ _ _ => .named h2 g2 g3 g4 g5⟩
  | positional es as =>
    simp only [createType] at h
    obtain ⟨ls, hls, h⟩ := bind_ok' h
    obtain ⟨l, rfl, h1, h2⟩ := positionalLiterals_spec es 0 ls hl.1 hls
    obtain ⟨e, size, rfl, g1, rfl, g2, g3, g4, g5⟩ := createEnumeration_spec (fun kv hkv => (h1 kv hkv).1) hl.2 hs h
    exact ⟨g1, fun _ _ _ => .positional h2 g2 g3 g4 g5⟩
  | message init cs =>
    have hi : t.identifier = id := by
      simp only [createType, createMessage] at h
      obtain ⟨_, _, h⟩ := bind_ok' h
      obtain ⟨_, _, h⟩ := bind_ok' h
      obtain ⟨_, _, h⟩ := bind_ok' h
      obtain ⟨_, _, h⟩ := bind_ok' h
      obtain ⟨⟨links, errors⟩, _, h⟩ := bind_ok' h
      cases errors with
      | cons e es => cases h
      | nil =>
        simp only at h
        obtain ⟨m, _, h⟩ := bind_ok' h
        cases h
        rfl
    exact ⟨hi, fun hd hp hid => (createMessage_spec hd hp hid hl hs h).2⟩
  | nullMessage =>
    simp only [createType] at h
    obtain ⟨m, hm, h⟩ := bind_ok' h
    cases h
    exact ⟨rfl, fun _ _ _ => .nullMessage hm⟩
  | derived b =>
    have hi : t.identifier = id := by
      simp only [createType, createDerived] at h
      obtain ⟨_, _, h⟩ := bind_ok' h
      obtain ⟨_, _, h⟩ := bind_ok' h
      obtain ⟨_, _, h⟩ := bind_ok' h
      split at h
      · cases h
      · obtain ⟨m, _, h⟩ := bind_ok' h
        cases h
        rfl
    exact ⟨hi, fun _ hp hid => (createDerived_spec hl hp hid h).2⟩

/-- The type of a declaration, in terms of the functions of the parser. -/
def Created (B : Backend M S) (h : List PyStr → Int) (types : List (MTy M)) (d : PyStr × DeclTree S) (t : MTy M) : Prop :=
  match d.2 with
  | .type n d' => ∃ i q, createId (.unqualified n) = .ok i ∧ qualifiedType i ⟨[d.1]⟩ = .ok q ∧ createType B types q d' = .ok t
  | .refinement p f s c => createRefinement B h types ⟨[d.1]⟩ p f s c = .ok t
  | .session _ => False

/-- Types added one after the other. -/
inductive Chain {D : Type} (R : List (MTy M) → D → MTy M → Prop) : List (MTy M) → List D → List (MTy M) → Prop
  | nil {T} : Chain R T [] T
  | cons {T d t ds T'} : R T d t → Chain R (T ++ [t]) ds T' → Chain R T (d :: ds) T'

theorem Chain.append {D : Type} {R : List (MTy M) → D → MTy M → Prop} {T T' T'' : List (MTy M)} {ds es : List D} (h : Chain R T ds T')
    (h' : Chain R T' es T'') : Chain R T (ds ++ es) T'' := by
  induction h with
  | nil => exact h'
  | cons h1 _ ih => exact .cons h1 (ih h')

theorem Chain.prefix {D : Type} {R : List (MTy M) → D → MTy M → Prop} {T T' : List (MTy M)} {ds : List D} (h : Chain R T ds T') :
    T <+: T' ∧ T'.length = T.length + ds.length := by
  induction h with
  | nil => exact ⟨List.prefix_rfl, rfl⟩
  | cons _ _ ih =>
    refine ⟨(List.prefix_append _ _).trans ih.1, ?_⟩
    rw [ih.2]
    simp only [List.length_append, List.length_cons, List.length_nil]
    omega

theorem Chain.get {D : Type} {R : List (MTy M) → D → MTy M → Prop} {T T' : List (MTy M)} {ds : List D} (h : Chain R T ds T') :
    ∀ i d, ds[i]? = some d → ∃ t, T'[T.length + i]? = some t ∧ R (T'.take (T.length + i)) d t := by
  induction h with
  | nil => intro i d hd; simp at hd
  | @cons T d t ds T' h1 h2 ih =>
    intro i e he
    obtain ⟨⟨r, hr⟩, _⟩ := h2.prefix
    cases i with
    | zero =>
      simp only [List.getElem?_cons_zero, Option.some.injEq] at he
      subst he
      refine ⟨t, ?_, ?_⟩
      · rw [← hr]; simp
      · rw [← hr]; simpa using h1
    | succ i =>
      obtain ⟨u, hu1, hu2⟩ := ih i e (by simpa using he)
      have hlen : (T ++ [t]).length + i = T.length + (i + 1) := by simp; omega
      rw [hlen] at hu1 hu2
      exact ⟨u, hu1, hu2⟩

theorem evalDecls_chain {B : Backend M S} {h : List PyStr → Int} {pkg : PyStr} : ∀ (ds : List (DeclTree S)) (T T' : List (MTy M)) (ss ss' : List ID),
    evalDecls B h ⟨[pkg]⟩ ds T ss = .ok (T', ss') → Chain (Created B h) T ((ds.filter isTypeDecl).map fun d => (pkg, d)) T'
  | [], T, T', ss, ss', hr => by
    cases hr
    exact .nil
  | d :: ds, T, T', ss, ss', hr => by
    unfold evalDecls at hr
    obtain ⟨⟨T1, ss1⟩, h1, hr⟩ := bind_ok' hr
    have ih := evalDecls_chain ds T1 T' ss1 ss' hr
    cases d with
    | type n d =>
      simp only [evalDecl] at h1
      obtain ⟨i, hi, h1⟩ := bind_ok' h1
      obtain ⟨q, hq, h1⟩ := bind_ok' h1
      obtain ⟨t, ht, h1⟩ := bind_ok' h1
      cases h1
      exact .cons ⟨i, q, hi, hq, ht⟩ ih
    | refinement p f s c =>
      simp only [evalDecl] at h1
      obtain ⟨t, ht, h1⟩ := bind_ok' h1
      cases h1
      exact .cons ht ih
    | session s =>
      simp only [evalDecl] at h1
      obtain ⟨i, hi, h1⟩ := bind_ok' h1
      cases h1
      exact ih

theorem typeDecls_cons (p : PackageTree S) (ps : List (PackageTree S)) :
    typeDecls (p :: ps) = ((p.decls.filter isTypeDecl).map fun d => (p.name, d)) ++ typeDecls ps := by
  unfold typeDecls
  rw [List.flatMap_cons]

theorem evalPackages_chain {B : Backend M S} {h : List PyStr → Int} : ∀ (ps : List (PackageTree S)) (T T' : List (MTy M)) (ss ss' : List ID),
    (∀ p ∈ ps, IsName p.name) → evalPackages B h ps T ss = .ok (T', ss') → Chain (Created B h) T (typeDecls ps) T'
  | [], T, T', ss, ss', _, hr => by
    cases hr
    exact .nil
  | p :: ps, T, T', ss, ss', hp, hr => by
    unfold evalPackages at hr
    obtain ⟨⟨T1, ss1⟩, h1, hr⟩ := bind_ok' hr
    have ih := evalPackages_chain ps T1 T' ss1 ss' (fun p h => hp p (by simp [h])) hr
    unfold evalPackage at h1
    obtain ⟨i, hi, h1⟩ := bind_ok' h1
    rw [createId_simple (hp p (by simp)) hi] at h1
    rw [typeDecls_cons]
    exact (evalDecls_chain _ _ _ _ _ h1).append ih

theorem checked_identifier (t : MTy M) : t.checked.identifier = t.identifier := by
  cases t <;> rfl

/-- The types of a model have different names. -/
theorem accepted_distinct {T : List (MTy M)} {ss : List ID} (h : ModelPkg.new (T.map MTy.checked) ss = .ok ()) : Distinct T := by
  unfold ModelPkg.new at h
  obtain ⟨es, h1, h⟩ := bind_ok' h
  split at h
  · rename_i he
    unfold ModelPkg.validate at h1
    obtain ⟨_, _, h1⟩ := bind_ok' h1
    obtain ⟨_, _, h1⟩ := bind_ok' h1
    obtain ⟨_, _, h1⟩ := bind_ok' h1
    cases h1
    simp only [List.isEmpty_iff, List.append_eq_nil_iff, ModelPkg.checkDuplicates] at he
    have := ((ModelPkg.checkTypes_spec (T.map MTy.checked) []).1.1 he.1.1.1).1
    rw [List.pairwise_map] at this
    refine this.imp ?_
    intro a b hab hk
    rw [checked_identifier, checked_identifier, ModelPkg.same_iff] at hab
    exact hab hk
  · cases h

/-! ## Names -/

theorem checked_names (t : MTy M) : t.checked = t.names := by
  cases t <;> rfl

/-- A valid identifier of several parts consists of the name of a package and a simple name. -/
theorem named_of_valid {t : MTy M} (hv : t.identifier.Valid) (hlen : 2 ≤ t.identifier.parts.length) : ∃ pkg n, t.names.Named pkg n := by
  have hne : t.identifier.parts ≠ [] := hv.1
  refine ⟨⟨t.identifier.parts.dropLast⟩, ⟨[t.identifier.parts.getLast hne]⟩, (List.dropLast_concat_getLast hne).symm, ⟨?_, ?_⟩, ⟨by simp, ?_⟩, rfl⟩
  · intro h0
    have := congrArg List.length h0
    simp only [List.length_dropLast, List.length_nil] at this
    omega
  · intro p hp
    exact hv.2 p (List.dropLast_subset _ hp)
  · intro p hp
    rw [List.mem_singleton.1 hp]
    exact hv.2 _ (List.getLast_mem hne)

theorem wf_of_valid {t : MTy M} (hv : t.identifier.Valid) (hlen : 2 ≤ t.identifier.parts.length) (hl : t.literals? = none) : t.names.WellFormed := by
  refine ⟨named_of_valid hv hlen, ?_⟩
  intro ls hls
  have : t.literals? = some ls := hls
  rw [hl] at this
  cases this

theorem createEnumeration_wf {id : ID} {l : List (ID × Int)} {as : List AspectNode} {t : MTy M} (hv : ∀ kv ∈ l, kv.1.Valid ∧ kv.1.parts.length = 1)
    (hid : id.Valid) (hlen : 2 ≤ id.parts.length) (h : createEnumeration id (l.map fun kv => (.id kv.1, kv.2)) as = .ok t) : t.names.WellFormed := by
  unfold createEnumeration at h
  obtain ⟨⟨s, av⟩, ha, h⟩ := bind_ok' h
  cases s with
  | none => cases h
  | some s =>
    simp only at h
    obtain ⟨e, he, h⟩ := bind_ok' h
    cases h
    obtain ⟨_, hd, sn, hs, g, rfl⟩ := (C06_iff id l (fun kv hk => (hv kv hk).1) s av e).1 he
    refine ⟨named_of_valid hid hlen, ?_⟩
    intro ls hls x hx
    cases hls
    obtain ⟨kv, hkv, rfl⟩ := List.mem_map.1 hx
    exact hv kv hkv

theorem createType_wf {B : Backend M S} {types : List (MTy M)} {id : ID} {d : TypeDef} {t : MTy M} (hl : d.Lexical)
    (hs : d.Simple) (hv : id.Valid) (hlen : 2 ≤ id.parts.length) (h : createType B types id d = .ok t) : t.names.WellFormed := by
  have hi := (createType_spec (pkg := []) hl hs h).1
  cases d with
  | named es as =>
    simp only [createType] at h
    obtain ⟨ls, hls, h⟩ := bind_ok' h
    obtain ⟨l, rfl, h1, h2⟩ := namedLiterals_spec es ls hl.1 hls
    exact createEnumeration_wf h1 hv hlen h
  | positional es as =>
    simp only [createType] at h
    obtain ⟨ls, hls, h⟩ := bind_ok' h
    obtain ⟨l, rfl, h1, h2⟩ := positionalLiterals_spec es 0 ls hl.1 hls
    exact createEnumeration_wf h1 hv hlen h
  | array e =>
    refine wf_of_valid (by rw [hi]; exact hv) (by rw [hi]; exact hlen) ?_
    simp only [createType, createArray] at h
    obtain ⟨i, _, h⟩ := bind_ok' h
    obtain ⟨p, _, h⟩ := bind_ok' h
    obtain ⟨q, _, h⟩ := bind_ok' h
    split at h
    · cases h
    · rw [(newArray_spec h).1]; rfl
  | modular m =>
    refine wf_of_valid (by rw [hi]; exact hv) (by rw [hi]; exact hlen) ?_
    obtain ⟨e, k, rfl, _⟩ := createModular_spec hl hs h
    rfl
  | range f l a =>
    refine wf_of_valid (by rw [hi]; exact hv) (by rw [hi]; exact hlen) ?_
    obtain ⟨e, s, v1, v2, v3, rfl, _⟩ := createRange_spec hl.1 hl.2.1 hl.2.2 hs.1 hs.2.1 hs.2.2 h
    rfl
  | message init cs =>
    refine wf_of_valid (by rw [hi]; exact hv) (by rw [hi]; exact hlen) ?_
    simp only [createType, createMessage] at h
    obtain ⟨_, _, h⟩ := bind_ok' h
    obtain ⟨_, _, h⟩ := bind_ok' h
    obtain ⟨_, _, h⟩ := bind_ok' h
    obtain ⟨_, _, h⟩ := bind_ok' h
    obtain ⟨⟨links, errors⟩, _, h⟩ := bind_ok' h
    cases errors with
    | cons e es => cases h
    | nil =>
      simp only at h
      obtain ⟨m, _, h⟩ := bind_ok' h
      cases h
      rfl
  | nullMessage =>
    refine wf_of_valid (by rw [hi]; exact hv) (by rw [hi]; exact hlen) ?_
    simp only [createType] at h
    obtain ⟨m, hm, h⟩ := bind_ok' h
    cases h
    rfl
  | derived b =>
    refine wf_of_valid (by rw [hi]; exact hv) (by rw [hi]; exact hlen) ?_
    simp only [createType, createDerived] at h
    obtain ⟨_, _, h⟩ := bind_ok' h
    obtain ⟨_, _, h⟩ := bind_ok' h
    obtain ⟨_, _, h⟩ := bind_ok' h
    split at h
    · cases h
    · obtain ⟨m, _, h⟩ := bind_ok' h
      cases h
      rfl

theorem createRefinement_wf {B : Backend M S} {h : List PyStr → Int} {types : List (MTy M)} {pkg field : PyStr} {pdu sdu : IdNode}
    {c : Option Tree} {t : MTy M} (hp : IsName pkg) (hr : createRefinement B h types ⟨[pkg]⟩ pdu field sdu c = .ok t) : t.names.WellFormed := by
  unfold createRefinement at hr
  obtain ⟨i, hi, hr⟩ := bind_ok' hr
  obtain ⟨p, hpq, hr⟩ := bind_ok' hr
  obtain ⟨j, hj, hr⟩ := bind_ok' hr
  obtain ⟨s, hsq, hr⟩ := bind_ok' hr
  split at hr
  · obtain ⟨e, he, hr⟩ := bind_ok' hr
    obtain ⟨f, hf, hr⟩ := bind_ok' hr
    unfold newRefinement at hr
    obtain ⟨id, hid, hr⟩ := bind_ok' hr
    obtain ⟨ls, hls, hr⟩ := bind_ok' hr
    simp only at hr
    split at hr
    · cases hr
    · split at hr
      · cases hr
      · cases hr
        have hv : id.Valid := ID.C38_closed ⟨[pkg]⟩ ⟨[pkg]⟩ _ id (.inr (.inr (.inr (.inl hid))))
        refine wf_of_valid hv ?_ rfl
        show 2 ≤ id.parts.length
        unfold ID.mulStr at hid
        split at hid
        · rename_i he
          simp [refinementText] at he
        · have hst : (⟨[pkg]⟩ : ID).str = pkg := rfl
          rw [hst, ID.ofStr, List.append_assoc, show [':', ':'] ++ _ = ':' :: ':' :: _ from rfl, splitSep_append pkg _ hp.2.2.2,
            ID.checked_ok_iff] at hid
          rw [hid.1]
          exact Nat.succ_le_succ (List.length_pos_iff.2 (splitSep_ne_nil _))
  · cases hr

theorem created_wf {B : Backend M S} {h : List PyStr → Int} {types : List (MTy M)} {p : PyStr} {d : DeclTree S} {t : MTy M} (hp : IsName p)
    (hl : d.Lexical) (hs : d.Simple) (hc : Created B h types (p, d) t) : t.names.WellFormed := by
  cases d with
  | type n d =>
    obtain ⟨j, q, h3, h4, h5⟩ := hc
    obtain ⟨h8, h9⟩ := declared_key (M := M) hl.1 hp h3 h4
    refine createType_wf hl.2 hs h8 ?_ h5
    have hk : q.key.length = q.parts.length := List.length_map _
    rcases h9 with h9 | h9 | h9
    · rw [h9]; exact Nat.le_refl _
    · rw [← hk, h9]; exact Nat.le_refl _
    · rw [← hk, h9]; exact Nat.le_refl _
  | refinement a f s c => exact createRefinement_wf hp hc
  | session s => exact hc.elim

/-- **C53**, names: the types and sessions of a model created from specifications are not in conflict (the conditions of C35): no two
declarations have the same name, enumerations of one package have different literals, and literals differ from the names of types. -/
theorem C53_no_conflict (B : Backend M S) (h : List PyStr → Int) (ps : List (PackageTree S)) (T : List (MTy M)) (ss : List ID)
    (hr : createModel B h ps = .ok (T, ss))
    (hn : ∀ p ∈ ps, IsName p.name) (hl : ∀ p ∈ ps, ∀ d ∈ p.decls, d.Lexical) (hs : ∀ p ∈ ps, ∀ d ∈ p.decls, d.Simple) :
    ModelPkg.NoConflict (T.map MTy.names) ss := by
  unfold createModel at hr
  obtain ⟨⟨T', ss'⟩, h1, hr⟩ := bind_ok' hr
  obtain ⟨u, h2, hr⟩ := bind_ok' hr
  cases hr
  have hc := evalPackages_chain ps _ _ _ _ hn h1
  obtain ⟨⟨r, hr⟩, hlen⟩ := hc.prefix
  have hT : T.map MTy.checked = T.map MTy.names := List.map_congr_left fun t _ => checked_names t
  simp only [hT] at h2
  refine (ModelPkg.C35_accepted_iff _ _ ?_).1.1 h2
  intro n hn'
  obtain ⟨t, ht, rfl⟩ := List.mem_map.1 hn'
  obtain ⟨k, hk⟩ := List.getElem?_of_mem ht
  match k, hk with
  | 0, hk =>
    have : t = .enum BOOLEAN := by
      rw [← hr] at hk; exact (Option.some.inj hk).symm
    subst this
    have hv : BOOLEAN.id.Valid := ⟨by decide, by decide⟩
    refine ⟨named_of_valid hv (Nat.le_refl 2), ?_⟩
    intro ls hls
    cases hls
    have : ∀ l ∈ BOOLEAN.literals, (l.1.parts ≠ [] ∧ ∀ p ∈ l.1.parts, p ≠ [] ∧ ' ' ∉ p ∧ '.' ∉ p ∧ ':' ∉ p) ∧ l.1.parts.length = 1 := by decide
    intro l hl
    obtain ⟨kv, hkv, rfl⟩ := List.mem_map.1 hl
    exact this kv hkv
  | 1, hk =>
    have : t = .opaqueType := by
      rw [← hr] at hk; exact (Option.some.inj hk).symm
    subst this
    have hv : (MTy.opaqueType : MTy Unit).identifier.Valid := ⟨by decide, by decide⟩
    exact wf_of_valid hv (Nat.le_refl 2) rfl
  | i + 2, hk =>
    have hlt : i < (typeDecls ps).length := by
      have := (List.getElem?_eq_some_iff.1 hk).1
      rw [hlen] at this
      simp only [List.length_cons, List.length_nil] at this
      omega
    obtain ⟨t', ht', hcr⟩ := hc.get i _ (List.getElem?_eq_getElem hlt)
    replace ht' : T[2 + i]? = some t' := ht'
    rw [Nat.add_comm, hk] at ht'
    cases ht'
    generalize hpd : (typeDecls ps)[i] = pd at hcr
    obtain ⟨p, d⟩ := pd
    have hm : (p, d) ∈ typeDecls ps := by rw [← hpd]; exact List.getElem_mem _
    unfold typeDecls at hm
    obtain ⟨P, hP, hm⟩ := List.mem_flatMap.1 hm
    obtain ⟨d', hd', he⟩ := List.mem_map.1 hm
    cases he
    have hdm := (List.mem_filter.1 hd').1
    exact created_wf (hn P hP) (hl P hP d hdm) (hs P hP d hdm) hcr

/-- **C53.** The types of a model created from specifications are the predefined types `Boolean` and `Opaque` and, in the order of the
specifications, one type for each declaration of a type or a refinement: with the name of its package and its own name, with the values, sizes
and literals written, with the element type, base message, fields, field types, conditions and aspects written, where names stand for types
declared before. No two types have the same name (see also `C53_no_conflict`).

Missing: types whose numbers contain variables (`C53_variable_counterexample`) or with equal names of fields; what a message, derived message or
session is made of (`Backend`); which specifications are accepted (`C53_modular_accepted`, `C53_range_accepted` for integers). Context
clauses are not consulted: a name stands for any type of a package processed before. -/
theorem C53_types_partial (B : Backend M S) (h : List PyStr → Int) (ps : List (PackageTree S)) (T : List (MTy M)) (ss : List ID)
    (hr : createModel B h ps = .ok (T, ss))
    (hn : ∀ p ∈ ps, IsName p.name) (hl : ∀ p ∈ ps, ∀ d ∈ p.decls, d.Lexical) (hs : ∀ p ∈ ps, ∀ d ∈ p.decls, d.Simple) :
    T.length = 2 + (typeDecls ps).length ∧ (∃ b, T[0]? = some b ∧ IsBoolean b) ∧ T[1]? = some .opaqueType ∧
    T.Pairwise (fun a b => a.identifier.key ≠ b.identifier.key) ∧
    ∀ i p d, (typeDecls ps)[i]? = some (p, d) → ∃ t, T[2 + i]? = some t ∧ DeclOf B (T.take (2 + i)) p d t := by
  unfold createModel at hr
  obtain ⟨⟨T', ss'⟩, h1, hr⟩ := bind_ok' hr
  obtain ⟨u, h2, hr⟩ := bind_ok' hr
  cases hr
  have hd : Distinct T := accepted_distinct h2
  have hc := evalPackages_chain ps _ _ _ _ hn h1
  obtain ⟨⟨r, hr⟩, hlen⟩ := hc.prefix
  refine ⟨hlen, ⟨.enum BOOLEAN, by rw [← hr]; rfl, BOOLEAN, rfl, rfl, rfl, ⟨⟨1, .b0⟩, by with_unfolding_all rfl, rfl⟩, rfl⟩, by rw [← hr]; rfl, hd, ?_⟩
  intro i p d hi
  obtain ⟨t, ht, hcr⟩ := hc.get i _ hi
  refine ⟨t, ht, ?_⟩
  replace ht : T[2 + i]? = some t := ht
  replace hcr : Created B h (T.take (2 + i)) (p, d) t := hcr
  obtain ⟨P, hP, hpd⟩ : ∃ P ∈ ps, p = P.name ∧ d ∈ P.decls := by
    have := List.mem_of_getElem? hi
    unfold typeDecls at this
    obtain ⟨P, hP, hm⟩ := List.mem_flatMap.1 this
    obtain ⟨d', hd', he⟩ := List.mem_map.1 hm
    cases he
    exact ⟨P, hP, rfl, (List.mem_filter.1 hd').1⟩
  have hpn : IsName p := by rw [hpd.1]; exact hn P hP
  have hdl := hl P hP d hpd.2
  have hds := hs P hP d hpd.2
  have hdis : Distinct (T.take (2 + i)) := hd.sublist (List.take_sublist _ _)
  have hpre : T.take (2 + i) ++ [t] <+: T := by
    have hlt : 2 + i < T.length := (List.getElem?_eq_some_iff.1 ht).1
    have hte : T[2 + i] = t := (List.getElem?_eq_some_iff.1 ht).2
    rw [← hte, List.take_append_getElem hlt]
    exact List.take_prefix _ _
  have hdt : Distinct (T.take (2 + i) ++ [t]) := hd.sublist hpre.sublist
  have hne : ∀ a ∈ T.take (2 + i), a.identifier.key ≠ t.identifier.key := by
    intro a ha
    exact (List.pairwise_append.1 hdt).2.2 a ha t (by simp)
  have hbm : MTy.enum BOOLEAN ∈ T.take (2 + i) ∧ MTy.opaqueType ∈ T.take (2 + i) := by
    rw [← hr]
    simp [List.take_append, Nat.add_comm 2 i]
  cases d with
  | type n d =>
    obtain ⟨j, q, h3, h4, h5⟩ := hcr
    obtain ⟨h6, h7⟩ := createType_spec (pkg := p) hdl.2 hds h5
    obtain ⟨_, h9⟩ := declared_key (M := M) hdl.1 hpn h3 h4
    rcases h9 with h9 | h9 | h9
    · refine ⟨?_, h7 hdis hpn (parent_pair hpn h9)⟩
      rw [h6]
      unfold ID.key
      rw [h9]
      rfl
    · exact absurd (by rw [h6, h9]; rfl) (hne _ hbm.1)
    · exact absurd (by rw [h6, h9]) (hne _ hbm.2)
  | refinement a f s c => exact createRefinement_spec hpn hdl hcr
  | session s => exact hcr.elim

/-! ## Acceptance -/

theorem created_constant {t : Tree} {v : Int} (hl : Lexical t) (hs : Supported .math t) (hv : HasValue t v) : ∃ e, create .math t = .ok e := by
  obtain ⟨e, he, _⟩ := C52_created_partial .math t hl hs Division.ada
    ⟨fun _ => .int 0, fun _ _ => .int 0, fun _ _ => .int 0, fun _ _ => .int 0⟩ _ (hv _ _) ⟨v, rfl⟩
  exact ⟨e, he⟩

/-- **C53**, acceptance of modular types: `type T is mod m` is accepted exactly if the value of `m` is a power of two of at most `2 ** 64`.
`Supported` excludes numbers with bases that cannot be printed. -/
theorem C53_modular_accepted (id : ID) (m : Tree) (hid : id.parts.length = 2) (hl : Lexical m) (hc : Constant m) (hs : Supported .math m) :
    (∃ t : MTy M, createModular id m = .ok t) ↔ ∃ k : Nat, k ≤ 64 ∧ HasValue m (2 ^ k) := by
  constructor
  · rintro ⟨t, h⟩
    obtain ⟨_, k, _, _, h1, h2, _⟩ := createModular_spec hl hc h
    exact ⟨k, h1, h2⟩
  · rintro ⟨k, hk, hv⟩
    obtain ⟨e, he⟩ := created_constant hl hs hv
    obtain ⟨b, hb⟩ := value_constant hl hc he hv
    refine ⟨.modular ⟨id, e, .n k⟩, ?_⟩
    unfold createModular
    rw [he]
    show (ModInt.new id e >>= fun u => pure (MTy.modular u)) = _
    rw [(C05_modular_iff id e _).2 ⟨hid, k, hk, ⟨b, hb⟩, rfl⟩]
    rfl

/-- **C53**, acceptance of range types: `type T is range f .. l with Size => s` is accepted exactly if
`0 <= f <= l < 2 ** 63`, `l < 2 ** s` and `s <= 64`. -/
theorem C53_range_accepted (id : ID) (f l s : Tree) (a : AspectNode) (hid : id.parts.length = 2) (ha : a = ⟨['S', 'i', 'z', 'e'], some s⟩)
    (hl : Lexical f ∧ Lexical l ∧ Lexical s) (hc : Constant f ∧ Constant l ∧ Constant s)
    (hs : Supported .math f ∧ Supported .math l ∧ Supported .math s) :
    (∃ t : MTy M, createRange id f l a = .ok t) ↔ ∃ first last size, HasValue f first ∧ HasValue l last ∧ HasValue s size ∧
      0 ≤ first ∧ first ≤ last ∧ last < 2 ^ 63 ∧ 0 ≤ size ∧ last < 2 ^ size.toNat ∧ size ≤ 64 := by
  subst ha
  constructor
  · rintro ⟨t, h⟩
    obtain ⟨_, s', v1, v2, v3, _, _, _, h1, h2⟩ := createRange_spec hl.1 hl.2.1 (by intro t ht; cases ht; exact hl.2.2) hc.1 hc.2.1
      (by intro t ht; cases ht; exact hc.2.2) h
    cases h1
    obtain ⟨g1, g2, g3, g4, g5, g6, g7, g8, g9, _⟩ := h2
    exact ⟨v1, v2, v3, g1, g2, g3, g4, g5, g6, g7, g8, g9⟩
  · rintro ⟨v1, v2, v3, g1, g2, g3, g4, g5, g6, g7, g8, g9⟩
    obtain ⟨e1, he1⟩ := created_constant hl.1 hs.1 g1
    obtain ⟨b1, hb1⟩ := value_constant hl.1 hc.1 he1 g1
    obtain ⟨e2, he2⟩ := created_constant hl.2.1 hs.2.1 g2
    obtain ⟨b2, hb2⟩ := value_constant hl.2.1 hc.2.1 he2 g2
    obtain ⟨e3, he3⟩ := created_constant hl.2.2 hs.2.2 g3
    obtain ⟨b3, hb3⟩ := value_constant hl.2.2 hc.2.2 he3 g3
    refine ⟨.range ⟨id, e1, ⟨v1, b1⟩, e2, ⟨v2, b2⟩, e3⟩, ?_⟩
    unfold createRange
    simp only [ne_eq, not_true_eq_false, if_false, AspectNode.tree]
    show (create .math s >>= _) = _
    rw [he3]
    show (create .math f >>= _) = _
    rw [he1]
    show (create .math l >>= _) = _
    rw [he2]
    show (RangeInt.new id e1 e2 e3 >>= fun u => pure (MTy.range u)) = _
    rw [(C05_range_iff id e1 e2 e3 _).2 ⟨hid, ⟨v1, b1⟩, ⟨v2, b2⟩, ⟨v3, b3⟩, hb1, hb2, hb3, g4, g5, g6, g7, g8, g9, rfl⟩]
    rfl

/-! ## Examples and counterexamples -/

/-- For examples: messages as the list of their fields, with the types of modular fields. -/
def exBackend : Backend (List (ID × Option ModInt)) Unit where
  message _ _ ts := .ok (ts.filterMap fun f => match f.2 with
    | .modular t => some (f.1, some t)
    | .opaqueType => some (f.1, none)
    | _ => none)
  null _ := .ok []
  derived _ m := .ok m
  nonNull m := !m.isEmpty
  types m := m.map fun f => (f.1, match f.2 with
    | some t => .modular t
    | none => .opaqueType)
  session p _ _ := p.mul ⟨[['S']]⟩

/-- The number `n` of one digit. -/
def exNum (c : Char) : Tree := .numeral [c]

/-- `Size => e`. -/
def exSize (e : Tree) : AspectNode := ⟨['S', 'i', 'z', 'e'], some e⟩

/-- `type A is mod 2 ** 8`, `type R is range 1 .. 9 with Size => 4`, `type E is (X, Y) with Size => 8, Always_Valid`, `type L is array of A`,
`type T is message F : A; G : Opaque with Size => F * 8 end message`. -/
def exDecls : List (DeclTree Unit) :=
  [.type ['A'] (.modular (.binop .pow (exNum '2') (exNum '8'))),
   .type ['R'] (.range (exNum '1') (exNum '9') (exSize (exNum '4'))),
   .type ['E'] (.positional [['X'], ['Y']] [exSize (exNum '8'), ⟨['A', 'l', 'w', 'a', 'y', 's', '_', 'V', 'a', 'l', 'i', 'd'], none⟩]),
   .type ['L'] (.array (.qualified none ['A'])),
   .type ['T'] (.message none
    [⟨['F'], .qualified none ['A'], none, [], []⟩,
     ⟨['G'], .qualified none opaqueText, none, [exSize (.binop .mul (exName 'F') (exNum '8'))], []⟩])]

/-- Package `P` with `exDecls`, package `Q` with `type D is new P::T`, `for D use (G => P::T) if F = 1` and a session. -/
def exPackages : List (PackageTree Unit) :=
  [⟨['P'], exDecls⟩,
   ⟨['Q'], [.type ['D'] (.derived (.qualified (some ['P']) ['T'])),
     .refinement (.qualified none ['D']) ['G'] (.qualified (some ['P']) ['T']) (some (.binop .eq (exName 'F') (exNum '1'))),
     .session ()]⟩]

theorem exPackages_created : (createModel exBackend (fun _ => 0) exPackages).toOption.map (fun r => (r.1.map fun t => t.identifier.key, r.2.length)) =
    some ([BOOLEAN.id.key, (MTy.opaqueType : MTy Unit).identifier.key, [['p'], ['a']], [['p'], ['r']], [['p'], ['e']], [['p'], ['l']],
      [['p'], ['t']], [['q'], ['d']], [['q'], PyStr.lower (refinementText ++ ['P', '_', 'T', '_', '_', 'Q', '_', 'D', '_', '_', 'G', '_', '_'])]], 1) := by
  with_unfolding_all rfl

theorem exNum_lexical {c : Char} {d : Nat} (h : Numeral [c] d) : Lexical (exNum c) := by
  simp only [exNum, Lexical]
  exact ⟨d, h⟩

theorem exNumeral2 : Numeral ['2'] 2 := exNumeral (.inl rfl) (by omega)
theorem exNumeral4 : Numeral ['4'] 4 := exNumeral (.inl rfl) (by omega)
theorem exNumeral8 : Numeral ['8'] 8 := exNumeral (.inl rfl) (by omega)
theorem exNumeral9 : Numeral ['9'] 9 := exNumeral (.inl rfl) (by omega)

theorem exSize_lexical {e : Tree} (h : Lexical e) : (exSize e).Lexical := by
  intro t ht
  cases ht
  exact h

theorem exDecls_lexical : ∀ d ∈ exDecls, d.Lexical := by
  intro d hd
  simp only [exDecls, List.mem_cons, List.not_mem_nil, or_false] at hd
  rcases hd with rfl | rfl | rfl | rfl | rfl
  · refine ⟨by simp [IsName], ?_⟩
    simp only [TypeDef.Lexical, Lexical]
    exact ⟨exNum_lexical exNumeral2, exNum_lexical exNumeral8⟩
  · exact ⟨by simp [IsName], exNum_lexical exNumeral1, exNum_lexical exNumeral9, exSize_lexical (exNum_lexical exNumeral4)⟩
  · refine ⟨by simp [IsName], by simp [IsName], ?_⟩
    intro a ha
    simp only [List.mem_cons, List.not_mem_nil, or_false] at ha
    rcases ha with rfl | rfl
    · exact exSize_lexical (exNum_lexical exNumeral8)
    · intro t ht; cases ht
  · exact ⟨by simp [IsName], by simp [TypeDef.Lexical, IdNode.Lexical, IsName]⟩
  · refine ⟨by simp [IsName], by simp, ?_⟩
    intro c hc
    simp only [List.mem_cons, List.not_mem_nil, or_false] at hc
    rcases hc with rfl | rfl
    · exact ⟨by simp [IsName], by simp [IdNode.Lexical, IsName], by simp, by simp, by simp⟩
    · refine ⟨by simp [IsName], by simp [IdNode.Lexical, IsName, opaqueText], by simp, ?_, by simp⟩
      intro a ha
      simp only [List.mem_cons, List.not_mem_nil, or_false] at ha
      subst ha
      apply exSize_lexical
      simp only [Lexical, exName]
      exact ⟨by simp [IdNode.Lexical, IsName], exNum_lexical exNumeral8⟩

theorem exDecls_simple : ∀ d ∈ exDecls, d.Simple := by
  intro d hd
  simp only [exDecls, List.mem_cons, List.not_mem_nil, or_false] at hd
  rcases hd with rfl | rfl | rfl | rfl | rfl
  · simp [DeclTree.Simple, TypeDef.Simple, Constant, exNum]
  · simp [DeclTree.Simple, TypeDef.Simple, Constant, exNum, exSize]
  · simp [DeclTree.Simple, TypeDef.Simple, Constant, exNum, exSize]
  · trivial
  · simp [DeclTree.Simple, TypeDef.Simple, PyStr.lower]

/-- The hypotheses of `C53_types_partial` and `C53_no_conflict`. -/
example : (∃ T ss, createModel exBackend (fun _ => 0) exPackages = .ok (T, ss) ∧ T.length = 9) ∧
    (∀ p ∈ exPackages, IsName p.name) ∧ (∀ p ∈ exPackages, ∀ d ∈ p.decls, d.Lexical) ∧ ∀ p ∈ exPackages, ∀ d ∈ p.decls, d.Simple := by
  refine ⟨⟨_, _, by with_unfolding_all rfl, rfl⟩, ?_, ?_, ?_⟩
  · intro p hp
    simp only [exPackages, List.mem_cons, List.not_mem_nil, or_false] at hp
    rcases hp with rfl | rfl <;> simp [IsName]
  · intro p hp
    simp only [exPackages, List.mem_cons, List.not_mem_nil, or_false] at hp
    rcases hp with rfl | rfl
    · exact exDecls_lexical
    · intro d hd
      simp only [List.mem_cons, List.not_mem_nil, or_false] at hd
      rcases hd with rfl | rfl | rfl
      · exact ⟨by simp [IsName], by simp [TypeDef.Lexical, IdNode.Lexical, IsName]⟩
      · refine ⟨by simp [IdNode.Lexical, IsName], by simp [IsName], by simp [IdNode.Lexical, IsName], ?_⟩
        intro t ht
        cases ht
        simp only [Lexical, exName]
        exact ⟨by simp [IdNode.Lexical, IsName], exNum_lexical exNumeral1⟩
      · trivial
  · intro p hp
    simp only [exPackages, List.mem_cons, List.not_mem_nil, or_false] at hp
    rcases hp with rfl | rfl
    · exact exDecls_simple
    · intro d hd
      simp only [List.mem_cons, List.not_mem_nil, or_false] at hd
      rcases hd with rfl | rfl | rfl <;> trivial

/-- The hypotheses of `C53_modular_accepted` for `mod 2 ** 8`, and its value. -/
example : Lexical (.binop .pow (exNum '2') (exNum '8')) ∧ Constant (.binop .pow (exNum '2') (exNum '8')) ∧
    Supported .math (.binop .pow (exNum '2') (exNum '8')) ∧ HasValue (.binop .pow (exNum '2') (exNum '8')) (2 ^ 8) :=
  ⟨by simp only [Lexical]; exact ⟨exNum_lexical exNumeral2, exNum_lexical exNumeral8⟩, by simp [Constant, exNum],
    by simp only [Supported, exNum]; exact ⟨.inl (by decide), .inl (by decide)⟩,
    fun _ _ => .binop (a := .int 2) (b := .int 8) (.numeral exNumeral2) (.numeral exNumeral8) rfl⟩

/-- The hypotheses of `C53_range_accepted` for `range 1 .. 9 with Size => 4`. -/
example : (Lexical (exNum '1') ∧ Lexical (exNum '9') ∧ Lexical (exNum '4')) ∧ (Constant (exNum '1') ∧ Constant (exNum '9') ∧ Constant (exNum '4')) ∧
    (Supported .math (exNum '1') ∧ Supported .math (exNum '9') ∧ Supported .math (exNum '4')) ∧
    HasValue (exNum '1') 1 ∧ HasValue (exNum '9') 9 ∧ HasValue (exNum '4') 4 :=
  ⟨⟨exNum_lexical exNumeral1, exNum_lexical exNumeral9, exNum_lexical exNumeral4⟩, by simp [Constant, exNum],
    by simp only [Supported, exNum]; exact ⟨.inl (by decide), .inl (by decide), .inl (by decide)⟩,
    fun _ _ => .numeral exNumeral1, fun _ _ => .numeral exNumeral9, fun _ _ => .numeral exNumeral4⟩

/-- `mod X - X + 8` is accepted, though `X` is not declared anywhere. -/
theorem C53_variable_counterexample :
    (createModel exBackend (fun _ => 0) [⟨['P'], [.type ['A'] (.modular
      (.binop .add (.binop .sub (exName 'X') (exName 'X')) (exNum '8')))]⟩]).toOption.isSome = true := by
  with_unfolding_all rfl

/-- Two refinements of one field that differ in their conditions have the same identifier: the second is rejected as a duplicate. -/
theorem C53_refinement_conditions_counterexample :
    createModel exBackend (fun _ => 0) [⟨['P'], exDecls ++
      [.refinement (.qualified none ['T']) ['G'] (.qualified none ['T']) (some (.binop .eq (exName 'F') (exNum '1'))),
       .refinement (.qualified none ['T']) ['G'] (.qualified none ['T']) (some (.binop .eq (exName 'F') (exNum '2')))]⟩] = .error .recordFlux := by
  with_unfolding_all rfl

/-- Refinements by different messages, `A::B_C` and `A_B::C`, have the same identifier: the second is rejected as a duplicate. -/
theorem C53_refinement_names_counterexample :
    createModel exBackend (fun _ => 0) [⟨['A'], [.type ['B', '_', 'C'] .nullMessage]⟩, ⟨['A', '_', 'B'], [.type ['C'] .nullMessage]⟩,
      ⟨['P'], exDecls ++
      [.refinement (.qualified none ['T']) ['G'] (.qualified (some ['A']) ['B', '_', 'C']) none,
       .refinement (.qualified none ['T']) ['G'] (.qualified (some ['A', '_', 'B']) ['C']) none]⟩] = .error .recordFlux ∧
    ((createModel exBackend (fun _ => 0) [⟨['A'], [.type ['B', '_', 'C'] .nullMessage]⟩, ⟨['A', '_', 'B'], [.type ['C'] .nullMessage]⟩,
      ⟨['P'], exDecls ++
      [.refinement (.qualified none ['T']) ['G'] (.qualified (some ['A']) ['B', '_', 'C']) none]⟩]).toOption.isSome = true) := by
  constructor <;> with_unfolding_all rfl

end Verif.SpecParser
