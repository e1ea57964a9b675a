import Verif.SpecParser.Names
import Verif.SpecParser.PackageLemmas
import Verif.SpecParser.ImportProps
import Verif.Units.Example

/-! # C77: the names in accepted specifications -/

namespace Verif.SpecParser
open Verif

/-- The names a specification may have, in plain terms: the package does not start with `RFLX`, it has the same name at its
end, the name of the file is the name of the package in lower case with the suffix `.rflx`, and no declared type is a reserved
word or called `Boolean` in any letter case. -/
structure WellNamed (p : NameTree) (file : Option PyStr) : Prop where
  prefix_free : ∀ rest, p.identifier ≠ 'R' :: 'F' :: 'L' :: 'X' :: rest
  same : p.endIdentifier = p.identifier
  file_name : ∀ f, file = some f → f = p.identifier.map Char.toLower ++ ['.', 'r', 'f', 'l', 'x']
  types : ∀ t ∈ p.types, t.map Char.toLower ∉ reservedWords ∧ t.map Char.toLower ≠ ['b', 'o', 'o', 'l', 'e', 'a', 'n']

theorem rflxPrefix_iff (s : PyStr) : rflxPrefix.isPrefixOf s = true ↔ ∃ rest, s = 'R' :: 'F' :: 'L' :: 'X' :: rest := by
  rw [List.isPrefixOf_iff_prefix]
  constructor
  · rintro ⟨r, rfl⟩; exact ⟨r, rfl⟩
  · rintro ⟨r, rfl⟩; exact ⟨r, rfl⟩

theorem isBuiltin_word (t : PyStr) : isBuiltin ⟨[t]⟩ = true ↔ PyStr.lower t = ['b', 'o', 'o', 'l', 'e', 'a', 'n'] := by
  have h : PyStr.lower booleanText = ['b', 'o', 'o', 'l', 'e', 'a', 'n'] := by decide
  simp [isBuiltin, key_eq, ID.key, h]

theorem redefinitions_nil (ts : List PyStr) (hn : ∀ t ∈ ts, IsName t) :
    redefinitions ts = .ok [] ↔
      ∀ t ∈ ts, PyStr.lower t ∉ reservedWords ∧ PyStr.lower t ≠ ['b', 'o', 'o', 'l', 'e', 'a', 'n'] := by
  induction ts with
  | nil => simp [redefinitions]
  | cons t ts ih =>
    have ih := ih fun x hx => hn x (List.mem_cons_of_mem _ hx)
    have ht := ofStr_name (hn t List.mem_cons_self)
    simp only [List.forall_mem_cons, ← ih]
    by_cases hr : PyStr.lower t ∈ reservedWords
    · have : redefinitions (t :: ts) = .error .recordFlux := by
        rw [redefinitions, createId, if_pos hr]; rfl
      rw [this]
      exact ⟨fun h => (nomatch h), fun h => absurd hr h.1.1⟩
    · have h1 : createId (.unqualified t) = .ok ⟨[t]⟩ := by rw [createId, if_neg hr, ht]
      have h2 : (⟨[t]⟩ : ID).name = .ok ⟨[t]⟩ := by
        show ID.ofStr t = _
        exact ht
      have : redefinitions (t :: ts) = (redefinitions ts).bind fun r =>
          .ok ((if isBuiltin ⟨[t]⟩ then [NameErr.redefinition t] else []) ++ r) := by
        rw [redefinitions, h1]
        show ((⟨[t]⟩ : ID).name).bind _ = _
        rw [h2]; rfl
      rw [this]
      have hb := isBuiltin_word t
      cases hrs : redefinitions ts with
      | error e =>
        constructor
        · intro h; exact nomatch h
        · intro h; exact nomatch h.2
      | ok r =>
        show (Except.ok _ : Py _) = .ok [] ↔ _
        simp only [Except.ok.injEq, List.append_eq_nil_iff]
        constructor
        · rintro ⟨h3, h4⟩
          refine ⟨⟨hr, fun e => ?_⟩, h4⟩
          rw [if_pos (hb.2 e)] at h3
          exact nomatch h3
        · rintro ⟨h3, h4⟩
          exact ⟨by rw [if_neg (fun e => h3.2 (hb.1 e))], h4⟩

/-! ## C77 -/

/-- The check of names finds no error exactly in specifications with names as required. -/
theorem C77_accepted_iff (p : NameTree) (file : Option PyStr) (hn : ∀ t ∈ p.types, IsName t) :
    namingErrors p file = .ok [] ↔ WellNamed p file := by
  have hr := redefinitions_nil p.types hn
  have key : namingErrors p file = .ok [] ↔
      rflxPrefix.isPrefixOf p.identifier = false ∧ p.identifier = p.endIdentifier ∧
      (∀ f, file = some f → f = rflx p.identifier) ∧ redefinitions p.types = .ok [] := by
    unfold namingErrors
    cases hrs : redefinitions p.types with
    | error e =>
      constructor
      · intro h; exact nomatch h
      · intro h; exact nomatch h.2.2.2
    | ok r =>
      show (Except.ok _ : Py _) = .ok [] ↔ _
      simp only [Except.ok.injEq, List.append_eq_nil_iff]
      cases file with
      | none => simp [and_assoc, -List.isPrefixOf_iff_prefix]
      | some f => simp [and_assoc, -List.isPrefixOf_iff_prefix]
  rw [key, hr]
  constructor
  · rintro ⟨h1, h2, h3, h4⟩
    refine ⟨fun r e => ?_, h2.symm, h3, h4⟩
    rw [(rflxPrefix_iff _).2 ⟨r, e⟩] at h1
    exact nomatch h1
  · intro h
    refine ⟨?_, h.same.symm, h.file_name, h.types⟩
    cases hp : rflxPrefix.isPrefixOf p.identifier with
    | false => rfl
    | true =>
      obtain ⟨r, e⟩ := (rflxPrefix_iff _).1 hp
      exact absurd e (h.prefix_free r)

/-- The package `Tlv` in `tlv.rflx` with two types. -/
def namesTree : NameTree := ⟨['T', 'l', 'v'], ['T', 'l', 'v'], [['T', 'a', 'g'], ['M', 's', 'g']]⟩

example : (∀ t ∈ namesTree.types, IsName t) ∧ namingErrors namesTree (some ['t', 'l', 'v', '.', 'r', 'f', 'l', 'x']) = .ok [] := by
  constructor
  · simp [namesTree, IsName]
  · rfl

/-- The same package with a wrong end, in another file and with a type called `BOOLEAN`. -/
example : namingErrors ⟨['T', 'l', 'v'], ['T', 'L', 'V'], [['T', 'a', 'g'], ['B', 'O', 'O', 'L', 'E', 'A', 'N']]⟩
    (some ['T', 'l', 'v', '.', 'r', 'f', 'l', 'x']) =
    .ok [.inconsistent, .fileName, .redefinition ['B', 'O', 'O', 'L', 'E', 'A', 'N']] := rfl

/-- The flag `Spec.naming` of a specification tells whether its names, apart from that of the file, are as required. -/
def FlagOf (tree : Path → NameTree) (fs : Files) : Prop :=
  ∀ f s, fs f = .spec s → (tree f).identifier = s.package ∧ (∀ t ∈ (tree f).types, IsName t) ∧
    (s.naming = false ↔ namingErrors (tree f) none = .ok [])

/-- If parsing succeeds, the names of every specification, also of those read because of a `with` clause, are as required. -/
theorem C77_all_files (fs : Files) (hne : ∀ f, fs f ≠ .empty) (tree : Path → NameTree) (hf : FlagOf tree fs)
    (files : List Path) (d : Specs) (h : Parses fs files d) :
    ∀ k n, (k, n) ∈ d → WellNamed (tree n.filename) (some n.filename.name) := by
  obtain ⟨d0, hg, _, _, h2, _, _⟩ := parses_spec hne h
  intro k n hm
  have hm0 := (h2 _).mp hm
  obtain ⟨e1, e2, _⟩ := hg.entry _ _ hm0
  obtain ⟨f1, f2, f3⟩ := hf _ _ e1
  have hw := (C77_accepted_iff _ none f2).1 (f3.1 (hg.named _ _ hm0).1)
  refine ⟨hw.prefix_free, hw.same, ?_, hw.types⟩
  intro f e
  obtain rfl : n.filename.name = f := by injection e
  rw [f1]
  exact (hg.named _ _ hm0).2

/-- The names in the files of `exDiamond`; each package declares a type `Msg`. -/
def diamondNames : Path → NameTree := fun f =>
  let c := if f = file 'A' then 'A' else if f = file 'B' then 'B' else if f = file 'C' then 'C' else 'S'
  ⟨[c], [c], [['M', 's', 'g']]⟩

example : FlagOf diamondNames exDiamond ∧ (∀ f, exDiamond f ≠ .empty) ∧ ∃ d, Parses exDiamond [file 'S', file 'B'] d ∧ d.keys.length = 4 := by
  refine ⟨?_, ?_, ⟨_, ⟨9, rfl⟩, rfl⟩⟩
  · intro f s h
    have hn : ∀ t ∈ (diamondNames f).types, IsName t := by simp [diamondNames, IsName]
    unfold exDiamond at h
    have h' : (diamondNames f).identifier = s.package ∧ s.naming = false := by
      unfold diamondNames
      by_cases hA : f = file 'A'
      · rw [if_pos hA] at h; cases h; simp [hA]
      · rw [if_neg hA] at h
        by_cases hB : f = file 'B'
        · rw [if_pos hB] at h; cases h; simp only [if_neg hA, if_pos hB]; trivial
        · rw [if_neg hB] at h
          by_cases hC : f = file 'C'
          · rw [if_pos hC] at h; cases h; simp only [if_neg hA, if_neg hB, if_pos hC]; trivial
          · rw [if_neg hC] at h
            by_cases hS : f = file 'S'
            · rw [if_pos hS] at h; cases h; simp only [if_neg hA, if_neg hB, if_neg hC]; trivial
            · rw [if_neg hS] at h; exact nomatch h
    refine ⟨h'.1, hn, ?_⟩
    · have := h'.2
      rw [this]
      refine ⟨fun _ => (C77_accepted_iff _ _ hn).2 ⟨?_, rfl, fun _ h => (nomatch h), ?_⟩, fun _ => rfl⟩
      · simp [diamondNames]
      · intro t ht
        simp only [diamondNames, List.mem_singleton] at ht
        subst ht
        exact ⟨by decide +kernel, by decide +kernel⟩
  · intro f
    unfold exDiamond
    repeat (first | split | simp)

/-- A declared type of a specification without errors gets the identifier consisting of the names of the package and of the
type, as written. Missing: a type called `Opaque`, see `C77_opaque_counterexample`. -/
theorem C77_declared_partial (p : NameTree) (file : Option PyStr) (hn : ∀ t ∈ p.types, IsName t) (hp : IsName p.identifier)
    (h : namingErrors p file = .ok []) (t : PyStr) (ht : t ∈ p.types)
    (ho : t.map Char.toLower ≠ ['o', 'p', 'a', 'q', 'u', 'e']) :
    ∃ i, createId (.unqualified t) = .ok i ∧ qualifiedType i ⟨[p.identifier]⟩ = .ok ⟨[p.identifier, t]⟩ := by
  have hw := (C77_accepted_iff p file hn).1 h
  obtain ⟨h1, h2⟩ := hw.types t ht
  have hi : createId (.unqualified t) = .ok ⟨[t]⟩ := by
    rw [createId, if_neg (show PyStr.lower t ∉ reservedWords from h1), ofStr_name (hn t ht)]
  refine ⟨_, hi, ?_⟩
  have hb : isBuiltin ⟨[t]⟩ = false := by
    cases hb : isBuiltin ⟨[t]⟩ with
    | false => rfl
    | true => exact absurd ((isBuiltin_word t).1 hb) h2
  have hl : PyStr.lower opaqueText = ['o', 'p', 'a', 'q', 'u', 'e'] := by decide
  have hin : isInternal ⟨[t]⟩ = false := by
    cases hin : isInternal ⟨[t]⟩ with
    | false => rfl
    | true =>
      simp [isInternal, key_eq, ID.key, hl] at hin
      exact absurd hin ho
  unfold qualifiedType
  rw [hb, hin]
  obtain ⟨⟨c⟩, hc, _, hcp⟩ := ID.C38_mul ⟨[p.identifier]⟩ ⟨[t]⟩ ⟨by simp, by simpa [IsName] using hp⟩
    ⟨by simp, by simpa [IsName] using hn t ht⟩
  simp only at hcp
  subst hcp
  exact hc

example : IsName namesTree.identifier ∧ ['M', 's', 'g'] ∈ namesTree.types ∧
    (['M', 's', 'g'] : PyStr).map Char.toLower ≠ ['o', 'p', 'a', 'q', 'u', 'e'] := by
  refine ⟨by simp [IsName, namesTree], by simp [namesTree], by decide⟩

/-- Packages that do not start with `RFLX` in any letter case have no units with the file names of the library, and no file is
written twice. The other conditions are those of C57. Missing: the check of names only rejects the prefix in upper case, see
`C77_prefix_counterexample`. -/
theorem C77_files_partial (pre : List PyStr) (ds : List Units.Decl) (topLevel : Bool) (d : Units.Dict) (hd : Units.Spec.Distinct ds)
    (hw : Units.Spec.Words ds) (hp : ∀ p ∈ pre, Units.Spec.Word p)
    (hs : ∀ t ∈ ds, ∀ p rest, Units.Spec.pkg t = p :: rest → ¬ ['r', 'f', 'l', 'x'] <+: p)
    (hg : Units.generate pre [] ds = .ok d) : (Units.files pre d topLevel).Nodup := by
  refine Units.C57_files_partial pre ds topLevel d hd ?_ hw hp hg
  intro t ht l hl e
  have hlib : ∀ l ∈ Units.Spec.libraryNames, ∃ p rest, l = p :: rest ∧ ['r', 'f', 'l', 'x'] <+: p := by
    intro l hl
    simp only [Units.Spec.libraryNames, List.mem_cons, List.not_mem_nil, or_false] at hl
    rcases hl with rfl | rfl | rfl | rfl | rfl | rfl | rfl <;> exact ⟨_, _, rfl, by decide⟩
  obtain ⟨p, rest, rfl, hpre⟩ := hlib l hl
  cases hk : Units.Spec.pkg t with
  | nil => rw [hk] at e; exact nomatch e
  | cons q qs =>
    rw [hk] at e
    simp only [List.head?_cons, Option.some.injEq] at e
    exact hs t ht q qs hk (e ▸ hpre)

example : (Units.files Units.exPrefix Units.exUnits true).Nodup := by
  refine C77_files_partial _ _ _ _ Units.ex_distinct Units.ex_words Units.ex_prefix_words ?_ Units.ex_generate
  have : ∀ t ∈ Units.exModel, ∀ p ∈ Units.Spec.pkg t, (['r', 'f', 'l', 'x'] : PyStr).isPrefixOf p = false := by decide +kernel
  intro t ht p rest hp h
  have h1 := this t ht p (by rw [hp]; exact List.mem_cons_self)
  rw [List.isPrefixOf_iff_prefix.2 h] at h1
  exact nomatch h1

/-- `Opaque` in any package is accepted as the name of a declared type, but denotes the predefined type. -/
theorem C77_opaque_counterexample (package : PyStr) (hp : ∀ rest, package ≠ 'R' :: 'F' :: 'L' :: 'X' :: rest) :
    namingErrors ⟨package, package, [opaqueText]⟩ (some (rflx package)) = .ok [] ∧
    createId (.unqualified opaqueText) = .ok ⟨[opaqueText]⟩ ∧
    qualifiedType ⟨[opaqueText]⟩ ⟨[package]⟩ = .ok ⟨[internalName, opaqueText]⟩ := by
  refine ⟨(C77_accepted_iff _ _ (by simp [IsName, opaqueText])).2 ⟨hp, rfl, ?_, ?_⟩, rfl, ?_⟩
  · intro f e; injection e with e; exact e.symm
  · intro t ht
    simp only [List.mem_singleton] at ht
    subst ht
    exact ⟨by decide +kernel, by decide +kernel⟩
  · have h1 : isBuiltin ⟨[opaqueText]⟩ = false := by decide +kernel
    have h2 : isInternal ⟨[opaqueText]⟩ = true := by decide +kernel
    unfold qualifiedType
    rw [h1, h2]
    rfl

/-- The prefix is only rejected in upper case: the package `Rflx_Types` is accepted, but its unit is written to the file of
`RFLX_Types`, a package of the library, whatever the prefix of the generated units is. -/
theorem C77_prefix_counterexample :
    let package : PyStr := ['R', 'f', 'l', 'x', '_', 'T', 'y', 'p', 'e', 's']
    namingErrors ⟨package, package, [['T']]⟩ (some (rflx package)) = .ok [] ∧
    ∀ pre : List PyStr, Units.unitFile ⟨pre ++ [package]⟩ = Units.unitFile ⟨pre ++ Units.typesPackage⟩ := by
  refine ⟨rfl, ?_⟩
  intro pre
  have dotted_eq : ∀ pre : List PyStr, ∀ a b : PyStr, PyStr.lower a = PyStr.lower b →
      PyStr.lower (Units.dotted (pre ++ [a])) = PyStr.lower (Units.dotted (pre ++ [b])) := by
    intro pre a b h
    induction pre with
    | nil => exact h
    | cons x pre ih =>
      cases pre with
      | nil => 
        simp only [List.cons_append, List.nil_append, Units.dotted, PyStr.lower, List.map_append, List.map_cons] at h ⊢
        rw [h]
      | cons y pre =>
        simp only [List.cons_append, Units.dotted, PyStr.lower, List.map_append, List.map_cons] at ih ⊢
        rw [ih]
  unfold Units.unitFile fileName
  exact congrArg _ (dotted_eq pre _ _ (by decide))

/-- For such a package with a single type a file is written twice: once with the unit and once with the package of the library. -/
theorem C77_overwritten_counterexample :
    let package : PyStr := ['R', 'f', 'l', 'x', '_', 'T', 'y', 'p', 'e', 's']
    ∃ d, Units.generate [rflxPrefix] [] [.scalar ⟨[package, ['T']]⟩] = .ok d ∧ ¬ (Units.files [rflxPrefix] d true).Nodup :=
  ⟨_, rfl, by decide +kernel⟩

end Verif.SpecParser
