import Verif.Cli.Props
import Verif.Common.Props

/-! # The files written by commands (C62) -/

namespace Verif.Cli

open Verif Verif.Errors Verif.Export

/-- Two writes to the same file have the same contents. -/
def Consistent (ws : List (Path × Content)) : Prop := ∀ p c c', (p, c) ∈ ws → (p, c') ∈ ws → c = c'

theorem after_other (fs : Path → Option Content) (ws : List (Path × Content)) (p : Path)
    (h : ∀ c, (p, c) ∉ ws) : after fs ws p = fs p := by
  induction ws generalizing fs with
  | nil => rfl
  | cons w ws ih =>
    obtain ⟨q, c⟩ := w
    rw [after, ih _ (fun c' hc => h c' (by simp [hc]))]
    rw [if_neg]
    intro he; subst he
    exact h c (by simp)

theorem after_written (fs : Path → Option Content) (ws : List (Path × Content)) (hw : Consistent ws) (p : Path)
    (c : Content) (h : (p, c) ∈ ws) : after fs ws p = some c := by
  induction ws generalizing fs with
  | nil => simp at h
  | cons w ws ih =>
    obtain ⟨q, d⟩ := w
    rw [after]
    have hw' : Consistent ws := fun p c c' h1 h2 => hw p c c' (by simp [h1]) (by simp [h2])
    by_cases hm : ∃ c', (p, c') ∈ ws
    · obtain ⟨c', hc'⟩ := hm
      have := hw p c c' h (by simp [hc'])
      subst this
      exact ih _ hw' hc'
    · rw [after_other _ _ _ (fun c' hc' => hm ⟨c', hc'⟩)]
      rcases List.mem_cons.1 h with h | h
      · cases h; rw [if_pos rfl]
      · exact absurd ⟨c, h⟩ hm

/-! ## Generated code -/

/-- The files of the library: specifications and bodies. -/
def libraryNames : List String :=
  ["rflx_arithmetic.ads", "rflx_arithmetic.adb", "rflx_builtin_types.ads", "rflx_builtin_types-conversions.ads",
    "rflx_generic_types.ads", "rflx_generic_types.adb", "rflx_message_sequence.ads", "rflx_message_sequence.adb",
    "rflx_scalar_sequence.ads", "rflx_scalar_sequence.adb", "rflx_types.ads"]

/-- A line of a template that is not kept. -/
def Workaround (l : PyStr) : Prop := ∃ a b, l = a ++ "  --  WORKAROUND".toList ++ b

/-- The prefix of library units in templates. -/
def dotPrefix (pre : PyStr) : PyStr := if pre = [] then [] else pre ++ ['.']

open Classical in
/-- The text of a file of the library: the lines of the template without workarounds, with the prefix filled in. -/
noncomputable def libraryText (env : Env) (pre : PyStr) (t : String) : PyStr :=
  ((env.template t.toList).filter (fun l => decide (¬Workaround l))).flatMap (fun l => env.format l (dotPrefix pre))

/-- The files of generated code: a specification for each unit, a body for each unit that has one, the library unless it
is not wanted, and the top-level package for the default prefix. -/
def Generated (env : Env) (us : List Unit) (pre : PyStr) (noLibrary : Bool) (dir : PyStr) (w : Path × Content) : Prop :=
  (∃ u ∈ us, w = (.inDir dir (u.name ++ ".ads".toList), .text (env.header ++ u.ads))) ∨
  (∃ u ∈ us, u.adb ≠ [] ∧ w = (.inDir dir (u.name ++ ".adb".toList), .text (env.header ++ u.adb))) ∨
  (noLibrary = false ∧ ∃ t ∈ libraryNames,
    w = (.inDir dir (fileName (dotPrefix pre) ++ t.toList), .text (env.header ++ libraryText env pre t))) ∨
  (pre = "RFLX".toList ∧
    w = (.inDir dir "rflx.ads".toList, .text (env.header ++ "package RFLX is\n\nend RFLX;".toList)))

theorem mem_writeUnits (env : Env) (dir : PyStr) (us : List Unit) (w : Path × Content) : w ∈ writeUnits env dir us ↔
    (∃ u ∈ us, w = (.inDir dir (u.name ++ ".ads".toList), .text (env.header ++ u.ads))) ∨
    (∃ u ∈ us, u.adb ≠ [] ∧ w = (.inDir dir (u.name ++ ".adb".toList), .text (env.header ++ u.adb))) := by
  induction us with
  | nil => simp [writeUnits]
  | cons u us ih =>
    rw [writeUnits, List.mem_append, ih]
    simp only [List.mem_cons, exists_eq_or_imp]
    cases hu : u.adb with
    | nil => simp; grind
    | cons c s => simp; grind

theorem isPrefixOf_iff (p l : PyStr) : p.isPrefixOf l = true ↔ ∃ b, l = p ++ b := by
  rw [List.isPrefixOf_iff_prefix]
  exact ⟨fun ⟨b, h⟩ => ⟨b, h.symm⟩, fun ⟨b, h⟩ => ⟨b, h.symm⟩⟩

theorem isIn_iff (p l : PyStr) : isIn p l = true ↔ ∃ a b, l = a ++ p ++ b := by
  induction l with
  | nil =>
    simp only [isIn, List.isEmpty_iff]
    constructor
    · rintro rfl; exact ⟨[], [], rfl⟩
    · rintro ⟨a, b, h⟩
      have := congrArg List.length h
      simp only [List.length_nil, List.length_append] at this
      exact List.length_eq_zero_iff.1 (by omega)
  | cons c l ih =>
    simp only [isIn, Bool.or_eq_true, isPrefixOf_iff, ih]
    constructor
    · rintro (⟨b, h⟩ | ⟨a, b, h⟩)
      · exact ⟨[], b, h⟩
      · exact ⟨c :: a, b, by rw [h]; rfl⟩
    · rintro ⟨a, b, h⟩
      cases a with
      | nil => exact Or.inl ⟨b, h⟩
      | cons x a => simp only [List.cons_append, List.cons.injEq] at h; exact Or.inr ⟨a, b, h.2⟩

theorem kept_iff (l : PyStr) : kept l = true ↔ ¬Workaround l := by
  unfold kept Workaround
  rw [← isIn_iff]
  simp

theorem kept_text (env : Env) (pre : PyStr) (t : String) :
    ((env.template t.toList).filter kept).flatMap (fun l => env.format l (dotPrefix pre)) = libraryText env pre t := by
  unfold libraryText
  congr 1
  apply List.filter_congr
  intro l _
  by_cases h : Workaround l
  · have : kept l = false := by rw [← Bool.not_eq_true, kept_iff]; simpa using h
    simp [h, this]
  · simp [h, (kept_iff l).2 h]

theorem dotPrefix_eq (pre : PyStr) : (if pre.isEmpty then [] else pre ++ ".".toList) = dotPrefix pre := by
  unfold dotPrefix
  cases pre <;> rfl

theorem library_perm : ∀ t, t ∈ libraryFiles ↔ t ∈ libraryNames.map String.toList := by
  have h1 : ∀ t ∈ libraryFiles, t ∈ libraryNames.map String.toList := by decide
  have h2 : ∀ t ∈ libraryNames.map String.toList, t ∈ libraryFiles := by decide
  exact fun t => ⟨h1 t, h2 t⟩

theorem mem_writeLibrary (env : Env) (pre dir : PyStr) (w : Path × Content) : w ∈ writeLibrary env pre dir ↔
    ∃ t ∈ libraryNames,
      w = (.inDir dir (fileName (dotPrefix pre) ++ t.toList), .text (env.header ++ libraryText env pre t)) := by
  unfold writeLibrary
  simp only [dotPrefix_eq, List.mem_map]
  constructor
  · rintro ⟨t, ht, rfl⟩
    obtain ⟨s, hs, rfl⟩ := List.mem_map.1 ((library_perm t).1 ht)
    exact ⟨s, hs, by rw [kept_text]⟩
  · rintro ⟨s, hs, rfl⟩
    exact ⟨s.toList, (library_perm _).2 (List.mem_map_of_mem hs), by rw [kept_text]⟩

/-- Code generation that ends with 0: the files have been read, and exactly the files of the generated code have been
written. -/
theorem C62_generate (env : Env) (pre : PyStr) (noLibrary : Bool) (dir : PyStr) (files : List PyStr)
    (h : (main env (.generate pre noLibrary dir files)).2 = .zero) :
    ∃ m us, parse env files false = .ok m ∧ env.units m (usedPrefix pre) = .ok us ∧
      ∀ w, w ∈ (main env (.generate pre noLibrary dir files)).1 ↔ Generated env us (usedPrefix pre) noLibrary dir w := by
  have hf : (run env (.generate pre noLibrary dir files)).2 = .ok ⟨⟩ := by
    unfold main at h
    simp only at h
    split at h
    · assumption
    · cases h
    · cases h
  rw [main_writes]
  simp only [run, generate, used_eq] at hf ⊢
  generalize usedPrefix pre = q at hf ⊢
  split at hf
  · cases hf
  · rename_i h1
    rw [if_neg h1]
    split at hf
    · cases hf
    · rename_i h2
      rw [if_neg h2]
      cases hm : parse env files false with
      | failed es => simp only [hm, Outcome.bind] at hf; cases hf
      | crashed e => simp only [hm, Outcome.bind] at hf; cases hf
      | ok m =>
        cases hu : env.units m q with
        | failed es => simp only [hm, hu, Outcome.bind] at hf; cases hf
        | crashed e => simp only [hm, hu, Outcome.bind] at hf; cases hf
        | ok us =>
          refine ⟨m, us, rfl, hu, fun w => ?_⟩
          simp only [Outcome.bind, hu, List.mem_append, mem_writeUnits, Generated]
          have hl : (w ∈ if (!noLibrary) = true then writeLibrary env q dir else []) ↔
              (noLibrary = false ∧ ∃ t ∈ libraryNames,
                w = (.inDir dir (fileName (dotPrefix q) ++ t.toList), .text (env.header ++ libraryText env q t))) := by
            cases noLibrary
            · simp only [Bool.not_false, if_true, mem_writeLibrary, true_and]
            · simp
          have ht : (w ∈ if q = "RFLX".toList then writeTopLevel env q dir else []) ↔
              (q = "RFLX".toList ∧ w =
                (.inDir dir "rflx.ads".toList, .text (env.header ++ "package RFLX is\n\nend RFLX;".toList))) := by
            by_cases hq : q = "RFLX".toList
            · subst hq
              simp only [if_true, true_and]
              exact List.mem_singleton
            · simp only [hq, if_false, false_and, List.not_mem_nil]
          rw [hl, ht, or_assoc, or_assoc]

/-- Afterwards each of these files has its contents and all other files are as before, if no two units share a file. -/
theorem C62_generated_files (env : Env) (pre : PyStr) (noLibrary : Bool) (dir : PyStr) (files : List PyStr)
    (h : (main env (.generate pre noLibrary dir files)).2 = .zero) (fs : Path → Option Content)
    (hc : Consistent (main env (.generate pre noLibrary dir files)).1) :
    ∃ m us, parse env files false = .ok m ∧ env.units m (usedPrefix pre) = .ok us ∧
      (∀ p c, Generated env us (usedPrefix pre) noLibrary dir (p, c) →
        after fs (main env (.generate pre noLibrary dir files)).1 p = some c) ∧
      (∀ p, (∀ c, ¬Generated env us (usedPrefix pre) noLibrary dir (p, c)) →
        after fs (main env (.generate pre noLibrary dir files)).1 p = fs p) := by
  obtain ⟨m, us, h1, h2, h3⟩ := C62_generate env pre noLibrary dir files h
  exact ⟨m, us, h1, h2, fun p c hg => after_written fs _ hc p c ((h3 _).2 hg),
    fun p hp => after_other fs _ p (fun c hc => hp c ((h3 _).1 hc))⟩

/-! ## Graphs -/

/-- The name of the graph of a message or session: the identifier with underscores between its parts. -/
def graphName (i : ID) : PyStr := (i.parts.intersperse ['_']).flatten

/-- The entry of a document under a key. -/
def entry (j : Json) (k : PyStr) : Option Json :=
  match j with
  | .dict d => d.lookup k
  | _ => none

theorem put_lookup (d : List (PyStr × Json)) (k k' : PyStr) (v : Json) :
    (put d k v).lookup k' = if k' = k then some v else d.lookup k' := by
  induction d with
  | nil =>
    by_cases h : k' = k
    · simp [put, List.lookup, h]
    · have : (k' == k) = false := by simpa using h
      simp [put, List.lookup, h, this]
  | cons e d ih =>
    obtain ⟨x, y⟩ := e
    unfold put
    split
    · rename_i hx; subst hx
      by_cases h : k' = x
      · simp [List.lookup, h]
      · have : (k' == x) = false := by simpa using h
        simp [List.lookup, h, this]
    · rename_i hx
      by_cases h : k' = x
      · subst h
        simp [List.lookup, hx]
      · have : (k' == x) = false := by simpa using h
        simp only [List.lookup, this, ih]

/-- The entry of an item in the locations. -/
def look (d : List (PyStr × Json)) (source name : PyStr) : Option Json := (d.lookup source).bind (entry · name)

theorem look_set (d : List (PyStr × Json)) (s n s' n' : PyStr) (v : Json) :
    look (setLocation d s n v) s' n' = if s' = s ∧ n' = n then some v else look d s' n' := by
  unfold setLocation look
  split
  · rename_i e he
    rw [put_lookup]
    by_cases hs : s' = s
    · subst hs
      simp only [if_true, Option.bind_some, entry, put_lookup, he, true_and]
    · simp only [hs, if_false, false_and]
  · rename_i he
    rw [put_lookup]
    by_cases hs : s' = s
    · subst hs
      simp only [if_true, Option.bind_some, entry, put_lookup, true_and]
      by_cases hn : n' = n
      · simp [hn]
      · simp only [hn, if_false, List.lookup_nil]
        cases hd : d.lookup s' with
        | none => rfl
        | some j =>
          cases j with
          | dict x => exact absurd hd (he x)
          | _ => rfl
    · simp only [hs, if_false, false_and]

/-- The item is at this position of this source. -/
def Located (i : Item) (source : PyStr) (start stop : Int × Int) : Prop := i.location = some ⟨some source, start, some stop⟩

theorem drawAll_ok (env : Env) (fmt dir : PyStr) (is : List Item) (d d' : List (PyStr × Json))
    (h : (drawAll env fmt dir is d).2 = .ok d') :
    (∀ w, w ∈ (drawAll env fmt dir is d).1 ↔ ∃ i ∈ is, ∃ g, env.draw i fmt = .ok g ∧
      w = (.inDir dir (flatName i.id.str ++ ".".toList ++ fmt), .drawing g)) ∧
    (∀ i ∈ is, (∃ g, env.draw i fmt = .ok g) ∧ ∃ s a b, Located i s a b) ∧
    (is.Pairwise (fun i j => flatName i.id.str ≠ flatName j.id.str) →
      ∀ i ∈ is, ∀ s a b, Located i s a b → look d' s (flatName i.id.str) = some (position a b)) ∧
    (∀ s n, (∀ i ∈ is, ∀ a b, Located i s a b → flatName i.id.str ≠ n) → look d' s n = look d s n) := by
  induction is generalizing d with
  | nil =>
    cases h
    refine ⟨by simp [drawAll], by simp, by simp, fun _ _ _ => rfl⟩
  | cons i is ih =>
    cases hg : env.draw i fmt with
    | error e => simp only [drawAll, hg] at h; cases h
    | ok g =>
      match hl : i.location with
      | none => simp only [drawAll, hg, hl] at h; cases h
      | some ⟨none, _, _⟩ => simp only [drawAll, hg, hl] at h; cases h
      | some ⟨some _, _, none⟩ => simp only [drawAll, hg, hl] at h; cases h
      | some ⟨some s, a, some b⟩ =>
        simp only [drawAll, hg, hl] at h ⊢
        obtain ⟨h1, h2, h3, h4⟩ := ih _ h
        refine ⟨fun w => ?_, ?_, ?_, ?_⟩
        · simp only [List.mem_cons, h1, exists_eq_or_imp]
          refine or_congr ⟨fun hw => ⟨g, hg, hw⟩, fun ⟨g', hg', hw⟩ => ?_⟩ Iff.rfl
          rw [hg] at hg'; cases hg'; exact hw
        · intro j hj
          rcases List.mem_cons.1 hj with rfl | hj
          · exact ⟨⟨g, hg⟩, s, a, b, hl⟩
          · exact h2 j hj
        · intro hp j hj s' a' b' hj'
          rw [List.pairwise_cons] at hp
          rcases List.mem_cons.1 hj with rfl | hj
          · unfold Located at hj'
            rw [hl] at hj'; cases hj'
            rw [h4 s _ (fun k hk _ _ _ => (hp.1 k hk).symm), look_set, if_pos ⟨rfl, rfl⟩]
          · exact h3 hp.2 j hj s' a' b' hj'
        · intro s' n hn
          rw [h4 s' n (fun k hk => hn k (by simp [hk])), look_set, if_neg]
          rintro ⟨rfl, rfl⟩
          exact hn i (by simp) a b hl rfl

theorem name_eq (i : ID) (h : ∀ p ∈ i.parts, '.' ∉ p ∧ ':' ∉ p) : flatName i.str = graphName i := by
  unfold flatName ID.str graphName
  rw [Common.subSep_joinSep '_' i.parts h]
  generalize i.parts = ps
  induction ps with
  | nil => rfl
  | cons p ps ih =>
    cases ps with
    | nil => simp [Common.Spec.joinWith]
    | cons q ps =>
      rw [Common.Spec.joinWith, ih]
      simp [List.intersperse]

/-- The lines and columns of a place as read from the document. -/
def placed (start stop : Int × Int) : Json :=
  .dict [(['s', 't', 'a', 'r', 't'], .dict [(['l', 'i', 'n', 'e'], .int start.1), (['c', 'o', 'l', 'u', 'm', 'n'], .int start.2)]),
    (['e', 'n', 'd'], .dict [(['l', 'i', 'n', 'e'], .int stop.1), (['c', 'o', 'l', 'u', 'm', 'n'], .int stop.2)])]

theorem position_eq (start stop : Int × Int) : position start stop = placed start stop := rfl

/-- Graphs that end with 0: a drawing of each message and session under its name, and a document with their places. If
the names are different, the document has an entry with the place of each message and session under its source and
name, and no other entries. -/
theorem C62_graph_partial (env : Env) (fmt : PyStr) (files : List PyStr) (dir : PyStr) (noVerification : Bool)
    (h : (main env (.graph fmt files dir noVerification)).2 = .zero) :
    ∃ m d, parse env files noVerification = .ok m ∧
      ((∀ i ∈ m.messages ++ m.sessions, ∀ p ∈ i.id.parts, '.' ∉ p ∧ ':' ∉ p) →
        (∀ i ∈ m.messages ++ m.sessions, ∃ g, env.draw i fmt = .ok g) ∧
        (∀ w, w ∈ (main env (.graph fmt files dir noVerification)).1 ↔
          (∃ i ∈ m.messages ++ m.sessions, ∃ g, env.draw i fmt = .ok g ∧
            w = (.inDir dir (graphName i.id ++ ['.'] ++ fmt), .drawing g)) ∨
          w = (.inDir dir "locations.json".toList, .json d)) ∧
        ((m.messages ++ m.sessions).Pairwise (fun i j => graphName i.id ≠ graphName j.id) →
          ∀ source name v, (entry d source).bind (entry · name) = some v ↔
            ∃ i ∈ m.messages ++ m.sessions, ∃ a b, Located i source a b ∧ name = graphName i.id ∧ v = placed a b)) := by
  simp only [← position_eq]
  have hf : (run env (.graph fmt files dir noVerification)).2 = .ok ⟨⟩ := by
    unfold main at h
    simp only at h
    split at h
    · assumption
    · cases h
    · cases h
  rw [main_writes]
  simp only [run, graph] at hf ⊢
  split at hf
  · cases hf
  · rename_i h1
    rw [if_neg h1]
    cases hm : parse env files noVerification with
    | failed es => simp only [hm] at hf; cases hf
    | crashed e => simp only [hm] at hf; cases hf
    | ok m =>
      simp only [hm] at hf ⊢
      cases hd : (drawAll env fmt dir (m.messages ++ m.sessions) []).2 with
      | error e => simp only [hd] at hf; cases hf
      | ok d =>
        obtain ⟨g1, g2, g3, g4⟩ := drawAll_ok env fmt dir _ _ _ hd
        refine ⟨m, .dict d, rfl, fun hi => ⟨fun i h => (g2 i h).1, fun w => ?_, ?_⟩⟩
        · simp only [List.mem_append, List.mem_singleton] at g1 ⊢
          rw [g1]
          refine or_congr ⟨fun ⟨i, h, g, hg, hw⟩ => ⟨i, h, g, hg, ?_⟩, fun ⟨i, h, g, hg, hw⟩ => ⟨i, h, g, hg, ?_⟩⟩ Iff.rfl
          · rw [← name_eq i.id (hi i (List.mem_append.2 h))]; exact hw
          · rw [name_eq i.id (hi i (List.mem_append.2 h))]; exact hw
        · intro hp source name v
          have hp' : (m.messages ++ m.sessions).Pairwise (fun i j => flatName i.id.str ≠ flatName j.id.str) := by
            refine hp.imp_of_mem ?_
            intro i j hi' hj' h
            rw [name_eq i.id (hi i hi'), name_eq j.id (hi j hj')]; exact h
          constructor
          · intro hv
            by_cases hx : ∃ i ∈ m.messages ++ m.sessions, ∃ a b, Located i source a b ∧ flatName i.id.str = name
            · obtain ⟨i, hi', a, b, hl, hn⟩ := hx
              have := g3 hp' i hi' source a b hl
              rw [hn] at this
              have hv' : look d source name = some v := hv
              rw [this] at hv'; cases hv'
              exact ⟨i, hi', a, b, hl, by rw [← name_eq i.id (hi i hi'), hn], rfl⟩
            · have : look d source name = look [] source name :=
                g4 source name (fun i hi a b hl hn => hx ⟨i, hi, a, b, hl, hn⟩)
              have hv' : look d source name = some v := hv
              rw [this] at hv'; cases hv'
          · rintro ⟨i, hi', a, b, hl, rfl, rfl⟩
            rw [← name_eq i.id (hi i hi')]
            exact g3 hp' i hi' source a b hl

/-! ## Export -/

/-- An export that ends with 0 has written the document of the model to the output and nothing else. -/
theorem C62_export_partial (env : Env) (files : List PyStr) (output : PyStr)
    (h : (main env (.export files output)).2 = .zero) :
    ∃ m j, parse env files false = .ok m ∧ m.serialize = .ok j ∧
      (main env (.export files output)).1 = [(.given output, .json j)] := by
  have hf : (run env (.export files output)).2 = .ok ⟨⟩ := by
    unfold main at h
    simp only at h
    split at h
    · assumption
    · cases h
    · cases h
  rw [main_writes]
  simp only [run, Cli.export] at hf ⊢
  cases hm : parse env files false with
  | failed es => simp only [hm] at hf; cases hf
  | crashed e => simp only [hm] at hf; cases hf
  | ok m =>
    simp only [hm] at hf ⊢
    cases hd : m.serialize with
    | error e => simp only [hd] at hf; cases hf
    | ok j => exact ⟨m, j, rfl, hd, rfl⟩

/-- The full claim fails for the export of a model with a session: the output is left empty, whatever it was before, and
the program ends with a traceback. -/
theorem C62_export_counterexample (env : Env) (files : List PyStr) (output : PyStr) (m : Model) (em : Export.Model)
    (hm : parse env files false = .ok m) (hs : m.serialize = em.serialize) (he : em.sessions ≠ [])
    (hg : ∀ d ∈ em.types, GoodDecl d) (fs : Path → Option Content) :
    (∃ e, (main env (.export files output)).2 = .exception e) ∧
    after fs (main env (.export files output)).1 (.given output) = some .empty := by
  rw [C61_session_counterexample em he hg] at hs
  simp only [main, run, Cli.export, hm, hs]
  exact ⟨⟨_, rfl⟩, by simp [after]⟩

/-! ## A concrete case -/

/-- An identifier with two parts. -/
private def two (a b : String) : ID := ⟨[a.toList, b.toList]⟩

/-- The messages `P::M` and `P::N` and the session `P::S` of `p.rflx`. -/
private def exModel : Model where
  messages := [⟨two "P" "M", some ⟨some "p.rflx".toList, (3, 4), some (7, 18)⟩⟩,
    ⟨two "P" "N", some ⟨some "p.rflx".toList, (9, 4), some (12, 18)⟩⟩]
  sessions := [⟨two "P" "S", some ⟨some "p.rflx".toList, (14, 4), some (40, 9)⟩⟩]
  serialize := Export.Model.serialize ⟨[.opaque], [⟨two "P" "S", ⟨["A".toList]⟩, ⟨["A".toList]⟩, [], [], [], []⟩]⟩

/-- The file `p.rflx` and the directory `out` exist. -/
private def exEnv : Env where
  isFile f := f == "p.rflx".toList
  isDir d := d == "out".toList
  parse _ _ := .ok ⟨⟩
  create _ _ := .ok exModel
  header := []
  units _ pre := .ok [⟨fileName pre ++ "-p".toList, "package P is end P;".toList, []⟩,
    ⟨fileName pre ++ "-p-generic_m".toList, "generic package M".toList, "package body M".toList⟩]
  template t := [t, "x  --  WORKAROUND: y".toList, "{prefix}Z".toList]
  format l p := p ++ l
  draw i _ := .ok i.id.str

example : (main exEnv (.check ["p.rflx".toList])).2 = .zero := rfl

/-- A missing file is reported. -/
example : (main exEnv (.check ["q.rflx".toList, "p.rflx".toList])).2 =
    .message [⟨"file not found: \"q.rflx\"".toList, .cli, .error, none⟩] := by
  have := (C62_check exEnv ["q.rflx".toList, "p.rflx".toList] (by rintro ⟨e, h⟩; cases h) (by rintro ⟨e, h⟩; cases h)
    (by intro h; cases h) (by intro h; cases h)).2.2 (by decide)
  exact this

example : Accepted exEnv (.generate "A.B".toList false "out".toList []) :=
  ⟨Or.inr ⟨by decide, by decide, by
    rintro ⟨a, b, h⟩
    have h : ['A', '.', 'B'] = a ++ '.' :: '.' :: b := h
    match a with
    | [] => simp at h
    | [_] => simp at h
    | [_, _] => simp at h
    | _ :: _ :: _ :: _ => simp at h⟩, rfl⟩

example : ¬Accepted exEnv (.generate "A..B".toList false "out".toList []) := by
  rintro ⟨h | ⟨_, _, h⟩, _⟩
  · exact absurd h (by decide)
  · exact h ⟨['A'], ['B'], rfl⟩

example : (main exEnv (.generate "RFLX".toList false "out".toList ["p.rflx".toList])).2 = .zero := rfl

example : (main exEnv (.generate "RFLX".toList true "out".toList ["p.rflx".toList])).1.map (·.1) =
    [.inDir "out".toList "rflx-p.ads".toList, .inDir "out".toList "rflx-p-generic_m.ads".toList,
      .inDir "out".toList "rflx-p-generic_m.adb".toList, .inDir "out".toList "rflx.ads".toList] := by decide

example : (main exEnv (.graph "svg".toList ["p.rflx".toList] "out".toList false)).2 = .zero := rfl

/-- The hypotheses of the counterexample hold. -/
example (fs : Path → Option Content) :
    after fs (main exEnv (.export ["p.rflx".toList] "model.json".toList)).1 (.given "model.json".toList) = some .empty :=
  (C62_export_counterexample exEnv _ "model.json".toList exModel
    ⟨[.opaque], [⟨two "P" "S", ⟨["A".toList]⟩, ⟨["A".toList]⟩, [], [], [], []⟩]⟩ rfl rfl (by simp)
    (by intro d hd; rw [List.mem_singleton.1 hd]; trivial) fs).2

/-- Two messages of different packages. -/
private def exTwo : Env :=
  { exEnv with create := fun _ _ => .ok ⟨[⟨two "A_B" "C", some ⟨some "p.rflx".toList, (3, 4), some (7, 18)⟩⟩,
    ⟨two "A" "B_C", some ⟨some "q.rflx".toList, (3, 4), some (7, 18)⟩⟩], [], .error .attributeError⟩ }

/-- The full claim fails for graphs: the graphs of `A_B::C` and `A::B_C` have the same file, which has the graph of the
latter in the end. -/
theorem C62_graph_counterexample (fs : Path → Option Content) :
    (main exTwo (.graph "dot".toList ["p.rflx".toList] "out".toList false)).2 = .zero ∧
    exTwo.draw ⟨two "A_B" "C", none⟩ "dot".toList = .ok "A_B::C".toList ∧
    after fs (main exTwo (.graph "dot".toList ["p.rflx".toList] "out".toList false)).1
      (.inDir "out".toList (graphName (two "A_B" "C") ++ ".dot".toList)) = some (.drawing "A::B_C".toList) :=
  ⟨rfl, rfl, rfl⟩

end Verif.Cli
