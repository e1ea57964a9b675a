import Verif.Cli.Model
import Verif.Export.Props

/-! # The command line (C62)

Full claim: a command either ends with 0 and has written exactly its files, or reports all errors that were found, the
missing files first, and has written nothing.

The claim is false: `export` opens its output before it computes the document, and a model with a session (C61) leaves
an empty file and a traceback; the graphs of two messages can have the same file name, so one of them is lost. -/

namespace Verif.Cli

open Verif Verif.Errors Verif.Export

/-! ## Specification -/

/-- The errors of a call. -/
def errorsOf {α : Type} : Outcome α → List Entry
  | .failed es => es
  | _ => []

/-- The call ends with another exception. -/
def Crashes {α : Type} (x : Outcome α) : Prop := ∃ e, x = .crashed e

/-- A `RecordFluxError` is raised only with entries. -/
def Honest {α : Type} (x : Outcome α) : Prop := x ≠ .failed []

/-- Everything there is to report on the files: the missing files in their order, what the parser says about the others
and what the creation of the model says. -/
def report (env : Env) (files : List PyStr) (skip : Bool) : List Entry :=
  let found := files.filter env.isFile
  (files.filter (fun f => !env.isFile f)).map
    (fun f => ⟨"file not found: \"".toList ++ f ++ "\"".toList, .cli, .error, none⟩) ++
  errorsOf (env.parse skip found) ++ errorsOf (env.create skip found)

/-- The contents of the files after some writes: the last write counts. -/
def after (fs : Path → Option Content) : List (Path × Content) → Path → Option Content
  | [], p => fs p
  | (q, c) :: ws, p => after (fun r => if r = q then some c else fs r) ws p

/-! ## Parsing -/

theorem present_eq (env : Env) (files : List PyStr) :
    present env files = ((files.filter (fun f => !env.isFile f)).map notFound, files.filter env.isFile) := by
  induction files with
  | nil => rfl
  | cons f fs ih =>
    rw [present, ih]
    cases h : env.isFile f <;> simp [h]

/-- Files are read if and only if there is nothing to report; all that is to report is reported. -/
theorem C62_parse (env : Env) (files : List PyStr) (skip : Bool)
    (hp : ¬Crashes (env.parse skip (files.filter env.isFile))) (hc : ¬Crashes (env.create skip (files.filter env.isFile)))
    (gp : Honest (env.parse skip (files.filter env.isFile))) (gc : Honest (env.create skip (files.filter env.isFile))) :
    (report env files skip = [] → ∃ m, env.create skip files = .ok m ∧ parse env files skip = .ok m) ∧
    (report env files skip ≠ [] → parse env files skip = .failed (report env files skip)) := by
  have hr : report env files skip = (files.filter (fun f => !env.isFile f)).map notFound ++
    errorsOf (env.parse skip (files.filter env.isFile)) ++ errorsOf (env.create skip (files.filter env.isFile)) := rfl
  rw [hr]
  unfold parse
  rw [present_eq]
  simp only
  have all : (files.filter (fun f => !env.isFile f)).map notFound = [] → files.filter env.isFile = files := by
    intro h
    rw [List.map_eq_nil_iff, List.filter_eq_nil_iff] at h
    rw [List.filter_eq_self]
    intro f hf
    simpa using h f hf
  generalize (files.filter (fun f => !env.isFile f)).map notFound = ms at all
  cases h1 : env.parse skip (files.filter env.isFile) with
  | crashed e => exact absurd ⟨e, h1⟩ hp
  | ok _ =>
    cases h2 : env.create skip (files.filter env.isFile) with
    | crashed e => exact absurd ⟨e, h2⟩ hc
    | ok m =>
      simp only [errorsOf, List.append_nil]
      constructor
      · intro h; subst h
        rw [all rfl] at h2
        exact ⟨m, h2, rfl⟩
      · intro h
        cases ms with
        | nil => exact absurd rfl h
        | cons => rfl
    | failed es =>
      simp only [errorsOf, List.append_nil]
      have : es ≠ [] := fun h => gc (h2.trans (by rw [h]))
      exact ⟨fun h => absurd (List.append_eq_nil_iff.1 h).2 this, fun _ => trivial⟩
  | failed es =>
    have hes : es ≠ [] := fun h => gp (h1.trans (by rw [h]))
    cases h2 : env.create skip (files.filter env.isFile) with
    | crashed e => exact absurd ⟨e, h2⟩ hc
    | ok m =>
      simp only [errorsOf, List.append_nil]
      refine ⟨fun h => absurd (List.append_eq_nil_iff.1 h).2 hes, fun h => ?_⟩
      cases hm : ms ++ es with
      | nil => exact absurd hm h
      | cons => rfl
    | failed es' =>
      simp only [errorsOf]
      exact ⟨fun h => absurd (List.append_eq_nil_iff.1 (List.append_eq_nil_iff.1 h).1).2 hes, fun _ => trivial⟩

/-- `check` writes nothing, ends with 0 if there is nothing to report and reports everything otherwise. -/
theorem C62_check (env : Env) (files : List PyStr)
    (hp : ¬Crashes (env.parse false (files.filter env.isFile))) (hc : ¬Crashes (env.create false (files.filter env.isFile)))
    (gp : Honest (env.parse false (files.filter env.isFile))) (gc : Honest (env.create false (files.filter env.isFile))) :
    (main env (.check files)).1 = [] ∧
    ((main env (.check files)).2 = .zero ↔ report env files false = []) ∧
    (report env files false ≠ [] → (main env (.check files)).2 = .message (report env files false)) := by
  obtain ⟨h1, h2⟩ := C62_parse env files false hp hc gp gc
  by_cases h : report env files false = []
  · obtain ⟨m, _, hm⟩ := h1 h
    simp [main, run, check, hm, Outcome.bind, h]
  · simp [main, run, check, h2 h, Outcome.bind, h]

/-- The prefix as it is used: a single blank stands for no prefix. -/
def usedPrefix (pre : PyStr) : PyStr := if pre = [' '] then [] else pre

theorem used_eq (pre : PyStr) : (if pre != " ".toList then pre else []) = usedPrefix pre := by
  unfold usedPrefix
  by_cases h : pre = [' ']
  · subst h; rfl
  · rw [if_neg h, if_pos (by simpa using h)]

theorem main_writes (env : Env) (c : Command) : (main env c).1 = (run env c).1 := by
  unfold main
  cases h : (run env c).2 <;> simp only [h]

/-- A command that ends with an error message has written nothing. -/
theorem C62_error_writes_nothing (env : Env) (c : Command) (es : List Entry) (h : (main env c).2 = .message es) :
    (main env c).1 = [] := by
  have hf : ∃ es, (run env c).2 = .failed es := by
    unfold main at h
    simp only at h
    split at h
    · cases h
    · exact ⟨_, by assumption⟩
    · cases h
  obtain ⟨es', hf⟩ := hf
  rw [main_writes]
  cases c with
  | check fs => rfl
  | «export» fs o =>
    simp only [run, Cli.export] at hf ⊢
    split at hf
    · rfl
    · cases hf
    · split at hf <;> cases hf
  | generate p n d fs =>
    simp only [run, generate, used_eq] at hf ⊢
    generalize usedPrefix p = q at hf ⊢
    split
    · rfl
    · rename_i h1
      rw [if_neg h1] at hf
      split
      · rfl
      · rename_i h2
        rw [if_neg h2] at hf
        split at hf
        · rfl
        · cases hf
        · cases hf
  | graph f fs d v =>
    simp only [run, graph] at hf ⊢
    split
    · rfl
    · rename_i h1
      rw [if_neg h1] at hf
      split at hf
      · rfl
      · cases hf
      · split at hf <;> cases hf

/-! ## Arguments -/

/-- A prefix without empty parts: it neither begins nor ends with a dot and has no two dots in a row. -/
def NoEmptyPart (pre : PyStr) : Prop :=
  pre.head? ≠ some '.' ∧ pre.getLast? ≠ some '.' ∧ ¬∃ a b, pre = a ++ '.' :: '.' :: b

theorem splitDot_ne (s : PyStr) : splitDot s ≠ [] := by
  fun_induction splitDot s <;> simp_all

theorem splitDot_cons (c : Char) (s : PyStr) (hc : c ≠ '.') :
    ∃ p ps, splitDot s = p :: ps ∧ splitDot (c :: s) = (c :: p) :: ps := by
  have : splitDot (c :: s) = match splitDot s with
    | [] => [[c]]
    | p :: ps => (c :: p) :: ps := by
    rw [splitDot]
    · cases splitDot s <;> rfl
    · intro h; exact hc h
  rw [this]
  cases h : splitDot s with
  | nil => exact absurd h (splitDot_ne s)
  | cons p ps => exact ⟨p, ps, rfl, rfl⟩

/-- The parts of a text after the first one have no empty part iff … -/
theorem tail_parts (s : PyStr) : [] ∈ (splitDot s).tail ↔
    (s.getLast? = some '.' ∨ ∃ a b, s = a ++ '.' :: '.' :: b) := by
  induction s with
  | nil => simp [splitDot]
  | cons c s ih =>
    by_cases hc : c = '.'
    · subst hc
      rw [show splitDot ('.' :: s) = [] :: splitDot s by rw [splitDot], List.tail_cons]
      cases s with
      | nil => simp [splitDot]
      | cons d s =>
        by_cases hd : d = '.'
        · subst hd
          refine ⟨fun _ => Or.inr ⟨[], s, rfl⟩, fun _ => ?_⟩
          rw [show splitDot ('.' :: s) = [] :: splitDot s by rw [splitDot]]
          simp
        · obtain ⟨p, ps, h1, h2⟩ := splitDot_cons d s hd
          rw [h2] at ih ⊢
          simp only [List.tail_cons] at ih
          rw [List.mem_cons, ih]
          simp only [reduceCtorEq, false_or, List.getLast?_cons_cons]
          refine or_congr Iff.rfl ⟨fun ⟨a, b, h⟩ => ⟨'.' :: a, b, by rw [h]; rfl⟩, fun ⟨a, b, h⟩ => ?_⟩
          cases a with
          | nil => simp only [List.nil_append, List.cons.injEq] at h; exact absurd h.2.1 hd
          | cons x a => simp only [List.cons_append, List.cons.injEq] at h; exact ⟨a, b, h.2⟩
    · obtain ⟨p, ps, h1, h2⟩ := splitDot_cons c s hc
      rw [h2, List.tail_cons]
      rw [h1, List.tail_cons] at ih
      rw [ih]
      constructor
      · rintro (h | ⟨a, b, h⟩)
        · left
          cases s with
          | nil => simp at h
          | cons d s => rw [List.getLast?_cons_cons]; exact h
        · exact Or.inr ⟨c :: a, b, by rw [h]; rfl⟩
      · rintro (h | ⟨a, b, h⟩)
        · cases s with
          | nil => simp only [List.getLast?_singleton, Option.some.injEq] at h; exact absurd h hc
          | cons d s => rw [List.getLast?_cons_cons] at h; exact Or.inl h
        · cases a with
          | nil => simp only [List.nil_append, List.cons.injEq] at h; exact absurd h.1 hc
          | cons x a => simp only [List.cons_append, List.cons.injEq] at h; exact Or.inr ⟨a, b, h.2⟩

theorem splitDot_empty (s : PyStr) (hs : s ≠ []) : (splitDot s).contains [] = true ↔ ¬NoEmptyPart s := by
  rw [List.contains_iff_mem]
  have : [] ∈ splitDot s ↔ s.head? = some '.' ∨ [] ∈ (splitDot s).tail := by
    cases s with
    | nil => exact absurd rfl hs
    | cons c s =>
      by_cases hc : c = '.'
      · subst hc
        rw [show splitDot ('.' :: s) = [] :: splitDot s by rw [splitDot]]
        simp
      · obtain ⟨p, ps, h1, h2⟩ := splitDot_cons c s hc
        rw [h2]
        simp [hc]
  rw [this, tail_parts]
  unfold NoEmptyPart
  by_cases h1 : s.head? = some '.' <;> by_cases h2 : s.getLast? = some '.' <;> simp [h1, h2]

/-- The arguments that are checked before the files are read. -/
def Accepted (env : Env) : Command → Prop
  | .generate pre _ dir _ => (usedPrefix pre = [] ∨ NoEmptyPart (usedPrefix pre)) ∧ env.isDir dir = true
  | .graph _ _ dir _ => env.isDir dir = true
  | _ => True

/-- The files of a command. -/
def filesOf : Command → List PyStr
  | .check fs | .export fs _ | .generate _ _ _ fs | .graph _ fs _ _ => fs

/-- Whether the verification is skipped. -/
def skipOf : Command → Bool
  | .graph _ _ _ v => v
  | _ => false

theorem prefix_ok (pre : PyStr) : (!(usedPrefix pre).isEmpty && (splitDot (usedPrefix pre)).contains []) = false ↔
    (usedPrefix pre = [] ∨ NoEmptyPart (usedPrefix pre)) := by
  cases h : usedPrefix pre with
  | nil => simp
  | cons c s =>
    have := splitDot_empty (c :: s) (by simp)
    simp only [List.isEmpty_cons, Bool.not_false, Bool.true_and, reduceCtorEq, false_or]
    rw [← Bool.not_eq_true, this]
    exact Classical.not_not

/-- Arguments that are not accepted: one message, nothing is read or written. -/
theorem C62_arguments (env : Env) (c : Command) (h : ¬Accepted env c) :
    (main env c).1 = [] ∧ ∃ e, (main env c).2 = .message [e] := by
  cases c with
  | check fs => exact absurd trivial h
  | «export» fs o => exact absurd trivial h
  | generate p n d fs =>
    simp only [main, run, generate, used_eq]
    cases h1 : (!(usedPrefix p).isEmpty && (splitDot (usedPrefix p)).contains []) with
    | true => simp only [if_true]; exact ⟨rfl, _, rfl⟩
    | false =>
      have h2 : env.isDir d = false := by
        cases hd : env.isDir d with
        | false => rfl
        | true => exact absurd ⟨(prefix_ok p).1 h1, hd⟩ h
      simp only [h2, Bool.not_false, if_true, Bool.false_eq_true, if_false]
      exact ⟨rfl, _, rfl⟩
  | graph f fs d v =>
    have h2 : env.isDir d = false := by simpa [Accepted] using h
    simp only [main, run, graph, h2, Bool.not_false, if_true]
    exact ⟨rfl, _, rfl⟩

/-- A command with accepted arguments: if there is something to report, all of it is reported and nothing is written. -/
theorem C62_report (env : Env) (c : Command) (ha : Accepted env c)
    (hp : ¬Crashes (env.parse (skipOf c) ((filesOf c).filter env.isFile)))
    (hc : ¬Crashes (env.create (skipOf c) ((filesOf c).filter env.isFile)))
    (gp : Honest (env.parse (skipOf c) ((filesOf c).filter env.isFile)))
    (gc : Honest (env.create (skipOf c) ((filesOf c).filter env.isFile)))
    (hr : report env (filesOf c) (skipOf c) ≠ []) :
    main env c = ([], .message (report env (filesOf c) (skipOf c))) := by
  have h := (C62_parse env (filesOf c) (skipOf c) hp hc gp gc).2 hr
  cases c with
  | check fs =>
    simp only [filesOf, skipOf] at h ⊢
    simp only [main, run, check, h, Outcome.bind]
  | «export» fs o =>
    simp only [filesOf, skipOf] at h ⊢
    simp only [main, run, Cli.export, h]
  | generate p n d fs =>
    simp only [filesOf, skipOf] at h ⊢
    simp only [main, run, generate, used_eq, (prefix_ok p).2 ha.1, ha.2, h, Outcome.bind]
    rfl
  | graph f fs d v =>
    simp only [filesOf, skipOf] at h ⊢
    have ha : env.isDir d = true := ha
    simp only [main, run, graph, ha, h]
    rfl

end Verif.Cli
