import Verif.Cache.Lemmas

/-! # Property C36: the verification cache is sound under every history -/

namespace Verif.Cache
open Verif

/-- The separator does not occur in a text. -/
def NoBar (s : PyStr) : Prop := '|' ∉ s

theorem split_bar {a b x y : PyStr} (ha : NoBar a) (hb : NoBar b) (h : a ++ '|' :: x = b ++ '|' :: y) : a = b ∧ x = y := by
  induction a generalizing b with
  | nil =>
    cases b with
    | nil => simpa using h
    | cons c b =>
      simp only [List.nil_append, List.cons_append, List.cons.injEq] at h
      exact absurd (List.mem_cons.mpr (.inl h.1)) hb
  | cons c a ih =>
    cases b with
    | nil =>
      simp only [List.nil_append, List.cons_append, List.cons.injEq] at h
      exact absurd (List.mem_cons.mpr (.inl h.1.symm)) ha
    | cons c' b =>
      simp only [List.cons_append, List.cons.injEq] at h
      obtain ⟨h1, h2⟩ := ih (b := b) (fun hc => ha (by simp [hc])) (fun hc => hb (by simp [hc])) h.2
      exact ⟨by rw [h.1, h1], h2⟩

theorem joinBar_inj {a b : List PyStr} (ha : ∀ s ∈ a, NoBar s) (hb : ∀ s ∈ b, NoBar s) (hna : a ≠ []) (hnb : b ≠ [])
    (h : joinBar a = joinBar b) : a = b := by
  induction a generalizing b with
  | nil => exact absurd rfl hna
  | cons s a ih =>
    cases b with
    | nil => exact absurd rfl hnb
    | cons t b =>
      cases a with
      | nil =>
        cases b with
        | nil => simpa [joinBar] using h
        | cons u b =>
          simp only [joinBar] at h
          exact absurd (by rw [h]; simp) (ha s (by simp))
      | cons s' a =>
        cases b with
        | nil =>
          simp only [joinBar] at h
          exact absurd (by rw [← h]; simp) (hb t (by simp))
        | cons u b =>
          simp only [joinBar] at h
          obtain ⟨h1, h2⟩ := split_bar (ha s (by simp)) (hb t (by simp)) h
          rw [h1, ih (fun x hx => ha x (by simp [hx])) (fun x hx => hb x (by simp [hx])) (by simp) (by simp) h2]

/-- The digests of the texts of the messages in `vs` and of `m` differ if the texts differ. -/
def NoCollision (md5 : PyStr → PyStr) (vs : List (PyStr × Msg)) (version : PyStr) (m : Msg) : Prop :=
  ∀ v m', (v, m') ∈ vs → md5 (hashInput v m') = md5 (hashInput version m) → hashInput v m' = hashInput version m

/-- After any history of any number of processes, of any versions of the tool, including interruptions: if a process
skips the proofs of a message, then the user asked for it or a message of the same full name, printed form and printed
types was verified before by the same version. -/
theorem C36_sound (md5 : PyStr → PyStr) (w : World) (hw : Reachable md5 w) (i : Nat) (p : Parser)
    (hp : w.procs i = some p) (m : Msg) (hskip : p.skipProof md5 m = true)
    (hcol : NoCollision md5 w.verified p.cache.version m) (hver : NoBar p.cache.version)
    (hvers : ∀ v m', (v, m') ∈ w.verified → NoBar v ∧ NoBar m'.text) (htext : NoBar m.text) :
    p.skipVerification = true ∨
    ∃ m', (p.cache.version, m') ∈ w.verified ∧ m'.fullName = m.fullName ∧ m'.text = m.text ∧
      joinBar m'.types = joinBar m.types := by
  simp only [Parser.skipProof, Bool.or_eq_true] at hskip
  rcases hskip with h | h
  · exact .inl h
  · refine .inr ?_
    simp only [Cache.isVerified] at h
    split at h
    · simp at h
    · split at h
      · rename_i x hx
        simp at h
        subst h
        obtain ⟨v, m', h1, h2, h3⟩ := ((reachable_inv hw).procs i p hp).2.2 _ _ (get_mem hx)
        have h4 := hcol v m' h1 h3.symm
        obtain ⟨h5, h6⟩ := split_bar (hvers v m' h1).1 hver h4
        obtain ⟨h7, h8⟩ := split_bar (hvers v m' h1).2 htext h6
        exact ⟨m', h5 ▸ h1, h2, h7, h8⟩
      · simp at h

/-- The printed types are the same one by one, unless one of the messages has no field. -/
theorem C36_types (a b : List PyStr) (ha : ∀ s ∈ a, NoBar s) (hb : ∀ s ∈ b, NoBar s) (hna : a ≠ []) (hnb : b ≠ [])
    (h : joinBar a = joinBar b) : a = b := joinBar_inj ha hb hna hnb h

/-- A message whose verification was skipped at the request of the user is not recorded: a process that skips the
verification never changes the file and never records a verification. -/
theorem C36_skipped_not_recorded (md5 : PyStr → PyStr) (w : World) (hw : Reachable md5 w) (i : Nat) (p : Parser)
    (hp : w.procs i = some p) (hs : p.skipVerification = true) (m : Msg) :
    (w.create md5 i p m).file = w.file ∧ (w.create md5 i p m).writing = w.writing ∧
      (w.create md5 i p m).verified = w.verified := by
  have he : p.cache.enabled = false := by
    cases hc : p.cache.enabled with
    | false => rfl
    | true => rw [((reachable_inv hw).procs i p hp).1 hc] at hs; cases hs
  simp [World.create, Cache.addVerified, he, Parser.skipProof, hs]

/-- The cache works: once a message was created with an enabled cache and the file was written without interference, a
new process of the same version that uses the cache skips the proofs. -/
theorem C36_hit (md5 : PyStr → PyStr) (w : World) (hw : Reachable md5 w) (i : Nat) (p : Parser)
    (hp : w.procs i = some p) (he : p.cache.enabled = true) (m : Msg) (t : PyStr)
    (ht : (w.create md5 i p m).writing i = some t) (hnot : w.writing i = none) (hmiss : p.cache.isVerified md5 m = false) :
    (w.create md5 i p m).file = some [] ∧
    (Parser.new false true p.cache.version (some t)).skipProof md5 m = true := by
  have hs := ((reachable_inv hw).procs i p hp).2
  have h1 : (p.cache.addVerified md5 m) = ({ p.cache with verification := (set p.cache.verification m.fullName
      (messageHash md5 p.cache.version m)) }, true) := by
    simp only [Cache.addVerified, he]
    simp only [Cache.isVerified, he] at hmiss
    cases hg : get? p.cache.verification m.fullName with
    | none => simp
    | some h =>
      rw [hg] at hmiss
      simp at hmiss
      simp only [Bool.not_true, Bool.false_eq_true, if_false]
      rw [if_pos (by simpa using fun hc => hmiss hc.symm)]
  simp only [World.create, h1, if_pos, upd, Option.some.injEq] at ht
  subst ht
  refine ⟨by simp [World.create, h1], ?_⟩
  simp [Parser.new, Cache.new, Parser.skipProof, Cache.isVerified, load_dump (nodup_set hs.1 _ _), get_set]

/-! ## Example -/

/-- A message. -/
def exMsg : Msg := ⟨['P', ':', ':', 'M'], ['m', 's', 'g'], [['t', '1'], ['t', '2']]⟩

/-- Another message. -/
def exMsg2 : Msg := ⟨['P', ':', ':', 'N'], ['x'], []⟩

/-- Process 0 verifies `exMsg` and is interrupted while it writes; process 1 verifies it again and writes the file;
process 2 skips the proofs. -/
example : ∃ w, Reachable id w ∧ ∃ p, w.procs 2 = some p ∧ p.skipVerification = false ∧
    p.skipProof id exMsg = true ∧ p.skipProof id exMsg2 = false ∧ NoBar p.cache.version ∧
    (∀ v m', (v, m') ∈ w.verified → NoBar v ∧ NoBar m'.text) ∧ NoBar exMsg.text ∧
    NoCollision id w.verified p.cache.version exMsg := by
  have r0 := Reachable.initial (md5 := id)
  have r1 := r0.step (.start _ 0 false true ['1'] rfl)
  have r2 := r1.step (.create _ 0 _ exMsg rfl rfl)
  have r3 := r2.step (.partialFlush _ 0 _ 5 rfl rfl)
  have r4 := r3.step (.start _ 1 false true ['1'] rfl)
  have r5 := r4.step (.create _ 1 _ exMsg rfl rfl)
  have r6 := r5.step (.flush _ 1 _ rfl)
  have r7 := r6.step (.start _ 2 false true ['1'] rfl)
  refine ⟨_, r7, _, rfl, by decide, by decide, by decide, by unfold NoBar; decide, ?_, by unfold NoBar; decide,
    fun _ _ _ h => h⟩
  intro v m' h
  have : (v, m') = (['1'], exMsg) := by
    have h' : (v, m') ∈ [(['1'], exMsg), (['1'], exMsg)] := h
    simpa using h'
  simp only [Prod.mk.injEq] at this
  rw [this.1, this.2]
  exact ⟨by unfold NoBar; decide, by unfold NoBar; decide⟩

end Verif.Cache
