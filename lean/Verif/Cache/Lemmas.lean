import Verif.Cache.Model

/-! # Lemmas about the verification cache -/

namespace Verif.Cache
open Verif

/-! ## JSON -/

theorem readChars_plain {c : Char} (h1 : c ≠ '"') (h2 : c ≠ '\\') (cs : PyStr) :
    readChars (c :: cs) = (readChars cs).map fun r => (c :: r.1, r.2) := by
  rw [readChars.eq_def]
  split <;> simp_all

theorem readChars_dump (s r : PyStr) : readChars (jsonChars s ++ '"' :: r) = some (s, r) := by
  induction s with
  | nil => simp [jsonChars, readChars]
  | cons c s ih =>
    simp only [jsonChars]
    split
    · rename_i h; subst h
      simp only [List.cons_append, readChars, ih, Option.map_some]
    · split
      · rename_i h; subst h
        simp only [List.cons_append, readChars, ih, Option.map_some]
      · rename_i h1 h2
        rw [List.cons_append, readChars_plain h1 h2, ih, Option.map_some]

theorem readStr_dump (s r : PyStr) : readStr (jsonStr s ++ r) = some (s, r) := by
  simp only [jsonStr, List.cons_append, List.append_assoc, readStr]
  exact readChars_dump s r

theorem readEntry_dump (e : PyStr × PyStr) (r : PyStr) : readEntry (jsonEntry e ++ r) = some (e, r) := by
  simp only [readEntry, jsonEntry, List.append_assoc, List.cons_append, readStr_dump]

theorem readChars_ext (x : PyStr) : ∀ y s r, readChars x = some (s, r) → readChars (x ++ y) = some (s, r ++ y) := by
  fun_induction readChars x with
  | case1 => intro y s r h; simp at h
  | case2 cs => intro y s r h; simp at h; simp [readChars, h]
  | case3 cs ih =>
    intro y s r h
    simp only [Option.map_eq_some_iff, Prod.exists] at h
    obtain ⟨a, b, h1, h2⟩ := h
    simp only [Prod.mk.injEq] at h2
    simp only [List.cons_append, readChars, ih y a b h1, Option.map_some]
    simp [h2]
  | case4 cs ih =>
    intro y s r h
    simp only [Option.map_eq_some_iff, Prod.exists] at h
    obtain ⟨a, b, h1, h2⟩ := h
    simp only [Prod.mk.injEq] at h2
    simp only [List.cons_append, readChars, ih y a b h1, Option.map_some]
    simp [h2]
  | case5 => intro y s r h; simp at h
  | case6 c cs h1 h2 h3 h4 ih =>
    intro y s r h
    simp only [Option.map_eq_some_iff, Prod.exists] at h
    obtain ⟨a, b, h5, h6⟩ := h
    simp only [Prod.mk.injEq] at h6
    rw [List.cons_append, readChars_plain (fun hc => h1 hc) (by rintro rfl; exact h4 rfl), ih y a b h5]
    simp [h6]

theorem readStr_ext {x s r : PyStr} (h : readStr x = some (s, r)) (y : PyStr) : readStr (x ++ y) = some (s, r ++ y) := by
  unfold readStr at h
  split at h
  · exact readChars_ext _ y s r h
  · simp at h

theorem readEntry_ext {x r : PyStr} {e : PyStr × PyStr} (h : readEntry x = some (e, r)) (y : PyStr) :
    readEntry (x ++ y) = some (e, r ++ y) := by
  unfold readEntry at h
  split at h
  · rename_i k s hk
    split at h
    · rename_i v s' hv
      simp only [Option.some.injEq, Prod.mk.injEq] at h
      obtain ⟨rfl, rfl⟩ := h
      simp only [readEntry, readStr_ext hk y, List.cons_append, readStr_ext hv y]
    · simp at h
  · simp at h

theorem readTail_ext (k : Nat) : ∀ s d d' y k', readTail k s d = some d' → y ≠ [] → readTail k' (s ++ y) d = none := by
  induction k with
  | zero => intro s d d' y k' h; simp [readTail] at h
  | succ k ih =>
    intro s d d' y k' h hy
    cases k' with
    | zero => rfl
    | succ k' =>
      simp only [readTail] at h
      split at h
      · cases y with
        | nil => exact absurd rfl hy
        | cons c y => simp [readTail]
      · rename_i s'
        split at h
        · rename_i e s'' he
          simp only [List.cons_append, readTail, readEntry_ext he y]
          exact ih _ _ _ _ _ h hy
        · simp at h
      · simp at h

/-- No text that can be read is the beginning of another one. -/
theorem load_ext {x : PyStr} {d : Dict} (h : load x = some d) {y : PyStr} (hy : y ≠ []) : load (x ++ y) = none := by
  unfold load at h
  split at h
  · cases y with
    | nil => exact absurd rfl hy
    | cons c y => simp [load, readEntry, readStr]
  · rename_i s hs
    split at h
    · rename_i e s' he
      have hs' : s ++ y ≠ ['}'] := by
        intro hc
        cases s with
        | nil => simp [readEntry, readStr] at he
        | cons c s =>
          simp only [List.cons_append, List.cons.injEq, List.append_eq_nil_iff] at hc
          exact hy hc.2.2
      rw [load.eq_def]
      split
      · rename_i hc
        simp only [List.cons_append, List.cons.injEq, true_and] at hc
        exact absurd hc hs'
      · rename_i s'' _ hc
        simp only [List.cons_append, List.cons.injEq, true_and] at hc
        subst hc
        rw [readEntry_ext he y]
        exact readTail_ext _ _ _ _ _ _ h hy
      · rfl
    · simp at h
  · simp at h

/-- No key twice. -/
def Nodup (d : Dict) : Prop := (d.map (·.1)).Nodup

theorem set_fresh {d : Dict} {k v : PyStr} (h : k ∉ d.map (·.1)) : set d k v = d ++ [(k, v)] := by
  induction d with
  | nil => rfl
  | cons e d ih =>
    simp only [List.map_cons, List.mem_cons, not_or] at h
    simp only [set]
    rw [if_neg (by simpa using fun hc => h.1 hc.symm), ih h.2]
    rfl

theorem readTail_dump (d : Dict) : ∀ k acc, d.length < k → Nodup (acc ++ d) →
    readTail k (jsonTail d) acc = some (acc ++ d) := by
  induction d with
  | nil =>
    intro k acc hk _
    obtain ⟨k, rfl⟩ : ∃ j, k = j + 1 := ⟨k - 1, by simp at hk; omega⟩
    simp [readTail, jsonTail]
  | cons e d ih =>
    intro k acc hk hn
    obtain ⟨k, rfl⟩ : ∃ j, k = j + 1 := ⟨k - 1, by simp at hk; omega⟩
    have hf : e.1 ∉ acc.map (·.1) := by
      unfold Nodup at hn
      rw [List.map_append, List.nodup_append] at hn
      intro hc
      exact hn.2.2 e.1 hc e.1 (by simp) rfl
    simp only [jsonTail, readTail, readEntry_dump, set_fresh hf]
    rw [ih k _ (by simp at hk; omega) (by simpa [Nodup] using hn)]
    simp

theorem length_tail (d : Dict) : d.length < (jsonTail d).length := by
  induction d with
  | nil => simp [jsonTail]
  | cons e d ih => simp only [jsonTail, List.length_cons, List.length_append]; omega

theorem load_dump {d : Dict} (h : Nodup d) : load (dump d) = some d := by
  cases d with
  | nil => rfl
  | cons e d =>
    simp only [dump]
    rw [load.eq_def]
    split
    · rename_i hc
      simp only [jsonEntry, jsonStr, List.cons_append, List.cons.injEq, true_and] at hc
      exact absurd hc.1 (by decide)
    · rename_i s _ hc
      simp only [List.cons.injEq, true_and] at hc
      subst hc
      rw [readEntry_dump]
      have := readTail_dump d ((jsonTail d).length + 1) [e] (by have := length_tail d; omega) (by simpa using h)
      simpa using this
    · rename_i h1 h2
      exact absurd rfl (h2 _)

/-! ## Dictionaries -/

theorem get_mem {d : Dict} {k v : PyStr} (h : get? d k = some v) : (k, v) ∈ d := by
  simp only [get?, Option.map_eq_some_iff] at h
  obtain ⟨e, h1, rfl⟩ := h
  have h2 := List.find?_some h1
  simp at h2
  subst h2
  exact List.mem_of_find?_eq_some h1

theorem mem_set {d : Dict} {k v : PyStr} {e : PyStr × PyStr} (h : e ∈ set d k v) : e ∈ d ∨ e = (k, v) := by
  induction d with
  | nil => simpa [set] using h
  | cons x d ih =>
    simp only [set] at h
    split at h
    · rcases List.mem_cons.mp h with h | h
      · exact .inr h
      · exact .inl (by simp [h])
    · rcases List.mem_cons.mp h with h | h
      · exact .inl (by simp [h])
      · rcases ih h with h | h
        · exact .inl (by simp [h])
        · exact .inr h

theorem keys_set (d : Dict) (k v : PyStr) :
    (set d k v).map (·.1) = if k ∈ d.map (·.1) then d.map (·.1) else d.map (·.1) ++ [k] := by
  induction d with
  | nil => rfl
  | cons e d ih =>
    simp only [set]
    split
    · rename_i h; simp at h; simp [h]
    · rename_i h
      simp at h
      rw [List.map_cons, ih]
      by_cases hk : k ∈ d.map (·.1)
      · rw [if_pos hk, if_pos (by simp only [List.map_cons, List.mem_cons]; exact .inr hk)]; rfl
      · rw [if_neg hk, if_neg (by simp only [List.map_cons, List.mem_cons, not_or]; exact ⟨fun h' => h h'.symm, hk⟩)]; rfl

theorem nodup_set {d : Dict} (h : Nodup d) (k v : PyStr) : Nodup (set d k v) := by
  unfold Nodup
  rw [keys_set]
  split
  · exact h
  · rename_i hk
    rw [List.nodup_append]
    refine ⟨h, by simp, ?_⟩
    intro a ha b hb hab
    simp at hb
    subst hb hab
    exact hk ha

theorem get_set (d : Dict) (k v : PyStr) : get? (set d k v) k = some v := by
  induction d with
  | nil => simp [set, get?]
  | cons e d ih =>
    simp only [set]
    split
    · simp [get?]
    · rename_i h
      simp only [get?, List.find?_cons] at ih ⊢
      have h' : (e.1 == k) = false := by simpa using h
      rw [h']
      exact ih

/-! ## Histories -/

/-- All entries belong to verified messages. -/
def Sound (md5 : PyStr → PyStr) (vs : List (PyStr × Msg)) (d : Dict) : Prop :=
  Nodup d ∧ ∀ k h, (k, h) ∈ d → ∃ v m, (v, m) ∈ vs ∧ m.fullName = k ∧ h = messageHash md5 v m

theorem Sound.mono {md5 : PyStr → PyStr} {vs vs' : List (PyStr × Msg)} {d : Dict} (h : Sound md5 vs d)
    (hs : ∀ e ∈ vs, e ∈ vs') : Sound md5 vs' d :=
  ⟨h.1, fun k x hx => by obtain ⟨v, m, h1, h2⟩ := h.2 k x hx; exact ⟨v, m, hs _ h1, h2⟩⟩

theorem Sound.nil (md5 : PyStr → PyStr) (vs : List (PyStr × Msg)) : Sound md5 vs [] := ⟨by simp [Nodup], by simp⟩

/-- What every history preserves. -/
structure Inv (md5 : PyStr → PyStr) (w : World) : Prop where
  file : ∀ t, w.file = some t → t = [] ∨ (∃ d, Sound md5 w.verified d ∧ ((∃ r, t = dump d ++ r) ∨ ∃ r, dump d = t ++ r))
  procs : ∀ i p, w.procs i = some p → (p.cache.enabled = true → p.skipVerification = false) ∧
    Sound md5 w.verified p.cache.verification
  writing : ∀ i t, w.writing i = some t → ∃ d, Sound md5 w.verified d ∧ t = dump d

theorem load_sound {md5 : PyStr → PyStr} {w : World} (h : Inv md5 w) :
    Sound md5 w.verified ((w.file.bind load).getD []) := by
  cases hf : w.file with
  | none => exact Sound.nil _ _
  | some t =>
    simp only [Option.bind_some]
    cases hl : load t with
    | none => exact Sound.nil _ _
    | some d' =>
      simp only [Option.getD_some]
      rcases h.file t hf with rfl | ⟨d, hd, ⟨r, rfl⟩ | ⟨r, hr⟩⟩
      · simp [load] at hl
      · cases r with
        | nil =>
          rw [List.append_nil, load_dump hd.1] at hl
          simp at hl; exact hl ▸ hd
        | cons c r =>
          rw [load_ext (load_dump hd.1) (by simp)] at hl
          simp at hl
      · cases r with
        | nil =>
          rw [List.append_nil] at hr
          rw [← hr, load_dump hd.1] at hl
          simp at hl; exact hl ▸ hd
        | cons c r =>
          have := load_ext hl (y := c :: r) (by simp)
          rw [← hr, load_dump hd.1] at this
          simp at this

theorem addVerified_sound {md5 : PyStr → PyStr} {vs : List (PyStr × Msg)} {c : Cache} {m : Msg}
    (h : Sound md5 vs c.verification) (hv : c.enabled = true → c.isVerified md5 m = false → (c.version, m) ∈ vs) :
    Sound md5 vs (c.addVerified md5 m).1.verification := by
  have hset : c.enabled = true → c.isVerified md5 m = false →
      Sound md5 vs (set c.verification m.fullName (messageHash md5 c.version m)) := by
    intro h1 h2
    refine ⟨nodup_set h.1 _ _, ?_⟩
    intro k x hx
    rcases mem_set hx with hx | hx
    · exact h.2 k x hx
    · simp only [Prod.mk.injEq] at hx
      exact ⟨c.version, m, hv h1 h2, hx.1.symm, hx.2⟩
  simp only [Cache.addVerified]
  split
  · exact h
  · rename_i he
    simp at he
    split
    · rename_i h' hg
      split
      · rename_i hne
        refine hset he ?_
        simp only [Cache.isVerified, he, hg]
        simp at hne ⊢
        exact fun hc => hne hc.symm
      · exact h
    · rename_i hg
      exact hset he (by simp [Cache.isVerified, he, hg])

theorem addVerified_enabled {md5 : PyStr → PyStr} {c : Cache} {m : Msg} : (c.addVerified md5 m).1.enabled = c.enabled := by
  simp only [Cache.addVerified]
  repeat (first | split | rfl)

theorem inv_step {md5 : PyStr → PyStr} {w w' : World} (h : Inv md5 w) (hs : Step md5 w w') : Inv md5 w' := by
  cases hs with
  | start i skip cached version hp =>
    refine ⟨h.file, ?_, h.writing⟩
    intro j p hj
    simp only [upd] at hj
    split at hj
    · simp only [Option.some.injEq] at hj
      subst hj
      simp only [Parser.new, Cache.new]
      constructor
      · split
        · rename_i he; simp at he; intro _; exact he.1
        · simp
      · split
        · exact load_sound h
        · exact Sound.nil _ _
    · exact h.procs j p hj
  | create i p m hp hw =>
    obtain ⟨h1, h2⟩ := h.procs i p hp
    have hsub : ∀ e ∈ w.verified, e ∈ (w.create md5 i p m).verified := by
      intro e he
      simp only [World.create]
      split
      · exact he
      · simp [he]
    have hnew : Sound md5 (w.create md5 i p m).verified (p.cache.addVerified md5 m).1.verification := by
      refine addVerified_sound (h2.mono hsub) ?_
      intro he hv
      simp [World.create, Parser.skipProof, h1 he, hv]
    refine ⟨?_, ?_, ?_⟩
    · intro t ht
      simp only [World.create] at ht
      split at ht
      · simp at ht; exact .inl ht
      · rcases h.file t ht with h3 | ⟨d, h3, h4⟩
        · exact .inl h3
        · exact .inr ⟨d, h3.mono hsub, h4⟩
    · intro j q hj
      simp only [World.create, upd] at hj
      split at hj
      · simp only [Option.some.injEq] at hj
        subst hj
        exact ⟨by simp only [addVerified_enabled]; exact h1, hnew⟩
      · exact ⟨(h.procs j q hj).1, (h.procs j q hj).2.mono hsub⟩
    · intro j t hj
      simp only [World.create] at hj
      split at hj
      · simp only [upd] at hj
        split at hj
        · simp only [Option.some.injEq] at hj
          exact ⟨_, hnew, hj.symm⟩
        · obtain ⟨d, h3, h4⟩ := h.writing j t hj
          exact ⟨d, h3.mono hsub, h4⟩
      · obtain ⟨d, h3, h4⟩ := h.writing j t hj
        exact ⟨d, h3.mono hsub, h4⟩
  | flush i t hw =>
    refine ⟨?_, h.procs, ?_⟩
    · intro t' ht'
      simp only [Option.map_eq_some_iff] at ht'
      obtain ⟨old, _, rfl⟩ := ht'
      obtain ⟨d, h1, rfl⟩ := h.writing i t hw
      exact .inr ⟨d, h1, .inl ⟨_, rfl⟩⟩
    · intro j t' hj
      simp only [upd] at hj
      split at hj
      · simp at hj
      · exact h.writing j t' hj
  | partialFlush i t n hw hf =>
    refine ⟨?_, ?_, ?_⟩
    · intro t' ht'
      simp only [Option.some.injEq] at ht'
      subst ht'
      obtain ⟨d, h1, rfl⟩ := h.writing i t hw
      exact .inr ⟨d, h1, .inr ⟨(dump d).drop n, (List.take_append_drop n _).symm⟩⟩
    · intro j p hj
      simp only [upd] at hj
      split at hj
      · simp at hj
      · exact h.procs j p hj
    · intro j t' hj
      simp only [upd] at hj
      split at hj
      · simp at hj
      · exact h.writing j t' hj
  | stop i =>
    refine ⟨h.file, ?_, ?_⟩
    · intro j p hj
      simp only [upd] at hj
      split at hj
      · simp at hj
      · exact h.procs j p hj
    · intro j t' hj
      simp only [upd] at hj
      split at hj
      · simp at hj
      · exact h.writing j t' hj
  | delete => exact ⟨by simp, h.procs, h.writing⟩

theorem reachable_inv {md5 : PyStr → PyStr} {w : World} (h : Reachable md5 w) : Inv md5 w := by
  induction h with
  | initial => exact ⟨by simp [World.initial], by simp [World.initial], by simp [World.initial]⟩
  | step _ hs ih => exact inv_step ih hs

end Verif.Cache
