import Verif.Checksum.Model

/-! # Property C24: the internet checksum -/

namespace Verif.Checksum

open Verif Verif.Bits

/-! ## Specification (RFC 1071) -/

/-- The big-endian 16-bit words of an even number of bytes. -/
def Spec.words : List Byte → List Nat
  | a :: b :: bs => (a.val * 256 + b.val) :: Spec.words bs
  | _ => []

/-- Fold the carries above 16 bits back into the low 16 bits until none is left. -/
def Spec.foldCarries (s : Nat) : Nat :=
  if h : s < 65536 then s else Spec.foldCarries (s % 65536 + s / 65536)
termination_by s
decreasing_by omega

/-- The one's complement of the one's complement sum. -/
def Spec.rfc1071 (ws : List Nat) : Nat := 65535 - Spec.foldCarries ws.sum

/-! ## Lemmas -/

/-- The representative of `s` modulo `2^16 - 1` that is zero only for zero. -/
def norm (s : Nat) : Nat := if s = 0 then 0 else (s - 1) % 65535 + 1

theorem norm_lt (s : Nat) : norm s < 65536 := by unfold norm; split <;> omega

theorem norm_small {s : Nat} (h : s < 65536) : norm s = s := by unfold norm; split <;> omega

theorem addOnes_norm (s b : Nat) (hb : b < 65536) : addOnes (norm s) b = norm (s + b) := by
  simp only [addOnes, norm]
  split <;> split <;> split <;> omega

theorem norm_inj (p q w w' : Nat) (hw : w < 65536) (hw' : w' < 65536)
    (h : norm (p + w + q) = norm (p + w' + q)) :
    w = w' ∨ (w = 0 ∧ w' = 65535) ∨ (w = 65535 ∧ w' = 0) := by
  unfold norm at h
  split at h <;> split at h
  · omega
  · omega
  · omega
  · by_cases hle : w ≤ w'
    · have h3 : (p + w' + q - 1 - (p + w + q - 1)) % 65535 = 0 :=
        Nat.sub_mod_eq_zero_of_mod_eq (by omega)
      omega
    · have h3 : (p + w + q - 1 - (p + w' + q - 1)) % 65535 = 0 :=
        Nat.sub_mod_eq_zero_of_mod_eq (by omega)
      omega

theorem foldl_norm (ws : List Nat) (h : ∀ w ∈ ws, w < 65536) (s : Nat) :
    ws.foldl addOnes (norm s) = norm (s + ws.sum) := by
  induction ws generalizing s with
  | nil => simp
  | cons w ws ih =>
    rw [List.foldl_cons, addOnes_norm s w (h w (by simp)), ih (fun x hx => h x (by simp [hx])),
      List.sum_cons, Nat.add_assoc]

theorem foldCarries_eq (s : Nat) : Spec.foldCarries s = norm s := by
  induction s using Nat.strongRecOn with
  | ind s ih =>
    unfold Spec.foldCarries
    split
    · rename_i h; exact (norm_small h).symm
    · rw [ih _ (by omega)]; unfold norm; split <;> split <;> omega

theorem xor_compl (x : Nat) (h : x < 65536) : x ^^^ 0xFFFF = 65535 - x := by
  have h1 : (BitVec.ofNat 16 x ^^^ BitVec.allOnes 16).toNat = 65535 - x := by
    rw [BitVec.xor_allOnes, BitVec.toNat_not, BitVec.toNat_ofNat, Nat.mod_eq_of_lt h]
  rw [BitVec.toNat_xor, BitVec.toNat_ofNat, Nat.mod_eq_of_lt h, BitVec.toNat_allOnes] at h1
  exact h1

theorem words_lt (bs : List Byte) : ∀ w ∈ Spec.words bs, w < 65536 := by
  induction bs using Spec.words.induct with
  | case1 a b bs ih =>
    intro w hw
    simp only [Spec.words, List.mem_cons] at hw
    have := a.isLt; have := b.isLt
    rcases hw with h | h
    · omega
    · exact ih w h
  | case2 bs h =>
    intro w hw
    match bs with
    | [] => simp [Spec.words] at hw
    | [_] => simp [Spec.words] at hw
    | a :: b :: l => exact (h a b l rfl).elim

theorem chunks_eq_words (bs : List Byte) (h : bs.length % 2 = 0) : chunks bs = Spec.words bs := by
  induction bs using Spec.words.induct with
  | case1 a b bs ih =>
    simp only [List.length_cons] at h
    simp only [chunks, Spec.words]
    rw [ih (by omega)]
    simp [bytesToNat, Nat.mul_comm]
  | case2 bs hn =>
    match bs with
    | [] => rfl
    | [_] => simp at h
    | a :: b :: l => exact (hn a b l rfl).elim

theorem words_append (as bs : List Byte) (h : as.length % 2 = 0) :
    Spec.words (as ++ bs) = Spec.words as ++ Spec.words bs := by
  induction as using Spec.words.induct with
  | case1 a b as ih =>
    simp only [List.length_cons] at h
    simp only [List.cons_append, Spec.words]
    rw [ih (by omega)]
  | case2 as hn =>
    match as with
    | [] => rfl
    | [_] => simp at h
    | a :: b :: l => exact (hn a b l rfl).elim

theorem checksum_eq_norm {bs : List Byte} (h : bs.length % 2 = 0) (hne : bs ≠ []) :
    internetChecksum bs = .ok (65535 - norm (Spec.words bs).sum) := by
  have hw := words_lt bs
  unfold internetChecksum
  rw [chunks_eq_words bs h]
  match bs, hne with
  | [_], _ => simp at h
  | a :: b :: l, _ =>
    simp only [Spec.words] at hw ⊢
    have h0 := hw _ (List.mem_cons_self ..)
    have hf := foldl_norm (Spec.words l) (fun w hx => hw w (by simp [hx])) (a.val * 256 + b.val)
    rw [norm_small h0] at hf
    rw [hf, xor_compl _ (norm_lt _), List.sum_cons]

/-! ## Theorems -/

/-- The function computes the RFC 1071 checksum of every non-empty message with an even number of
bytes. -/
theorem C24_rfc1071 (bs : List Byte) (h : bs.length % 2 = 0) (hne : bs ≠ []) :
    internetChecksum bs = .ok (Spec.rfc1071 (Spec.words bs)) := by
  rw [checksum_eq_norm h hne, Spec.rfc1071, foldCarries_eq]

/-- A message whose checksum word (anywhere, bytes `hi` and `lo` between `pre` and `post`) holds the
checksum computed with that word set to zero has checksum zero. -/
theorem C24_verifies (pre post : List Byte) (hpre : pre.length % 2 = 0) (hpost : post.length % 2 = 0)
    (hi lo : Byte)
    (hc : internetChecksum (pre ++ [0, 0] ++ post) = .ok (hi.val * 256 + lo.val)) :
    internetChecksum (pre ++ [hi, lo] ++ post) = .ok 0 := by
  have hlen (x y : Byte) : (pre ++ [x, y] ++ post).length % 2 = 0 := by simp; omega
  have hw (x y : Byte) : (Spec.words (pre ++ [x, y] ++ post)).sum
      = (Spec.words pre).sum + (x.val * 256 + y.val) + (Spec.words post).sum := by
    rw [words_append _ _ (by simp; omega), words_append _ _ hpre]
    simp [Spec.words, Nat.add_assoc]
  rw [checksum_eq_norm (hlen _ _) (by simp), hw] at hc
  rw [checksum_eq_norm (hlen _ _) (by simp), hw]
  simp only [Except.ok.injEq] at hc ⊢
  have h0 : (0 : Byte).val = 0 := rfl
  rw [h0] at hc
  rw [← hc]
  have := norm_lt ((Spec.words pre).sum + (0 * 256 + 0) + (Spec.words post).sum)
  revert this
  unfold norm
  split <;> split <;> omega

/-- The checksum always fits into the checksum word, so the message of `C24_verifies` always exists. -/
theorem C24_fits (pre post : List Byte) (hpre : pre.length % 2 = 0) (hpost : post.length % 2 = 0) :
    ∃ hi lo : Byte, internetChecksum (pre ++ [0, 0] ++ post) = .ok (hi.val * 256 + lo.val) := by
  refine ⟨⟨(65535 - norm (Spec.words (pre ++ [0, 0] ++ post)).sum) / 256, by omega⟩,
    ⟨(65535 - norm (Spec.words (pre ++ [0, 0] ++ post)).sum) % 256, by omega⟩, ?_⟩
  rw [checksum_eq_norm (by simp; omega) (by simp)]
  congr 1
  simp only
  omega

/-- The order of the words does not matter. -/
theorem C24_word_order (as bs : List Byte) (ha : as.length % 2 = 0) (hb : bs.length % 2 = 0)
    (hp : (Spec.words as).Perm (Spec.words bs)) : internetChecksum as = internetChecksum bs := by
  by_cases hn : as = []
  · subst hn
    match bs with
    | [] => rfl
    | [_] => simp at hb
    | a :: b :: l => simp [Spec.words] at hp
  · have hn' : bs ≠ [] := by
      rintro rfl
      match as, hn with
      | [_], _ => simp at ha
      | a :: b :: l, _ => simp [Spec.words] at hp
    rw [checksum_eq_norm ha hn, checksum_eq_norm hb hn', hp.sum_nat]

/-- Changing one word changes the checksum, unless the change is from `0x0000` to `0xFFFF` or back
(the two representations of zero). -/
theorem C24_detects_word_change (pre post : List Byte) (hpre : pre.length % 2 = 0)
    (hpost : post.length % 2 = 0) (a b a' b' : Byte)
    (h : internetChecksum (pre ++ [a, b] ++ post) = internetChecksum (pre ++ [a', b'] ++ post)) :
    (a = a' ∧ b = b') ∨ (a = 0 ∧ b = 0 ∧ a' = 255 ∧ b' = 255)
      ∨ (a = 255 ∧ b = 255 ∧ a' = 0 ∧ b' = 0) := by
  have hlen (x y : Byte) : (pre ++ [x, y] ++ post).length % 2 = 0 := by simp; omega
  have hw (x y : Byte) : (Spec.words (pre ++ [x, y] ++ post)).sum
      = (Spec.words pre).sum + (x.val * 256 + y.val) + (Spec.words post).sum := by
    rw [words_append _ _ (by simp; omega), words_append _ _ hpre]
    simp [Spec.words, Nat.add_assoc]
  rw [checksum_eq_norm (hlen _ _) (by simp), checksum_eq_norm (hlen _ _) (by simp), hw, hw] at h
  simp only [Except.ok.injEq] at h
  have h1 := norm_lt ((Spec.words pre).sum + (a.val * 256 + b.val) + (Spec.words post).sum)
  have h2 := norm_lt ((Spec.words pre).sum + (a'.val * 256 + b'.val) + (Spec.words post).sum)
  have e0 : (0 : Byte).val = 0 := rfl
  have e1 : (255 : Byte).val = 255 := rfl
  simp only [Fin.ext_iff, e0, e1]
  have ha := a.isLt; have hb := b.isLt; have ha' := a'.isLt; have hb' := b'.isLt
  have := norm_inj (Spec.words pre).sum (Spec.words post).sum (a.val * 256 + b.val)
    (a'.val * 256 + b'.val) (by omega) (by omega) (by omega)
  omega

/-- No byte string of even length makes the function raise, except the empty one. -/
theorem C24_raises_iff (bs : List Byte) : (∃ e, internetChecksum bs = .error e) ↔ bs = [] := by
  constructor
  · rintro ⟨e, he⟩
    match bs with
    | [] => rfl
    | [_] => simp [internetChecksum, chunks] at he
    | a :: b :: l => simp [internetChecksum, chunks] at he
  · rintro rfl; exact ⟨_, rfl⟩

/-- With an odd number of bytes the function is not the RFC 1071 checksum, which pads the message with
a zero byte at the end: the last byte is taken as the low byte of a word. -/
theorem C24_odd_length_counterexample :
    internetChecksum [1] = .ok 0xFFFE ∧ Spec.rfc1071 (Spec.words [1, 0]) = 0xFEFF := by
  constructor
  · rfl
  · unfold Spec.rfc1071 Spec.foldCarries; decide

/-- The cases are met: the ICMP header of an echo request. -/
example : internetChecksum ([8, 0] ++ [0, 0] ++ [0, 1, 0, 9]) = .ok ((247 : Byte).val * 256 + (245 : Byte).val) := rfl
example : internetChecksum ([8, 0] ++ [247, 245] ++ [0, 1, 0, 9]) = .ok 0 :=
  C24_verifies [8, 0] [0, 1, 0, 9] rfl rfl 247 245 rfl
example : (Spec.words [1, 2, 3, 4]).Perm (Spec.words [3, 4, 1, 2]) := by decide

end Verif.Checksum
