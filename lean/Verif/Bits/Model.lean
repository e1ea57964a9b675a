import Verif.Py.Basic

/-!
# `rflx/pyrflx/bitstring.py`

A Python `str` of the characters `0` and `1` is modelled as a `List Bool` (most significant bit
first) once it passed the constructor check; the constructor itself is modelled on `List Char`.
Bytes are `Fin 256`.
-/

namespace Verif.Bits

open Verif

/-- One octet of a Python `bytes` object. -/
abbrev Byte := Fin 256

/-- Value of a binary digit string, `int(s, 2)` for non-empty `s`
(used at `rflx/pyrflx/bitstring.py:31,40`). -/
def bitsToNat (bs : List Bool) : Nat := bs.foldl (fun acc b => 2 * acc + b.toNat) 0

/-- `int.from_bytes(msg, "big")` (used at `rflx/pyrflx/bitstring.py:48`). -/
def bytesToNat (bs : List Byte) : Nat := bs.foldl (fun acc b => 256 * acc + b.val) 0

/-- Binary digits of `n` without leading zeros, `0` giving `"0"`: Python `format(n, "b")`.
Used by `rflx/pyrflx/bitstring.py:48`. The accumulator builds the digits from the right. -/
def binDigitsAux (n : Nat) (acc : List Bool) : List Bool :=
  if h : n < 2 then (decide (n = 1)) :: acc
  else binDigitsAux (n / 2) (decide (n % 2 = 1) :: acc)
termination_by n
decreasing_by omega

/-- Python `format(n, "b")`, `rflx/pyrflx/bitstring.py:48`. -/
def binDigits (n : Nat) : List Bool := binDigitsAux n []

/-- Python `format(n, f"0{w}b")`: at least `w` digits, padded with zeros on the left,
`rflx/pyrflx/bitstring.py:48`. For `w = 0` the format string is `"00b"`, i.e. no padding. -/
def formatBin (w n : Nat) : List Bool :=
  let d := binDigits n
  List.replicate (w - d.length) false ++ d

/-- `Bitstring`, `rflx/pyrflx/bitstring.py:6-10`; `_bits` after validation. -/
structure Bitstring where
  bits : List Bool
  deriving DecidableEq, Repr

/-- `Bitstring.valid_bitstring`, `rflx/pyrflx/bitstring.py:50-52`. -/
def validBitstring (s : List Char) : Bool := s.all (fun c => c = '0' || c = '1')

/-- `Bitstring.__init__`, `rflx/pyrflx/bitstring.py:7-10`. -/
def Bitstring.init (s : List Char) : Py Bitstring :=
  if validBitstring s then .ok ⟨s.map (fun c => decide (c = '1'))⟩ else .error .pyrflx

/-- `Bitstring.__str__`, `rflx/pyrflx/bitstring.py:27-28`. -/
def Bitstring.str (b : Bitstring) : List Char := b.bits.map (fun x => if x then '1' else '0')

/-- `Bitstring.__add__`, `rflx/pyrflx/bitstring.py:12-13`. (`__iadd__` at 15-17 has the same
value; its in-place effect on `self` is only used by `join` on a fresh object.) -/
def Bitstring.add (a b : Bitstring) : Bitstring := ⟨a.bits ++ b.bits⟩

/-- Python slice `s[start:stop]` on a list for non-negative bounds (`rflx/pyrflx/bitstring.py:22`). -/
def pySlice {α : Type} (l : List α) (start stop : Nat) : List α := (l.take stop).drop start

/-- `Bitstring.__getitem__` with a slice `[start:stop]` of non-negative ints,
`rflx/pyrflx/bitstring.py:19-22`; `stop = none` models `[start:]`. Negative indices and plain int
keys are not used by the modelled callers. -/
def Bitstring.slice (b : Bitstring) (start : Nat) (stop : Option Nat) : Py Bitstring :=
  match stop with
  | some e => if b.bits.length < e then .error .indexError else .ok ⟨pySlice b.bits start e⟩
  | none => .ok ⟨b.bits.drop start⟩

/-- `Bitstring.__int__`, `rflx/pyrflx/bitstring.py:30-31`; `int("", 2)` raises `ValueError`. -/
def Bitstring.toInt (b : Bitstring) : Py Nat :=
  if b.bits.isEmpty then .error .valueError else .ok (bitsToNat b.bits)

/-- The chunks `self._bits[i : i + 8] for i in range(0, len, 8)`,
`rflx/pyrflx/bitstring.py:40`. -/
def chunks8 (l : List Bool) : List (List Bool) :=
  if h : l = [] then [] else l.take 8 :: chunks8 (l.drop 8)
termination_by l.length
decreasing_by
  have : 0 < l.length := List.length_pos_iff.mpr h
  simp only [List.length_drop]; omega

/-- `int(chunk, 2).to_bytes(1, "big")`, `rflx/pyrflx/bitstring.py:40`. A chunk has at most eight
bits, so `to_bytes` cannot overflow; the `% 256` only makes the function total. -/
def chunkByte (c : List Bool) : Byte := ⟨bitsToNat c % 256, Nat.mod_lt _ (by decide)⟩

/-- `Bitstring.__bytes__`, `rflx/pyrflx/bitstring.py:38-41`. -/
def Bitstring.toBytes (b : Bitstring) : List Byte := (chunks8 b.bits).map chunkByte

/-- `Bitstring.__len__`, `rflx/pyrflx/bitstring.py:43-44`. -/
def Bitstring.len (b : Bitstring) : Nat := b.bits.length

/-- `Bitstring.from_bytes`, `rflx/pyrflx/bitstring.py:46-48`. -/
def Bitstring.fromBytes (msg : List Byte) : Bitstring :=
  ⟨formatBin (msg.length * 8) (bytesToNat msg)⟩

/-- `Bitstring.join`, `rflx/pyrflx/bitstring.py:54-60`. -/
def Bitstring.join (l : List Bitstring) : Bitstring := l.foldl Bitstring.add ⟨[]⟩

end Verif.Bits
