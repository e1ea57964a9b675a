import Verif.Bits.Model

/-! # Model of `rflx/pyrflx/utils.py` -/

namespace Verif.Checksum

open Verif.Bits

/-- `add_ones_complement`, `rflx/pyrflx/utils.py:2-5`. -/
def addOnes (a b : Nat) : Nat :=
  let mod := 2 ^ 16
  let result := a + b
  if result < mod then result else (result + 1) % mod

/-- `[int.from_bytes(checksum_bytes[i : i + 2], "big") for i in range(0, len(checksum_bytes), 2)]`,
`rflx/pyrflx/utils.py:7-9`. The last chunk of an odd number of bytes has one byte. -/
def chunks : List Byte → List Nat
  | [] => []
  | [a] => [bytesToNat [a]]
  | a :: b :: bs => bytesToNat [a, b] :: chunks bs

/-- `internet_checksum`, `rflx/pyrflx/utils.py:1-16`. `message_in_sixteen_bit_chunks[0]` of no chunks
raises `IndexError`. -/
def internetChecksum (bytes : List Byte) : Py Nat :=
  match chunks bytes with
  | [] => .error .indexError
  | c :: cs => .ok (cs.foldl addOnes c ^^^ 0xFFFF)

end Verif.Checksum
