import Verif.Spark.Basic

/-! # Reading and writing scalars (`rflx/templates/rflx_arithmetic.adb`, `rflx/templates/rflx_generic_types.adb`)

`Byte'Size` is 8 and `U64'Size` is 64 (`rflx/templates/rflx_generic_types.ads:20`, `rflx/templates/rflx_arithmetic.ads:7`).
Preconditions are checked; postconditions, assertions and loop invariants are not modelled. -/

namespace Verif.Spark

/-! ## Arithmetic -/

/-- `Pow2`, `rflx/templates/rflx_arithmetic.adb:7-8`, `rflx/templates/rflx_arithmetic.ads:11-15`. -/
def pow2 (exp : Nat) : Ada Nat := do
  pre (exp < 64)
  u64 (2 ^ exp)

/-- `Mod_Pow2`, `rflx/templates/rflx_arithmetic.adb:10-11`, `rflx/templates/rflx_arithmetic.ads:17-21`. -/
def modPow2 (value exp : Nat) : Ada Nat := do
  pre (exp < 64)
  return value % (← pow2 exp)

/-- `Right_Shift`, `rflx/templates/rflx_arithmetic.adb:44-50`, `rflx/templates/rflx_arithmetic.ads:23-31`; `Value_Size` is
`Positive`. -/
def rightShift (value valueSize length : Nat) : Ada Nat := do
  inRange (0 < valueSize)
  pre (valueSize ≤ 64 ∧ length < 64 ∧ length ≤ valueSize ∧ valueSize - length ≤ 63 ∧ (valueSize < 64 → value < 2 ^ valueSize))
  return value / (← pow2 length)

/-- `Left_Shift`, `rflx/templates/rflx_arithmetic.adb:52-58`, `rflx/templates/rflx_arithmetic.ads:33-47`; `Value_Size` is
`Positive`. -/
def leftShift (value valueSize length : Nat) : Ada Nat := do
  inRange (0 < valueSize)
  pre (valueSize ≤ 64 ∧ length < 64 ∧ 1 ≤ valueSize + length ∧ valueSize + length ≤ 64 ∧ (valueSize < 64 → value < 2 ^ valueSize))
  u64 (value * 2 ^ length)

/-! ## Extract -/

/-- `U64_Extract_Intermediate`, `rflx/templates/rflx_generic_types.adb:51-74`. -/
def extractIntermediate (dataCurrent dataNext lseSize lseOffset shiftLength : Nat) : Ada Nat := do
  pre (dataCurrent < 2 ^ 8 ∧ dataNext < 2 ^ 8 ∧ lseSize ≤ 8 ∧ lseOffset ≤ 7 ∧ shiftLength ≤ 56 ∧ lseSize + lseOffset = 8)
  let current ← rightShift dataCurrent 8 lseOffset
  let next ← (if 0 < lseOffset then do leftShift (dataNext % (← pow2 lseOffset)) lseOffset lseSize
    else do return dataNext % (← pow2 lseOffset) : Ada Nat)
  leftShift (← u64 (current + next)) 8 shiftLength

/-- `U64_Extract_Remaining`, `rflx/templates/rflx_generic_types.adb:76-98`. -/
def extractRemaining (data elementCount mseSize lseOffset : Nat) : Ada Nat := do
  pre (mseSize ≤ 8 ∧ lseOffset ≤ 7 ∧ lseOffset + 1 ≤ mseSize ∧ mseSize ≤ lseOffset + 8 ∧ elementCount ≤ 7)
  let remainingBits ← rightShift (data % (← pow2 mseSize)) mseSize lseOffset
  leftShift remainingBits (mseSize - lseOffset) (8 * elementCount)

/-- `Data (Index (Long_Integer (Data'Last) - Idx))` with the precondition of `D`, `Read` and `Write`,
`rflx/templates/rflx_generic_types.adb:119-122,128,195-201`. -/
def readByte (data : Bytes) (idx : Nat) : Ada Nat := do
  pre (idx < data.length)
  data.get (data.last - idx)

/-- `D`, `rflx/templates/rflx_generic_types.adb:119-133`. -/
def extractByte (data : Bytes) (valueSize lseOffset mseIndex idx : Nat) : Ada Nat := do
  pre (1 ≤ valueSize ∧ valueSize ≤ 64)
  let e := (lseOffset + valueSize + 8 - 1) % 8 + 1
  let mask := if idx < mseIndex then 2 ^ 8 else 2 ^ e
  return (← readByte data idx) % mask

/-- The loop, `rflx/templates/rflx_generic_types.adb:137-148`, for `n` iterations from `i` on. -/
def extractLoop (data : Bytes) (valueSize lseSize lseOffset lseIndex mseIndex : Nat) : Nat → Nat → Nat → Ada Nat
  | 0, _, result => .ok result
  | n + 1, i, result => do
    let d0 ← extractByte data valueSize lseOffset mseIndex i
    let d1 ← extractByte data valueSize lseOffset mseIndex (i + 1)
    let result ← u64 (result + (← extractIntermediate d0 d1 lseSize lseOffset (8 * (i - lseIndex))))
    extractLoop data valueSize lseSize lseOffset lseIndex mseIndex n (i + 1) result

/-- `U64_Extract`, `rflx/templates/rflx_generic_types.adb:100-159`. The clause about `Natural'Size` (31) and the one about
`Long_Integer'Size` (64) are part of the precondition. -/
def u64Extract (data : Bytes) (off valueSize : Nat) : Ada Nat := do
  pre (1 ≤ valueSize ∧ valueSize ≤ 64 ∧ (off + valueSize - 1) / 8 < data.length ∧ (off + valueSize - 1) / 8 ≤ 31 ∧
    8 - off % 8 < 63)
  let lseIndex := off / 8
  let mseIndex := (off + valueSize - 1) / 8
  let lseOffset := off % 8
  let lseSize := 8 - lseOffset
  let mseSize := (lseOffset + valueSize + 8 - 1) % 8 + 1
  let result ← extractLoop data valueSize lseSize lseOffset lseIndex mseIndex (mseIndex - lseIndex) lseIndex 0
  let result ← (if lseOffset < mseSize then do
      let elementCount := mseIndex - lseIndex
      let val ← extractRemaining (← extractByte data valueSize lseOffset mseIndex mseIndex) elementCount mseSize lseOffset
      u64 (result + val)
    else .ok result : Ada Nat)
  if valueSize < 64 then return result % (← pow2 valueSize) else return result

/-- `Extract`, `rflx/templates/rflx_generic_types.adb:161-171`, `rflx/templates/rflx_generic_types.ads:51-58`, for a
modular type `Value` with `Value'Size = size`; `type Offset is mod 8`. -/
def extract (size : Nat) (data : Bytes) (off : Nat) : Ada Nat := do
  inRange (off < 8)
  pre ((off + size - 1) / 8 < data.length ∧ (off + size - 1) / 8 ≤ 31 ∧ 8 - off % 8 < 63)
  let r ← u64Extract data off size
  inRange (r < 2 ^ size)
  return r

/-! ## Insert -/

/-- `Byte'Val`. -/
def byteVal (n : Nat) : Ada Nat := if n < 256 then .ok n else .error .range

/-- `Write`, `rflx/templates/rflx_generic_types.adb:203-209`. -/
def writeByte (data : Bytes) (idx element : Nat) : Ada Bytes := do
  pre (idx < data.length)
  data.set (data.last - idx) element

/-- The value lies within one byte, `rflx/templates/rflx_generic_types.adb:226-245`. -/
def insertSingle (val : Nat) (data : Bytes) (lseIndex mseIndex lseOffset valueSize : Nat) : Ada Bytes := do
  let lSize := lseOffset
  let vSize := valueSize
  let lBits ← modPow2 (← readByte data lseIndex) lSize
  let vBits := val
  let uBits ← rightShift (← readByte data mseIndex) 8 (lSize + vSize)
  let lValue := lBits
  let vValue ← leftShift vBits vSize lSize
  let uValue ← (if lSize + vSize < 8 then leftShift uBits (8 - lSize - vSize) (lSize + vSize) else .ok uBits : Ada Nat)
  writeByte data lseIndex (← byteVal (← u64 ((← u64 (lValue + vValue)) + uValue)))

/-- The loop, `rflx/templates/rflx_generic_types.adb:269-274`, for `n` iterations from `i` on. -/
def insertLoop (valueSize lseSize lseIndex : Nat) : Nat → Nat → Nat → Bytes → Ada (Nat × Bytes)
  | 0, _, rv, data => .ok (rv, data)
  | n + 1, i, rv, data => do
    let data ← writeByte data i (← byteVal (rv % 2 ^ 8))
    inRange (lseSize + (i - lseIndex - 1) * 8 ≤ valueSize)
    let rv ← rightShift rv (valueSize - lseSize - (i - lseIndex - 1) * 8) 8
    insertLoop valueSize lseSize lseIndex n (i + 1) rv data

/-- `U64_Insert`, `rflx/templates/rflx_generic_types.adb:173-294`. -/
def u64Insert (val : Nat) (data : Bytes) (off valueSize : Nat) : Ada Bytes := do
  pre (valueSize ≤ 64 ∧ (valueSize < 64 → val < 2 ^ valueSize) ∧ (off + valueSize - 1) / 8 < data.length)
  let lseIndex := off / 8
  let mseIndex := (off + valueSize - 1) / 8
  let lseOffset := off % 8
  let lseSize := 8 - lseOffset
  let mseSize := (lseOffset + valueSize + 8 - 1) % 8 + 1
  let mseOffset := 8 - mseSize
  if lseIndex = mseIndex then insertSingle val data lseIndex mseIndex lseOffset valueSize
  else do
    let lBits ← modPow2 (← readByte data lseIndex) lseOffset
    let vBits ← modPow2 val lseSize
    let vValue ← leftShift vBits lseSize lseOffset
    let data ← writeByte data lseIndex (← byteVal (← u64 (lBits + vValue)))
    let rv ← rightShift val valueSize lseSize
    let (rv, data) ← insertLoop valueSize lseSize lseIndex (mseIndex - (lseIndex + 1)) (lseIndex + 1) rv data
    let vSize := mseSize
    let uSize := mseOffset
    let vBits ← modPow2 rv vSize
    let uBits ← rightShift (← readByte data mseIndex) 8 vSize
    let uValue ← (if 0 < uSize then leftShift uBits uSize vSize else .ok uBits : Ada Nat)
    writeByte data mseIndex (← byteVal (← u64 (vBits + uValue)))

/-- `Insert`, `rflx/templates/rflx_generic_types.adb:296-307`, `rflx/templates/rflx_generic_types.ads:60-66`. -/
def insert (size val : Nat) (data : Bytes) (off : Nat) : Ada Bytes := do
  inRange (off < 8 ∧ val < 2 ^ size)
  pre ((off + size - 1) / 8 < data.length)
  u64Insert val data off size

end Verif.Spark
