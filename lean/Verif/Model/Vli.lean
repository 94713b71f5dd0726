import Verif.Model.Bytes
/-!
# Model: `varisat-internal-proof/src/vli_enc.rs`

`u64` values are natural numbers below 2^64; `<<` keeps the low 64 bits.
-/
namespace Varisat.Vli

/-- `u64 << k`. -/
def shl64 (x k : Nat) : Nat := (x <<< k) % 2 ^ 64

/-- `64 - x.leading_zeros()`. -/
def bitLen (x : Nat) : Nat := if x = 0 then 0 else x.log2 + 1

/-- `x.trailing_zeros()` for `x ≠ 0`. -/
def trailingZeros (x : Nat) : Nat :=
  if x = 0 then 0 else if x % 2 = 1 then 0 else trailingZeros (x / 2) + 1
termination_by x

/-- The first `n` bytes of the little endian representation (`transmute` of `to_le()`). -/
def leBytes : Nat → Nat → Bytes
  | 0, _ => []
  | n + 1, x => UInt8.ofNat (x % 256) :: leBytes n (x / 256)

/-- `u64::from_le` of bytes. -/
def leNat : Bytes → Nat
  | [] => 0
  | b :: bs => b.toNat + 256 * leNat bs

/-- `write_u64`, `vli_enc.rs:26-42`; the bytes written. -/
def writeU64 (value : Nat) : Bytes :=
  let bits := bitLen value
  let blocks := bits * (64 / 7) / 64
  if value < 1 <<< (8 * 7) then
    let value := shl64 (shl64 value 1 ||| 1) blocks
    (leBytes 8 value).take (blocks + 1)
  else
    let loData := shl64 (shl64 value 1 ||| 1) blocks
    let hiData := value >>> (64 - (blocks + 1))
    leBytes 8 loData ++ (leBytes 8 hiData).take (blocks + 1 - 8)

/-- `read_u64_fast`, `vli_enc.rs:45-69`, on exactly 16 bytes. -/
def readU64Fast (bytes : Bytes) : Nat × Nat :=
  let loData := leNat (bytes.take 8)
  let len := trailingZeros (loData ||| 1 <<< 9) + 1
  if len ≤ 8 then
    let result := loData &&& ((2 ^ 64 - 1) >>> (64 - 8 * len))
    (result >>> len, len)
  else
    let hiData := leNat (bytes.drop 8)
    let hiData := hiData &&& ((2 ^ 64 - 1) >>> (64 - 8 * (len - 8)))
    ((loData >>> len) ||| shl64 hiData (64 - len), len)

/-- The loop `for i in begin..len` of `read_u64`, `vli_enc.rs:99-102`; `n = len - i` iterations
left. `none` is the `UnexpectedEof` error of `read_exact`. -/
def slowLoop (len : Nat) : (n i result : Nat) → Bytes → Option (Nat × Bytes)
  | 0, _, result, bs => some (result, bs)
  | _ + 1, _, _, [] => none
  | n + 1, i, result, b :: bs => slowLoop len n (i + 1) (result ||| shl64 b.toNat (8 * i - len)) bs

/-- The byte-wise path of `read_u64`, `vli_enc.rs:83-104`. Returns the value and the remaining
input. -/
def readU64Slow : Bytes → Option (Nat × Bytes)
  | [] => none
  | b0 :: bs =>
    if b0 = 0 then
      match bs with
      | [] => none
      | b1 :: bs =>
        let result := b0.toNat ||| shl64 b1.toNat 8
        let scan := 1 <<< 9 ||| b0.toNat ||| shl64 b1.toNat 8
        let len := trailingZeros scan + 1
        slowLoop len (len - 2) 2 (result >>> len) bs
    else
      let result := b0.toNat
      let scan := 1 <<< 9 ||| b0.toNat
      let len := trailingZeros scan + 1
      slowLoop len (len - 1) 1 (result >>> len) bs

/-- `read_u64`, `vli_enc.rs:75-106`, on a buffered reader whose current buffer (the result of
`fill_buf`) holds the first `fill` bytes of the remaining input. -/
def readU64 (fill : Nat) (bs : Bytes) : Option (Nat × Bytes) :=
  let buf := bs.take fill
  if buf.length ≥ 16 then
    let (value, advance) := readU64Fast (buf.take 16)
    some (value, bs.drop advance)
  else readU64Slow bs

end Varisat.Vli
