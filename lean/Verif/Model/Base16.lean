import Verif.Model.Base
/-
Model of src/milo/primitive/detail/codec/base_16.h.
-/
namespace Milo.Base16
open Milo

/-- Integral promotion of a `char` to `int`; `sg` says whether plain `char` is signed on the target
(it is on x86-64 Linux/Windows, it is not e.g. on AArch64 Linux). Also used for the comparisons `c == b`
of a `char` with a `uint8_t`, both of which are promoted to `int` first. -/
def charToInt (sg : Bool) (c : Byte) : Int := if sg then c.toInt else (c.toNat : Int)

/-- `-uintptr_t(cond)`: all ones or zero. (detail/codec/base_16.h:36-62) -/
def mask (cond : Bool) : W64 := if cond then -1#64 else 0#64

/-- `uintptr_t(a_0 - k)` for a `char a_0` (the subtraction is done in `int`). (detail/codec/base_16.h:49-62) -/
def offs (sg : Bool) (c : Byte) (k : Int) : W64 := BitVec.ofInt 64 (charToInt sg c - k)

/-- base_16.h:35-46 `encode(uint8_t) -> char`. The `+=` converts back to `char`, i.e. is modulo 256. -/
def encodeDigit (a : Byte) : Byte :=
  a + ((0x30#64 &&& mask (a < 0xa#8)) ||| (0x57#64 &&& mask (a ≥ 0xa#8))).setWidth 8

/-- base_16.h:48-61 `decode(char) -> uint8_t`. -/
def decodeDigit (sg : Bool) (a : Byte) : Byte :=
  let t := a
  let t := t - (0x30#64 &&& mask (offs sg a 0x30 ≤ 0x09#64)).setWidth 8
  let t := t - (0x37#64 &&& mask (offs sg a 0x41 ≤ 0x05#64)).setWidth 8
  let t := t - (0x57#64 &&& mask (offs sg a 0x61 ≤ 0x05#64)).setWidth 8
  t

/-- `c == b` with `char c` and `uint8_t b` (base_16.h:134, 154): comparison after promotion to `int`. -/
def sameInt (sg : Bool) (c b : Byte) : Bool := charToInt sg c = (b.toNat : Int)

/-- base_16.h:80-88, the loop of `encode`; `to` is `to_ptr - a_to_ptr`. -/
def encodeLoop : (from_ : List Byte) → (to : Nat) → (out : List Byte) → Option (List Byte)
  | [], _, out => some out
  | b :: rest, to, out => do
    let out ← wr1 out (to + 0) (encodeDigit (b >>> 4))
    let out ← wr1 out (to + 1) (encodeDigit (b &&& 0b1111#8))
    encodeLoop rest (to + 2) out

/-- base_16.h:65-91 `encode`: new content of the output buffer and returned size. -/
def encode (from_ : List Byte) (out : List Byte) : Option (List Byte × Nat) := do
  let out ← encodeLoop from_ 0 out
  pure (out, from_.length * 2)

/-- base_16.h:93-105 `encode_size` (as a `size_t`, i.e. modulo 2^64). -/
def encodeSize (n : Nat) : Nat := n * 2 % 2 ^ 64

/-- Result of a decoder call: output buffer, returned size, error reference. (detail/codec/base_16.h:112-171) -/
structure Decoded where
  out : List Byte
  size : Nat
  err : Error
  deriving DecidableEq, Repr

/-- base_16.h:146-165, the loop of `decode` and the final `return`; `k` iterations remain (`k = full_size - i`),
`fr` is `from_ptr - a_from_ptr`, `to` is `to_ptr - a_to_ptr`. -/
def decodeLoop (sg : Bool) (src : List Byte) (ret to : Nat) :
    (k : Nat) → (i fr : Nat) → (out : List Byte) → Option Decoded
  | 0, _, _, out => some ⟨out, ret, .none⟩
  | k + 1, i, fr, out => do
    let c0 ← rd1 src (fr + 0)
    let c1 ← rd1 src (fr + 1)
    let b0 := decodeDigit sg c0
    let b1 := decodeDigit sg c1
    if sameInt sg c0 b0 || sameInt sg c1 b1 then
      pure ⟨out, fr, .codecBase16Decode⟩
    else do
      let out ← wr1 out (to + i) (b0 <<< 4 ||| b1)
      decodeLoop sg src ret to k (i + 1) (fr + 2) out

/-- base_16.h:107-166 `decode`. -/
def decode (sg : Bool) (src : List Byte) (out : List Byte) : Option Decoded :=
  let full := src.length >>> 1
  let last := src.length &&& 1
  if last ≠ 0 then do
    let c0 ← rd1 src 0
    let b0 := decodeDigit sg c0
    if sameInt sg c0 b0 then
      pure ⟨out, 0, .codecBase16Decode⟩
    else do
      let out ← wr1 out 0 b0
      decodeLoop sg src (full + last) 1 (full - last) last 1 out
  else
    decodeLoop sg src (full + last) 0 (full - last) last 0 out

/-- base_16.h:168-180 `decode_size`. -/
def decodeSize (n : Nat) : Nat := (n >>> 1) + (n &&& 1)

end Milo.Base16
