import Verif.Model.Base16
/-
Model of src/milo/primitive/detail/codec/base_64.h.
-/
namespace Milo.Base64
open Milo Milo.Base16

/-- base_64.h:35-52 `encode(uint8_t) -> char`. `a_0 - 0x1a` is an `int`, converted to `uintptr_t`. -/
def encodeDigit (a : Byte) : Byte :=
  a + (
    (mask (a < 0x1a#8) &&& 0x41#64) |||
    (mask (BitVec.ofInt 64 ((a.toNat : Int) - 0x1a) < 0x1a#64) &&& 0x47#64) |||
    (mask (BitVec.ofInt 64 ((a.toNat : Int) - 0x34) < 0x0a#64) &&& 0xfc#64) |||
    (mask (a == 0x3e#8) &&& 0xed#64) |||
    (mask (a == 0x3f#8) &&& 0xf0#64)).setWidth 8

/-- base_64.h:54-71 `decode(char) -> uint8_t`. -/
def decodeDigit (sg : Bool) (a : Byte) : Byte :=
  a - (
    (mask (offs sg a 0x41 ≤ 0x19#64) &&& 0x41#64) |||
    (mask (offs sg a 0x61 ≤ 0x19#64) &&& 0x47#64) |||
    (mask (offs sg a 0x30 ≤ 0x09#64) &&& 0xfc#64) |||
    (mask (charToInt sg a = 0x2b) &&& 0xed#64) |||
    (mask (charToInt sg a = 0x2f) &&& 0xf0#64)).setWidth 8

/-- base_64.h:93-110, the loop of `encode`; `i` runs over `full_size` groups (`k` left), `fr`/`to` are the pointer offsets. -/
def encodeLoop (src : List Byte) : (k : Nat) → (fr to : Nat) → (out : List Byte) → Option (List Byte)
  | 0, _, _, out => some out
  | k + 1, fr, to, out => do
    let b0 ← rd1 src (fr + 0)
    let b1 ← rd1 src (fr + 1)
    let b2 ← rd1 src (fr + 2)
    let c0 := encodeDigit (b0 >>> 2)
    let c1 := encodeDigit ((b0 &&& 0b00000011#8) <<< 4 ||| b1 >>> 4)
    let c2 := encodeDigit ((b1 &&& 0b00001111#8) <<< 2 ||| b2 >>> 6)
    let c3 := encodeDigit (b2 &&& 0b00111111#8)
    let out ← wr1 out (to + 0) c0
    let out ← wr1 out (to + 1) c1
    let out ← wr1 out (to + 2) c2
    let out ← wr1 out (to + 3) c3
    encodeLoop src k (fr + 3) (to + 4) out

/-- The character `'='`. (detail/codec/base_64.h:80-254) -/
def padChar : Byte := 0x3d#8

/-- base_64.h:75-134 `encode`. After the loop `from_ptr`/`to_ptr` have advanced by `3 * full_size`/`4 * full_size`. -/
def encode (src : List Byte) (out : List Byte) : Option (List Byte × Nat) := do
  let full := src.length / 3
  let lastSize := src.length % 3
  let out ← encodeLoop src full 0 0 out
  let fr := full * 3
  let to := full * 4
  if lastSize ≠ 0 then
    let last : Nat := if lastSize = 2 then 1 else 0
    let msk : Byte := if lastSize = 2 then 0xff#8 else 0#8      -- low byte of `-last`
    let b0 ← rd1 src (fr + 0)
    let b1' ← rd1 src (fr + (0 + last))
    let b1 := b1' &&& msk
    let c0 := encodeDigit (b0 >>> 2)
    let c1 := encodeDigit ((b0 &&& 0b00000011#8) <<< 4 ||| b1 >>> 4)
    let c2 := (encodeDigit ((b1 &&& 0b00001111#8) <<< 2) &&& msk) ||| (padChar &&& ~~~ msk)
    let c3 := padChar
    let out ← wr1 out (to + 0) c0
    let out ← wr1 out (to + 1) c1
    let out ← wr1 out (to + 2) c2
    let out ← wr1 out (to + 3) c3
    pure (out, (full + 1) * 4)
  else
    pure (out, full * 4)

/-- base_64.h:136-148 `encode_size`: `(n * 4 / 3 + 3) & ~0b11` in `size_t` arithmetic. -/
def encodeSize (n : Nat) : Nat :=
  ((BitVec.ofNat 64 n * 4#64 / 3#64 + 3#64) &&& ~~~ (0b11#64)).toNat

/-- base_64.h:178-206, the loop of `decode` over all groups but the last, continued by `next` (the code after the loop)
with the current `from_ptr`/`to_ptr` offsets. -/
def decodeLoop (sg : Bool) (src : List Byte) (next : Nat → Nat → List Byte → Option Decoded) :
    (k : Nat) → (fr to : Nat) → (out : List Byte) → Option Decoded
  | 0, fr, to, out => next fr to out
  | k + 1, fr, to, out => do
    let c0 ← rd1 src (fr + 0)
    let c1 ← rd1 src (fr + 1)
    let c2 ← rd1 src (fr + 2)
    let c3 ← rd1 src (fr + 3)
    let b0 := decodeDigit sg c0
    let b1 := decodeDigit sg c1
    let b2 := decodeDigit sg c2
    let b3 := decodeDigit sg c3
    if sameInt sg c0 b0 || sameInt sg c1 b1 || sameInt sg c2 b2 || sameInt sg c3 b3 then
      pure ⟨out, to, .codecBase64Decode⟩
    else do
      let out ← wr1 out (to + 0) (b0 <<< 2 ||| b1 >>> 4)
      let out ← wr1 out (to + 1) (b1 <<< 4 ||| b2 >>> 2)
      let out ← wr1 out (to + 2) (b2 <<< 6 ||| b3)
      decodeLoop sg src next k (fr + 4) (to + 3) out

/-- base_64.h:210-245, the last group of `decode`. -/
def decodeLast (sg : Bool) (src : List Byte) (fr to : Nat) (out : List Byte) : Option Decoded := do
  let c0 ← rd1 src (fr + 0)
  let c1 ← rd1 src (fr + 1)
  let c2 ← rd1 src (fr + 2)
  let c3 ← rd1 src (fr + 3)
  let b0 := decodeDigit sg c0
  let b1 := decodeDigit sg c1
  let b2 := decodeDigit sg c2
  let b3 := decodeDigit sg c3
  let p0 := c2 == padChar
  let p1 := c3 == padChar
  if sameInt sg c0 b0 || sameInt sg c1 b1 || (p0 && !p1) || (sameInt sg c2 b2 && !p0) || (sameInt sg c3 b3 && !p1) then
    pure ⟨out, to, .codecBase64Decode⟩
  else do
    let out ← wr1 out (to + 0) (b0 <<< 2 ||| b1 >>> 4)
    let out ← if !p0 then wr1 out (to + 1) (b1 <<< 4 ||| b2 >>> 2) else some out
    let out ← if !p1 then wr1 out (to + 2) (b2 <<< 6 ||| b3) else some out
    pure ⟨out, to + 3 - p0.toNat - p1.toNat, .none⟩

/-- base_64.h:150-249 `decode`. -/
def decode (sg : Bool) (src : List Byte) (out : List Byte) : Option Decoded :=
  let full := src.length / 4
  let last := src.length % 4
  if last ≠ 0 then
    some ⟨out, 0, .codecBase64Decode⟩
  else if full > 0 then
    decodeLoop sg src (decodeLast sg src) (full - 1) 0 0 out
  else
    some ⟨out, 0, .none⟩

/-- base_64.h:251-271 `decode_size`; both subtractions happen on a positive value (proved), the multiplication is modulo 2^64. -/
def decodeSize (src : List Byte) : Nat :=
  let n := src.length
  let size := n * 3 % 2 ^ 64 / 4
  if n > 1 ∧ src[n - 1]? = some padChar then
    size - 1 - (if n > 2 ∧ src[n - 2]? = some padChar then 1 else 0)
  else
    size

end Milo.Base64
