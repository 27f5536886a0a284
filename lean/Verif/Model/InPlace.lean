import Verif.Model.CodecApie
/-
The codecs of src/milo/primitive/detail/codec/base_16.h and base_64.h once more, text and result now lying in the same memory: `from_ptr = mem + src`, `to_ptr = mem + dst`.
Every read and write is the one of Model/Base16.lean and Model/Base64.lean, in the same order. Then src/milo/primitive/codec/apie.h called with one container for both parameters.
-/
namespace Milo

namespace Base16.At

/-- base_16.h:80-88 the loop of `encode`: `k` bytes left, the next one at `fr`, its digits go to `to`. -/
def encodeLoop : (k fr to : Nat) → (mem : List Byte) → Option (List Byte)
  | 0, _, _, mem => some mem
  | k + 1, fr, to, mem => do
    let b ← rd1 mem fr
    let mem ← wr1 mem (to + 0) (encodeDigit (b >>> 4))
    let mem ← wr1 mem (to + 1) (encodeDigit (b &&& 0b1111#8))
    encodeLoop k (fr + 1) (to + 2) mem

/-- base_16.h:65-91 `encode(mem + src, n, mem + dst)`: the memory afterwards and the returned size. -/
def encode (mem : List Byte) (src n dst : Nat) : Option (List Byte × Nat) := do
  let mem ← encodeLoop n src dst mem
  pure (mem, n * 2)

/-- base_16.h:146-165 the loop of `decode`; `fr` is `from_ptr - a_from_ptr`, `to` is `to_ptr - mem`. -/
def decodeLoop (sg : Bool) (src ret to : Nat) : (k : Nat) → (i fr : Nat) → (mem : List Byte) → Option Decoded
  | 0, _, _, mem => some ⟨mem, ret, .none⟩
  | k + 1, i, fr, mem => do
    let c0 ← rd1 mem (src + fr + 0)
    let c1 ← rd1 mem (src + fr + 1)
    let b0 := decodeDigit sg c0
    let b1 := decodeDigit sg c1
    if sameInt sg c0 b0 || sameInt sg c1 b1 then
      pure ⟨mem, fr, .codecBase16Decode⟩
    else do
      let mem ← wr1 mem (to + i) (b0 <<< 4 ||| b1)
      decodeLoop sg src ret to k (i + 1) (fr + 2) mem

/-- base_16.h:107-166 `decode(mem + src, n, mem + dst, error)`. -/
def decode (sg : Bool) (mem : List Byte) (src n dst : Nat) : Option Decoded :=
  let full := n >>> 1
  let last := n &&& 1
  if last ≠ 0 then do
    let c0 ← rd1 mem src
    let b0 := decodeDigit sg c0
    if sameInt sg c0 b0 then
      pure ⟨mem, 0, .codecBase16Decode⟩
    else do
      let mem ← wr1 mem dst b0
      decodeLoop sg src (full + last) (dst + 1) (full - last) last 1 mem
  else
    decodeLoop sg src (full + last) dst (full - last) last 0 mem

end Base16.At

namespace Base64.At
open Milo.Base16

/-- base_64.h:93-110 the loop of `encode`: `k` groups left. -/
def encodeLoop : (k fr to : Nat) → (mem : List Byte) → Option (List Byte)
  | 0, _, _, mem => some mem
  | k + 1, fr, to, mem => do
    let b0 ← rd1 mem (fr + 0)
    let b1 ← rd1 mem (fr + 1)
    let b2 ← rd1 mem (fr + 2)
    let c0 := encodeDigit (b0 >>> 2)
    let c1 := encodeDigit ((b0 &&& 0b00000011#8) <<< 4 ||| b1 >>> 4)
    let c2 := encodeDigit ((b1 &&& 0b00001111#8) <<< 2 ||| b2 >>> 6)
    let c3 := encodeDigit (b2 &&& 0b00111111#8)
    let mem ← wr1 mem (to + 0) c0
    let mem ← wr1 mem (to + 1) c1
    let mem ← wr1 mem (to + 2) c2
    let mem ← wr1 mem (to + 3) c3
    encodeLoop k (fr + 3) (to + 4) mem

/-- base_64.h:75-134 `encode(mem + src, n, mem + dst)`. -/
def encode (mem : List Byte) (src n dst : Nat) : Option (List Byte × Nat) := do
  let full := n / 3
  let lastSize := n % 3
  let mem ← encodeLoop full src dst mem
  let fr := src + full * 3
  let to := dst + full * 4
  if lastSize ≠ 0 then
    let last : Nat := if lastSize = 2 then 1 else 0
    let msk : Byte := if lastSize = 2 then 0xff#8 else 0#8
    let b0 ← rd1 mem (fr + 0)
    let b1' ← rd1 mem (fr + (0 + last))
    let b1 := b1' &&& msk
    let c0 := encodeDigit (b0 >>> 2)
    let c1 := encodeDigit ((b0 &&& 0b00000011#8) <<< 4 ||| b1 >>> 4)
    let c2 := (encodeDigit ((b1 &&& 0b00001111#8) <<< 2) &&& msk) ||| (padChar &&& ~~~ msk)
    let c3 := padChar
    let mem ← wr1 mem (to + 0) c0
    let mem ← wr1 mem (to + 1) c1
    let mem ← wr1 mem (to + 2) c2
    let mem ← wr1 mem (to + 3) c3
    pure (mem, (full + 1) * 4)
  else
    pure (mem, full * 4)

/-- base_64.h:178-206 the loop of `decode` over all groups but the last; `next` is the code after it. Offsets are those of `from_ptr` and `to_ptr` from the parameters. -/
def decodeLoop (sg : Bool) (src dst : Nat) (next : Nat → Nat → List Byte → Option Decoded) : (k : Nat) → (fr to : Nat) → (mem : List Byte) → Option Decoded
  | 0, fr, to, mem => next fr to mem
  | k + 1, fr, to, mem => do
    let c0 ← rd1 mem (src + fr + 0)
    let c1 ← rd1 mem (src + fr + 1)
    let c2 ← rd1 mem (src + fr + 2)
    let c3 ← rd1 mem (src + fr + 3)
    let b0 := decodeDigit sg c0
    let b1 := decodeDigit sg c1
    let b2 := decodeDigit sg c2
    let b3 := decodeDigit sg c3
    if sameInt sg c0 b0 || sameInt sg c1 b1 || sameInt sg c2 b2 || sameInt sg c3 b3 then
      pure ⟨mem, to, .codecBase64Decode⟩
    else do
      let mem ← wr1 mem (dst + to + 0) (b0 <<< 2 ||| b1 >>> 4)
      let mem ← wr1 mem (dst + to + 1) (b1 <<< 4 ||| b2 >>> 2)
      let mem ← wr1 mem (dst + to + 2) (b2 <<< 6 ||| b3)
      decodeLoop sg src dst next k (fr + 4) (to + 3) mem

/-- base_64.h:210-245 the last group of `decode`. -/
def decodeLast (sg : Bool) (src dst fr to : Nat) (mem : List Byte) : Option Decoded := do
  let c0 ← rd1 mem (src + fr + 0)
  let c1 ← rd1 mem (src + fr + 1)
  let c2 ← rd1 mem (src + fr + 2)
  let c3 ← rd1 mem (src + fr + 3)
  let b0 := decodeDigit sg c0
  let b1 := decodeDigit sg c1
  let b2 := decodeDigit sg c2
  let b3 := decodeDigit sg c3
  let p0 := c2 == padChar
  let p1 := c3 == padChar
  if sameInt sg c0 b0 || sameInt sg c1 b1 || (p0 && !p1) || (sameInt sg c2 b2 && !p0) || (sameInt sg c3 b3 && !p1) then
    pure ⟨mem, to, .codecBase64Decode⟩
  else do
    let mem ← wr1 mem (dst + to + 0) (b0 <<< 2 ||| b1 >>> 4)
    let mem ← if !p0 then wr1 mem (dst + to + 1) (b1 <<< 4 ||| b2 >>> 2) else some mem
    let mem ← if !p1 then wr1 mem (dst + to + 2) (b2 <<< 6 ||| b3) else some mem
    pure ⟨mem, to + 3 - p0.toNat - p1.toNat, .none⟩

/-- base_64.h:150-249 `decode(mem + src, n, mem + dst, error)`. -/
def decode (sg : Bool) (mem : List Byte) (src n dst : Nat) : Option Decoded :=
  let full := n / 4
  let last := n % 4
  if last ≠ 0 then
    some ⟨mem, 0, .codecBase64Decode⟩
  else if full > 0 then
    decodeLoop sg src dst (decodeLast sg src dst) (full - 1) 0 0 mem
  else
    some ⟨mem, 0, .none⟩

end Base64.At

namespace Codec

/-- A codec whose text and result may lie in the same memory. (detail/codec/base_16.h:70-171, detail/codec/base_64.h:80-254) -/
structure ImplAt where
  toImpl : Impl
  encode : (mem : List Byte) → (src n dst : Nat) → Option (List Byte × Nat)
  decode : (mem : List Byte) → (src n dst : Nat) → Option Base16.Decoded

/-- detail/codec/base_16.h:70-171 -/
def base16At (sg : Bool) : ImplAt := ⟨base16 sg, Base16.At.encode, Base16.At.decode sg⟩
/-- detail/codec/base_64.h:80-254 -/
def base64At (sg : Bool) : ImplAt := ⟨base64 sg, Base64.At.encode, Base64.At.decode sg⟩

/-- codec/apie.h:88-113 `encode(c, c)`: after the first `resize`, `a_from.size()` is the new size and `a_from.data()` is `a_to.data()`. -/
def encodeSelf (C : ImplAt) (c : Container) : Option (Container × Nat) := do
  let c := (c.resize (C.toImpl.encodeSize c.data)).1
  let (d, size) ← C.encode c.data 0 c.data.length 0
  let c := ((c.withData d).resize size).1
  pure (c, size)

/-- codec/apie.h:307-338 `decode(c, c, error)`. -/
def decodeSelf (C : ImplAt) (c : Container) : Option (Container × Nat × Error) := do
  let c := (c.resize (C.toImpl.decodeSize c.data)).1
  let d ← C.decode c.data 0 c.data.length 0
  let c := ((c.withData d.out).resize d.size).1
  pure (c, d.size, d.err)

/-- codec/apie.h:352-380 `decode(c, c)`, with :268-292 the pointer overload that throws. -/
def decodeThrowSelf (C : ImplAt) (c : Container) : Option (Container × Ended Nat) := do
  let c := (c.resize (C.toImpl.decodeSize c.data)).1
  let d ← C.decode c.data 0 c.data.length 0
  if d.err ≠ .none then pure (c.withData d.out, .thrown d.err)
  else pure (((c.withData d.out).resize d.size).1, .returned d.size)

end Codec
end Milo
