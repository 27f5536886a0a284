import Verif.Model.CodecApie
/-
The sizes the codecs compute, on a machine whose `size_t` has `w` bits (Model/Base16.lean and Model/Base64.lean have `w = 64`). Everything else the
codecs compute with sizes (`n / 3`, `n % 3`, positions inside the text and the output, the size returned) is at most the length of an array and does not
overflow.
-/
namespace Milo

/-- base_16.h:94-104 `encode_size`: `a_from_size * 2`. -/
def Base16.encodeSizeW (w n : Nat) : Nat := (BitVec.ofNat w n * 2#w).toNat

/-- base_16.h:168-180 `decode_size`: `(a_from_size >> 1) + (a_from_size & 1)`. -/
def Base16.decodeSizeW (w n : Nat) : Nat := (BitVec.ofNat w n >>> 1 + (BitVec.ofNat w n &&& 1#w)).toNat

/-- base_64.h:136-148 `encode_size`: `(a_from_size * 4 / 3 + 3) & ~0b11`; `~0b11` is the `int` -4, which as a `size_t` is all ones but the lowest two. -/
def Base64.encodeSizeW (w n : Nat) : Nat := ((BitVec.ofNat w n * 4#w / 3#w + 3#w) &&& ~~~ 3#w).toNat

/-- base_64.h:251-271 `decode_size`: `a_from_size * 3 / 4`, less one for each of at most two `'='` at the end. -/
def Base64.decodeSizeW (w : Nat) (src : List Byte) : Nat :=
  let n := src.length
  let size := BitVec.ofNat w n * 3#w / 4#w
  (if n > 1 ∧ src[n - 1]? = some padChar then
    size - 1#w - (if n > 2 ∧ src[n - 2]? = some padChar then 1#w else 0#w)
  else
    size).toNat

/-- `codec::base_16` and `codec::base_64` there. (detail/codec/base_16.h:14-182, detail/codec/base_64.h:14-273) -/
def Codec.base16W (w : Nat) (sg : Bool) : Codec.Impl :=
  ⟨Base16.encode, fun x => Base16.encodeSizeW w x.length, Base16.decode sg, fun x => Base16.decodeSizeW w x.length⟩
/-- detail/codec/base_64.h:14-273 there. -/
def Codec.base64W (w : Nat) (sg : Bool) : Codec.Impl :=
  ⟨Base64.encode, fun x => Base64.encodeSizeW w x.length, Base64.decode sg, Base64.decodeSizeW w⟩

end Milo
