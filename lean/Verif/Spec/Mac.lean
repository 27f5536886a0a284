import Verif.Model.Base
/- RFC 2104 HMAC, over any hash function. -/
namespace Spec
open Milo (Byte)

/-- The key brought to the block size `B`: hashed first if longer than a block, then zero padded. -/
def hmacKey (B : Nat) (H : List Byte → List Byte) (key : List Byte) : List Byte :=
  let k := if key.length > B then H key else key
  k ++ List.replicate (B - k.length) 0

/-- RFC 2104: `H((K xor opad) || H((K xor ipad) || text))`. -/
def hmac (B : Nat) (H : List Byte → List Byte) (key text : List Byte) : List Byte :=
  H ((hmacKey B H key).map (· ^^^ 0x5c) ++ H ((hmacKey B H key).map (· ^^^ 0x36) ++ text))

end Spec
