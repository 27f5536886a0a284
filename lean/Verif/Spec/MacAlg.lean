import Verif.Spec.Mac
import Verif.Spec.Poly1305
import Verif.Spec.ShaAlg
import Verif.Model.MacAlg
/- Which published function each documented mac type stands for. -/
namespace Spec
open Milo

/-- The first `n` bytes, missing ones being zero. -/
def padTo (n : Nat) (l : List Byte) : List Byte := (l ++ List.replicate n 0).take n

/-- RFC 2104 HMAC over FIPS 180-4 (with the hash output cut to `hs` bytes), RFC 8439 Poly1305 of the first 32 key bytes. -/
def macSpec : MacAlg → List Byte → List Byte → List Byte
  | .hmac a hs => hmac (shaBlock a) fun m => (shaSpec a m).take hs
  | .poly_1305 => fun key msg => Poly1305.mac (padTo 32 key) msg

/-- Reversing every 4-byte word. -/
def swapWords (l : List Byte) : List Byte := ((chunks 4 l).map List.reverse).flatten

/-- What the classes compute on a host: the published function, except that Poly1305 on a big-endian host reads the key words in the wrong order. -/
def macOn (e : Endian) : MacAlg → List Byte → List Byte → List Byte
  | .hmac a hs => macSpec (.hmac a hs)
  | .poly_1305 => fun key msg => Poly1305.mac (match e with | .little => padTo 32 key | .big => swapWords (padTo 32 key)) msg

end Spec
