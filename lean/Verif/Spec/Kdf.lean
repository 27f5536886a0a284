import Verif.Model.Container
import Verif.Spec.Bytes
/- RFC 5869 HKDF and RFC 8018 PBKDF2 over any mac, and what a sequence of requests for key bytes must yield. -/
namespace Spec
open Milo (Byte DigestReq)

/-- RFC 5869 section 2.3: `T(0) = ""`, `T(i) = HMAC(PRK, T(i-1) | info | i)`. -/
def hkdfT (mac : List Byte → List Byte → List Byte) (prk info : List Byte) : Nat → List Byte
  | 0 => []
  | i + 1 => mac prk (hkdfT mac prk info i ++ info ++ [BitVec.ofNat 8 (i + 1)])

/-- RFC 5869: `T(1) | … | T(255)` for `PRK = HMAC(salt, ikm)`: all the output keying material there is. -/
def hkdf (mac : List Byte → List Byte → List Byte) (ikm salt info : List Byte) : List Byte :=
  ((List.range 255).map fun i => hkdfT mac (mac salt ikm) info (i + 1)).flatten

/-- RFC 8018 section 5.2: `U_1 = PRF(P, S | INT(i))`, `U_j = PRF(P, U_{j-1})`; here `pbkdf2U … i j` is `U_{j+1}` of block `i`. -/
def pbkdf2U (prf : List Byte → List Byte → List Byte) (p s : List Byte) (i : Nat) : Nat → List Byte
  | 0 => prf p (s ++ beBytes 4 i)
  | j + 1 => prf p (pbkdf2U prf p s i j)

/-- RFC 8018: `T_i = U_1 xor … xor U_c`. -/
def pbkdf2T (prf : List Byte → List Byte → List Byte) (p s : List Byte) (i : Nat) : (c : Nat) → List Byte
  | 0 => []
  | 1 => pbkdf2U prf p s i 0
  | c + 2 => List.zipWith (· ^^^ ·) (pbkdf2T prf p s i (c + 1)) (pbkdf2U prf p s i (c + 1))

/-- RFC 8018: `T_1 | T_2 | … | T_(2^32-1)`. -/
def pbkdf2 (prf : List Byte → List Byte → List Byte) (p s : List Byte) (c : Nat) : List Byte :=
  ((List.range (2 ^ 32 - 1)).map fun i => pbkdf2T prf p s (i + 1) c).flatten

/-- The number of key bytes a request asks for: containers of fixed size take no more than they hold. -/
def asked : DigestReq → Nat
  | .ptr _ n => n
  | .cont c n => if c.dynamic then n else min n c.data.length

/-- The sum over a list of requests. -/
def totalAsked (rs : List DigestReq) : Nat := (rs.map asked).sum

/-- The content of the buffer or container after receiving `key`: a resizable container is exactly the key, in others the rest is unchanged. And the size
returned. -/
def received (key : List Byte) : DigestReq → List Byte × Nat
  | .ptr dst _ => (key ++ dst.drop key.length, key.length)
  | .cont c _ => (key ++ if c.dynamic then [] else c.data.drop key.length, key.length)

/-- The requests, one after the other, receive consecutive bytes of `stream`. -/
def streamed (stream : List Byte) : List DigestReq → List (List Byte × Nat)
  | [] => []
  | r :: rs => received (stream.take (asked r)) r :: streamed (stream.drop (asked r)) rs

end Spec
