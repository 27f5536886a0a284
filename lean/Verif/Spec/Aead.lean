import Verif.Spec.Cipher
import Verif.Spec.Output
import Verif.Model.Aead
/- RFC 8439 section 2.8: AEAD_CHACHA20_POLY1305. -/
namespace Spec.Aead
open Milo

/-- 2.8.1 zero bytes up to the next multiple of 16. -/
def pad16 (x : List Byte) : List Byte := List.replicate ((16 - x.length % 16) % 16) 0

/-- 2.6 the one-time key: the first 32 bytes of the key stream block 0. -/
def oneTimeKey (key nonce : List Byte) : List Byte := (ChaCha.block key 0 nonce).take 32

/-- 2.8 what is authenticated. -/
def authenticated (aad ciphertext : List Byte) : List Byte :=
  aad ++ pad16 aad ++ ciphertext ++ pad16 ciphertext ++ leBytes 8 aad.length ++ leBytes 8 ciphertext.length

/-- 2.8 encryption, and decryption: ChaCha20 with initial counter 1. -/
def crypt (key nonce text : List Byte) : List Byte := ChaCha.crypt key 1 nonce text

/-- 2.8 the tag. -/
def tag (key nonce aad ciphertext : List Byte) : List Byte := Poly1305.mac (oneTimeKey key nonce) (authenticated aad ciphertext)

/-- The mac of `m` as it comes out on a host: `swapWords` on big-endian hosts is the defect of C24. -/
def macOn (e : Endian) (key nonce m : List Byte) : List Byte :=
  Poly1305.mac (match e with | .little => oneTimeKey key nonce | .big => swapWords (oneTimeKey key nonce)) m

/-- What `finalize` adds to the text the mac is computed of, after associated data of size `a` and data of size `e`. -/
def trailer (a e : Nat) : List Byte := List.replicate ((16 - e % 16) % 16) 0 ++ leBytes 8 a ++ leBytes 8 e

/-- How a one-shot decryption is to end when the tag is right (`ok`) or wrong: an error argument, if there is one (`hasError`), is assigned; otherwise a wrong
tag makes the call throw. -/
def reported {α : Type} (hasError ok : Bool) (v : α) : Ended (α × Error) :=
  if hasError then .returned (v, if ok then .none else .aeadVerify) else if ok then .returned (v, .none) else .thrown .aeadVerify

/-- The text a request works on. -/
def text : TextReq → List Byte
  | .ptr s => (s.mem.drop s.src).take s.n
  | .cont x _ => x
  | .self c => c.data

/-- Where the result `r` is to be found: memory with `r` at the destination and nothing else changed; a resizable container holding exactly `r`; a fixed
one holding `r` and then its old content. -/
def placed (r : List Byte) : TextReq → List Byte
  | .ptr s => s.mem.take s.dst ++ r ++ s.mem.drop (s.dst + s.n)
  | .cont _ tgt => if tgt.dynamic then r else r ++ tgt.data.drop r.length
  | .self _ => r

/-- `rs` are the results for `texts` taken one after the other. -/
def Pieces (key nonce : List Byte) (texts rs : List (List Byte)) : Prop :=
  rs.map List.length = texts.map List.length ∧ rs.flatten = crypt key nonce texts.flatten

/-- The calls that end a session. -/
def Ends : AeadApie.Call → Prop
  | .digest _ _ | .digestC _ _ | .verify _ | .verifyThrow _ => True
  | .init _ _ | .aad _ | .text _ _ => False

/-- What they are to output when the tag is `t`: the tag or its first bytes; the error; an exception if the tag given is not exactly `t`. -/
def ending (t : List Byte) : AeadApie.Call → AeadApie.Out
  | .digest dst n => .bytes (written t dst n).1 (written t dst n).2
  | .digestC c n => .bytes (contained t c n).1.data (contained t c n).2
  | .verify given => .error (if given = t then .none else .aeadVerify)
  | .verifyThrow given => .ended (if given = t then .returned () else .thrown .aeadVerify)
  | .init _ _ | .aad _ | .text _ _ => .bytes [] 0

/-! RFC 8439 2.8.2 (tests, not proofs). -/
def rfcKey : List Byte := (List.range 32).map fun i => BitVec.ofNat 8 (0x80 + i)
def rfcNonce : List Byte := [7, 0, 0, 0, 0x40, 0x41, 0x42, 0x43, 0x44, 0x45, 0x46, 0x47]
def rfcAad : List Byte := [0x50, 0x51, 0x52, 0x53, 0xc0, 0xc1, 0xc2, 0xc3, 0xc4, 0xc5, 0xc6, 0xc7]
def rfcCiphertext : List Byte := [
  0xd3, 0x1a, 0x8d, 0x34, 0x64, 0x8e, 0x60, 0xdb, 0x7b, 0x86, 0xaf, 0xbc, 0x53, 0xef, 0x7e, 0xc2,
  0xa4, 0xad, 0xed, 0x51, 0x29, 0x6e, 0x08, 0xfe, 0xa9, 0xe2, 0xb5, 0xa7, 0x36, 0xee, 0x62, 0xd6,
  0x3d, 0xbe, 0xa4, 0x5e, 0x8c, 0xa9, 0x67, 0x12, 0x82, 0xfa, 0xfb, 0x69, 0xda, 0x92, 0x72, 0x8b,
  0x1a, 0x71, 0xde, 0x0a, 0x9e, 0x06, 0x0b, 0x29, 0x05, 0xd6, 0xa5, 0xb6, 0x7e, 0xcd, 0x3b, 0x36,
  0x92, 0xdd, 0xbd, 0x7f, 0x2d, 0x77, 0x8b, 0x8c, 0x98, 0x03, 0xae, 0xe3, 0x28, 0x09, 0x1b, 0x58,
  0xfa, 0xb3, 0x24, 0xe4, 0xfa, 0xd6, 0x75, 0x94, 0x55, 0x85, 0x80, 0x8b, 0x48, 0x31, 0xd7, 0xbc,
  0x3f, 0xf4, 0xde, 0xf0, 0x8e, 0x4b, 0x7a, 0x9d, 0xe5, 0x76, 0xd2, 0x65, 0x86, 0xce, 0xc6, 0x4b,
  0x61, 0x16]
example : crypt rfcKey rfcNonce [0x4c, 0x61, 0x64, 0x69, 0x65, 0x73] = rfcCiphertext.take 6 := by decide +kernel
example : tag rfcKey rfcNonce rfcAad rfcCiphertext
    = [0x1a, 0xe1, 0x0b, 0x59, 0x4f, 0x09, 0xe2, 0x6a, 0x7e, 0x90, 0x2e, 0xcb, 0xd0, 0x60, 0x06, 0x91] := by decide +kernel

end Spec.Aead
