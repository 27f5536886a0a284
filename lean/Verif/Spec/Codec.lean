/-
Independent specification of the Base-16 and Base-64 text encodings (RFC 4648 sections 4 and 8).
Bytes are `BitVec 8`; characters are given by their ASCII codes. No dependency on the model.
-/
namespace Spec.Codec

/-- ASCII code of a character. -/
def ascii (c : Char) : BitVec 8 := BitVec.ofNat 8 c.toNat

def hexLower : List Char :=
  ['0','1','2','3','4','5','6','7','8','9','a','b','c','d','e','f']
def hexUpper : List Char :=
  ['0','1','2','3','4','5','6','7','8','9','A','B','C','D','E','F']

/-- The lowercase hexadecimal digit of a value below 16. -/
def hexDigit (v : Nat) : BitVec 8 := ascii (hexLower.getD v '?')

/-- Hexadecimal text of a byte string: two lowercase digits per byte, high nibble first. -/
def hexEncode (x : List (BitVec 8)) : List (BitVec 8) :=
  x.flatMap fun b => [hexDigit (b.toNat / 16), hexDigit (b.toNat % 16)]

/-- Value of a hexadecimal digit in either case, `none` for any other byte. -/
def hexValue (c : BitVec 8) : Option Nat :=
  match (hexLower.map ascii).idxOf? c with
  | some v => some v
  | none => (hexUpper.map ascii).idxOf? c

/-- Value of an even-length text of hexadecimal digits; `none` if some character is no digit or the length is odd. -/
def hexDecode : List (BitVec 8) → Option (List (BitVec 8))
  | [] => some []
  | [_] => none
  | c0 :: c1 :: rest => do
    let h ← hexValue c0
    let l ← hexValue c1
    let r ← hexDecode rest
    some (BitVec.ofNat 8 (16 * h + l) :: r)

/-- RFC 4648 table 1. -/
def alphabet64 : List Char :=
  ['A','B','C','D','E','F','G','H','I','J','K','L','M','N','O','P','Q','R','S','T','U','V','W','X','Y','Z',
   'a','b','c','d','e','f','g','h','i','j','k','l','m','n','o','p','q','r','s','t','u','v','w','x','y','z',
   '0','1','2','3','4','5','6','7','8','9','+','/']

def sextetChar (v : Nat) : BitVec 8 := ascii (alphabet64.getD v '?')
def sextetValue (c : BitVec 8) : Option Nat := (alphabet64.map ascii).idxOf? c
def pad : BitVec 8 := ascii '='

/-- RFC 4648 section 4: 24-bit groups read as four sextets; a final 16- or 8-bit group is extended with zero bits to
18 or 12 bits and padded with `=`. -/
def b64Encode : List (BitVec 8) → List (BitVec 8)
  | [] => []
  | [b0] =>
    let v := b0.toNat * 2 ^ 4
    [sextetChar (v / 2 ^ 6), sextetChar (v % 2 ^ 6), pad, pad]
  | [b0, b1] =>
    let v := (b0.toNat * 2 ^ 8 + b1.toNat) * 2 ^ 2
    [sextetChar (v / 2 ^ 12), sextetChar (v / 2 ^ 6 % 2 ^ 6), sextetChar (v % 2 ^ 6), pad]
  | b0 :: b1 :: b2 :: rest =>
    let v := b0.toNat * 2 ^ 16 + b1.toNat * 2 ^ 8 + b2.toNat
    sextetChar (v / 2 ^ 18) :: sextetChar (v / 2 ^ 12 % 2 ^ 6) :: sextetChar (v / 2 ^ 6 % 2 ^ 6) ::
      sextetChar (v % 2 ^ 6) :: b64Encode rest

/-- The bytes spelled by a padded Base-64 text; `none` if it is not well formed: the length is not a multiple of four,
a character is outside the alphabet, or `=` occurs anywhere but as the last or the last two characters.
(Non-zero discarded bits before the padding are not rejected here: RFC 4648 section 3.5 leaves that to the decoder.) -/
def b64Decode : List (BitVec 8) → Option (List (BitVec 8))
  | [] => some []
  | [c0, c1, c2, c3] =>
    if c3 = pad then
      if c2 = pad then do
        let s0 ← sextetValue c0
        let s1 ← sextetValue c1
        some [BitVec.ofNat 8 ((s0 * 2 ^ 6 + s1) / 2 ^ 4)]
      else do
        let s0 ← sextetValue c0
        let s1 ← sextetValue c1
        let s2 ← sextetValue c2
        let v := ((s0 * 2 ^ 6 + s1) * 2 ^ 6 + s2) / 2 ^ 2
        some [BitVec.ofNat 8 (v / 2 ^ 8), BitVec.ofNat 8 (v % 2 ^ 8)]
    else do
      let s0 ← sextetValue c0
      let s1 ← sextetValue c1
      let s2 ← sextetValue c2
      let s3 ← sextetValue c3
      let v := ((s0 * 2 ^ 6 + s1) * 2 ^ 6 + s2) * 2 ^ 6 + s3
      some [BitVec.ofNat 8 (v / 2 ^ 16), BitVec.ofNat 8 (v / 2 ^ 8 % 2 ^ 8), BitVec.ofNat 8 (v % 2 ^ 8)]
  | c0 :: c1 :: c2 :: c3 :: rest => do
    let s0 ← sextetValue c0
    let s1 ← sextetValue c1
    let s2 ← sextetValue c2
    let s3 ← sextetValue c3
    let v := ((s0 * 2 ^ 6 + s1) * 2 ^ 6 + s2) * 2 ^ 6 + s3
    let r ← b64Decode rest
    some (BitVec.ofNat 8 (v / 2 ^ 16) :: BitVec.ofNat 8 (v / 2 ^ 8 % 2 ^ 8) :: BitVec.ofNat 8 (v % 2 ^ 8) :: r)
  | _ => none

end Spec.Codec
