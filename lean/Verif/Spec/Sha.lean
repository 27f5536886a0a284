import Verif.Spec.Bytes
/-
FIPS 180-4, written from the standard: SHA-1, SHA-224/256, SHA-384/512, SHA-512/224, SHA-512/256.
Independent of the model. Constants are derived the way the standard defines them (roots of primes), not copied.
-/
namespace Spec.Sha

abbrev Bytes := List (BitVec 8)

/-! ### Parsing and padding (5.1, 5.2) -/

/-- 5.2: a block as big-endian words of `n` bytes. -/
def words (n : Nat) (block : Bytes) : List (BitVec (8 * n)) := (chunks n block).map fun c => BitVec.ofNat (8 * n) (beNat c)

/-- 5.1: message, bit "1", `k` zero bits (`k` least), message length in bits on `lenBytes` bytes. The standard limits messages to
fewer than `2^(8*lenBytes)` bits; beyond it the length field here is reduced modulo that power. -/
def pad (blockBytes lenBytes : Nat) (m : Bytes) : Bytes :=
  let used := (m.length + 1 + lenBytes) % blockBytes
  let zeros := (blockBytes - used) % blockBytes
  m ++ [0x80#8] ++ List.replicate zeros 0#8 ++ beBytes lenBytes (8 * m.length)

/-! ### Functions (4.1) -/

def ch {w : Nat} (x y z : BitVec w) : BitVec w := (x &&& y) ^^^ (~~~x &&& z)
def parity {w : Nat} (x y z : BitVec w) : BitVec w := x ^^^ y ^^^ z
def maj {w : Nat} (x y z : BitVec w) : BitVec w := (x &&& y) ^^^ (x &&& z) ^^^ (y &&& z)

/-! ### SHA-1 (4.2.1, 5.3.1, 6.1) -/
namespace Sha1

def f (t : Nat) (x y z : BitVec 32) : BitVec 32 :=
  if t < 20 then ch x y z else if t < 40 then parity x y z else if t < 60 then maj x y z else parity x y z

def K (t : Nat) : BitVec 32 :=
  if t < 20 then 0x5a827999#32 else if t < 40 then 0x6ed9eba1#32 else if t < 60 then 0x8f1bbcdc#32 else 0xca62c1d6#32

def iv : List (BitVec 32) := [0x67452301#32, 0xefcdab89#32, 0x98badcfe#32, 0x10325476#32, 0xc3d2e1f0#32]

/-- Next schedule word, from the words so far (`t = w.length`). -/
def next (w : List (BitVec 32)) : BitVec 32 :=
  let t := w.length
  (w.getD (t - 3) 0 ^^^ w.getD (t - 8) 0 ^^^ w.getD (t - 14) 0 ^^^ w.getD (t - 16) 0).rotateLeft 1

def schedule (block : Bytes) : List (BitVec 32) := (List.range 64).foldl (fun w _ => w ++ [next w]) (words 4 block)

structure Vars where
  (a b c d e : BitVec 32)

def round (v : Vars) (t : Nat) (w : BitVec 32) : Vars :=
  let T := v.a.rotateLeft 5 + f t v.b v.c v.d + v.e + K t + w
  ⟨T, v.a, v.b.rotateLeft 30, v.c, v.d⟩

def compress (H : List (BitVec 32)) (block : Bytes) : List (BitVec 32) :=
  let W := schedule block
  let v0 : Vars := ⟨H.getD 0 0, H.getD 1 0, H.getD 2 0, H.getD 3 0, H.getD 4 0⟩
  let v := (List.range 80).foldl (fun v t => round v t (W.getD t 0)) v0
  [v.a + H.getD 0 0, v.b + H.getD 1 0, v.c + H.getD 2 0, v.d + H.getD 3 0, v.e + H.getD 4 0]

end Sha1

/-! ### SHA-2 (4.1.2, 4.1.3, 6.2, 6.4), one description for both word sizes -/

/-- Rotation and shift amounts, number of rounds, constants. -/
structure Sha2 where
  /-- bytes per word: 4 or 8 -/
  n : Nat
  rounds : Nat
  S0 : Nat × Nat × Nat
  S1 : Nat × Nat × Nat
  s0 : Nat × Nat × Nat
  s1 : Nat × Nat × Nat
  K : Nat → BitVec (8 * n)

namespace Sha2

def Sigma (r : Nat × Nat × Nat) {w : Nat} (x : BitVec w) : BitVec w :=
  x.rotateRight r.1 ^^^ x.rotateRight r.2.1 ^^^ x.rotateRight r.2.2
def sigma (r : Nat × Nat × Nat) {w : Nat} (x : BitVec w) : BitVec w :=
  x.rotateRight r.1 ^^^ x.rotateRight r.2.1 ^^^ x >>> r.2.2

structure Vars (w : Nat) where
  (a b c d e f g h : BitVec w)

variable (P : Sha2)

def next (w : List (BitVec (8 * P.n))) : BitVec (8 * P.n) :=
  let t := w.length
  sigma P.s1 (w.getD (t - 2) 0) + w.getD (t - 7) 0 + sigma P.s0 (w.getD (t - 15) 0) + w.getD (t - 16) 0

def schedule (block : Bytes) : List (BitVec (8 * P.n)) :=
  (List.range (P.rounds - 16)).foldl (fun w _ => w ++ [next P w]) (words P.n block)

def round (v : Vars (8 * P.n)) (k w : BitVec (8 * P.n)) : Vars (8 * P.n) :=
  let T1 := v.h + Sigma P.S1 v.e + ch v.e v.f v.g + k + w
  let T2 := Sigma P.S0 v.a + maj v.a v.b v.c
  ⟨T1 + T2, v.a, v.b, v.c, v.d + T1, v.e, v.f, v.g⟩

def compress (H : List (BitVec (8 * P.n))) (block : Bytes) : List (BitVec (8 * P.n)) :=
  let W := schedule P block
  let v0 : Vars (8 * P.n) :=
    ⟨H.getD 0 0, H.getD 1 0, H.getD 2 0, H.getD 3 0, H.getD 4 0, H.getD 5 0, H.getD 6 0, H.getD 7 0⟩
  let v := (List.range P.rounds).foldl (fun v t => round P v (P.K t) (W.getD t 0)) v0
  [v.a + H.getD 0 0, v.b + H.getD 1 0, v.c + H.getD 2 0, v.d + H.getD 3 0,
   v.e + H.getD 4 0, v.f + H.getD 5 0, v.g + H.getD 6 0, v.h + H.getD 7 0]

end Sha2

/-! ### Constants (4.2.2, 4.2.3, 5.3) -/

/-- Largest `r` with `r^k ≤ n` (found bit by bit below `2^bits`). -/
def iroot (k n : Nat) : (bits : Nat) → (r : Nat) → Nat
  | 0, r => r
  | i + 1, r => iroot k n i (if (r + 2 ^ i) ^ k ≤ n then r + 2 ^ i else r)

/-- The first `bits` bits of the fractional part of the `k`-th root of `p`. -/
def rootFrac (k p bits : Nat) : Nat := iroot k (p * 2 ^ (k * bits)) (bits + 8) 0 % 2 ^ bits

def isPrime (n : Nat) : Bool := 2 ≤ n && (List.range n).all fun d => d < 2 || n % d != 0

/-- The first eighty primes. -/
def primes : List Nat := (List.range 410).filter isPrime

def prime (i : Nat) : Nat := primes.getD i 0

/-- SHA-224, SHA-256 (4.1.2, 4.2.2). -/
def p32 : Sha2 where
  n := 4
  rounds := 64
  S0 := (2, 13, 22)
  S1 := (6, 11, 25)
  s0 := (7, 18, 3)
  s1 := (17, 19, 10)
  K := fun t => BitVec.ofNat 32 (rootFrac 3 (prime t) 32)

/-- SHA-384, SHA-512, SHA-512/t (4.1.3, 4.2.3). -/
def p64 : Sha2 where
  n := 8
  rounds := 80
  S0 := (28, 34, 39)
  S1 := (14, 18, 41)
  s0 := (1, 8, 7)
  s1 := (19, 61, 6)
  K := fun t => BitVec.ofNat 64 (rootFrac 3 (prime t) 64)

/-- 5.3.3: first thirty-two bits of the fractional parts of the square roots of the first eight primes. -/
def iv256 : List (BitVec 32) := (List.range 8).map fun i => BitVec.ofNat 32 (rootFrac 2 (prime i) 32)
/-- 5.3.2: the second thirty-two bits, for the ninth through sixteenth primes. -/
def iv224 : List (BitVec 32) := (List.range 8).map fun i => BitVec.ofNat 32 (rootFrac 2 (prime (8 + i)) 64)
/-- 5.3.5 -/
def iv512 : List (BitVec 64) := (List.range 8).map fun i => BitVec.ofNat 64 (rootFrac 2 (prime i) 64)
/-- 5.3.4 -/
def iv384 : List (BitVec 64) := (List.range 8).map fun i => BitVec.ofNat 64 (rootFrac 2 (prime (8 + i)) 64)

/-! ### The hash functions (6) -/

/-- Concatenated big-endian words. -/
def output {n : Nat} (H : List (BitVec (8 * n))) : Bytes := H.flatMap fun w => beBytes n w.toNat

/-- 6.2.2, 6.4.2: fold the compression function over the padded message. -/
def iterate {σ : Type} (compress : σ → Bytes → σ) (blockBytes lenBytes : Nat) (iv : σ) (m : Bytes) : σ :=
  (chunks blockBytes (pad blockBytes lenBytes m)).foldl compress iv

def sha1 (m : Bytes) : Bytes := output (n := 4) (iterate Sha1.compress 64 8 Sha1.iv m)
def sha224 (m : Bytes) : Bytes := (output (n := 4) (iterate (Sha2.compress p32) 64 8 iv224 m)).take 28
def sha256 (m : Bytes) : Bytes := output (n := 4) (iterate (Sha2.compress p32) 64 8 iv256 m)
def sha512 (m : Bytes) : Bytes := output (n := 8) (iterate (Sha2.compress p64) 128 16 iv512 m)
def sha384 (m : Bytes) : Bytes := (output (n := 8) (iterate (Sha2.compress p64) 128 16 iv384 m)).take 48

/-- 5.3.6: the SHA-512/t IV generation function, applied to the ASCII name "SHA-512/t". -/
def ivT (name : String) : List (BitVec 64) :=
  iterate (Sha2.compress p64) 128 16 (iv512.map (· ^^^ 0xa5a5a5a5a5a5a5a5#64)) (name.toList.map fun c => BitVec.ofNat 8 c.toNat)

def sha512_224 (m : Bytes) : Bytes := (output (n := 8) (iterate (Sha2.compress p64) 128 16 (ivT "SHA-512/224") m)).take 28
def sha512_256 (m : Bytes) : Bytes := (output (n := 8) (iterate (Sha2.compress p64) 128 16 (ivT "SHA-512/256") m)).take 32

end Spec.Sha
