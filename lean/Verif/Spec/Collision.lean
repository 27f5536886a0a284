import Verif.Spec.ShaAlg
import Verif.Spec.Mac
/-
What "breaking" a hash function of FIPS 180-4 means here: two different inputs of its compression function, both among those evaluated while the two given messages are hashed, with
the same result. (That some collision exists is trivial; these are computed from the messages.)
-/
namespace Spec.Collision
open Milo Spec.Sha

/-- A hash function that folds a compression function over the blocks of the padded message. -/
structure Chain where
  σ : Type
  compress : σ → Bytes → σ
  iv : σ
  block : Nat
  len : Nat
  out : σ → Bytes

/-- The digest. -/
def Chain.hash (C : Chain) (m : Bytes) : Bytes := C.out (iterate C.compress C.block C.len C.iv m)

/-- The inputs (chaining value, block) of the compression function while hashing. -/
def inputs {σ : Type} (compress : σ → Bytes → σ) : σ → List Bytes → List (σ × Bytes)
  | _, [] => []
  | s, b :: bs => (s, b) :: inputs compress (compress s b) bs

def Chain.steps (C : Chain) (m : Bytes) : List (C.σ × Bytes) := inputs C.compress C.iv (chunks C.block (pad C.block C.len m))

/-- The parts FIPS 180-4 functions are made of. -/
def chain : ShaAlg → Chain
  | .sha_1_160 => ⟨List (BitVec 32), Sha1.compress, Sha1.iv, 64, 8, output (n := 4)⟩
  | .sha_2_224 => ⟨List (BitVec 32), Sha2.compress p32, iv224, 64, 8, fun s => (output (n := 4) s).take 28⟩
  | .sha_2_256 => ⟨List (BitVec 32), Sha2.compress p32, iv256, 64, 8, output (n := 4)⟩
  | .sha_2_384 => ⟨List (BitVec 64), Sha2.compress p64, iv384, 128, 16, fun s => (output (n := 8) s).take 48⟩
  | .sha_2_512 => ⟨List (BitVec 64), Sha2.compress p64, iv512, 128, 16, output (n := 8)⟩
  | .sha_2_512_224 => ⟨List (BitVec 64), Sha2.compress p64, ivT "SHA-512/224", 128, 16, fun s => (output (n := 8) s).take 28⟩
  | .sha_2_512_256 => ⟨List (BitVec 64), Sha2.compress p64, ivT "SHA-512/256", 128, 16, fun s => (output (n := 8) s).take 32⟩

/-- Two evaluations of the compression function, one for each message, with different inputs and the same result. -/
def Collides (C : Chain) (m m' : Bytes) : Prop := ∃ p ∈ C.steps m, ∃ q ∈ C.steps m', p ≠ q ∧ C.compress p.1 p.2 = C.compress q.1 q.2

/-- The last evaluations, one for each message, have different inputs and results that agree in what is kept of them: `n` bytes. -/
def CollidesAtEnd (C : Chain) (n : Nat) (m m' : Bytes) : Prop :=
  ∃ p q, (C.steps m).getLast? = some p ∧ (C.steps m').getLast? = some q ∧ p ≠ q ∧ (C.out (C.compress p.1 p.2)).take n = (C.out (C.compress q.1 q.2)).take n

/-- The function is broken by these messages, digests being cut to `n` bytes. -/
def Broken (a : ShaAlg) (n : Nat) (m m' : Bytes) : Prop := Collides (chain a) m m' ∨ CollidesAtEnd (chain a) n m m'

/-- FIPS 180-4, 1: the longest messages (in bytes): fewer than `2^64` or `2^128` bits. -/
def fits (a : ShaAlg) (m : Bytes) : Prop := 8 * m.length < 256 ^ (chain a).len

/-! ### HMAC -/

/-- A message that fits with the block HMAC hashes before it. -/
def fitsHmac (a : ShaAlg) (m : Bytes) : Prop := 8 * (shaBlock a + m.length) < 256 ^ (chain a).len

/-- What the inner hash gets. -/
def inner (a : ShaAlg) (key text : Bytes) : Bytes := (hmacKey (shaBlock a) (shaSpec a) key).map (· ^^^ 0x36) ++ text
/-- What the outer hash gets. -/
def outer (a : ShaAlg) (key text : Bytes) : Bytes := (hmacKey (shaBlock a) (shaSpec a) key).map (· ^^^ 0x5c) ++ shaSpec a (inner a key text)

/-- Zero bytes up to the block size. -/
def padded (a : ShaAlg) (k : Bytes) : Bytes := k ++ List.replicate (shaBlock a - k.length) 0

/-- The keys RFC 2104 makes equal: keys up to a block that differ only in zero bytes at the end; a longer key and its hash. -/
def Equivalent (a : ShaAlg) (k k' : Bytes) : Prop :=
  k = k' ∨
  k.length ≤ shaBlock a ∧ k'.length ≤ shaBlock a ∧ padded a k = padded a k' ∨
  k.length > shaBlock a ∧ k'.length ≤ shaBlock a ∧ padded a (shaSpec a k) = padded a k' ∨
  k.length ≤ shaBlock a ∧ k'.length > shaBlock a ∧ padded a k = padded a (shaSpec a k')

/-- HMAC with tags of `n` bytes is broken by these keys and messages: one of the hash computations in it is. -/
def HmacBroken (a : ShaAlg) (n : Nat) (k m k' m' : Bytes) : Prop :=
  Broken a n (outer a k m) (outer a k' m') ∨ Broken a a.size (inner a k m) (inner a k' m') ∨ k.length > shaBlock a ∧ k'.length > shaBlock a ∧ Broken a a.size k k'

end Spec.Collision
