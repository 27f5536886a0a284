import Verif.Spec.Kdf
/-
Keys longer than RFC 8018 allows. RFC 8018, 5.2, step 1: if dkLen > (2^32 - 1) * hLen, output "derived key too long" and stop.
-/
namespace Spec
open Milo

/-- `N` blocks whose number is a 32-bit counter: after block `2^32 - 1` comes block 0, which RFC 8018 does not have, and then block 1 again. -/
def pbkdf2Wrapped (prf : List Byte → List Byte → List Byte) (p s : List Byte) (c N : Nat) : List Byte :=
  ((List.range N).map fun i => pbkdf2T prf p s ((i + 1) % 2 ^ 32) c).flatten

/-! Requests beyond the limit of RFC 5869 (`L <= 255 * HashLen`), answered by a generator that counts in one byte and begins anew with an empty block whenever a request comes when the next number is 1. -/

/-- `n` blocks after `prev`, with the numbers `k + 1 … k + n` modulo 256. -/
def hkdfBlocks (mac : List Byte → List Byte → List Byte) (prk info : List Byte) : (prev : List Byte) → (k n : Nat) → List (List Byte)
  | _, _, 0 => []
  | prev, k, n + 1 =>
    let t := mac prk (prev ++ info ++ [BitVec.ofNat 8 (k + 1)])
    t :: hkdfBlocks mac prk info t (k + 1) n

/-- The generator: how many blocks it has made, the last one, and what is left of it. -/
structure HkdfState where
  made : Nat
  last : List Byte
  left : List Byte

/-- One request for `n` bytes, for blocks of `size` bytes. If what is left does not do, so many blocks are made that some of the last is left (all of it, if `n` ends with a block). -/
def hkdfRequest (mac : List Byte → List Byte → List Byte) (prk info : List Byte) (size : Nat) (g : HkdfState) (n : Nat) : HkdfState × List Byte :=
  if n ≤ g.left.length then ({ g with left := g.left.drop n }, g.left.take n)
  else
    let need := n - g.left.length
    let prev := if g.made % 256 = 0 then [] else g.last
    let bs := hkdfBlocks mac prk info prev g.made (need / size + 1)
    (⟨g.made + (need / size + 1), bs.getLastD [], bs.flatten.drop need⟩, g.left ++ bs.flatten.take need)

/-- A list of requests, each with what it receives. -/
def hkdfRequests (mac : List Byte → List Byte → List Byte) (prk info : List Byte) (size : Nat) : HkdfState → List Milo.DigestReq → List (List Byte × Nat)
  | _, [] => []
  | g, r :: rs =>
    let x := hkdfRequest mac prk info size g (asked r)
    received x.2 r :: hkdfRequests mac prk info size x.1 rs

end Spec
