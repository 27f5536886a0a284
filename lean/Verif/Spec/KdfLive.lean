import Verif.Spec.KdfUse
/-
What a kdf object yields at run time when the caller changes the buffers it refers to: every block of the key is computed in the request that first needs it, from
the content the buffers have then. (`KdfUse` and `Spec.Kdf`: the standards, for buffers that do not change.)
-/
namespace Milo.Kdf

/-- The requests among calls, each with the caller's memory at the time of the request. -/
def requests {A : Type} (m : Mem) : List (Call A) → List (Mem × DigestReq)
  | [] => []
  | .derive r :: cs => (m, r) :: requests m cs
  | .poke b content :: cs => requests (fun i => if i = b then content else m i) cs
  | .init _ :: cs => requests m cs

/-- The caller overwriting buffers. -/
def pokes {A : Type} (ws : List (Nat × List Byte)) : List (Call A) := ws.map fun w => .poke w.1 w.2

end Milo.Kdf

namespace Spec
open Milo (Byte DigestReq)

/-- Requests are served from the bytes left over, and from new blocks as needed: `more m s n` computes, in circumstances `m`, blocks of at least `n` bytes and the next
state. -/
def live {μ S : Type} (more : μ → S → Nat → List Byte × S) : (rest : List Byte) → (s : S) → List (μ × DigestReq) → List (List Byte × Nat)
  | _, _, [] => []
  | rest, s, (m, r) :: rs =>
    if asked r ≤ rest.length then received (rest.take (asked r)) r :: live more (rest.drop (asked r)) s rs
    else received ((rest ++ (more m s (asked r - rest.length)).1).take (asked r)) r ::
      live more ((rest ++ (more m s (asked r - rest.length)).1).drop (asked r)) (more m s (asked r - rest.length)).2 rs

/-- PBKDF2 with blocks of `size` bytes: the blocks `T_i | T_(i+1) | …` that `n > 0` bytes need; the state is the number of the next block, of which the code uses the low
32 bits. -/
def pbkdf2More (prf : List Byte → List Byte → List Byte) (size : Nat) (p s : List Byte) (c i n : Nat) : List Byte × Nat :=
  (((List.range ((n + size - 1) / size)).map fun j => pbkdf2T prf p s ((i + j) % 2 ^ 32) c).flatten, i + (n + size - 1) / size)

/-- `count` blocks of HKDF after the block `prev`, with numbers from `i` on, of which the code uses the low 8 bits. -/
def hkdfChain (mac : List Byte → List Byte → List Byte) (prk info : List Byte) : (count : Nat) → (prev : List Byte) → (i : Nat) → List (List Byte)
  | 0, _, _ => []
  | k + 1, prev, i => mac prk (prev ++ info ++ [BitVec.ofNat 8 i]) :: hkdfChain mac prk info k (mac prk (prev ++ info ++ [BitVec.ofNat 8 i])) (i + 1)

/-- HKDF with blocks of `size` bytes: the state is the last block and the number of the next. One block more than `n` bytes fill is computed, whether it is needed or
not; and a request that begins with the counter byte at 1 begins as the first one does, without a previous block. -/
def hkdfMore (mac : List Byte → List Byte → List Byte) (size : Nat) (prk info : List Byte) (s : List Byte × Nat) (n : Nat) : List Byte × (List Byte × Nat) :=
  let ts := hkdfChain mac prk info (n / size + 1) (if s.2 % 256 = 1 then [] else s.1) s.2
  (ts.flatten, (ts.getLastD [], s.2 + n / size + 1))

end Spec
