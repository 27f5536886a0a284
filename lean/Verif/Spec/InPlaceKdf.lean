import Verif.Spec.InPlace
/- Key material written, block after block, over memory it is computed from. -/
namespace Spec.InPlace
open Milo

/-- The buffers (by number) with bytes `xs` written into buffer `b` at offset `off`. -/
def write (m : Nat → List Byte) (b off : Nat) (xs : List Byte) : Nat → List Byte := fun i => if i = b then replaced (m b) off xs else m i

/-- `n` bytes of key material are written into buffer `b` from offset `d` on, in blocks of `size` bytes. Block `i` is computed from the memory as it is when its turn comes: the blocks before it are
written, it and those after it are not. This is the memory after the blocks `i`, …, `i + k - 1`. -/
def overwritten (block : Nat → (Nat → List Byte) → List Byte) (b d size n : Nat) : (k i : Nat) → (Nat → List Byte) → Nat → List Byte
  | 0, _, m => m
  | k + 1, i, m => overwritten block b d size n k (i + 1) (write m b (d + i * size) ((block i m).take (n - i * size)))

end Spec.InPlace
