import Verif.Spec.Bytes
/- RFC 8439 section 2.5: the Poly1305 one-time authenticator. -/
namespace Spec.Poly1305

/-- The prime `2^130 - 5`. -/
def p : Nat := 2 ^ 130 - 5

/-- `r &= 0x0ffffffc0ffffffc0ffffffc0fffffff` -/
def clamp (r : Nat) : Nat := r &&& 0x0ffffffc0ffffffc0ffffffc0fffffff

/-- One step of the loop: the block (16 bytes, the last one possibly shorter) with a byte 1 appended, read as a little-endian number, is added
to the accumulator, which is then multiplied by `r` modulo `p`. -/
def absorb (r acc : Nat) (block : List (BitVec 8)) : Nat := (acc + leNat (block ++ [1])) * r % p

/-- The tag of `msg` under the one-time key `key` (32 bytes: `r`, then `s`). -/
def mac (key msg : List (BitVec 8)) : List (BitVec 8) :=
  let r := clamp (leNat (key.take 16))
  let s := leNat ((key.drop 16).take 16)
  leBytes 16 (((chunks 16 msg).foldl (absorb r) 0 + s) % 2 ^ 128)

end Spec.Poly1305
