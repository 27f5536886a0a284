import Verif.Model.Update
import Verif.Model.HashImpl
/-
Model of src/milo/primitive/detail/hash/sha/sha_1_160.h and sha_1_160_impl_sw.h.
-/
namespace Milo.Sha1
open Memory

/-- `internal::bit_rotl`/`bit_rotr` (bit.h:31-57) with the constant, in-range amounts used here (see `Memory.rotl`). -/
abbrev bitRotl (x : W32) (n : Nat) : W32 := x <<< n ||| x >>> (32 - n)
/-- internal/bit.h:44-58 `bit_rotr` -/
abbrev bitRotr (x : W32) (n : Nat) : W32 := x >>> n ||| x <<< (32 - n)

/-- sha_1_160_impl_sw.h:21-23 `k`. -/
def k : List W32 := [0x5a827999#32, 0x6ed9eba1#32, 0x8f1bbcdc#32, 0xca62c1d6#32]

/-- sha_1_160_impl_sw.h:53-60 -/
def CH (x y z : W32) : W32 := z ^^^ (x &&& (y ^^^ z))
/-- detail/hash/sha/sha_1_160_impl_sw.h:56-57 -/
def MAJ (x y z : W32) : W32 := (x &&& y) ^^^ (z &&& (x ^^^ y))
/-- detail/hash/sha/sha_1_160_impl_sw.h:59-60 -/
def PARITY (x y z : W32) : W32 := x ^^^ y ^^^ z

/-- Working variables a..e. (detail/hash/sha/sha_1_160_impl_sw.h:31-52) -/
structure Regs where
  (a b c d e : W32)
  deriving DecidableEq, Repr

/-- sha_1_160_impl_sw.h:71-72 `SCHEDULE_00_15`. The array `schedule` is the list of elements written so far; reading an element
not yet written is undefined. -/
def schedule00 (h : Host) (src : List Byte) (j : Nat) (sched : List W32) : Option (List W32) := do
  let w ← loadBe h false 4 (p := 1) src j
  pure (sched ++ [w])

/-- sha_1_160_impl_sw.h:74-81 `SCHEDULE_16_79`. -/
def schedule16 (j : Nat) (sched : List W32) : Option (List W32) := do
  let w3 ← rd1 sched (j - 3)
  let w8 ← rd1 sched (j - 8)
  let w14 ← rd1 sched (j - 14)
  let w16 ← rd1 sched (j - 16)
  pure (sched ++ [bitRotl (w3 ^^^ w8 ^^^ w14 ^^^ w16) 1])

/-- sha_1_160_impl_sw.h:62-69, 83-90 `T_1` and `ROUND`. -/
def round (f : W32 → W32 → W32 → W32) (ki j : Nat) (sched : List W32) (r : Regs) : Option Regs := do
  let kv ← rd1 k ki
  let w ← rd1 sched j
  let t1 := bitRotl r.a 5 + f r.b r.c r.d + r.e + kv + w
  pure ⟨t1, r.a, bitRotr r.b 2, r.c, r.d⟩

/-- One iteration of the block loop, sha_1_160_impl_sw.h:96-146. -/
def block (h : Host) (r : Regs) (src : List Byte) : Option Regs := do
  let s ← forM' (fun j (s : List W32 × Regs) => do
    let sched ← schedule00 h src j s.1
    let r ← round CH 0 j sched s.2
    pure (sched, r)) 16 0 ([], r)
  let s ← forM' (fun j (s : List W32 × Regs) => do
    let sched ← schedule16 j s.1
    let r ← round CH 0 j sched s.2
    pure (sched, r)) 4 16 s
  let s ← forM' (fun j (s : List W32 × Regs) => do
    let sched ← schedule16 j s.1
    let r ← round PARITY 1 j sched s.2
    pure (sched, r)) 20 20 s
  let s ← forM' (fun j (s : List W32 × Regs) => do
    let sched ← schedule16 j s.1
    let r ← round MAJ 2 j sched s.2
    pure (sched, r)) 20 40 s
  let s ← forM' (fun j (s : List W32 × Regs) => do
    let sched ← schedule16 j s.1
    let r ← round PARITY 3 j sched s.2
    pure (sched, r)) 20 60 s
  let o := s.2
  pure ⟨o.a + r.a, o.b + r.b, o.c + r.c, o.d + r.d, o.e + r.e⟩

/-- sha_1_160_impl_sw.h:28-156 `blocks`: `a_src_ptr += block_size` after each block. -/
def blocksLoop (h : Host) : (n : Nat) → Regs → List Byte → Option Regs
  | 0, r, _ => some r
  | n + 1, r, src => do
    let r ← block h r src
    let src ← advance src 64
    blocksLoop h n r src

/-- detail/hash/sha/sha_1_160_impl_sw.h:31-158, the loop over the blocks. -/
def blocksSw (h : Host) (n : Nat) (st : List W32) (src : List Byte) : Option (List W32) := do
  let a ← rd1 st 0
  let b ← rd1 st 1
  let c ← rd1 st 2
  let d ← rd1 st 3
  let e ← rd1 st 4
  let r ← blocksLoop h n ⟨a, b, c, d, e⟩ src
  let st ← wr1 st 0 r.a
  let st ← wr1 st 1 r.b
  let st ← wr1 st 2 r.c
  let st ← wr1 st 3 r.d
  wr1 st 4 r.e

/-- The members of `hash_sha_1_160`, sha_1_160.h:67-73. -/
structure Obj where
  state : List W32
  processed : W64
  buffer : List Byte
  bufferSize : Nat
  deriving DecidableEq, Repr

/-- sha_1_160.h:100-119 `initialize`. -/
def initObj (o : Obj) : Obj :=
  { o with
    state := [
  0x67452301#32, 0xefcdab89#32, 0x98badcfe#32, 0x10325476#32,
  0xc3d2e1f0#32]
    processed := 0
    bufferSize := 0 }

/-- sha_1_160.h:121-141 `update`; `blocks` is the chosen backend. -/
def update (h : Host) (blocks : Nat → List W32 → List Byte → Option (List W32)) (o : Obj) (msg : List Byte) : Option Obj := do
  let processed := o.processed + BitVec.ofNat 64 msg.length
  let (bufferSize, buffer, state) ← soak h 64 blocks o.buffer o.bufferSize msg o.state
  pure ⟨state, processed, buffer, bufferSize⟩

/-- sha_1_160.h:143-168 `finalize`. -/
def finalize (h : Host) (blocks : Nat → List W32 → List Byte → Option (List W32)) (o : Obj) : Option Obj := do
  let left := o.bufferSize
  let last := 64 <<< (if left ≥ 56 then 1 else 0)
  let buf ← wr1 o.buffer left 128#8
  let buf ← forM' (fun i buf => wr1 buf i 0#8) (last - 8 - (left + 1)) (left + 1) buf
  let buf ← at_ buf (last - 8) fun p => storBe h (v := 8) (p := 1) p 0 (o.processed <<< 3)
  let state ← blocks (last / 64) o.state buf
  pure { o with buffer := buf, state := state }

/-- sha_1_160.h:170-191 `digest`. -/
def digest (h : Host) (digestSize : Nat) (o : Obj) (dst : List Byte) (n : Nat) : Option (List Byte × Nat) := do
  let n := min n digestSize
  let dst ← copyBe h (p := 1) (q := 4) dst o.state n
  pure (dst, n)

/-- The class; `digestSize` is the digest_size option (160/8 unless given). (detail/hash/sha/sha_1_160.h:15-193) -/
def impl (h : Host) (blocks : Nat → List W32 → List Byte → Option (List W32)) (digestSize : Nat) : HashImpl where
  σ := Obj
  fresh := ⟨List.replicate 5 0, 0, List.replicate 128 0, 0⟩
  blockSize := 64
  digestSize := digestSize
  init := initObj
  update := update h blocks
  finalize := finalize h blocks
  digest := digest h digestSize

end Milo.Sha1
