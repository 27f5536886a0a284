import Verif.Model.Update
import Verif.Model.HashImpl
/-
Model of src/milo/primitive/detail/hash/sha/sha_2_256.h and sha_2_256_impl_sw.h.
-/
namespace Milo.Sha256
open Memory

/-- `internal::bit_rotr` (bit.h:45-57) with the constant, in-range amounts used here (see `Memory.rotr`). -/
abbrev bitRotr (x : W32) (n : Nat) : W32 := x >>> n ||| x <<< (32 - n)

/-- sha_2_256_impl_sw.h:21-38 `k`. -/
def k : List W32 := [
  0x428a2f98#32, 0x71374491#32, 0xb5c0fbcf#32, 0xe9b5dba5#32,
  0x3956c25b#32, 0x59f111f1#32, 0x923f82a4#32, 0xab1c5ed5#32,
  0xd807aa98#32, 0x12835b01#32, 0x243185be#32, 0x550c7dc3#32,
  0x72be5d74#32, 0x80deb1fe#32, 0x9bdc06a7#32, 0xc19bf174#32,
  0xe49b69c1#32, 0xefbe4786#32, 0x0fc19dc6#32, 0x240ca1cc#32,
  0x2de92c6f#32, 0x4a7484aa#32, 0x5cb0a9dc#32, 0x76f988da#32,
  0x983e5152#32, 0xa831c66d#32, 0xb00327c8#32, 0xbf597fc7#32,
  0xc6e00bf3#32, 0xd5a79147#32, 0x06ca6351#32, 0x14292967#32,
  0x27b70a85#32, 0x2e1b2138#32, 0x4d2c6dfc#32, 0x53380d13#32,
  0x650a7354#32, 0x766a0abb#32, 0x81c2c92e#32, 0x92722c85#32,
  0xa2bfe8a1#32, 0xa81a664b#32, 0xc24b8b70#32, 0xc76c51a3#32,
  0xd192e819#32, 0xd6990624#32, 0xf40e3585#32, 0x106aa070#32,
  0x19a4c116#32, 0x1e376c08#32, 0x2748774c#32, 0x34b0bcb5#32,
  0x391c0cb3#32, 0x4ed8aa4a#32, 0x5b9cca4f#32, 0x682e6ff3#32,
  0x748f82ee#32, 0x78a5636f#32, 0x84c87814#32, 0x8cc70208#32,
  0x90befffa#32, 0xa4506ceb#32, 0xbef9a3f7#32, 0xc67178f2#32]

/-- sha_2_256_impl_sw.h:72-76 -/
def CH (x y z : W32) : W32 := z ^^^ (x &&& (y ^^^ z))
/-- detail/hash/sha/sha_2_256_impl_sw.h:75-76 -/
def MAJ (x y z : W32) : W32 := (x &&& y) ^^^ (z &&& (x ^^^ y))

/-- sha_2_256_impl_sw.h:78-88 -/
def sigmaLower0 (x : W32) : W32 := bitRotr x 7 ^^^ bitRotr x 18 ^^^ x >>> 3
/-- detail/hash/sha/sha_2_256_impl_sw.h:81-82 -/
def sigmaLower1 (x : W32) : W32 := bitRotr x 17 ^^^ bitRotr x 19 ^^^ x >>> 10
/-- detail/hash/sha/sha_2_256_impl_sw.h:84-85 -/
def sigmaUpper0 (x : W32) : W32 := bitRotr x 2 ^^^ bitRotr x 13 ^^^ bitRotr x 22
/-- detail/hash/sha/sha_2_256_impl_sw.h:87-88 -/
def sigmaUpper1 (x : W32) : W32 := bitRotr x 6 ^^^ bitRotr x 11 ^^^ bitRotr x 25

/-- Working variables a..h. -/
structure Regs where
  (a b c d e f g h : W32)
  deriving DecidableEq, Repr

/-- sha_2_256_impl_sw.h:105-106 `SCHEDULE_00_15`. The array `schedule` is the list of elements written so far; reading an element
not yet written is undefined. -/
def schedule00 (h : Host) (src : List Byte) (j : Nat) (sched : List W32) : Option (List W32) := do
  let w ← loadBe h false 4 (p := 1) src j
  pure (sched ++ [w])

/-- sha_2_256_impl_sw.h:108-113 `SCHEDULE_16_63`. -/
def schedule16 (j : Nat) (sched : List W32) : Option (List W32) := do
  let w7 ← rd1 sched (j - 7)
  let w16 ← rd1 sched (j - 16)
  let w2 ← rd1 sched (j - 2)
  let w15 ← rd1 sched (j - 15)
  pure (sched ++ [w7 + w16 + sigmaLower1 w2 + sigmaLower0 w15])

/-- sha_2_256_impl_sw.h:90-103, 115-126 `T_1`, `T_2`, `ROUND`. -/
def round (j : Nat) (sched : List W32) (r : Regs) : Option Regs := do
  let kv ← rd1 k j
  let w ← rd1 sched j
  let t1 := sigmaUpper1 r.e + CH r.e r.f r.g + r.h + kv + w
  let t2 := sigmaUpper0 r.a + MAJ r.a r.b r.c
  pure ⟨t1 + t2, r.a, r.b, r.c, r.d + t1, r.e, r.f, r.g⟩

/-- One iteration of the block loop, sha_2_256_impl_sw.h:132-170. -/
def block (h : Host) (r : Regs) (src : List Byte) : Option Regs := do
  let s ← forM' (fun j (s : List W32 × Regs) => do
    let sched ← schedule00 h src j s.1
    let r ← round j sched s.2
    pure (sched, r)) 16 0 ([], r)
  let s ← forM' (fun j (s : List W32 × Regs) => do
    let sched ← schedule16 j s.1
    let r ← round j sched s.2
    pure (sched, r)) 48 16 s
  let o := s.2
  pure ⟨o.a + r.a, o.b + r.b, o.c + r.c, o.d + r.d, o.e + r.e, o.f + r.f, o.g + r.g, o.h + r.h⟩

/-- sha_2_256_impl_sw.h:43-183 `blocks`: `a_src_ptr += block_size` after each block. -/
def blocksLoop (h : Host) : (n : Nat) → Regs → List Byte → Option Regs
  | 0, r, _ => some r
  | n + 1, r, src => do
    let r ← block h r src
    let src ← advance src 64
    blocksLoop h n r src

/-- detail/hash/sha/sha_2_256_impl_sw.h:46-185, the loop over the blocks. -/
def blocksSw (hst : Host) (n : Nat) (st : List W32) (src : List Byte) : Option (List W32) := do
  let a ← rd1 st 0
  let b ← rd1 st 1
  let c ← rd1 st 2
  let d ← rd1 st 3
  let e ← rd1 st 4
  let f ← rd1 st 5
  let g ← rd1 st 6
  let h ← rd1 st 7
  let r ← blocksLoop hst n ⟨a, b, c, d, e, f, g, h⟩ src
  let st ← wr1 st 0 r.a
  let st ← wr1 st 1 r.b
  let st ← wr1 st 2 r.c
  let st ← wr1 st 3 r.d
  let st ← wr1 st 4 r.e
  let st ← wr1 st 5 r.f
  let st ← wr1 st 6 r.g
  wr1 st 7 r.h

/-- The members of `hash_sha_2_256`, sha_2_256.h:67-73. -/
structure Obj where
  state : List W32
  processed : W64
  buffer : List Byte
  bufferSize : Nat
  deriving DecidableEq, Repr

/-- sha_2_256.h:101-135 the initial states, by `t_bits` (a `static_assert` admits no other value). -/
def iv : (bits : Nat) → List W32
  | 224 => [
  0xc1059ed8#32, 0x367cd507#32, 0x3070dd17#32, 0xf70e5939#32,
  0xffc00b31#32, 0x68581511#32, 0x64f98fa7#32, 0xbefa4fa4#32]
  | 256 => [
  0x6a09e667#32, 0xbb67ae85#32, 0x3c6ef372#32, 0xa54ff53a#32,
  0x510e527f#32, 0x9b05688c#32, 0x1f83d9ab#32, 0x5be0cd19#32]
  | _ => []

/-- sha_2_256.h:101-135 `initialize`. -/
def initObj (bits : Nat) (o : Obj) : Obj :=
  { o with
    state := iv bits
    processed := 0
    bufferSize := 0 }

/-- sha_2_256.h:137-157 `update`; `blocks` is the chosen backend. -/
def update (h : Host) (blocks : Nat → List W32 → List Byte → Option (List W32)) (o : Obj) (msg : List Byte) : Option Obj := do
  let processed := o.processed + BitVec.ofNat 64 msg.length
  let (bufferSize, buffer, state) ← soak h 64 blocks o.buffer o.bufferSize msg o.state
  pure ⟨state, processed, buffer, bufferSize⟩

/-- sha_2_256.h:159-184 `finalize`. -/
def finalize (h : Host) (blocks : Nat → List W32 → List Byte → Option (List W32)) (o : Obj) : Option Obj := do
  let left := o.bufferSize
  let last := 64 <<< (if left ≥ 56 then 1 else 0)
  let buf ← wr1 o.buffer left 128#8
  let buf ← forM' (fun i buf => wr1 buf i 0#8) (last - 8 - (left + 1)) (left + 1) buf
  let buf ← at_ buf (last - 8) fun p => storBe h (v := 8) (p := 1) p 0 (o.processed <<< 3)
  let state ← blocks (last / 64) o.state buf
  pure { o with buffer := buf, state := state }

/-- sha_2_256.h:186-207 `digest`. -/
def digest (h : Host) (digestSize : Nat) (o : Obj) (dst : List Byte) (n : Nat) : Option (List Byte × Nat) := do
  let n := min n digestSize
  let dst ← copyBe h (p := 1) (q := 4) dst o.state n
  pure (dst, n)

/-- The class; `digestSize` is the digest_size option (bits/8 unless given). (detail/hash/sha/sha_2_256.h:15-209) -/
def impl (h : Host) (blocks : Nat → List W32 → List Byte → Option (List W32)) (bits digestSize : Nat) : HashImpl where
  σ := Obj
  fresh := ⟨List.replicate 8 0, 0, List.replicate 128 0, 0⟩
  blockSize := 64
  digestSize := digestSize
  init := initObj bits
  update := update h blocks
  finalize := finalize h blocks
  digest := digest h digestSize

end Milo.Sha256
