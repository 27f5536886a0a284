import Verif.Model.Update
import Verif.Model.HashImpl
/-
Model of src/milo/primitive/detail/hash/sha/sha_2_512.h and sha_2_512_impl_sw.h.
-/
namespace Milo.Sha512
open Memory

/-- `internal::bit_rotr` (bit.h:45-57) with the constant, in-range amounts used here (see `Memory.rotr`). -/
abbrev bitRotr (x : W64) (n : Nat) : W64 := x >>> n ||| x <<< (64 - n)

/-- sha_2_512_impl_sw.h:21-42 `k`. -/
def k : List W64 := [
  0x428a2f98d728ae22#64, 0x7137449123ef65cd#64, 0xb5c0fbcfec4d3b2f#64, 0xe9b5dba58189dbbc#64,
  0x3956c25bf348b538#64, 0x59f111f1b605d019#64, 0x923f82a4af194f9b#64, 0xab1c5ed5da6d8118#64,
  0xd807aa98a3030242#64, 0x12835b0145706fbe#64, 0x243185be4ee4b28c#64, 0x550c7dc3d5ffb4e2#64,
  0x72be5d74f27b896f#64, 0x80deb1fe3b1696b1#64, 0x9bdc06a725c71235#64, 0xc19bf174cf692694#64,
  0xe49b69c19ef14ad2#64, 0xefbe4786384f25e3#64, 0x0fc19dc68b8cd5b5#64, 0x240ca1cc77ac9c65#64,
  0x2de92c6f592b0275#64, 0x4a7484aa6ea6e483#64, 0x5cb0a9dcbd41fbd4#64, 0x76f988da831153b5#64,
  0x983e5152ee66dfab#64, 0xa831c66d2db43210#64, 0xb00327c898fb213f#64, 0xbf597fc7beef0ee4#64,
  0xc6e00bf33da88fc2#64, 0xd5a79147930aa725#64, 0x06ca6351e003826f#64, 0x142929670a0e6e70#64,
  0x27b70a8546d22ffc#64, 0x2e1b21385c26c926#64, 0x4d2c6dfc5ac42aed#64, 0x53380d139d95b3df#64,
  0x650a73548baf63de#64, 0x766a0abb3c77b2a8#64, 0x81c2c92e47edaee6#64, 0x92722c851482353b#64,
  0xa2bfe8a14cf10364#64, 0xa81a664bbc423001#64, 0xc24b8b70d0f89791#64, 0xc76c51a30654be30#64,
  0xd192e819d6ef5218#64, 0xd69906245565a910#64, 0xf40e35855771202a#64, 0x106aa07032bbd1b8#64,
  0x19a4c116b8d2d0c8#64, 0x1e376c085141ab53#64, 0x2748774cdf8eeb99#64, 0x34b0bcb5e19b48a8#64,
  0x391c0cb3c5c95a63#64, 0x4ed8aa4ae3418acb#64, 0x5b9cca4f7763e373#64, 0x682e6ff3d6b2b8a3#64,
  0x748f82ee5defb2fc#64, 0x78a5636f43172f60#64, 0x84c87814a1f0ab72#64, 0x8cc702081a6439ec#64,
  0x90befffa23631e28#64, 0xa4506cebde82bde9#64, 0xbef9a3f7b2c67915#64, 0xc67178f2e372532b#64,
  0xca273eceea26619c#64, 0xd186b8c721c0c207#64, 0xeada7dd6cde0eb1e#64, 0xf57d4f7fee6ed178#64,
  0x06f067aa72176fba#64, 0x0a637dc5a2c898a6#64, 0x113f9804bef90dae#64, 0x1b710b35131c471b#64,
  0x28db77f523047d84#64, 0x32caab7b40c72493#64, 0x3c9ebe0a15c9bebc#64, 0x431d67c49c100d4c#64,
  0x4cc5d4becb3e42b6#64, 0x597f299cfc657e2a#64, 0x5fcb6fab3ad6faec#64, 0x6c44198c4a475817#64]

/-- sha_2_512_impl_sw.h:76-80 -/
def CH (x y z : W64) : W64 := z ^^^ (x &&& (y ^^^ z))
/-- detail/hash/sha/sha_2_512_impl_sw.h:79-80 -/
def MAJ (x y z : W64) : W64 := (x &&& y) ^^^ (z &&& (x ^^^ y))

/-- sha_2_512_impl_sw.h:82-92 -/
def sigmaLower0 (x : W64) : W64 := bitRotr x 1 ^^^ bitRotr x 8 ^^^ x >>> 7
/-- detail/hash/sha/sha_2_512_impl_sw.h:85-86 -/
def sigmaLower1 (x : W64) : W64 := bitRotr x 19 ^^^ bitRotr x 61 ^^^ x >>> 6
/-- detail/hash/sha/sha_2_512_impl_sw.h:88-89 -/
def sigmaUpper0 (x : W64) : W64 := bitRotr x 28 ^^^ bitRotr x 34 ^^^ bitRotr x 39
/-- detail/hash/sha/sha_2_512_impl_sw.h:91-92 -/
def sigmaUpper1 (x : W64) : W64 := bitRotr x 14 ^^^ bitRotr x 18 ^^^ bitRotr x 41

/-- Working variables a..h. -/
structure Regs where
  (a b c d e f g h : W64)
  deriving DecidableEq, Repr

/-- sha_2_512_impl_sw.h:109-110 `SCHEDULE_00_15`. The array `schedule` is the list of elements written so far; reading an element
not yet written is undefined. -/
def schedule00 (h : Host) (src : List Byte) (j : Nat) (sched : List W64) : Option (List W64) := do
  let w ← loadBe h false 8 (p := 1) src j
  pure (sched ++ [w])

/-- sha_2_512_impl_sw.h:112-117 `SCHEDULE_16_79`. -/
def schedule16 (j : Nat) (sched : List W64) : Option (List W64) := do
  let w7 ← rd1 sched (j - 7)
  let w16 ← rd1 sched (j - 16)
  let w2 ← rd1 sched (j - 2)
  let w15 ← rd1 sched (j - 15)
  pure (sched ++ [w7 + w16 + sigmaLower1 w2 + sigmaLower0 w15])

/-- sha_2_512_impl_sw.h:94-107, 119-130 `T_1`, `T_2`, `ROUND`. -/
def round (j : Nat) (sched : List W64) (r : Regs) : Option Regs := do
  let kv ← rd1 k j
  let w ← rd1 sched j
  let t1 := sigmaUpper1 r.e + CH r.e r.f r.g + r.h + kv + w
  let t2 := sigmaUpper0 r.a + MAJ r.a r.b r.c
  pure ⟨t1 + t2, r.a, r.b, r.c, r.d + t1, r.e, r.f, r.g⟩

/-- One iteration of the block loop, sha_2_512_impl_sw.h:136-174. -/
def block (h : Host) (r : Regs) (src : List Byte) : Option Regs := do
  let s ← forM' (fun j (s : List W64 × Regs) => do
    let sched ← schedule00 h src j s.1
    let r ← round j sched s.2
    pure (sched, r)) 16 0 ([], r)
  let s ← forM' (fun j (s : List W64 × Regs) => do
    let sched ← schedule16 j s.1
    let r ← round j sched s.2
    pure (sched, r)) 64 16 s
  let o := s.2
  pure ⟨o.a + r.a, o.b + r.b, o.c + r.c, o.d + r.d, o.e + r.e, o.f + r.f, o.g + r.g, o.h + r.h⟩

/-- sha_2_512_impl_sw.h:47-187 `blocks`: `a_src_ptr += block_size` after each block. -/
def blocksLoop (h : Host) : (n : Nat) → Regs → List Byte → Option Regs
  | 0, r, _ => some r
  | n + 1, r, src => do
    let r ← block h r src
    let src ← advance src 128
    blocksLoop h n r src

/-- detail/hash/sha/sha_2_512_impl_sw.h:50-189, the loop over the blocks. -/
def blocksSw (hst : Host) (n : Nat) (st : List W64) (src : List Byte) : Option (List W64) := do
  let a ← rd1 st 0
  let b ← rd1 st 1
  let c ← rd1 st 2
  let d ← rd1 st 3
  let e ← rd1 st 4
  let f ← rd1 st 5
  let g ← rd1 st 6
  let h ← rd1 st 7
  let r ← blocksLoop hst n ⟨a, b, c, d, e, f, g, h⟩ src
  let st ← wr1 st 0 r.a
  let st ← wr1 st 1 r.b
  let st ← wr1 st 2 r.c
  let st ← wr1 st 3 r.d
  let st ← wr1 st 4 r.e
  let st ← wr1 st 5 r.f
  let st ← wr1 st 6 r.g
  wr1 st 7 r.h

/-- The members of `hash_sha_2_512`, sha_2_512.h:65-71. -/
structure Obj where
  state : List W64
  processed0 : W64
  processed1 : W64
  buffer : List Byte
  bufferSize : Nat
  deriving DecidableEq, Repr

/-- sha_2_512.h:99-160 the initial states, by `t_bits` (a `static_assert` admits no other value). -/
def iv : (bits : Nat) → List W64
  | 224 => [
  0x8c3d37c819544da2#64, 0x73e1996689dcd4d6#64, 0x1dfab7ae32ff9c82#64, 0x679dd514582f9fcf#64,
  0x0f6d2b697bd44da8#64, 0x77e36f7304c48942#64, 0x3f9d85a86a1d36c8#64, 0x1112e6ad91d692a1#64]
  | 256 => [
  0x22312194fc2bf72c#64, 0x9f555fa3c84c64c2#64, 0x2393b86b6f53b151#64, 0x963877195940eabd#64,
  0x96283ee2a88effe3#64, 0xbe5e1e2553863992#64, 0x2b0199fc2c85b8aa#64, 0x0eb72ddc81c52ca2#64]
  | 384 => [
  0xcbbb9d5dc1059ed8#64, 0x629a292a367cd507#64, 0x9159015a3070dd17#64, 0x152fecd8f70e5939#64,
  0x67332667ffc00b31#64, 0x8eb44a8768581511#64, 0xdb0c2e0d64f98fa7#64, 0x47b5481dbefa4fa4#64]
  | 512 => [
  0x6a09e667f3bcc908#64, 0xbb67ae8584caa73b#64, 0x3c6ef372fe94f82b#64, 0xa54ff53a5f1d36f1#64,
  0x510e527fade682d1#64, 0x9b05688c2b3e6c1f#64, 0x1f83d9abfb41bd6b#64, 0x5be0cd19137e2179#64]
  | _ => []

/-- sha_2_512.h:99-160 `initialize`. -/
def initObj (bits : Nat) (o : Obj) : Obj :=
  { o with
    state := iv bits
    processed0 := 0
    processed1 := 0
    bufferSize := 0 }

/-- sha_2_512.h:162-183 `update`; `blocks` is the chosen backend. -/
def update (h : Host) (blocks : Nat → List W64 → List Byte → Option (List W64)) (o : Obj) (msg : List Byte) : Option Obj := do
  let p1 := o.processed1 + (if o.processed0 > BitVec.allOnes 64 - BitVec.ofNat 64 msg.length then 1#64 else 0#64)
  let p0 := o.processed0 + BitVec.ofNat 64 msg.length
  let (bufferSize, buffer, state) ← soak h 128 blocks o.buffer o.bufferSize msg o.state
  pure ⟨state, p0, p1, buffer, bufferSize⟩

/-- sha_2_512.h:185-216 `finalize`. -/
def finalize (h : Host) (blocks : Nat → List W64 → List Byte → Option (List W64)) (o : Obj) : Option Obj := do
  let left := o.bufferSize
  let last := 128 <<< (if left ≥ 112 then 1 else 0)
  let buf ← wr1 o.buffer left 128#8
  let buf ← forM' (fun i buf => wr1 buf i 0#8) (last - 16 - (left + 1)) (left + 1) buf
  let buf ← at_ buf (last - 16) fun p => storBe h (v := 8) (p := 1) p 0 (o.processed1 <<< 3 ||| o.processed0 >>> 61)
  let buf ← at_ buf (last - 16) fun p => storBe h (v := 8) (p := 1) p 1 (o.processed0 <<< 3)
  let state ← blocks (last / 128) o.state buf
  pure { o with buffer := buf, state := state }

/-- sha_2_512.h:218-239 `digest`. -/
def digest (h : Host) (digestSize : Nat) (o : Obj) (dst : List Byte) (n : Nat) : Option (List Byte × Nat) := do
  let n := min n digestSize
  let dst ← copyBe h (p := 1) (q := 8) dst o.state n
  pure (dst, n)

/-- The class; `digestSize` is the digest_size option (bits/8 unless given). (detail/hash/sha/sha_2_512.h:15-241) -/
def impl (h : Host) (blocks : Nat → List W64 → List Byte → Option (List W64)) (bits digestSize : Nat) : HashImpl where
  σ := Obj
  fresh := ⟨List.replicate 8 0, 0, 0, List.replicate 256 0, 0⟩
  blockSize := 128
  digestSize := digestSize
  init := initObj bits
  update := update h blocks
  finalize := finalize h blocks
  digest := digest h digestSize

end Milo.Sha512
