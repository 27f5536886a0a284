import Verif.Model.Timed.Sha
import Verif.Model.MacAlg
/- The mac classes (Model/Hmac.lean, Poly1305.lean) with what is observed of them. -/
namespace Milo.Timed

/-- The member functions of a mac class with what is observed. (the interface of detail/mac/hmac/hmac.h:80-198, detail/mac/poly/poly_1305.h:15-233) -/
structure MacT (M : MacImpl) where
  init : M.σ → List Byte → T M.σ
  update : M.σ → List Byte → T M.σ
  finalize : M.σ → T M.σ
  digest : M.σ → List Byte → Nat → T (List Byte × Nat)

namespace Hmac
open Milo.Hmac (Obj)

variable (h : Host) {H : HashImpl} (t : HashT H)

/-- hmac.h:133-137 the pad loop: one iteration. -/
def padStep (B i : Nat) (buf : List Byte) : T (List Byte) := do
  let x ← rd1 buf i
  let buf ← wr1 buf i (x ^^^ 0x5C#8)
  let y ← rd1 buf (i + B)
  wr1 buf (i + B) (y ^^^ 0x36#8)

/-- hmac.h:86-105 a key longer than the block: hash it into `m_buffer`. -/
def longKey (o : Obj H) (key : List Byte) : T (Obj H × Nat) := do
  let s ← t.update (H.init o.hash) key
  let s ← t.finalize s
  let (buf, _) ← t.digest s o.buffer H.digestSize
  let buf ← at_ buf H.blockSize fun p => copy h (p := 1) (q := 1) p buf H.digestSize
  pure (⟨s, buf⟩, H.digestSize)

/-- hmac.h:106-119 a key that fits. -/
def shortKey (o : Obj H) (key : List Byte) : T (Obj H × Nat) := do
  let buf ← copy h (p := 1) (q := 1) o.buffer key key.length
  let buf ← at_ buf H.blockSize fun p => copy h (p := 1) (q := 1) p key key.length
  pure ({ o with buffer := buf }, key.length)

/-- hmac.h:86-119 the key, or its hash, at the beginning of both halves of `m_buffer`; and its size. -/
def putKey (o : Obj H) (key : List Byte) : T (Obj H × Nat) :=
  branch (key.length > H.blockSize) (longKey h t o key) (shortKey h (H := H) o key)

/-- hmac.h:77-144 `initialize`. `block_size - a_key_size` wraps if the key in the buffer exceeds the block (a hash whose digest is larger than its
block): undefined. -/
def init (o : Obj H) (key : List Byte) : T (Obj H) := do
  let (o, n) ← putKey h t o key
  if n > H.blockSize then fail else do
  let buf ← at_ o.buffer n fun p => set h (p := 1) p 0 (H.blockSize - n)
  let buf ← at_ buf (H.blockSize + n) fun p => set h (p := 1) p 0 (H.blockSize - n)
  let buf ← forM' (padStep H.blockSize) H.blockSize 0 buf
  let key ← rdN buf H.blockSize H.blockSize
  let s ← t.update (H.init o.hash) key
  pure ⟨s, buf⟩

/-- hmac.h:146-159 `update`. -/
def update (o : Obj H) (x : List Byte) : T (Obj H) := do
  let s ← t.update o.hash x
  pure { o with hash := s }

/-- hmac.h:161-176 `finalize`. -/
def finalize (o : Obj H) : T (Obj H) := do
  let s ← t.finalize o.hash
  let buf ← at_ o.buffer H.blockSize fun p => do
    let (p, _) ← t.digest s p H.digestSize
    pure p
  let msg ← rdN buf 0 (H.blockSize + H.digestSize)
  let s ← t.update (H.init s) msg
  let s ← t.finalize s
  pure ⟨s, buf⟩

/-- hmac.h:178-196 `digest`; `ds` is the digest_size option. -/
def digest (ds : Nat) (o : Obj H) (dst : List Byte) (n : Nat) : T (List Byte × Nat) := t.digest o.hash dst (min n ds)

end Hmac

namespace Poly1305
open Milo.Poly1305 (Obj Acc u64 u32)

/-- poly_1305_impl_sw.h:70-100 the multiplication by `r` and the reduction, on the key words `k` (`m_key_r`). -/
def mulStep (k : List W32) (a : Acc) : T Acc := do
  let k0 ← rd1 k 0
  let k1 ← rd1 k 1
  let k2 ← rd1 k 2
  let k3 ← rd1 k 3
  let k4 ← rd1 k 4
  let k5 ← rd1 k 5
  let k6 ← rd1 k 6
  let k7 ← rd1 k 7
  let t0 := u64 k0 * a.a0 + u64 k7 * a.a1 + u64 k6 * a.a2 + u64 k5 * a.a3 + u64 k4 * a.a4
  let t1 := u64 k1 * a.a0 + u64 k0 * a.a1 + u64 k7 * a.a2 + u64 k6 * a.a3 + u64 k5 * a.a4
  let t2 := u64 k2 * a.a0 + u64 k1 * a.a1 + u64 k0 * a.a2 + u64 k7 * a.a3 + u64 k6 * a.a4
  let t3 := u64 k3 * a.a0 + u64 k2 * a.a1 + u64 k1 * a.a2 + u64 k0 * a.a3 + u64 k7 * a.a4
  let c := u64 (k0 &&& 3#32) * a.a4 + t3 >>> 32
  let b0 := u64 (u32 t0) + (c >>> 2) * 5#64
  let b1 := u64 (u32 t1) + b0 >>> 32 + t0 >>> 32
  let b2 := u64 (u32 t2) + b1 >>> 32 + t1 >>> 32
  let b3 := u64 (u32 t3) + b2 >>> 32 + t2 >>> 32
  let b4 := b3 >>> 32 + (c &&& 3#64)
  pure ⟨u64 (u32 b0), u64 (u32 b1), u64 (u32 b2), u64 (u32 b3), u64 (u32 b4)⟩

/-- poly_1305_impl_sw.h:42-68 adding the block at `src` (and `a_add` as bit 128). -/
def addStep (h : Host) (add : W32) (a : Acc) (src : List Byte) : T Acc := do
  let m0 ← loadLe h false 4 (p := 1) src 0
  let m1 ← loadLe h false 4 (p := 1) src 1
  let m2 ← loadLe h false 4 (p := 1) src 2
  let m3 ← loadLe h false 4 (p := 1) src 3
  let t0 := u64 m0 + a.a0
  let t1 := u64 m1 + (a.a1 + t0 >>> 32)
  let t2 := u64 m2 + (a.a2 + t1 >>> 32)
  let t3 := u64 m3 + (a.a3 + t2 >>> 32)
  pure ⟨u64 (u32 t0), u64 (u32 t1), u64 (u32 t2), u64 (u32 t3), a.a4 + u64 (u32 (t3 >>> 32) + add)⟩

/-- poly_1305_impl_sw.h:40-101 the loop over the blocks. -/
def processLoop (h : Host) (k : List W32) (add : W32) : (n : Nat) → Acc → List Byte → T Acc
  | 0, a, _ => ⟨[.branch false], some a⟩
  | n + 1, a, src => do
    (⟨[.branch true], some ()⟩ : T Unit)
    let a ← addStep h add a src
    let a ← mulStep k a
    let src ← advance src 16
    processLoop h k add n a src

/-- poly_1305_impl_sw.h:19-108 `process`. -/
def process (h : Host) (k : List W32) (add : W32) (n : Nat) (acc : List W32) (src : List Byte) : T (List W32) := do
  let a0 ← rd1 acc 0
  let a1 ← rd1 acc 1
  let a2 ← rd1 acc 2
  let a3 ← rd1 acc 3
  let a4 ← rd1 acc 4
  let a ← processLoop h k add n ⟨u64 a0, u64 a1, u64 a2, u64 a3, u64 a4⟩ src
  let acc ← wr1 acc 0 (u32 a.a0)
  let acc ← wr1 acc 1 (u32 a.a1)
  let acc ← wr1 acc 2 (u32 a.a2)
  let acc ← wr1 acc 3 (u32 a.a3)
  wr1 acc 4 (u32 a.a4)

/-- poly_1305.h:115-126 the key words, in the order of the source. (`quiet`: `m_key_r` has eight elements.) -/
def schedule (w : List W32) : T (List W32 × List W32) := do
  let _ ← quiet (if w.length = 8 then some () else none)
  let x0 ← rd1 w 0
  let w ← wr1 w 0 (x0 &&& 0x0fffffff#32)
  let x1 ← rd1 w 1
  let w ← wr1 w 1 (x1 &&& 0x0ffffffc#32)
  let x2 ← rd1 w 2
  let w ← wr1 w 2 (x2 &&& 0x0ffffffc#32)
  let x3 ← rd1 w 3
  let w ← wr1 w 3 (x3 &&& 0x0ffffffc#32)
  let s := [0#32, 0#32, 0#32, 0#32]
  let x ← rd1 w 4
  let s ← wr1 s 0 x
  let x ← rd1 w 5
  let s ← wr1 s 1 x
  let x ← rd1 w 6
  let s ← wr1 s 2 x
  let x ← rd1 w 7
  let s ← wr1 s 3 x
  let x ← rd1 w 0
  let w ← wr1 w 4 ((x >>> 2) * 5#32)
  let x ← rd1 w 1
  let w ← wr1 w 5 ((x >>> 2) * 5#32)
  let x ← rd1 w 2
  let w ← wr1 w 6 ((x >>> 2) * 5#32)
  let x ← rd1 w 3
  let w ← wr1 w 7 ((x >>> 2) * 5#32)
  pure (w, s)

/-- poly_1305.h:101-134 `initialize`. -/
def initObj (h : Host) (o : Obj) (key : List Byte) : T Obj := do
  let w ← init h (p := 4) (q := 1) o.keyR key
  let (r, s) ← schedule w
  pure { o with keyR := r, keyS := s, acc := [0, 0, 0, 0, 0], bufferSize := 0 }

/-- poly_1305.h:136-156 `update`. -/
def update (h : Host) (o : Obj) (msg : List Byte) : T Obj := do
  let (bufferSize, buffer, acc) ← soak h 16 (process h o.keyR 1#32) o.buffer o.bufferSize msg o.acc
  pure { o with acc := acc, buffer := buffer, bufferSize := bufferSize }

/-- poly_1305.h:162-179 the last, partial block. -/
def lastBlock (h : Host) (o : Obj) : T Obj :=
  branch (o.bufferSize > 0) (do
    let buf ← wr1 o.buffer o.bufferSize 1#8
    let buf ← at_ buf (o.bufferSize + 1) fun p => set h (p := 1) p 0 (16 - o.bufferSize - 1)
    let acc ← process h o.keyR 0#32 1 o.acc buf
    pure { o with buffer := buf, acc := acc })
    (pure o)

/-- poly_1305.h:181-207 the final reduction and the addition of `s`: the choice is made by a mask. (`quiet`: `m_acc` has five elements, `m_key_s` four.) -/
def carry (acc s : List W32) : T (List W32) := do
  let _ ← quiet (if acc.length = 5 ∧ s.length = 4 then some () else none)
  let c0 ← rd1 acc 0
  let t0 := u64 c0 + 5#64
  let c1 ← rd1 acc 1
  let t1 := u64 c1 + t0 >>> 32
  let c2 ← rd1 acc 2
  let t2 := u64 c2 + t1 >>> 32
  let c3 ← rd1 acc 3
  let t3 := u64 c3 + t2 >>> 32
  let c4 ← rd1 acc 4
  let mask := - ((u64 c4 + t3 >>> 32) >>> 2)
  let neg := ~~~ mask
  let c0 ← rd1 acc 0
  let t0 := (t0 &&& mask) ||| (u64 c0 &&& neg)
  let c1 ← rd1 acc 1
  let t1 := (t1 &&& mask) ||| (u64 c1 &&& neg)
  let c2 ← rd1 acc 2
  let t2 := (t2 &&& mask) ||| (u64 c2 &&& neg)
  let c3 ← rd1 acc 3
  let t3 := (t3 &&& mask) ||| (u64 c3 &&& neg)
  let t0 := t0 &&& 0xffffffff#64
  let t1 := t1 &&& 0xffffffff#64
  let t2 := t2 &&& 0xffffffff#64
  let t3 := t3 &&& 0xffffffff#64
  let s0 ← rd1 s 0
  let t0 := t0 + u64 s0
  let s1 ← rd1 s 1
  let t1 := t1 + (u64 s1 + t0 >>> 32)
  let s2 ← rd1 s 2
  let t2 := t2 + (u64 s2 + t1 >>> 32)
  let s3 ← rd1 s 3
  let t3 := t3 + (u64 s3 + t2 >>> 32)
  let acc ← wr1 acc 0 (u32 t0)
  let acc ← wr1 acc 1 (u32 t1)
  let acc ← wr1 acc 2 (u32 t2)
  wr1 acc 3 (u32 t3)

/-- poly_1305.h:158-208 `finalize`. -/
def finalize (h : Host) (o : Obj) : T Obj := do
  let o ← lastBlock h o
  let acc ← carry o.acc o.keyS
  pure { o with acc := acc }

/-- poly_1305.h:210-231 `digest`. -/
def digest (h : Host) (ds : Nat) (o : Obj) (dst : List Byte) (n : Nat) : T (List Byte × Nat) := do
  let n := min n ds
  let dst ← copyLe h (p := 1) (q := 4) dst o.acc n
  pure (dst, n)

end Poly1305

/-- The documented mac types. (detail/mac/hmac/hmac.h, detail/mac/poly/poly_1305.h:15-233) -/
def mac (h : Host) (ds : Nat) : (a : MacAlg) → MacT (a.impl h ds)
  | .poly_1305 => ⟨Poly1305.initObj h, Poly1305.update h, Poly1305.finalize h, Poly1305.digest h ds⟩
  | .hmac a hds => ⟨Hmac.init h (sha h hds a), Hmac.update (sha h hds a), Hmac.finalize (sha h hds a), Hmac.digest (sha h hds a) ds⟩

end Milo.Timed
