import Verif.Model.MacImpl
import Verif.Model.Update
/- Model of src/milo/primitive/detail/mac/poly/poly_1305.h and poly_1305_impl_sw.h. -/
namespace Milo.Poly1305
open Memory

/-- `uint32_t` used where `uint64_t` is expected. (detail/mac/poly/poly_1305_impl_sw.h:24-111) -/
abbrev u64 (x : W32) : W64 := x.setWidth 64
/-- `uint32_t(x)` (detail/mac/poly/poly_1305_impl_sw.h:24-111) -/
abbrev u32 (x : W64) : W32 := x.setWidth 32

/-- poly_1305_impl_sw.h:32 the local `uint64_t acc[5]`. -/
structure Acc where
  (a0 a1 a2 a3 a4 : W64)
  deriving DecidableEq, Repr

/-- poly_1305_impl_sw.h:70-100 the multiplication by `r` and the reduction, on the key words `k` (`m_key_r`). -/
def mulStep (k : List W32) (a : Acc) : Option Acc := do
  let k0 ← rd1 k 0
  let k1 ← rd1 k 1
  let k2 ← rd1 k 2
  let k3 ← rd1 k 3
  let k4 ← rd1 k 4
  let k5 ← rd1 k 5
  let k6 ← rd1 k 6
  let k7 ← rd1 k 7
  let t0 := u64 k0 * a.a0 + u64 k7 * a.a1 + u64 k6 * a.a2 + u64 k5 * a.a3 + u64 k4 * a.a4
  let t1 := u64 k1 * a.a0 + u64 k0 * a.a1 + u64 k7 * a.a2 + u64 k6 * a.a3 + u64 k5 * a.a4
  let t2 := u64 k2 * a.a0 + u64 k1 * a.a1 + u64 k0 * a.a2 + u64 k7 * a.a3 + u64 k6 * a.a4
  let t3 := u64 k3 * a.a0 + u64 k2 * a.a1 + u64 k1 * a.a2 + u64 k0 * a.a3 + u64 k7 * a.a4
  let c := u64 (k0 &&& 3#32) * a.a4 + t3 >>> 32
  let b0 := u64 (u32 t0) + (c >>> 2) * 5#64
  let b1 := u64 (u32 t1) + b0 >>> 32 + t0 >>> 32
  let b2 := u64 (u32 t2) + b1 >>> 32 + t1 >>> 32
  let b3 := u64 (u32 t3) + b2 >>> 32 + t2 >>> 32
  let b4 := b3 >>> 32 + (c &&& 3#64)
  pure ⟨u64 (u32 b0), u64 (u32 b1), u64 (u32 b2), u64 (u32 b3), u64 (u32 b4)⟩

/-- poly_1305_impl_sw.h:42-68 adding the block at `src` (and `a_add` as bit 128). -/
def addStep (h : Host) (add : W32) (a : Acc) (src : List Byte) : Option Acc := do
  let m0 ← loadLe h false 4 (p := 1) src 0
  let m1 ← loadLe h false 4 (p := 1) src 1
  let m2 ← loadLe h false 4 (p := 1) src 2
  let m3 ← loadLe h false 4 (p := 1) src 3
  let t0 := u64 m0 + a.a0
  let t1 := u64 m1 + (a.a1 + t0 >>> 32)
  let t2 := u64 m2 + (a.a2 + t1 >>> 32)
  let t3 := u64 m3 + (a.a3 + t2 >>> 32)
  pure ⟨u64 (u32 t0), u64 (u32 t1), u64 (u32 t2), u64 (u32 t3), a.a4 + u64 (u32 (t3 >>> 32) + add)⟩

/-- poly_1305_impl_sw.h:40-101 the loop over the blocks. -/
def processLoop (h : Host) (k : List W32) (add : W32) : (n : Nat) → Acc → List Byte → Option Acc
  | 0, a, _ => some a
  | n + 1, a, src => do
    let a ← addStep h add a src
    let a ← mulStep k a
    let src ← advance src 16
    processLoop h k add n a src

/-- poly_1305_impl_sw.h:19-108 `process`. -/
def process (h : Host) (k : List W32) (add : W32) (n : Nat) (acc : List W32) (src : List Byte) : Option (List W32) := do
  let a0 ← rd1 acc 0
  let a1 ← rd1 acc 1
  let a2 ← rd1 acc 2
  let a3 ← rd1 acc 3
  let a4 ← rd1 acc 4
  let a ← processLoop h k add n ⟨u64 a0, u64 a1, u64 a2, u64 a3, u64 a4⟩ src
  let acc ← wr1 acc 0 (u32 a.a0)
  let acc ← wr1 acc 1 (u32 a.a1)
  let acc ← wr1 acc 2 (u32 a.a2)
  let acc ← wr1 acc 3 (u32 a.a3)
  wr1 acc 4 (u32 a.a4)

/-- poly_1305.h:65-73 members. -/
structure Obj where
  keyR : List W32
  keyS : List W32
  acc : List W32
  buffer : List Byte
  bufferSize : Nat
  deriving DecidableEq, Repr

/-- poly_1305.h:116-127 clamping and the derived words, on the eight words loaded from the key: new `m_key_r` and `m_key_s`. -/
def schedule : List W32 → Option (List W32 × List W32)
  | [x0, x1, x2, x3, s0, s1, s2, s3] =>
    let r0 := x0 &&& 0x0fffffff#32
    let r1 := x1 &&& 0x0ffffffc#32
    let r2 := x2 &&& 0x0ffffffc#32
    let r3 := x3 &&& 0x0ffffffc#32
    some ([r0, r1, r2, r3, (r0 >>> 2) * 5#32, (r1 >>> 2) * 5#32, (r2 >>> 2) * 5#32, (r3 >>> 2) * 5#32], [s0, s1, s2, s3])
  | _ => none

/-- poly_1305.h:101-134 `initialize`. Note `memory_init`, not `memory_init_le`. -/
def initObj (h : Host) (o : Obj) (key : List Byte) : Option Obj := do
  let w ← Memory.init h (p := 4) (q := 1) o.keyR key
  let (r, s) ← schedule w
  pure { o with keyR := r, keyS := s, acc := [0, 0, 0, 0, 0], bufferSize := 0 }

/-- poly_1305.h:136-156 `update`. -/
def update (h : Host) (o : Obj) (msg : List Byte) : Option Obj := do
  let (bufferSize, buffer, acc) ← soak h 16 (process h o.keyR 1#32) o.buffer o.bufferSize msg o.acc
  pure { o with acc := acc, buffer := buffer, bufferSize := bufferSize }

/-- poly_1305.h:162-179 the last, partial block. -/
def lastBlock (h : Host) (o : Obj) : Option Obj :=
  if o.bufferSize > 0 then do
    let buf ← wr1 o.buffer o.bufferSize 1#8
    let buf ← at_ buf (o.bufferSize + 1) fun p => Memory.set h (p := 1) p 0 (16 - o.bufferSize - 1)
    let acc ← process h o.keyR 0#32 1 o.acc buf
    pure { o with buffer := buf, acc := acc }
  else pure o

/-- poly_1305.h:181-207 the final reduction and the addition of `s`. -/
def carry : List W32 → List W32 → Option (List W32)
  | [c0, c1, c2, c3, c4], [s0, s1, s2, s3] =>
    let t0 := u64 c0 + 5#64
    let t1 := u64 c1 + t0 >>> 32
    let t2 := u64 c2 + t1 >>> 32
    let t3 := u64 c3 + t2 >>> 32
    let mask := - ((u64 c4 + t3 >>> 32) >>> 2)
    let neg := ~~~ mask
    let t0 := (t0 &&& mask) ||| (u64 c0 &&& neg)
    let t1 := (t1 &&& mask) ||| (u64 c1 &&& neg)
    let t2 := (t2 &&& mask) ||| (u64 c2 &&& neg)
    let t3 := (t3 &&& mask) ||| (u64 c3 &&& neg)
    let t0 := t0 &&& 0xffffffff#64
    let t1 := t1 &&& 0xffffffff#64
    let t2 := t2 &&& 0xffffffff#64
    let t3 := t3 &&& 0xffffffff#64
    let t0 := t0 + u64 s0
    let t1 := t1 + (u64 s1 + t0 >>> 32)
    let t2 := t2 + (u64 s2 + t1 >>> 32)
    let t3 := t3 + (u64 s3 + t2 >>> 32)
    some [u32 t0, u32 t1, u32 t2, u32 t3, c4]
  | _, _ => none

/-- poly_1305.h:158-208 `finalize`. -/
def finalize (h : Host) (o : Obj) : Option Obj := do
  let o ← lastBlock h o
  let acc ← carry o.acc o.keyS
  pure { o with acc := acc }

/-- poly_1305.h:210-231 `digest`. -/
def digest (h : Host) (ds : Nat) (o : Obj) (dst : List Byte) (n : Nat) : Option (List Byte × Nat) := do
  let n := min n ds
  let dst ← copyLe h (p := 1) (q := 4) dst o.acc n
  pure (dst, n)

/-- The class `mac_poly_1305<option::digest_size<ds>>` (default 16). (detail/mac/poly/poly_1305.h:15-233) -/
def impl (h : Host) (ds : Nat) : MacImpl where
  σ := Obj
  fresh := ⟨List.replicate 8 0, List.replicate 4 0, List.replicate 5 0, List.replicate 16 0, 0⟩
  keySize := 32
  digestSize := ds
  init := initObj h
  update := update h
  finalize := finalize h
  digest := digest h ds

end Milo.Poly1305
