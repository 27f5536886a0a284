import Verif.Model.Timed.Base
import Verif.Model.ShaAlg
/- The hash functions (Model/Sha1.lean, Sha256.lean, Sha512.lean) with what is observed of them. Lines cited are those of the files in src/milo/primitive/detail/hash/sha. -/
namespace Milo.Timed

/-- The member functions of a hash class with what is observed. (`initialize` stores constants: the same always.) (the interface of detail/hash/sha/sha_1_160.h:15-193, sha_2_256.h:15-209, sha_2_512.h:15-241) -/
structure HashT (H : HashImpl) where
  update : H.σ → List Byte → T H.σ
  finalize : H.σ → T H.σ
  digest : H.σ → List Byte → Nat → T (List Byte × Nat)

namespace Sha1
open Milo.Sha1

/-- sha_1_160_impl_sw.h:71-72 `SCHEDULE_00_15`. The array `schedule` is the list of elements written so far; reading an element
not yet written is undefined. -/
def schedule00 (h : Host) (src : List Byte) (j : Nat) (sched : List W32) : T (List W32) := do
  let w ← loadBe h false 4 (p := 1) src j
  pure (sched ++ [w])

/-- sha_1_160_impl_sw.h:74-81 `SCHEDULE_16_79`. -/
def schedule16 (j : Nat) (sched : List W32) : T (List W32) := do
  let w3 ← rd1 sched (j - 3)
  let w8 ← rd1 sched (j - 8)
  let w14 ← rd1 sched (j - 14)
  let w16 ← rd1 sched (j - 16)
  pure (sched ++ [bitRotl (w3 ^^^ w8 ^^^ w14 ^^^ w16) 1])

/-- sha_1_160_impl_sw.h:62-69, 83-90 `T_1` and `ROUND`. -/
def round (f : W32 → W32 → W32 → W32) (ki j : Nat) (sched : List W32) (r : Regs) : T Regs := do
  let kv ← rd1 k ki
  let w ← rd1 sched j
  let t1 := bitRotl r.a 5 + f r.b r.c r.d + r.e + kv + w
  pure ⟨t1, r.a, bitRotr r.b 2, r.c, r.d⟩

/-- One iteration of the block loop, sha_1_160_impl_sw.h:96-146. -/
def block (h : Host) (r : Regs) (src : List Byte) : T Regs := do
  let s ← forM' (fun j (s : List W32 × Regs) => do
    let sched ← schedule00 h src j s.1
    let r ← round CH 0 j sched s.2
    pure (sched, r)) 16 0 ([], r)
  let s ← forM' (fun j (s : List W32 × Regs) => do
    let sched ← schedule16 j s.1
    let r ← round CH 0 j sched s.2
    pure (sched, r)) 4 16 s
  let s ← forM' (fun j (s : List W32 × Regs) => do
    let sched ← schedule16 j s.1
    let r ← round PARITY 1 j sched s.2
    pure (sched, r)) 20 20 s
  let s ← forM' (fun j (s : List W32 × Regs) => do
    let sched ← schedule16 j s.1
    let r ← round MAJ 2 j sched s.2
    pure (sched, r)) 20 40 s
  let s ← forM' (fun j (s : List W32 × Regs) => do
    let sched ← schedule16 j s.1
    let r ← round PARITY 3 j sched s.2
    pure (sched, r)) 20 60 s
  let o := s.2
  pure ⟨o.a + r.a, o.b + r.b, o.c + r.c, o.d + r.d, o.e + r.e⟩

/-- sha_1_160_impl_sw.h:28-156 `blocks`: `a_src_ptr += block_size` after each block. -/
def blocksLoop (h : Host) : (n : Nat) → Regs → List Byte → T Regs
  | 0, r, _ => ⟨[.branch false], some r⟩
  | n + 1, r, src => do
    (⟨[.branch true], some ()⟩ : T Unit)
    let r ← block h r src
    let src ← advance src 64
    blocksLoop h n r src

/-- detail/hash/sha/sha_1_160_impl_sw.h:31-158 -/
def blocksSw (h : Host) (n : Nat) (st : List W32) (src : List Byte) : T (List W32) := do
  let a ← rd1 st 0
  let b ← rd1 st 1
  let c ← rd1 st 2
  let d ← rd1 st 3
  let e ← rd1 st 4
  let r ← blocksLoop h n ⟨a, b, c, d, e⟩ src
  let st ← wr1 st 0 r.a
  let st ← wr1 st 1 r.b
  let st ← wr1 st 2 r.c
  let st ← wr1 st 3 r.d
  wr1 st 4 r.e

/-- sha_1_160.h:121-141 `update`; `blocks` is the chosen backend. -/
def update (h : Host) (blocks : Nat → List W32 → List Byte → T (List W32)) (o : Obj) (msg : List Byte) : T Obj := do
  let processed := o.processed + BitVec.ofNat 64 msg.length
  let (bufferSize, buffer, state) ← soak h 64 blocks o.buffer o.bufferSize msg o.state
  pure ⟨state, processed, buffer, bufferSize⟩

/-- sha_1_160.h:143-168 `finalize`. -/
def finalize (h : Host) (blocks : Nat → List W32 → List Byte → T (List W32)) (o : Obj) : T Obj := do
  let left := o.bufferSize
  let last := 64 <<< (if left ≥ 56 then 1 else 0)
  let buf ← wr1 o.buffer left 128#8
  let buf ← forM' (fun i buf => wr1 buf i 0#8) (last - 8 - (left + 1)) (left + 1) buf
  let buf ← at_ buf (last - 8) fun p => storBe h (v := 8) (p := 1) p 0 (o.processed <<< 3)
  let state ← blocks (last / 64) o.state buf
  pure { o with buffer := buf, state := state }

/-- sha_1_160.h:170-191 `digest`. -/
def digest (h : Host) (digestSize : Nat) (o : Obj) (dst : List Byte) (n : Nat) : T (List Byte × Nat) := do
  let n := min n digestSize
  let dst ← copyBe h (p := 1) (q := 4) dst o.state n
  pure (dst, n)

end Sha1

namespace Sha256
open Milo.Sha256

/-- sha_2_256_impl_sw.h:105-106 `SCHEDULE_00_15`. The array `schedule` is the list of elements written so far; reading an element
not yet written is undefined. -/
def schedule00 (h : Host) (src : List Byte) (j : Nat) (sched : List W32) : T (List W32) := do
  let w ← loadBe h false 4 (p := 1) src j
  pure (sched ++ [w])

/-- sha_2_256_impl_sw.h:108-113 `SCHEDULE_16_63`. -/
def schedule16 (j : Nat) (sched : List W32) : T (List W32) := do
  let w7 ← rd1 sched (j - 7)
  let w16 ← rd1 sched (j - 16)
  let w2 ← rd1 sched (j - 2)
  let w15 ← rd1 sched (j - 15)
  pure (sched ++ [w7 + w16 + sigmaLower1 w2 + sigmaLower0 w15])

/-- sha_2_256_impl_sw.h:90-103, 115-126 `T_1`, `T_2`, `ROUND`. -/
def round (j : Nat) (sched : List W32) (r : Regs) : T Regs := do
  let kv ← rd1 k j
  let w ← rd1 sched j
  let t1 := sigmaUpper1 r.e + CH r.e r.f r.g + r.h + kv + w
  let t2 := sigmaUpper0 r.a + MAJ r.a r.b r.c
  pure ⟨t1 + t2, r.a, r.b, r.c, r.d + t1, r.e, r.f, r.g⟩

/-- One iteration of the block loop, sha_2_256_impl_sw.h:132-170. -/
def block (h : Host) (r : Regs) (src : List Byte) : T Regs := do
  let s ← forM' (fun j (s : List W32 × Regs) => do
    let sched ← schedule00 h src j s.1
    let r ← round j sched s.2
    pure (sched, r)) 16 0 ([], r)
  let s ← forM' (fun j (s : List W32 × Regs) => do
    let sched ← schedule16 j s.1
    let r ← round j sched s.2
    pure (sched, r)) 48 16 s
  let o := s.2
  pure ⟨o.a + r.a, o.b + r.b, o.c + r.c, o.d + r.d, o.e + r.e, o.f + r.f, o.g + r.g, o.h + r.h⟩

/-- sha_2_256_impl_sw.h:43-183 `blocks`: `a_src_ptr += block_size` after each block. -/
def blocksLoop (h : Host) : (n : Nat) → Regs → List Byte → T Regs
  | 0, r, _ => ⟨[.branch false], some r⟩
  | n + 1, r, src => do
    (⟨[.branch true], some ()⟩ : T Unit)
    let r ← block h r src
    let src ← advance src 64
    blocksLoop h n r src

/-- detail/hash/sha/sha_2_256_impl_sw.h:46-185 -/
def blocksSw (hst : Host) (n : Nat) (st : List W32) (src : List Byte) : T (List W32) := do
  let a ← rd1 st 0
  let b ← rd1 st 1
  let c ← rd1 st 2
  let d ← rd1 st 3
  let e ← rd1 st 4
  let f ← rd1 st 5
  let g ← rd1 st 6
  let h ← rd1 st 7
  let r ← blocksLoop hst n ⟨a, b, c, d, e, f, g, h⟩ src
  let st ← wr1 st 0 r.a
  let st ← wr1 st 1 r.b
  let st ← wr1 st 2 r.c
  let st ← wr1 st 3 r.d
  let st ← wr1 st 4 r.e
  let st ← wr1 st 5 r.f
  let st ← wr1 st 6 r.g
  wr1 st 7 r.h

/-- sha_2_256.h:137-157 `update`; `blocks` is the chosen backend. -/
def update (h : Host) (blocks : Nat → List W32 → List Byte → T (List W32)) (o : Obj) (msg : List Byte) : T Obj := do
  let processed := o.processed + BitVec.ofNat 64 msg.length
  let (bufferSize, buffer, state) ← soak h 64 blocks o.buffer o.bufferSize msg o.state
  pure ⟨state, processed, buffer, bufferSize⟩

/-- sha_2_256.h:159-184 `finalize`. -/
def finalize (h : Host) (blocks : Nat → List W32 → List Byte → T (List W32)) (o : Obj) : T Obj := do
  let left := o.bufferSize
  let last := 64 <<< (if left ≥ 56 then 1 else 0)
  let buf ← wr1 o.buffer left 128#8
  let buf ← forM' (fun i buf => wr1 buf i 0#8) (last - 8 - (left + 1)) (left + 1) buf
  let buf ← at_ buf (last - 8) fun p => storBe h (v := 8) (p := 1) p 0 (o.processed <<< 3)
  let state ← blocks (last / 64) o.state buf
  pure { o with buffer := buf, state := state }

/-- sha_2_256.h:186-207 `digest`. -/
def digest (h : Host) (digestSize : Nat) (o : Obj) (dst : List Byte) (n : Nat) : T (List Byte × Nat) := do
  let n := min n digestSize
  let dst ← copyBe h (p := 1) (q := 4) dst o.state n
  pure (dst, n)

end Sha256

namespace Sha512
open Milo.Sha512

/-- sha_2_512_impl_sw.h:109-110 `SCHEDULE_00_15`. The array `schedule` is the list of elements written so far; reading an element
not yet written is undefined. -/
def schedule00 (h : Host) (src : List Byte) (j : Nat) (sched : List W64) : T (List W64) := do
  let w ← loadBe h false 8 (p := 1) src j
  pure (sched ++ [w])

/-- sha_2_512_impl_sw.h:112-117 `SCHEDULE_16_79`. -/
def schedule16 (j : Nat) (sched : List W64) : T (List W64) := do
  let w7 ← rd1 sched (j - 7)
  let w16 ← rd1 sched (j - 16)
  let w2 ← rd1 sched (j - 2)
  let w15 ← rd1 sched (j - 15)
  pure (sched ++ [w7 + w16 + sigmaLower1 w2 + sigmaLower0 w15])

/-- sha_2_512_impl_sw.h:94-107, 119-130 `T_1`, `T_2`, `ROUND`. -/
def round (j : Nat) (sched : List W64) (r : Regs) : T Regs := do
  let kv ← rd1 k j
  let w ← rd1 sched j
  let t1 := sigmaUpper1 r.e + CH r.e r.f r.g + r.h + kv + w
  let t2 := sigmaUpper0 r.a + MAJ r.a r.b r.c
  pure ⟨t1 + t2, r.a, r.b, r.c, r.d + t1, r.e, r.f, r.g⟩

/-- One iteration of the block loop, sha_2_512_impl_sw.h:136-174. -/
def block (h : Host) (r : Regs) (src : List Byte) : T Regs := do
  let s ← forM' (fun j (s : List W64 × Regs) => do
    let sched ← schedule00 h src j s.1
    let r ← round j sched s.2
    pure (sched, r)) 16 0 ([], r)
  let s ← forM' (fun j (s : List W64 × Regs) => do
    let sched ← schedule16 j s.1
    let r ← round j sched s.2
    pure (sched, r)) 64 16 s
  let o := s.2
  pure ⟨o.a + r.a, o.b + r.b, o.c + r.c, o.d + r.d, o.e + r.e, o.f + r.f, o.g + r.g, o.h + r.h⟩

/-- sha_2_512_impl_sw.h:47-187 `blocks`: `a_src_ptr += block_size` after each block. -/
def blocksLoop (h : Host) : (n : Nat) → Regs → List Byte → T Regs
  | 0, r, _ => ⟨[.branch false], some r⟩
  | n + 1, r, src => do
    (⟨[.branch true], some ()⟩ : T Unit)
    let r ← block h r src
    let src ← advance src 128
    blocksLoop h n r src

/-- detail/hash/sha/sha_2_512_impl_sw.h:50-189 -/
def blocksSw (hst : Host) (n : Nat) (st : List W64) (src : List Byte) : T (List W64) := do
  let a ← rd1 st 0
  let b ← rd1 st 1
  let c ← rd1 st 2
  let d ← rd1 st 3
  let e ← rd1 st 4
  let f ← rd1 st 5
  let g ← rd1 st 6
  let h ← rd1 st 7
  let r ← blocksLoop hst n ⟨a, b, c, d, e, f, g, h⟩ src
  let st ← wr1 st 0 r.a
  let st ← wr1 st 1 r.b
  let st ← wr1 st 2 r.c
  let st ← wr1 st 3 r.d
  let st ← wr1 st 4 r.e
  let st ← wr1 st 5 r.f
  let st ← wr1 st 6 r.g
  wr1 st 7 r.h

/-- sha_2_512.h:162-183 `update`; `blocks` is the chosen backend. -/
def update (h : Host) (blocks : Nat → List W64 → List Byte → T (List W64)) (o : Obj) (msg : List Byte) : T Obj := do
  let p1 := o.processed1 + (if o.processed0 > BitVec.allOnes 64 - BitVec.ofNat 64 msg.length then 1#64 else 0#64)
  let p0 := o.processed0 + BitVec.ofNat 64 msg.length
  let (bufferSize, buffer, state) ← soak h 128 blocks o.buffer o.bufferSize msg o.state
  pure ⟨state, p0, p1, buffer, bufferSize⟩

/-- sha_2_512.h:185-216 `finalize`. -/
def finalize (h : Host) (blocks : Nat → List W64 → List Byte → T (List W64)) (o : Obj) : T Obj := do
  let left := o.bufferSize
  let last := 128 <<< (if left ≥ 112 then 1 else 0)
  let buf ← wr1 o.buffer left 128#8
  let buf ← forM' (fun i buf => wr1 buf i 0#8) (last - 16 - (left + 1)) (left + 1) buf
  let buf ← at_ buf (last - 16) fun p => storBe h (v := 8) (p := 1) p 0 (o.processed1 <<< 3 ||| o.processed0 >>> 61)
  let buf ← at_ buf (last - 16) fun p => storBe h (v := 8) (p := 1) p 1 (o.processed0 <<< 3)
  let state ← blocks (last / 128) o.state buf
  pure { o with buffer := buf, state := state }

/-- sha_2_512.h:218-239 `digest`. -/
def digest (h : Host) (digestSize : Nat) (o : Obj) (dst : List Byte) (n : Nat) : T (List Byte × Nat) := do
  let n := min n digestSize
  let dst ← copyBe h (p := 1) (q := 8) dst o.state n
  pure (dst, n)

end Sha512

/-- A function in assembly on `n` blocks. (detail/hash/sha/sha_1_160_impl_hw_x86_64.asm:1-180, sha_2_256_impl_hw_x86_64.asm:1-217) -/
def assembly {α : Type} (n : Nat) (x : Option α) : T α := ⟨[.assembly n], x⟩

/-- The backend chosen, Model/ShaAlg.lean `Sha1.blocks` (the choice is by a function pointer set before `main`). -/
def Sha1.blocks (h : Host) : Nat → List W32 → List Byte → T (List W32) :=
  if h.consteval then Sha1.blocksSw h else
    match h.sha with
    | none => Sha1.blocksSw h
    | some junk => fun n st src => assembly n (Milo.Sha1.Asm.blocks junk n st src)

/-- Model/ShaAlg.lean `Sha256.blocks`. -/
def Sha256.blocks (h : Host) : Nat → List W32 → List Byte → T (List W32) :=
  if h.consteval then Sha256.blocksSw h else
    match h.sha with
    | none => Sha256.blocksSw h
    | some junk => fun n st src => assembly n (Milo.Sha256.Asm.blocks junk n st src)

/-- The seven hash types. (detail/hash/sha/sha_1_160.h:15-193, sha_2_256.h:15-209, sha_2_512.h:15-241) -/
def sha (h : Host) (ds : Nat) : (a : ShaAlg) → HashT (a.impl h ds)
  | .sha_1_160 => ⟨Sha1.update h (Sha1.blocks h), Sha1.finalize h (Sha1.blocks h), Sha1.digest h ds⟩
  | .sha_2_224 => ⟨Sha256.update h (Sha256.blocks h), Sha256.finalize h (Sha256.blocks h), Sha256.digest h ds⟩
  | .sha_2_256 => ⟨Sha256.update h (Sha256.blocks h), Sha256.finalize h (Sha256.blocks h), Sha256.digest h ds⟩
  | .sha_2_384 => ⟨Sha512.update h (Sha512.blocksSw h), Sha512.finalize h (Sha512.blocksSw h), Sha512.digest h ds⟩
  | .sha_2_512 => ⟨Sha512.update h (Sha512.blocksSw h), Sha512.finalize h (Sha512.blocksSw h), Sha512.digest h ds⟩
  | .sha_2_512_224 => ⟨Sha512.update h (Sha512.blocksSw h), Sha512.finalize h (Sha512.blocksSw h), Sha512.digest h ds⟩
  | .sha_2_512_256 => ⟨Sha512.update h (Sha512.blocksSw h), Sha512.finalize h (Sha512.blocksSw h), Sha512.digest h ds⟩

end Milo.Timed
