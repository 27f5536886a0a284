import Verif.Model.Hkdf
import Verif.Model.Pbkdf2
/-
src/milo/primitive/detail/kdf/hkdf.h and pbkdf_2.h once more, the key now being written into one of the buffers the inputs are read from: `a_key_ptr` is `d` bytes into buffer `b`.
Within a block every input is read before anything is written (the block is computed in locals or in the mac object): memory changes between blocks only.
-/
namespace Milo

/-- The caller's memory while the memory at `a_key_ptr` (from byte `d` of buffer `b` to its end) is `key`. (no code in /repo: memory shared by the arguments of kdf/apie.h:438-545) -/
def Mem.put (m : Mem) (b d : Nat) (key : List Byte) : Mem := fun i => if i = b then (m b).take d ++ key else m i

namespace Pbkdf2.At

variable (h : Host) (M : MacImpl) (junk : Nat → Byte)

/-- pbkdf_2.h:213-252 deriving `n > 0` bytes at offset `off` of the key. -/
def generate (m : Mem) (b d : Nat) (o : Obj M) (key : List Byte) (off n : Nat) : Option (Obj M × List Byte) := do
  let s ← Memory.forM' (fun i s => step h M junk (m.put b d s.key) i s) (n / M.digestSize) 0 ⟨o, key, o.counter, off⟩
  final h M junk (m.put b d s.key) s (n % M.digestSize)

/-- pbkdf_2.h:177-254 `derive` into buffer `b` at `d`: the object, the caller's memory, the size returned. -/
def derive (o : Obj M) (m : Mem) (b d n : Nat) : Option (Obj M × Mem × Nat) :=
  if d ≤ (m b).length then do
    let (o, key, rest) ← serve h M o ((m b).drop d) n
    if rest = 0 then pure (o, m.put b d key, n) else do
      let (o, key) ← generate h M junk m b d o key (n - rest) rest
      pure (o, m.put b d key, n)
  else none

/-- kdf/apie.h:788-817 `derive<pbkdf_2>(ikm, salt, iterations, key, size)`: construction with `initialize`, then `derive`. -/
def oneshot (m : Mem) (a : Args) (b d n : Nat) : Option (Mem × Nat) := do
  let o ← init h M (impl h M junk).fresh m a
  let (_, m, n) ← derive h M junk o m b d n
  pure (m, n)

end Pbkdf2.At

namespace Hkdf.At

variable (h : Host) (M : MacImpl)

/-- hkdf.h:200-236 at least one full block. -/
def blocks (m : Mem) (b d : Nat) (o : Obj M) (key : List Byte) (off full : Nat) (prev : List Byte) : Option (Obj M × List Byte × Nat × BitVec 8) := do
  let (o, key) ← expandKey M (m.put b d key) o key off o.counter prev
  let s ← Memory.forM' (fun i s => step M (m.put b d s.key) i s) (full - 1) 1 ⟨o, key, o.counter + 1, off + M.digestSize, off⟩
  let prev ← rdN s.key s.tmpOff M.digestSize
  let o ← expandBuffer M (m.put b d s.key) s.o s.counter prev
  pure (o, s.key, s.keyOff, s.counter + 1)

/-- hkdf.h:181-246 deriving `n > 0` bytes at offset `off` of the key. -/
def generate (m : Mem) (b d : Nat) (o : Obj M) (key : List Byte) (off n : Nat) : Option (Obj M × List Byte) := do
  let full := n / M.digestSize
  let last := n % M.digestSize
  let (o, key, off, counter) ← if full = 0 then single M (m.put b d key) o key off (previous M o) else blocks M m b d o key off full (previous M o)
  let key ← at_ key off fun p => Memory.copy h (p := 1) (q := 1) p o.buffer last
  pure ({ o with bufferSize := M.digestSize - last, counter := counter }, key)

/-- hkdf.h:145-248 `derive` into buffer `b` at `d`. -/
def derive (o : Obj M) (m : Mem) (b d n : Nat) : Option (Obj M × Mem × Nat) :=
  if d ≤ (m b).length then do
    let (o, key, rest) ← serve h M o ((m b).drop d) n
    if rest = 0 then pure (o, m.put b d key, n) else do
      let (o, key) ← generate h M m b d o key (n - rest) rest
      pure (o, m.put b d key, n)
  else none

/-- kdf/apie.h:577-609 `derive<hkdf>(ikm, salt, info, key, size)`. -/
def oneshot (m : Mem) (a : Args) (b d n : Nat) : Option (Mem × Nat) := do
  let o ← init h M (impl h M).fresh m a
  let (_, m, n) ← derive h M o m b d n
  pure (m, n)

end Hkdf.At

end Milo
