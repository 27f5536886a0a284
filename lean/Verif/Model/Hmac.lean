import Verif.Model.HashImpl
import Verif.Model.MacImpl
import Verif.Model.Update
/- Model of src/milo/primitive/detail/mac/hmac/hmac.h. -/
namespace Milo.Hmac
open Memory

/-- hmac.h:51-53 members. -/
structure Obj (H : HashImpl) where
  hash : H.σ
  buffer : List Byte

variable (h : Host) (H : HashImpl)

/-- hmac.h:133-137 the pad loop: one iteration. -/
def padStep (B i : Nat) (buf : List Byte) : Option (List Byte) := do
  let x ← rd1 buf i
  let buf ← wr1 buf i (x ^^^ 0x5C#8)
  let y ← rd1 buf (i + B)
  wr1 buf (i + B) (y ^^^ 0x36#8)

/-- hmac.h:86-105 a key longer than the block: hash it into `m_buffer`. -/
def longKey (o : Obj H) (key : List Byte) : Option (Obj H × Nat) := do
  let s ← H.update (H.init o.hash) key
  let s ← H.finalize s
  let (buf, _) ← H.digest s o.buffer H.digestSize
  let buf ← at_ buf H.blockSize fun p => copy h (p := 1) (q := 1) p buf H.digestSize
  pure (⟨s, buf⟩, H.digestSize)

/-- hmac.h:106-119 a key that fits. -/
def shortKey (o : Obj H) (key : List Byte) : Option (Obj H × Nat) := do
  let buf ← copy h (p := 1) (q := 1) o.buffer key key.length
  let buf ← at_ buf H.blockSize fun p => copy h (p := 1) (q := 1) p key key.length
  pure ({ o with buffer := buf }, key.length)

/-- hmac.h:86-119 the key, or its hash, at the beginning of both halves of `m_buffer`; and its size. -/
def putKey (o : Obj H) (key : List Byte) : Option (Obj H × Nat) :=
  if key.length > H.blockSize then longKey h H o key else shortKey h H o key

/-- hmac.h:77-144 `initialize`. `block_size - a_key_size` wraps if the key in the buffer exceeds the block (a hash whose digest is larger than its
block): undefined. -/
def init (o : Obj H) (key : List Byte) : Option (Obj H) := do
  let (o, n) ← putKey h H o key
  if n > H.blockSize then none else do
  let buf ← at_ o.buffer n fun p => set h (p := 1) p 0 (H.blockSize - n)
  let buf ← at_ buf (H.blockSize + n) fun p => set h (p := 1) p 0 (H.blockSize - n)
  let buf ← forM' (padStep H.blockSize) H.blockSize 0 buf
  let key ← rdN buf H.blockSize H.blockSize
  let s ← H.update (H.init o.hash) key
  pure ⟨s, buf⟩

/-- hmac.h:146-159 `update`. -/
def update (o : Obj H) (x : List Byte) : Option (Obj H) := do
  let s ← H.update o.hash x
  pure { o with hash := s }

/-- hmac.h:161-176 `finalize`. -/
def finalize (o : Obj H) : Option (Obj H) := do
  let s ← H.finalize o.hash
  let buf ← at_ o.buffer H.blockSize fun p => do
    let (p, _) ← H.digest s p H.digestSize
    pure p
  let msg ← rdN buf 0 (H.blockSize + H.digestSize)
  let s ← H.update (H.init s) msg
  let s ← H.finalize s
  pure ⟨s, buf⟩

/-- hmac.h:178-196 `digest`; `ds` is the digest_size option. -/
def digest (ds : Nat) (o : Obj H) (dst : List Byte) (n : Nat) : Option (List Byte × Nat) := H.digest o.hash dst (min n ds)

/-- The class `mac_hmac<H, option::digest_size<ds>>` (default `ds` is the digest size of the hash). (detail/mac/hmac/hmac.h:15-198) -/
def impl (ds : Nat) : MacImpl where
  σ := Obj H
  fresh := ⟨H.fresh, List.replicate (2 * H.blockSize) 0⟩
  keySize := 0
  digestSize := ds
  init := init h H
  update := update H
  finalize := finalize H
  digest := digest H ds

end Milo.Hmac
