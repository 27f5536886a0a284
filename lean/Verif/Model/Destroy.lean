import Verif.Model.MacAlg
import Verif.Model.Hkdf
import Verif.Model.Pbkdf2
import Verif.Model.Aead
/-
Destructors, and the bytes of an object. A destructor runs its body and then those of the members.
-/
namespace Milo
open Memory

/-- The destructor of a class: what is in the object's memory afterwards. `memory` lists the bytes of the data members (padding, references to the caller's
memory and what a comment says are left out). (destructors in detail/hash/sha/sha_1_160.h:15-193, detail/mac/hmac/hmac.h, detail/cipher/chacha/chacha.h:15-217 and the others; internal/memory.h:911-972 `memory_erase`) -/
structure Dtor (σ : Type) where
  destroy : σ → Option σ
  memory : σ → List Byte

/-- The bytes of a `size_t` member. (`memory_erase(m_buffer_size)` in the destructors; internal/memory.h:911-938) -/
def sizeBytes (h : Host) (n : Nat) : List Byte := toBytes h.endian (n := 8) (BitVec.ofNat 64 n)

/-- sha_1_160.h:83-89 -/
def Sha1.dtor (h : Host) : Dtor Sha1.Obj where
  destroy := fun o => do
    let st ← erase (p := 4) o.state 5
    let buf ← erase (p := 1) o.buffer (64 * 2)
    pure { o with state := st, processed := 0, buffer := buf, bufferSize := 0 }
  memory := fun o => image h.endian (p := 4) o.state ++ toBytes h.endian (n := 8) o.processed ++ o.buffer ++ sizeBytes h o.bufferSize

/-- sha_2_256.h:83-89 -/
def Sha256.dtor (h : Host) : Dtor Sha256.Obj where
  destroy := fun o => do
    let st ← erase (p := 4) o.state 8
    let buf ← erase (p := 1) o.buffer (64 * 2)
    pure { o with state := st, processed := 0, buffer := buf, bufferSize := 0 }
  memory := fun o => image h.endian (p := 4) o.state ++ toBytes h.endian (n := 8) o.processed ++ o.buffer ++ sizeBytes h o.bufferSize

/-- sha_2_512.h:81-87 -/
def Sha512.dtor (h : Host) : Dtor Sha512.Obj where
  destroy := fun o => do
    let st ← erase (p := 8) o.state 8
    let pr ← erase (p := 8) [o.processed0, o.processed1] 2
    let p0 ← rd1 pr 0
    let p1 ← rd1 pr 1
    let buf ← erase (p := 1) o.buffer (128 * 2)
    pure { o with state := st, processed0 := p0, processed1 := p1, buffer := buf, bufferSize := 0 }
  memory := fun o => image h.endian (p := 8) o.state ++ toBytes h.endian (n := 8) o.processed0 ++ toBytes h.endian (n := 8) o.processed1 ++ o.buffer ++
    sizeBytes h o.bufferSize

/-- The destructor of a hash class. (detail/hash/sha/sha_1_160.h:15-193, sha_2_256.h:15-209, sha_2_512.h:15-241: destructors) -/
def ShaAlg.dtor (h : Host) (ds : Nat) : (a : ShaAlg) → Dtor (a.impl h ds).σ
  | .sha_1_160 => Sha1.dtor h
  | .sha_2_224 => Sha256.dtor h
  | .sha_2_256 => Sha256.dtor h
  | .sha_2_384 => Sha512.dtor h
  | .sha_2_512 => Sha512.dtor h
  | .sha_2_512_224 => Sha512.dtor h
  | .sha_2_512_256 => Sha512.dtor h

/-- hmac.h:63-66, then `m_hash`. -/
def Hmac.dtor (H : HashImpl) (D : Dtor H.σ) : Dtor (Hmac.Obj H) where
  destroy := fun o => do
    let buf ← erase (p := 1) o.buffer (H.blockSize * 2)
    let hash ← D.destroy o.hash
    pure ⟨hash, buf⟩
  memory := fun o => D.memory o.hash ++ o.buffer

/-- poly_1305.h:83-90 -/
def Poly1305.dtor (h : Host) : Dtor Poly1305.Obj where
  destroy := fun o => do
    let r ← erase (p := 4) o.keyR 8
    let s ← erase (p := 4) o.keyS 4
    let acc ← erase (p := 4) o.acc 5
    let buf ← erase (p := 1) o.buffer 16
    pure { o with keyR := r, keyS := s, acc := acc, buffer := buf, bufferSize := 0 }
  memory := fun o => image h.endian (p := 4) o.keyR ++ image h.endian (p := 4) o.keyS ++ image h.endian (p := 4) o.acc ++ o.buffer ++ sizeBytes h o.bufferSize

/-- The destructor of a mac class. (detail/mac/hmac/hmac.h, detail/mac/poly/poly_1305.h: destructors) -/
def MacAlg.dtor (h : Host) (ds : Nat) : (a : MacAlg) → Dtor (a.impl h ds).σ
  | .hmac a hs => Hmac.dtor (a.impl h hs) (a.dtor h hs)
  | .poly_1305 => Poly1305.dtor h

/-- hkdf.h:57-63, then `m_hmac`. `m_info` refers to the caller's memory (the defaulted destructor of the view does nothing at run time). -/
def Hkdf.dtor (h : Host) (M : MacImpl) (D : Dtor M.σ) : Dtor (Hkdf.Obj M) where
  destroy := fun o => do
    let prk ← erase (p := 1) o.prk M.digestSize
    let buf ← erase (p := 1) o.buffer M.digestSize
    let hmac ← D.destroy o.hmac
    pure { o with hmac := hmac, counter := 0, prk := prk, buffer := buf, bufferSize := 0 }
  memory := fun o => D.memory o.hmac ++ [o.counter] ++ o.prk ++ o.buffer ++ sizeBytes h o.bufferSize

/-- pbkdf_2.h:59-65, then `m_prf`. `m_ikm` and `m_salt` refer to the caller's memory. -/
def Pbkdf2.dtor (h : Host) (M : MacImpl) (D : Dtor M.σ) : Dtor (Pbkdf2.Obj M) where
  destroy := fun o => do
    let buf ← erase (p := 1) o.buffer M.digestSize
    let prf ← D.destroy o.prf
    pure { o with prf := prf, iterations := 0, counter := 0, buffer := buf, bufferSize := 0 }
  memory := fun o => D.memory o.prf ++ toBytes h.endian (n := 4) o.iterations ++ toBytes h.endian (n := 4) o.counter ++ o.buffer ++ sizeBytes h o.bufferSize

/-- chacha.h:79-84 -/
def ChaCha.dtor (h : Host) : Dtor ChaCha.Obj where
  destroy := fun o => do
    let st ← erase (p := 4) o.state 16
    let buf ← erase (p := 1) o.buffer (64 * 8)
    pure ⟨st, buf, 0⟩
  memory := fun o => image h.endian (p := 4) o.state ++ o.buffer ++ sizeBytes h o.bufferSize

/-- chacha_20_poly_1305.h:65, the defaulted destructor: `m_cipher` and `m_mac`. The bytes of the two counters are listed by `Aead.counters`. -/
def Aead.dtor (h : Host) (M : MacImpl) (D : Dtor M.σ) : Dtor (Aead.Obj M) where
  destroy := fun o => do
    let m ← D.destroy o.mac
    let c ← (ChaCha.dtor h).destroy o.cipher
    pure { o with cipher := c, mac := m }
  memory := fun o => (ChaCha.dtor h).memory o.cipher ++ D.memory o.mac

/-- chacha_20_poly_1305.h:51-53 the counters of an object. -/
def Aead.counters (h : Host) {M : MacImpl} (o : Aead.Obj M) : Option (List Byte) := do
  let a ← o.aadSize
  let e ← o.eddSize
  pure (toBytes h.endian (n := 8) a ++ toBytes h.endian (n := 8) e)

/-- `~apie` is defaulted in every wrapper (hash/apie.h, mac/apie.h, aead/apie.h): it destroys `m_impl`. -/
def HashApie.dtor (H : HashImpl) (D : Dtor H.σ) : Dtor (HashApie.Obj H) where
  destroy := fun o => do
    let i ← D.destroy o.impl
    pure { o with impl := i }
  memory := fun o => D.memory o.impl

/-- mac/apie.h:20-60: the destructor is defaulted. -/
def MacApie.dtor (M : MacImpl) (D : Dtor M.σ) : Dtor (MacApie.Obj M) where
  destroy := fun o => do
    let i ← D.destroy o.impl
    pure { o with impl := i }
  memory := fun o => D.memory o.impl

/-- aead/apie.h:20-65: the destructor is defaulted. -/
def AeadApie.dtor (h : Host) (M : MacImpl) (D : Dtor M.σ) : Dtor (AeadApie.Obj M) where
  destroy := fun o => do
    let i ← (Aead.dtor h M D).destroy o.impl
    pure { o with impl := i }
  memory := fun o => (Aead.dtor h M D).memory o.impl

end Milo
