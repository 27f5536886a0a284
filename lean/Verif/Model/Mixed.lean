import Verif.Model.MacAlg
import Verif.Model.Cipher
import Verif.Model.Aead
/-
Objects used under changing circumstances: a `constinit` object is worked on during constant evaluation (detail/hash/impl.h:45-60, detail/cipher/impl.h:64-115: the portable code) and then at run
time (the selected backend). The circumstances of a call are a `Host` (and, for the cipher, a backend); the object itself is carried over unchanged.
-/
namespace Milo

/-- An operation interface whose code depends on the circumstances `i`. `carry` is the identity on the representation. (`std::is_constant_evaluated()` in internal/memory.h:21-587, internal/impl.h) -/
structure Family (ι C O : Type) where
  S : ι → Type
  carry : ∀ i j, S i → S j
  exec : ∀ i, S i → C → Option (S i × List O)

namespace Family
variable {ι C O : Type} (P : Family ι C O)

/-- One call, made under the circumstances `c.1`. (no code in /repo: a program that uses an object) -/
def step (o : Σ i, P.S i) (c : ι × C) : Option ((Σ i, P.S i) × List O) := do
  let (o', out) ← P.exec c.1 (P.carry o.1 c.1 o.2) c.2
  pure (⟨c.1, o'⟩, out)

/-- A sequence of calls. (no code in /repo: a program that uses an object) -/
def run (o : Σ i, P.S i) (cs : List (ι × C)) : Option ((Σ i, P.S i) × List O) := runCalls P.step o cs

end Family

/-- The members are the same on every host. (members in detail/hash/sha/sha_1_160.h:15-193, sha_2_256.h:15-209, sha_2_512.h:15-241) -/
def ShaAlg.carry (h1 h2 : Host) (ds : Nat) : (a : ShaAlg) → (a.impl h1 ds).σ → (a.impl h2 ds).σ
  | .sha_1_160 => @id Sha1.Obj
  | .sha_2_224 => @id Sha256.Obj
  | .sha_2_256 => @id Sha256.Obj
  | .sha_2_384 => @id Sha512.Obj
  | .sha_2_512 => @id Sha512.Obj
  | .sha_2_512_224 => @id Sha512.Obj
  | .sha_2_512_256 => @id Sha512.Obj

/-- The members are the same on every host: detail/mac/hmac/hmac.h:40-70, detail/mac/poly/poly_1305.h:15-233. -/
def MacAlg.carry (h1 h2 : Host) (ds : Nat) : (a : MacAlg) → (a.impl h1 ds).σ → (a.impl h2 ds).σ
  | .hmac a hs => fun o => ⟨a.carry h1 h2 hs o.hash, o.buffer⟩
  | .poly_1305 => @id Poly1305.Obj

/-- A hash object. (detail/hash/sha/sha_1_160.h:15-193, sha_2_256.h:15-209, sha_2_512.h:15-241) -/
def ShaAlg.family (a : ShaAlg) (ds : Nat) : Family Host Hash.Call Hash.Out where
  S := fun h => (a.impl h ds).σ
  carry := fun h1 h2 => a.carry h1 h2 ds
  exec := fun h => Hash.exec (a.impl h ds)

/-- A hash `apie` object. (hash/apie.h:20-270) -/
def ShaAlg.apieFamily (a : ShaAlg) (ds : Nat) : Family Host HashApie.Call HashApie.Out where
  S := fun h => HashApie.Obj (a.impl h ds)
  carry := fun h1 h2 o => ⟨a.carry h1 h2 ds o.impl, o.finalized⟩
  exec := fun h => HashApie.exec (a.impl h ds)

/-- A mac object. (detail/mac/hmac/hmac.h:15-198, detail/mac/poly/poly_1305.h:15-233) -/
def MacAlg.family (a : MacAlg) (ds : Nat) : Family Host Mac.Call Mac.Out where
  S := fun h => (a.impl h ds).σ
  carry := fun h1 h2 => a.carry h1 h2 ds
  exec := fun h => Mac.exec (a.impl h ds)

/-- A mac `apie` object. (mac/apie.h:20-350) -/
def MacAlg.apieFamily (a : MacAlg) (ds : Nat) : Family Host MacApie.Call MacApie.Out where
  S := fun h => MacApie.Obj (a.impl h ds)
  carry := fun h1 h2 o => ⟨a.carry h1 h2 ds o.impl, o.finalized⟩
  exec := fun h => MacApie.exec (a.impl h ds)

/-- A `chacha_20` object. (detail/cipher/chacha/chacha.h:15-217) -/
def cipherFamily : Family (Host × CipherBackend) Cipher.Call Cipher.Out where
  S := fun _ => ChaCha.Obj
  carry := fun _ _ => id
  exec := fun i => Cipher.exec i.1 (i.2.impl i.1)

/-- The members of the AEAD class (chacha_20_poly_1305.h:45-53) are the same on every host. -/
def Aead.carry (h1 h2 : Host) (o : Aead.Obj (Aead.poly h1)) : Aead.Obj (Aead.poly h2) := ⟨o.cipher, @id Poly1305.Obj o.mac, o.aadSize, o.eddSize⟩

/-- The members of the AEAD wrapper (aead/apie.h:37-41). -/
def AeadApie.carry (h1 h2 : Host) (o : AeadApie.Obj (Aead.poly h1)) : AeadApie.Obj (Aead.poly h2) := ⟨Aead.carry h1 h2 o.impl, o.finalizedAad, o.finalized⟩

/-- An object of the class `aead::chacha_20_poly_1305`. (detail/aead/chacha/chacha_20_poly_1305.h:15-285) -/
def aeadFamily : Family (Host × CipherBackend) Aead.Call Aead.Out where
  S := fun i => Aead.Obj (Aead.poly i.1)
  carry := fun i j => Aead.carry i.1 j.1
  exec := fun i => Aead.exec i.1 (i.2.impl i.1)

/-- An AEAD `apie` object. (aead/apie.h:20-870) -/
def aeadApieFamily : Family (Host × CipherBackend) AeadApie.Call AeadApie.Out where
  S := fun i => AeadApie.Obj (Aead.poly i.1)
  carry := fun i j => AeadApie.carry i.1 j.1
  exec := fun i => AeadApie.exec i.1 (i.2.impl i.1)

end Milo
