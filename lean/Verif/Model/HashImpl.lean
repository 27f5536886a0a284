import Verif.Model.Base
/-
The interface all hash classes share (`meta::primitive::hash`): initialize / update / finalize / digest, block_size, digest_size.
HMAC, HKDF, PBKDF2 and the apie wrapper are written against it, as the C++ templates are.
-/
namespace Milo

/-- A hash class. `none` is undefined behaviour. (the interface of detail/hash/sha/sha_1_160.h:15-193, sha_2_256.h:15-209, sha_2_512.h:15-241) -/
structure HashImpl where
  /-- the object -/
  σ : Type
  /-- the default constructor: the in-class member initialisers (all zero) -/
  fresh : σ
  blockSize : Nat
  digestSize : Nat
  init : σ → σ
  update : σ → List Byte → Option σ
  finalize : σ → Option σ
  /-- `digest(ptr, n)` with `ptr` pointing at the given buffer: new buffer and returned size -/
  digest : σ → List Byte → Nat → Option (List Byte × Nat)

end Milo
