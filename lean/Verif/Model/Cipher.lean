import Verif.Model.ChaChaAsm
import Verif.Model.HashApie
/-
Call sequences on a ChaCha object, and model of src/milo/primitive/cipher/apie.h, whose member functions only pass their arguments on.
-/
namespace Milo

/-- The backends of `cipher::chacha_20` (primitive/detail/cipher/chacha/chacha.h, chacha_impl_*.h). `junk` is what registers and stack slots hold when the assembly
code is entered (simplified: the same at each call; `C44_junk_irrelevant` shows that it has no influence). -/
inductive CipherBackend where
  | portable
  | ssse3 (junk : Nat → X86.Vec)
  | avx2 (junk : Nat → X86.Vec)

/-- detail/cipher/chacha/chacha.h:20-50: the classes. -/
def CipherBackend.impl (h : Host) : CipherBackend → ChaCha.Backend
  | .portable => ChaCha.sw h
  | .ssse3 junk => ChaCha.Asm.ssse3 junk
  | .avx2 junk => ChaCha.Asm.avx2 junk

namespace Cipher

/-- cipher/apie.h:194-226 `encrypt(plaintext, ciphertext)` with two distinct containers: resize, encrypt between the two buffers, resize. A fixed-size
ciphertext that is too small is written past its end: undefined behaviour. -/
def encryptC (h : Host) (B : ChaCha.Backend) (o : ChaCha.Obj) (x : List Byte) (to : Container) : Option (ChaCha.Obj × Container × Nat) := do
  let to := (to.resize x.length).1
  let (o, mem, size) ← ChaCha.encrypt h B o (x ++ to.data) 0 x.length x.length
  let to := ((to.withData (mem.drop x.length)).resize size).1
  pure (o, to, size)

/-- The same with one container as plaintext and ciphertext. (cipher/apie.h:209-282) -/
def encryptSelf (h : Host) (B : ChaCha.Backend) (o : ChaCha.Obj) (c : Container) : Option (ChaCha.Obj × Container × Nat) := do
  let c := (c.resize c.data.length).1
  let (o, mem, size) ← ChaCha.encrypt h B o c.data 0 c.data.length 0
  let c := ((c.withData mem).resize size).1
  pure (o, c, size)

/-- cipher/apie.h:373-405 `decrypt(ciphertext, plaintext)`. -/
def decryptC (h : Host) (B : ChaCha.Backend) (o : ChaCha.Obj) (x : List Byte) (to : Container) : Option (ChaCha.Obj × Container × Nat) := do
  let to := (to.resize x.length).1
  let (o, mem, size) ← ChaCha.decrypt h B o (x ++ to.data) 0 x.length x.length
  let to := ((to.withData (mem.drop x.length)).resize size).1
  pure (o, to, size)

/-- The same for `decrypt`: cipher/apie.h:373-446. -/
def decryptSelf (h : Host) (B : ChaCha.Backend) (o : ChaCha.Obj) (c : Container) : Option (ChaCha.Obj × Container × Nat) := do
  let c := (c.resize c.data.length).1
  let (o, mem, size) ← ChaCha.decrypt h B o c.data 0 c.data.length 0
  let c := ((c.withData mem).resize size).1
  pure (o, c, size)

/-- The public member functions (of the class and of `apie`). `encrypt mem src n dst` is `encrypt(p + src, n, p + dst)` where `p` points at memory with
the bytes `mem`. (cipher/apie.h:20-500) -/
inductive Call where
  | init (key iv : List Byte)
  | encrypt (mem : List Byte) (src n dst : Nat)
  | decrypt (mem : List Byte) (src n dst : Nat)
  | encryptC (x : List Byte) (to : Container)
  | decryptC (x : List Byte) (to : Container)
  | encryptSelf (c : Container)
  | decryptSelf (c : Container)
  deriving Repr

/-- Source and destination are the same or do not overlap, and lie in the memory. (cipher/apie.h:177-194, 341-358) -/
def Fits (mem : List Byte) (src n dst : Nat) : Prop :=
  (dst = src ∨ src + n ≤ dst ∨ dst + n ≤ src) ∧ src + n ≤ mem.length ∧ dst + n ≤ mem.length

/-- The caller's obligation. (cipher/apie.h:177-446) -/
def Call.Ok : Call → Prop
  | .init _ _ => True
  | .encrypt mem src n dst => Fits mem src n dst
  | .decrypt mem src n dst => Fits mem src n dst
  | .encryptC x to => to.dynamic = false → x.length ≤ to.data.length
  | .decryptC x to => to.dynamic = false → x.length ≤ to.data.length
  | .encryptSelf _ => True
  | .decryptSelf _ => True

/-- Output of a call: the memory or the container content, and the returned size. (cipher/apie.h:177-446) -/
abbrev Out := List Byte × Nat

/-- A call of a member function of cipher/apie.h:20-500 (the class has the same). -/
def exec (h : Host) (B : ChaCha.Backend) (o : ChaCha.Obj) : Call → Option (ChaCha.Obj × List Out)
  | .init key iv => do
    let o ← ChaCha.init h o key iv
    pure (o, [])
  | .encrypt mem src n dst => do
    let (o, mem, size) ← ChaCha.encrypt h B o mem src n dst
    pure (o, [(mem, size)])
  | .decrypt mem src n dst => do
    let (o, mem, size) ← ChaCha.decrypt h B o mem src n dst
    pure (o, [(mem, size)])
  | .encryptC x to => do
    let (o, to, size) ← encryptC h B o x to
    pure (o, [(to.data, size)])
  | .decryptC x to => do
    let (o, to, size) ← decryptC h B o x to
    pure (o, [(to.data, size)])
  | .encryptSelf c => do
    let (o, c, size) ← encryptSelf h B o c
    pure (o, [(c.data, size)])
  | .decryptSelf c => do
    let (o, c, size) ← decryptSelf h B o c
    pure (o, [(c.data, size)])

/-- A default-constructed object and a sequence of calls. (cipher/apie.h:36-60) -/
def run (h : Host) (B : ChaCha.Backend) (cs : List Call) : Option (ChaCha.Obj × List Out) := runCalls (exec h B) ChaCha.fresh cs

/-- cipher/apie.h:74-85 the constructor with key and iv, then one call: the free functions `encrypt`, `decrypt`, cipher/apie.h:518-801, for containers.
(The free functions for pointers name a constructor that does not exist: instantiating them is a compile error.) -/
def oneshot (h : Host) (B : ChaCha.Backend) (key iv : List Byte) (c : Call) : Option (List Out) := do
  let o ← ChaCha.init h ChaCha.fresh key iv
  let (_, out) ← exec h B o c
  pure out

end Cipher
end Milo
