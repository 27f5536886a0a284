import Verif.Model.Timed.Kdf
import Verif.Model.Timed.Aead
/- Sequences of calls with what is observed of them. -/
namespace Milo.Timed

/-- Model/HashApie.lean `runCalls`. -/
def runCalls {σ C O : Type} (exec : σ → C → T (σ × List O)) : σ → List C → T (σ × List O)
  | o, [] => pure (o, [])
  | o, c :: cs => do
    let (o, out) ← exec o c
    let (o, outs) ← runCalls exec o cs
    pure (o, out ++ outs)

namespace Hash
open Milo.Hash (Call Out)

/-- Model/HashApie.lean `Hash.exec`. -/
def exec {H : HashImpl} (t : HashT H) (o : H.σ) : Call → T (H.σ × List Out)
  | .init => pure (H.init o, [])
  | .update x => do
    let o ← t.update o x
    pure (o, [])
  | .finalize => do
    let o ← t.finalize o
    pure (o, [])
  | .digest dst n => do
    let out ← t.digest o dst n
    pure (o, [out])

/-- Model/HashApie.lean `Hash.run`. -/
def run {H : HashImpl} (t : HashT H) (cs : List Call) : T (H.σ × List Out) := runCalls (exec t) H.fresh cs

end Hash

namespace HashApie
open Milo.HashApie (Obj Call Out)
variable {H : HashImpl} (t : HashT H)

/-- hash/apie.h:60-72 `do_finalize`. -/
def doFinalize (o : Obj H) : T (Obj H) :=
  branch (o.finalized = true) (pure o) (do
    let i ← t.finalize o.impl
    pure ⟨i, true⟩)

/-- hash/apie.h:103-138 `update`. -/
def update (o : Obj H) (x : List Byte) : T (Obj H) := do
  let i ← t.update o.impl x
  pure { o with impl := i }

/-- hash/apie.h:152-168 `digest(ptr, size)`. -/
def digest (o : Obj H) (dst : List Byte) (n : Nat) : T (Obj H × (List Byte × Nat)) := do
  let o ← doFinalize t o
  let out ← t.digest o.impl dst n
  pure (o, out)

/-- hash/apie.h:182-209 `digest(container, size)`. -/
def digestC (o : Obj H) (c : Container) (n : Nat) : T (Obj H × (Container × Nat)) := do
  let o ← doFinalize t o
  let n := min n H.digestSize
  let (c, n) := c.resize n
  let (o, (d, n)) ← digest t o c.data n
  pure (o, (c.withData d, n))

/-- Model/HashApie.lean `HashApie.exec`. -/
def exec (o : Obj H) : Call → T (Obj H × List Out)
  | .init => pure (Milo.HashApie.initialise H o, [])
  | .update x => do
    let o ← update t o x
    pure (o, [])
  | .digest dst n => do
    let (o, out) ← digest t o dst n
    pure (o, [out])
  | .digestC c n => do
    let (o, (c, n)) ← digestC t o c n
    pure (o, [(c.data, n)])

/-- Model/HashApie.lean `HashApie.run`. -/
def run (uninit : Bool) (cs : List Call) : T (Obj H × List Out) := runCalls (exec t) (Milo.HashApie.construct H uninit) cs

end HashApie

namespace Mac
open Milo.Mac (Call Out)

/-- Model/MacImpl.lean `Mac.exec`. -/
def exec {M : MacImpl} (t : MacT M) (o : M.σ) : Call → T (M.σ × List Out)
  | .init key => do
    let o ← t.init o key
    pure (o, [])
  | .update x => do
    let o ← t.update o x
    pure (o, [])
  | .finalize => do
    let o ← t.finalize o
    pure (o, [])
  | .digest dst n => do
    let out ← t.digest o dst n
    pure (o, [out])

/-- Model/MacImpl.lean `Mac.run`. -/
def run {M : MacImpl} (t : MacT M) (cs : List Call) : T (M.σ × List Out) := runCalls (exec t) M.fresh cs

end Mac

namespace MacApie
open Milo.MacApie (Obj Call Out)
variable {M : MacImpl} (t : MacT M)

/-- mac/apie.h:122-169 `initialize`. -/
def initialise (o : Obj M) (key : List Byte) : T (Obj M) := do
  let i ← t.init o.impl key
  pure ⟨i, some false⟩

/-- mac/apie.h:107-118 `do_finalize`. -/
def doFinalize (o : Obj M) : T (Obj M) := do
  let f ← quiet o.finalized
  branch (f = true) (pure o) (do
    let i ← t.finalize o.impl
    pure ⟨i, some true⟩)

/-- mac/apie.h:171-216 `update`. -/
def update (o : Obj M) (x : List Byte) : T (Obj M) := do
  let i ← t.update o.impl x
  pure { o with impl := i }

/-- mac/apie.h:218-245 `digest(ptr, size)`. -/
def digest (o : Obj M) (dst : List Byte) (n : Nat) : T (Obj M × (List Byte × Nat)) := do
  let o ← doFinalize t o
  let out ← t.digest o.impl dst n
  pure (o, out)

/-- mac/apie.h:247-284 `digest(container, size)`. -/
def digestC (o : Obj M) (c : Container) (n : Nat) : T (Obj M × (Container × Nat)) := do
  let o ← doFinalize t o
  let n := min n M.digestSize
  let (c, n) := c.resize n
  let (o, (d, n)) ← digest t o c.data n
  pure (o, (c.withData d, n))

/-- Model/MacImpl.lean `MacApie.exec`. -/
def exec (o : Obj M) : Call → T (Obj M × List Out)
  | .init key => do
    let o ← initialise t o key
    pure (o, [])
  | .update x => do
    let o ← update t o x
    pure (o, [])
  | .digest dst n => do
    let (o, out) ← digest t o dst n
    pure (o, [out])
  | .digestC c n => do
    let (o, (c, n)) ← digestC t o c n
    pure (o, [(c.data, n)])

/-- Model/MacImpl.lean `MacApie.runDefault`. (Construction with a key does what default construction and `initialize` do.) -/
def runDefault (cs : List Call) : T (Obj M × List Out) := runCalls (exec t) (Milo.MacApie.constructDefault M) cs

end MacApie

namespace Kdf
open Milo.Kdf (Call Out)
variable {K : KdfImpl} (t : KdfT K)

/-- Model/Kdf.lean `deriveReq`. -/
def deriveReq (o : K.σ) (m : Mem) : DigestReq → T (K.σ × Out)
  | .ptr dst n => do
    let (o, out) ← t.derive o m dst n
    pure (o, out)
  | .cont c n => do
    let (c, n) := c.resize n
    let (o, d, n) ← t.derive o m c.data n
    pure (o, ((c.withData d).data, n))

/-- Model/Kdf.lean `Kdf.exec`. -/
def exec (s : K.σ × Mem) : Call K.Args → T ((K.σ × Mem) × List Out)
  | .init a => do
    let o ← t.init s.1 s.2 a
    pure ((o, s.2), [])
  | .poke b content => pure ((s.1, fun i => if i = b then content else s.2 i), [])
  | .derive r => do
    let (o, out) ← deriveReq t s.1 s.2 r
    pure ((o, s.2), [out])

/-- Model/Kdf.lean `Kdf.run`. -/
def run (m : Mem) (cs : List (Call K.Args)) : T ((K.σ × Mem) × List Out) := runCalls (exec t) (K.fresh, m) cs

end Kdf

namespace Cipher
open Milo.Cipher (Call Out)
variable (h : Host) (B : ChaCha.Backend)

/-- cipher/apie.h:194-226 `encrypt(plaintext, ciphertext)`. -/
def encryptC (o : Milo.ChaCha.Obj) (x : List Byte) (to : Container) : T (Milo.ChaCha.Obj × Container × Nat) := do
  let to := (to.resize x.length).1
  let (o, mem, size) ← ChaCha.encrypt h B o (x ++ to.data) 0 x.length x.length
  let to := ((to.withData (mem.drop x.length)).resize size).1
  pure (o, to, size)

/-- The same with one container. (cipher/apie.h:209-282) -/
def encryptSelf (o : Milo.ChaCha.Obj) (c : Container) : T (Milo.ChaCha.Obj × Container × Nat) := do
  let c := (c.resize c.data.length).1
  let (o, mem, size) ← ChaCha.encrypt h B o c.data 0 c.data.length 0
  let c := ((c.withData mem).resize size).1
  pure (o, c, size)

/-- cipher/apie.h:373-405 `decrypt(ciphertext, plaintext)`. -/
def decryptC (o : Milo.ChaCha.Obj) (x : List Byte) (to : Container) : T (Milo.ChaCha.Obj × Container × Nat) := do
  let to := (to.resize x.length).1
  let (o, mem, size) ← ChaCha.decrypt h B o (x ++ to.data) 0 x.length x.length
  let to := ((to.withData (mem.drop x.length)).resize size).1
  pure (o, to, size)

/-- The same for `decrypt`: cipher/apie.h:373-446. -/
def decryptSelf (o : Milo.ChaCha.Obj) (c : Container) : T (Milo.ChaCha.Obj × Container × Nat) := do
  let c := (c.resize c.data.length).1
  let (o, mem, size) ← ChaCha.decrypt h B o c.data 0 c.data.length 0
  let c := ((c.withData mem).resize size).1
  pure (o, c, size)

/-- Model/Cipher.lean `Cipher.exec`. -/
def exec (o : Milo.ChaCha.Obj) : Call → T (Milo.ChaCha.Obj × List Out)
  | .init key iv => do
    let o ← ChaCha.init h o key iv
    pure (o, [])
  | .encrypt mem src n dst => do
    let (o, mem, size) ← ChaCha.encrypt h B o mem src n dst
    pure (o, [(mem, size)])
  | .decrypt mem src n dst => do
    let (o, mem, size) ← ChaCha.decrypt h B o mem src n dst
    pure (o, [(mem, size)])
  | .encryptC x to => do
    let (o, to, size) ← encryptC h B o x to
    pure (o, [(to.data, size)])
  | .decryptC x to => do
    let (o, to, size) ← decryptC h B o x to
    pure (o, [(to.data, size)])
  | .encryptSelf c => do
    let (o, c, size) ← encryptSelf h B o c
    pure (o, [(c.data, size)])
  | .decryptSelf c => do
    let (o, c, size) ← decryptSelf h B o c
    pure (o, [(c.data, size)])

/-- Model/Cipher.lean `Cipher.run`. -/
def run (b : CipherBackend) (cs : List Call) : T (Milo.ChaCha.Obj × List Out) := runCalls (exec h (ChaCha.backend h b)) Milo.ChaCha.fresh cs

end Cipher

namespace Aead
open Milo.Aead (Obj Call Out poly)
variable (h : Host) (B : ChaCha.Backend) {M : MacImpl} (t : MacT M)

/-- Model/Aead.lean `Aead.exec`. -/
def exec (o : Obj M) : Call → T (Obj M × List Out)
  | .init key iv => do
    let o ← init h B t o key iv
    pure (o, [])
  | .aad x => do
    let o ← aad t o x
    pure (o, [])
  | .aadover => do
    let o ← aadover t o
    pure (o, [])
  | .encrypt s => do
    let (o, mem, size) ← encrypt h B t o s.mem s.src s.n s.dst
    pure (o, [(mem, size)])
  | .decrypt s => do
    let (o, mem, size) ← decrypt h B t o s.mem s.src s.n s.dst
    pure (o, [(mem, size)])
  | .finalize => do
    let o ← finalize h t o
    pure (o, [])
  | .digest dst n => do
    let out ← digest t o dst n
    pure (o, [out])

/-- Model/Aead.lean `Aead.run`. -/
def run (b : CipherBackend) (cs : List Call) : T (Obj (poly h) × List Out) :=
  runCalls (exec h (ChaCha.backend h b) (mac h 16 .poly_1305)) (Milo.Aead.fresh (poly h)) cs

end Aead

namespace AeadApie
open Milo.AeadApie (Obj Call Out)
open Milo.Aead (poly)
variable (h : Host) (B : ChaCha.Backend) {M : MacImpl} (t : MacT M)

/-- Model/Aead.lean `AeadApie.text`. -/
def text (decrypting : Bool) (o : Obj M) : TextReq → T (Obj M × List Byte × Nat)
  | .ptr s => if decrypting then decrypt h B t o s.mem s.src s.n s.dst else encrypt h B t o s.mem s.src s.n s.dst
  | .cont x tgt => do
    let (o, c, n) ← if decrypting then decryptC h B t o x tgt else encryptC h B t o x tgt
    pure (o, c.data, n)
  | .self c => do
    let (o, c, n) ← if decrypting then decryptSelf h B t o c else encryptSelf h B t o c
    pure (o, c.data, n)

/-- Model/Aead.lean `AeadApie.exec`. -/
def exec (o : Obj M) : Call → T (Obj M × List Out)
  | .init key iv => do
    let o ← initialise h B t o key iv
    pure (o, [])
  | .aad x => do
    let o ← aad t o x
    pure (o, [])
  | .text d q => do
    let (o, content, size) ← text h B t d o q
    pure (o, [.bytes content size])
  | .digest dst n => do
    let (o, d, n) ← digest h t o dst n
    pure (o, [.bytes d n])
  | .digestC c n => do
    let (o, c, n) ← digestC h t o c n
    pure (o, [.bytes c.data n])
  | .verify tag => do
    let (o, e) ← verify h t o tag
    pure (o, [.error e])
  | .verifyThrow tag => do
    let (o, e) ← verifyThrow h t o tag
    pure (o, [.ended e])

/-- Model/Aead.lean `AeadApie.run`. (Construction with key and iv does what default construction and `initialize` do.) -/
def run (b : CipherBackend) (cs : List Call) : T (Obj (poly h) × List Out) :=
  runCalls (exec h (ChaCha.backend h b) (mac h 16 .poly_1305)) (Milo.AeadApie.constructDefault (poly h)) cs

end AeadApie

end Milo.Timed
