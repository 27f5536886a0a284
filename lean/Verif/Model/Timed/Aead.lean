import Verif.Model.Timed.Mac
import Verif.Model.Timed.ChaCha
import Verif.Model.Aead
/- The aead class and its wrapper (Model/Aead.lean) with what is observed of them. -/
namespace Milo.Timed

namespace Aead
open Milo.Aead (Obj)

variable (h : Host) (B : ChaCha.Backend) {M : MacImpl} (t : MacT M)

/-- chacha_20_poly_1305.h:73-120 `initialize`. -/
def init (o : Obj M) (key iv : List Byte) : T (Obj M) := do
  let civ ← at_ (List.replicate 16 0#8) 4 fun p => Timed.init h (p := 1) (q := 1) p iv
  let c ← ChaCha.init h o.cipher key civ
  let (c, k, _) ← ChaCha.encrypt h B c (List.replicate 64 0#8) 0 64 0
  let m ← t.init o.mac k
  pure ⟨c, m, some 0, some 0⟩

/-- chacha_20_poly_1305.h:122-138 `aad`. -/
def aad (o : Obj M) (x : List Byte) : T (Obj M) := do
  let m ← t.update o.mac x
  let a ← quiet o.aadSize
  pure { o with mac := m, aadSize := some (a + BitVec.ofNat 64 x.length) }

/-- chacha_20_poly_1305.h:147-150 and 241-244. -/
def updatePad (o : Obj M) (size : W64) : T (Obj M) := do
  let z ← rdN (List.replicate 16 0#8) 0 ((16 - size.toNat % 16) &&& 15)
  let m ← t.update o.mac z
  pure { o with mac := m }

/-- chacha_20_poly_1305.h:140-151 `aadover`. -/
def aadover (o : Obj M) : T (Obj M) := do
  let a ← quiet o.aadSize
  updatePad t o a

/-- chacha_20_poly_1305.h:153-178 `encrypt`. -/
def encrypt (o : Obj M) (mem : List Byte) (src n dst : Nat) : T (Obj M × List Byte × Nat) := do
  let (c, mem, size) ← ChaCha.encrypt h B o.cipher mem src n dst
  let x ← rdN mem dst size
  let m ← t.update o.mac x
  let e ← quiet o.eddSize
  pure ({ o with cipher := c, mac := m, eddSize := some (e + BitVec.ofNat 64 size) }, mem, size)

/-- chacha_20_poly_1305.h:194-219 `decrypt`. -/
def decrypt (o : Obj M) (mem : List Byte) (src n dst : Nat) : T (Obj M × List Byte × Nat) := do
  let x ← rdN mem src n
  let m ← t.update o.mac x
  let (c, mem, size) ← ChaCha.decrypt h B o.cipher mem src n dst
  let e ← quiet o.eddSize
  pure ({ o with cipher := c, mac := m, eddSize := some (e + BitVec.ofNat 64 size) }, mem, size)

/-- chacha_20_poly_1305.h:246-262 the two lengths in `buffer_last`. -/
def lengths (a e : W64) : T (List Byte) := do
  let b ← storLe h (v := 8) (p := 1) (List.replicate 16 0#8) 0 a
  storLe h (v := 8) (p := 1) b 1 e

/-- chacha_20_poly_1305.h:235-269 `finalize`. -/
def finalize (o : Obj M) : T (Obj M) := do
  let a ← quiet o.aadSize
  let e ← quiet o.eddSize
  let o ← updatePad t o e
  let last ← lengths h a e
  let m ← t.update o.mac last
  let m ← t.finalize m
  pure { o with mac := m }

/-- chacha_20_poly_1305.h:271-284 `digest`. -/
def digest (o : Obj M) (dst : List Byte) (n : Nat) : T (List Byte × Nat) := t.digest o.mac dst n

end Aead

namespace AeadApie
open Milo.AeadApie (Obj)

variable (h : Host) (B : ChaCha.Backend) {M : MacImpl} (t : MacT M)

/-- aead/apie.h:174-225 `initialize`. -/
def initialise (o : Obj M) (key iv : List Byte) : T (Obj M) := do
  let i ← Aead.init h B t o.impl key iv
  pure ⟨i, some false, some false⟩

/-- aead/apie.h:130-141 `do_finalize_aad`. -/
def doFinalizeAad (o : Obj M) : T (Obj M) := do
  let f ← quiet o.finalizedAad
  branch (f = true) (pure o) (do
    let i ← Aead.aadover t o.impl
    pure { o with impl := i, finalizedAad := some true })

/-- aead/apie.h:143-154 `do_finalize`. -/
def doFinalize (o : Obj M) : T (Obj M) := do
  let f ← quiet o.finalized
  branch (f = true) (pure o) (do
    let i ← Aead.finalize h t o.impl
    pure { o with impl := i, finalized := some true })

/-- aead/apie.h:227-272 `aad`. -/
def aad (o : Obj M) (x : List Byte) : T (Obj M) := do
  let i ← Aead.aad t o.impl x
  pure { o with impl := i }

/-- aead/apie.h:290-307 `encrypt(ptr, size, ptr)`. -/
def encrypt (o : Obj M) (mem : List Byte) (src n dst : Nat) : T (Obj M × List Byte × Nat) := do
  let o ← doFinalizeAad t o
  let (i, mem, size) ← Aead.encrypt h B t o.impl mem src n dst
  pure ({ o with impl := i }, mem, size)

/-- aead/apie.h:456-473 `decrypt(ptr, size, ptr)`. -/
def decrypt (o : Obj M) (mem : List Byte) (src n dst : Nat) : T (Obj M × List Byte × Nat) := do
  let o ← doFinalizeAad t o
  let (i, mem, size) ← Aead.decrypt h B t o.impl mem src n dst
  pure ({ o with impl := i }, mem, size)

/-- aead/apie.h:324-350 `encrypt(plaintext, ciphertext)` (what resizing observes is the old and the new size; not listed). -/
def encryptC (o : Obj M) (x : List Byte) (to : Container) : T (Obj M × Container × Nat) := do
  let to := (to.resize x.length).1
  let (o, mem, size) ← encrypt h B t o (x ++ to.data) 0 x.length x.length
  let to := ((to.withData (mem.drop x.length)).resize size).1
  pure (o, to, size)

/-- The same with one container as plaintext and ciphertext. (aead/apie.h:329-402) -/
def encryptSelf (o : Obj M) (c : Container) : T (Obj M × Container × Nat) := do
  let c := (c.resize c.data.length).1
  let (o, mem, size) ← encrypt h B t o c.data 0 c.data.length 0
  let c := ((c.withData mem).resize size).1
  pure (o, c, size)

/-- aead/apie.h:490-516 `decrypt(ciphertext, plaintext)`. -/
def decryptC (o : Obj M) (x : List Byte) (to : Container) : T (Obj M × Container × Nat) := do
  let to := (to.resize x.length).1
  let (o, mem, size) ← decrypt h B t o (x ++ to.data) 0 x.length x.length
  let to := ((to.withData (mem.drop x.length)).resize size).1
  pure (o, to, size)

/-- The same for `decrypt`: aead/apie.h:495-568. -/
def decryptSelf (o : Obj M) (c : Container) : T (Obj M × Container × Nat) := do
  let c := (c.resize c.data.length).1
  let (o, mem, size) ← decrypt h B t o c.data 0 c.data.length 0
  let c := ((c.withData mem).resize size).1
  pure (o, c, size)

/-- aead/apie.h:618-633 `digest(ptr, size)`. -/
def digest (o : Obj M) (dst : List Byte) (n : Nat) : T (Obj M × (List Byte × Nat)) := do
  let o ← doFinalize h t o
  let out ← Aead.digest t o.impl dst n
  pure (o, out)

/-- aead/apie.h:647-672 `digest(container, size)`. -/
def digestC (o : Obj M) (c : Container) (n : Nat) : T (Obj M × (Container × Nat)) := do
  let o ← doFinalize h t o
  let n := min n M.digestSize
  let (c, n) := c.resize n
  let (o, (d, n)) ← digest h t o c.data n
  pure (o, (c.withData d, n))

/-- aead/apie.h:715-735 `digest<static>()`. -/
def digestStatic (o : Obj M) (init : List Byte) : T (Obj M × Container) := do
  let (o, (c, _)) ← digestC h t o ⟨false, init⟩ init.length
  pure (o, c)

/-- aead/apie.h:748-770 `verify(ptr, size, error&)`: the outcome of the comparison is tested last. -/
def verify (o : Obj M) (tag : List Byte) : T (Obj M × Error) := do
  let (o, c) ← digestStatic h t o (List.replicate M.digestSize 0)
  let (m, _) ← matchC h (p := 1) (q := 1) c.data tag
  branch (m = true) (pure (o, .none)) (pure (o, .aeadVerify))

/-- aead/apie.h:780-803 `verify(ptr, size)`. -/
def verifyThrow (o : Obj M) (tag : List Byte) : T (Obj M × Ended Unit) := do
  let (o, e) ← verify h t o tag
  branch (e ≠ .none) (pure (o, .thrown e)) (pure (o, .returned ()))

end AeadApie

end Milo.Timed
