import Verif.Model.Pbkdf2
import Verif.Model.Aead
/-
Functions of the model that also yield what their local arrays hold when they return. (An array that goes out of scope is not changed: whether the
compiler reuses its stack memory later is not modelled.) `…Left_fst` in Proof/Residue.lean: without the local arrays these are the functions of the model.
-/
namespace Milo
open Memory

/-- chacha_20_poly_1305.h:73-120 `initialize`, with the final content of `init_mac_key`. -/
def Aead.initLeft (h : Host) (B : ChaCha.Backend) {M : MacImpl} (o : Aead.Obj M) (key iv : List Byte) : Option (Aead.Obj M × List Byte) := do
  let civ ← at_ (List.replicate 16 0#8) 4 fun p => Memory.init h (p := 1) (q := 1) p iv
  let c ← ChaCha.init h o.cipher key civ
  let (c, k, _) ← ChaCha.encrypt h B c (List.replicate 64 0#8) 0 64 0
  let m ← M.init o.mac k
  pure (⟨c, m, some 0, some 0⟩, k)

/-- pbkdf_2.h:76-146 `expand`, with the final content of `buffer_0`, `buffer_1`. -/
def Pbkdf2.expandLeft (h : Host) (M : MacImpl) (junk : Nat → Byte) (m : Mem) (o : Pbkdf2.Obj M) (dst : List Byte) (counter : W32) :
    Option ((Pbkdf2.Obj M × List Byte) × List Byte × List Byte) := do
  let ctr ← storBe h (v := 4) (p := 1) (Pbkdf2.uninit junk 4) 0 counter
  let ikm ← o.ikm.bytes m
  let p ← M.init o.prf ikm
  let salt ← o.salt.bytes m
  let p ← M.update p salt
  let p ← M.update p ctr
  let p ← M.finalize p
  let (b0, _) ← M.digest p (Pbkdf2.uninit junk M.digestSize) M.digestSize
  let b1 ← copy h (p := 1) (q := 1) (Pbkdf2.uninit junk M.digestSize) b0 M.digestSize
  let (p, b0, b1) ← forM' (Pbkdf2.iterate h M m o.ikm) (o.iterations.toNat - 1) 0 (p, b0, b1)
  let dst ← copy h (p := 1) (q := 1) dst b1 M.digestSize
  pure (({ o with prf := p }, dst), b0, b1)

/-- chacha_impl_sw.h:147-183 `transform`, with the final content of `state_base`. -/
def ChaCha.swTransformLeft (h : Host) (n : Nat) (st : List W32) (mem : List Byte) (dst src : Nat) : Option ((Nat × List Byte) × List W32) := do
  let base ← ChaCha.copyState st
  let (base, mem) ← forM' (ChaCha.transformBlock h dst src) n 0 (base, mem)
  pure ((n, mem), base)

end Milo
