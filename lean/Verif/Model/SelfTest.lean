import Verif.Model.Aead
import Verif.Model.CodecApie
import Verif.Model.MacAlg
import Verif.Model.Hkdf
import Verif.Model.Pbkdf2
/-
Model of the test functions the library offers: src/milo/primitive/{hash,mac,kdf,cipher,aead,codec}/test.h. The result `none` is undefined behaviour. Failing
allocations are not modelled. Expected values are byte containers, given by their content.
-/
namespace Milo.SelfTest
open Memory

/-! ### Vectors -/

/-- hash/test.h:43-63 `digest`; `hash::digest<impl>(message)` returns an array of `digest_size` bytes. -/
def hashDigest (h : Host) (H : HashImpl) (u : Bool) (msg expected : List Byte) : Option Bool := do
  let d ← HashApie.oneshotStatic H u msg (List.replicate H.digestSize 0)
  equalC h (p := 1) (q := 1) d.data expected

/-- mac/test.h:48-78 `digest`: a key longer than `key_size`, if that is not 0, is refused. -/
def macDigest (h : Host) (M : MacImpl) (key msg expected : List Byte) : Option Bool :=
  if M.keySize ≠ 0 ∧ key.length > M.keySize then some false
  else do
    let d ← MacApie.oneshotStatic M key msg (List.replicate M.digestSize 0)
    equalC h (p := 1) (q := 1) d.data expected

/-- kdf/test.h:53-90 and 122-159 `derive`. -/
def kdfDerive (h : Host) (K : KdfImpl) (m : Mem) (a : K.Args) (expected : List Byte) : Option Bool := do
  let d ← Kdf.oneshotDynamic K m a expected.length
  equalC h (p := 1) (q := 1) d.data expected

/-- cipher/test.h:53-84 `encrypt`; the ciphertext is a new resizable container. -/
def cipherEncrypt (h : Host) (B : ChaCha.Backend) (key iv text expected : List Byte) : Option Bool := do
  let outs ← Cipher.oneshot h B key iv (.encryptC text ⟨true, []⟩)
  let out ← outs.head?
  equalC h (p := 1) (q := 1) out.1 expected

/-- cipher/test.h:119-150 `decrypt`. -/
def cipherDecrypt (h : Host) (B : ChaCha.Backend) (key iv text expected : List Byte) : Option Bool := do
  let outs ← Cipher.oneshot h B key iv (.decryptC text ⟨true, []⟩)
  let out ← outs.head?
  equalC h (p := 1) (q := 1) out.1 expected

/-- aead/test.h:70-110 `encrypt`. -/
def aeadEncrypt (h : Host) (b : CipherBackend) (key iv ad text expected tag : List Byte) : Option Bool := do
  let (c, d) ← AeadApie.sealValue h b key iv ad text
  if ← equalC h (p := 1) (q := 1) c.data expected then do
    let (m, _) ← matchC h (p := 1) (q := 1) d.data tag
    pure m
  else pure false

/-- aead/test.h:150-183 `decrypt`: without an error argument; whatever is thrown is caught. -/
def aeadDecrypt (h : Host) (b : CipherBackend) (key iv ad text tag expected : List Byte) : Option (Ended Bool) := do
  match ← AeadApie.openValue h b false key iv ad text tag with
  | .returned (p, _) => do
    let e ← equalC h (p := 1) (q := 1) p expected
    pure (.returned e)
  | .thrown _ => pure (.returned false)
  | .terminated => pure .terminated

/-- codec/test.h:50-75 `encode`. -/
def codecEncode (h : Host) (C : Codec.Impl) (src expected : List Byte) : Option Bool := do
  let t ← Codec.encodeValue C src
  equalC h (p := 1) (q := 1) t expected

/-- codec/test.h:97-122 `decode`. -/
def codecDecode (h : Host) (C : Codec.Impl) (src expected : List Byte) : Option (Ended Bool) := do
  match ← Codec.decodeValue C src with
  | .returned t => do
    let e ← equalC h (p := 1) (q := 1) t expected
    pure (.returned e)
  | .thrown _ => pure (.returned false)
  | .terminated => pure .terminated

/-! ### Differential tests

The results of loops: `none` is undefined behaviour, `some none` a `return false` inside. -/

/-- The loops of hash/test.h:105-126, mac/test.h:122-149, cipher/test.h:221-249, 260-288: `total` bytes in pieces of `size`, and what is left. Division by zero is undefined. -/
def pieces {σ : Type} (step : σ → (offs n : Nat) → Option σ) (total size : Nat) (s : σ) : Option σ :=
  if size = 0 then none
  else do
    let (s, offs) ← forM' (fun _ (so : σ × Nat) => do
      let s ← step so.1 so.2 size
      pure (s, so.2 + size)) (total / size) 0 (s, 0)
    if offs < total then step s offs (total - offs) else pure s

/-- The `while` loops of hash/test.h:133-159, mac/test.h:156-190, cipher/test.h:295-370: sizes `a` and `b` of the pieces; next round, `b + grow` and `a`. -/
def sizes {σ : Type} (limit grow : Nat) (hg : 0 < grow) (body : σ → Nat → Nat → Option (Option σ)) (s : σ) (a b : Nat) : Option (Option σ) :=
  if a ≤ limit + grow ∨ b ≤ limit + grow then
    match body s a b with
    | none => none
    | some none => some none
    | some (some s) => sizes limit grow hg body s (b + grow) a
  else some (some s)
termination_by 2 * ((limit + grow + 1 - a) + (limit + grow + 1 - b)) + (if b ≤ limit + grow then 0 else 1)
decreasing_by split <;> split <;> omega

/-- `for (size_t i = 0; i < n; i += 1)`. (the loops of */test.h, e.g. mac/test.h:48-78) -/
def loop {σ : Type} (round : Nat → σ → Option (Option σ)) : (n i : Nat) → σ → Option (Option σ)
  | 0, _, s => some (some s)
  | n + 1, i, s => match round i s with
    | none => none
    | some none => some none
    | some (some s) => loop round n (i + 1) s

/-- hash/test.h:100-127 `update_loop`. -/
def hashFeed (H : HashImpl) (o : HashApie.Obj H) (input : List Byte) (size : Nat) : Option (HashApie.Obj H) :=
  pieces (fun o offs n => do
    let x ← rdN input offs n
    HashApie.update H o x) input.length size (HashApie.initialise H o)

/-- hash/test.h:138-158 the body of the `while` loop. -/
def hashBody (H0 H1 : HashImpl) (input : List Byte) (o : HashApie.Obj H0 × HashApie.Obj H1) (a b : Nat) : Option (Option (HashApie.Obj H0 × HashApie.Obj H1)) := do
  let o0 ← hashFeed H0 o.1 input a
  let o1 ← hashFeed H1 o.2 input b
  let (o0, d0) ← HashApie.digestStatic H0 o0 (List.replicate H0.digestSize 0)
  let (o1, d1) ← HashApie.digestStatic H1 o1 (List.replicate H1.digestSize 0)
  if d0.data ≠ d1.data then pure none else pure (some (o0, o1))

/-- hash/test.h:131-162 a round of the `for` loop. -/
def hashRound (H0 H1 : HashImpl) (i : Nat) (s : (HashApie.Obj H0 × HashApie.Obj H1) × List Byte) :
    Option (Option ((HashApie.Obj H0 × HashApie.Obj H1) × List Byte)) :=
  match sizes 512 3 (by omega) (hashBody H0 H1 s.2) s.1 1 1 with
  | none => none
  | some none => some none
  | some (some o) => do
    let input ← wr1 s.2 i (BitVec.ofNat 8 i)
    pure (some (o, input))

/-- hash/test.h:82-165 `differential`; `u0`, `u1`: what the flags of the objects hold before construction. -/
def hashDifferential (H0 H1 : HashImpl) (u0 u1 : Bool) : Option Bool := do
  let r ← loop (hashRound H0 H1) 512 0 ((HashApie.construct H0 u0, HashApie.construct H1 u1), List.replicate 512 0)
  pure r.isSome

/-- mac/test.h:116-150 `update_loop`. -/
def macFeed (M : MacImpl) (o : MacApie.Obj M) (input : List Byte) (keySize size : Nat) : Option (MacApie.Obj M) := do
  let key ← rdN input 0 (min keySize input.length)
  let o ← MacApie.initialise M o key
  pieces (fun o offs n => do
    let x ← rdN input offs n
    MacApie.update M o x) input.length size o

/-- mac/test.h:164-190 the body of the `while` loop; the sizes of the keys are part of the state. -/
def macBody (M0 M1 : MacImpl) (input : List Byte) (s : (MacApie.Obj M0 × Nat) × (MacApie.Obj M1 × Nat)) (a b : Nat) :
    Option (Option ((MacApie.Obj M0 × Nat) × (MacApie.Obj M1 × Nat))) := do
  let o0 ← macFeed M0 s.1.1 input s.1.2 a
  let o1 ← macFeed M1 s.2.1 input s.2.2 b
  let (o0, d0) ← MacApie.digestStatic M0 o0 (List.replicate M0.digestSize 0)
  let (o1, d1) ← MacApie.digestStatic M1 o1 (List.replicate M1.digestSize 0)
  if d0.data ≠ d1.data then pure none else pure (some ((o0, s.1.2 + 3), (o1, s.2.2 + 3)))

/-- mac/test.h:154-193 a round of the `for` loop. -/
def macRound (M0 M1 : MacImpl) (i : Nat) (s : (MacApie.Obj M0 × MacApie.Obj M1) × List Byte) :
    Option (Option ((MacApie.Obj M0 × MacApie.Obj M1) × List Byte)) :=
  match sizes 512 3 (by omega) (macBody M0 M1 s.2) ((s.1.1, 0), (s.1.2, 0)) 1 1 with
  | none => none
  | some none => some none
  | some (some o) => do
    let input ← wr1 s.2 i (BitVec.ofNat 8 i)
    pure (some ((o.1.1, o.2.1), input))

/-- mac/test.h:97-196 `differential`. -/
def macDifferential (M0 M1 : MacImpl) : Option Bool := do
  let r ← loop (macRound M0 M1) 512 0 ((MacApie.constructDefault M0, MacApie.constructDefault M1), List.replicate 512 0)
  pure r.isSome

/-- The local variables of kdf/test.h:190-198, 277-285; `input` is the caller's buffer 0. -/
structure KdfState (K0 K1 : KdfImpl) where
  o0 : K0.σ
  o1 : K1.σ
  mem : Mem
  key0 : List Byte
  key1 : List Byte

/-- kdf/test.h:202-240, 289-325 the body of the inner loop. -/
def kdfBody (h : Host) (K0 K1 : KdfImpl) (a0 : K0.Args) (a1 : K1.Args) (j : Nat) (s : KdfState K0 K1) : Option (Option (KdfState K0 K1)) := do
  let o0 ← K0.init s.o0 s.mem a0
  let o1 ← K1.init s.o1 s.mem a1
  let (o0, key0, _) ← Kdf.deriveReq K0 o0 s.mem (.ptr s.key0 j)
  let (o1, key1, _) ← Kdf.deriveReq K1 o1 s.mem (.ptr s.key1 j)
  if ← equal h (p := 1) (q := 1) key0 key1 j then pure (some ⟨o0, o1, s.mem, key0, key1⟩) else pure none

/-- kdf/test.h:200-243, 287-328 a round of the outer loop, over `n` sizes of keys. -/
def kdfRound (h : Host) (K0 K1 : KdfImpl) (args0 : Nat → K0.Args) (args1 : Nat → K1.Args) (n i : Nat) (s : KdfState K0 K1) : Option (Option (KdfState K0 K1)) :=
  match loop (kdfBody h K0 K1 (args0 i) (args1 i)) n 0 s with
  | none => none
  | some none => some none
  | some (some s) => do
    let input ← wr1 (s.mem 0) i (BitVec.ofNat 8 i)
    pure (some { s with mem := fun b => if b = 0 then input else s.mem b })

/-- kdf/test.h:178-246, 265-331 `differential`, what both have in common: `n` is the size of the input and the limit of the keys. -/
def kdfDifferential (h : Host) (K0 K1 : KdfImpl) (args0 : Nat → K0.Args) (args1 : Nat → K1.Args) (n : Nat) : Option Bool := do
  let r ← loop (kdfRound h K0 K1 args0 args1 n) n 0
    ⟨K0.fresh, K1.fresh, fun b => if b = 0 then List.replicate n 0 else [], List.replicate n 0, List.replicate n 0⟩
  pure r.isSome

/-- kdf/test.h:178-246 `differential` for HKDF: the input is key, salt and info. -/
def hkdfDifferential (h0 h1 : Host) (M0 M1 : MacImpl) : Option Bool :=
  kdfDifferential h0 (Hkdf.impl h0 M0) (Hkdf.impl h1 M1) (fun _ => ⟨⟨0, 256⟩, ⟨0, 256⟩, ⟨0, 256⟩⟩) (fun _ => ⟨⟨0, 256⟩, ⟨0, 256⟩, ⟨0, 256⟩⟩) 256

/-- kdf/test.h:265-331 `differential` for PBKDF2: the input is password and salt, the round the number of iterations. -/
def pbkdf2Differential (h0 h1 : Host) (M0 M1 : MacImpl) (junk0 junk1 : Nat → Byte) : Option Bool :=
  kdfDifferential h0 (Pbkdf2.impl h0 M0 junk0) (Pbkdf2.impl h1 M1 junk1) (fun i => ⟨⟨0, 128⟩, ⟨0, 128⟩, BitVec.ofNat 32 i⟩) (fun i => ⟨⟨0, 128⟩, ⟨0, 128⟩, BitVec.ofNat 32 i⟩) 128

/-- The local variables of cipher/test.h:175-211; `data`, `enc` and `dec` are different containers. -/
structure CipherState where
  o0 : ChaCha.Obj
  o1 : ChaCha.Obj
  key : List Byte
  iv : List Byte
  data : List Byte
  enc0 : List Byte
  dec0 : List Byte
  enc1 : List Byte
  dec1 : List Byte

/-- cipher/test.h:213-250 the function `encrypt`: from `src` to `dst`. -/
def cipherEnc (h : Host) (B : ChaCha.Backend) (key iv : List Byte) (o : ChaCha.Obj) (size : Nat) (src dst : List Byte) : Option (ChaCha.Obj × List Byte) := do
  let o ← ChaCha.init h o key iv
  let (o, mem) ← pieces (fun (s : ChaCha.Obj × List Byte) offs n => do
    let (o, mem, _) ← ChaCha.encrypt h B s.1 s.2 offs n (src.length + offs)
    pure (o, mem)) src.length size (o, src ++ dst)
  pure (o, mem.drop src.length)

/-- cipher/test.h:252-289 the function `decrypt`. -/
def cipherDec (h : Host) (B : ChaCha.Backend) (key iv : List Byte) (o : ChaCha.Obj) (size : Nat) (src dst : List Byte) : Option (ChaCha.Obj × List Byte) := do
  let o ← ChaCha.init h o key iv
  let (o, mem) ← pieces (fun (s : ChaCha.Obj × List Byte) offs n => do
    let (o, mem, _) ← ChaCha.decrypt h B s.1 s.2 offs n (src.length + offs)
    pure (o, mem)) src.length size (o, src ++ dst)
  pure (o, mem.drop src.length)

/-- cipher/test.h:300-370 the body of the `while` loop. -/
def cipherBody (h0 h1 : Host) (B0 B1 : ChaCha.Backend) (s : CipherState) (a b : Nat) : Option (Option CipherState) := do
  let (o0, enc0) ← cipherEnc h0 B0 s.key s.iv s.o0 a s.data s.enc0
  let (o1, enc1) ← cipherEnc h1 B1 s.key s.iv s.o1 b s.data s.enc1
  if ← equalC h0 (p := 1) (q := 1) enc0 enc1 then do
    let (o0, dec0) ← cipherDec h0 B0 s.key s.iv o0 a enc1 s.dec0
    let (o1, dec1) ← cipherDec h1 B1 s.key s.iv o1 b enc0 s.dec1
    if ← equalC h0 (p := 1) (q := 1) s.data dec0 then do
      if ← equalC h0 (p := 1) (q := 1) s.data dec1 then do
        if ← equalC h0 (p := 1) (q := 1) dec0 dec1 then pure (some { s with o0, o1, enc0, enc1, dec0, dec1 })
        else pure none
      else pure none
    else pure none
  else pure none

/-- cipher/test.h:291-376; `grow_size` is 1 in the first round and grows by 1. -/
def cipherRound (h0 h1 : Host) (B0 B1 : ChaCha.Backend) (i : Nat) (s : CipherState) : Option (Option CipherState) :=
  match sizes 4096 (1 + i) (by omega) (cipherBody h0 h1 B0 B1) s 1 1 with
  | none => none
  | some none => some none
  | some (some s) => do
    let key ← wr1 s.key (i % 32) (BitVec.ofNat 8 i)
    let iv ← wr1 s.iv (i % 16) (BitVec.ofNat 8 i)
    let data ← wr1 s.data i (BitVec.ofNat 8 i)
    pure (some { s with key, iv, data })

/-- cipher/test.h:169-379 `differential` (block size 64: chacha_impl_sw.h:22, chacha_impl_hw_x86_64.h:78, 161). -/
def cipherDifferential (h0 h1 : Host) (B0 B1 : ChaCha.Backend) : Option Bool := do
  let z := List.replicate 4096 0
  let r ← loop (cipherRound h0 h1 B0 B1) 4096 0 ⟨ChaCha.fresh, ChaCha.fresh, List.replicate 32 0, List.replicate 16 0, z, z, z, z, z⟩
  pure r.isSome

end Milo.SelfTest
