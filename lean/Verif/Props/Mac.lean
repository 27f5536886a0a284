import Verif.Proof.MacAlg
import Verif.Proof.Output
/-
Property theorems C20-C24 (message authentication), and the mac part of C49.

`Mac.run M calls` is a default-constructed object of class `M` and a sequence of calls to its public member functions, with everything the digest
calls output; `none` would be undefined behaviour. `MacApie.run M key calls` is the `apie` wrapper constructed with a key.
-/
namespace Milo.Props
open Milo

/-- A sequence of calls computing the mac of the concatenation of `xs` under `key`, after arbitrary earlier use `pre` of the object. -/
def macing (pre : List Mac.Call) (key : List Byte) (xs : List (List Byte)) (ds : List (List Byte × Nat)) : List Mac.Call :=
  pre ++ [.init key] ++ xs.map .update ++ [.finalize] ++ ds.map fun d => .digest d.1 d.2

/-- The class `a`, used on host `h` with option `digest_size<ds>` and a key in `Keys`, after any history, yields the first `ds` bytes of `spec key message`. -/
def ComputesMac (h : Host) (a : MacAlg) (Keys : List Byte → Prop) (spec : List Byte → List Byte → List Byte) : Prop :=
  ∀ (ds : Nat), ds ≤ a.size → ∀ (pre : List Mac.Call), (∀ c ∈ pre, c.Ok ds) →
    ∀ (key : List Byte), key.length < 2 ^ 64 → Keys key → ∀ (xs : List (List Byte)), (∀ x ∈ xs, x.length < 2 ^ 64) →
    ∀ (dg : List (List Byte × Nat)), (∀ d ∈ dg, min d.2 ds ≤ d.1.length) →
    ∃ o outs, Mac.run (a.impl h ds) (macing pre key xs dg)
      = some (o, outs ++ dg.map fun d => Spec.written ((spec key xs.flatten).take ds) d.1 d.2)

theorem macComputes (h : Host) (a : MacAlg) (ha : a.Ok) : ComputesMac h a (fun _ => True) (Spec.macOn h.endian a) := by
  intro ds hds pre hpre key hk _ xs hx dg hdg
  obtain ⟨L⟩ := macLawful h a ha ds hds
  have e := macDigestSize h a ds
  obtain ⟨outs, hr⟩ := Mac.run_eq' L pre (by rw [e]; exact hpre)
  obtain ⟨o, eo⟩ := hr key hk xs hx dg (by rw [e]; exact hdg)
  exact ⟨o, outs, eo⟩

/-! ## C20, C21 -/

/-- C20: `hmac<H>` is RFC 2104 HMAC over the FIPS 180-4 function of `H`, for keys of every length, on every host. -/
theorem C20_hmac (h : Host) (a : ShaAlg) : ComputesMac h (.hmac a a.size) (fun _ => True) (Spec.hmac (shaBlock a) (shaSpec a)) := by
  have := macComputes h (.hmac a a.size) (Nat.le_refl _)
  have e : (fun m => (shaSpec a m).take a.size) = shaSpec a := funext (shaSpec_take a)
  rw [← e]
  exact this

/-- C20, hash used with a `digest_size` option (the truncated hash is then the hash inside HMAC). -/
theorem C20_hmac_truncated_hash (h : Host) (a : ShaAlg) (hs : Nat) (hhs : hs ≤ a.size) :
    ComputesMac h (.hmac a hs) (fun _ => True) (Spec.hmac (shaBlock a) fun m => (shaSpec a m).take hs) :=
  macComputes h (.hmac a hs) hhs

/-- Hypotheses of C20 met: a used object, a 65 byte key, a message in pieces, two truncated digests, big-endian host. -/
example : ∃ o outs, Mac.run (MacAlg.impl ⟨.big, false, none⟩ 20 (.hmac .sha_2_256 32))
    (macing [.update [1], .finalize, .digest (List.replicate 32 7) 100] (List.replicate 65 1) [[0x61], [], [0x62, 0x63]]
      [(List.replicate 40 9, 28), (List.replicate 4 9, 4)])
    = some (o, outs ++ [Spec.written ((Spec.hmac 64 Spec.Sha.sha256 (List.replicate 65 1) [0x61, 0x62, 0x63]).take 20) (List.replicate 40 9) 28,
        Spec.written ((Spec.hmac 64 Spec.Sha.sha256 (List.replicate 65 1) [0x61, 0x62, 0x63]).take 20) (List.replicate 4 9) 4]) :=
  C20_hmac ⟨.big, false, none⟩ .sha_2_256 20 (by decide) _ (by simp [Mac.Call.Ok]) _ (by simp) trivial _ (by simp) _ (by simp)

/-! Known-answer test (not a proof): RFC 4231 test case 2 ("Jefe"). -/
set_option maxRecDepth 100000 in
example : MacApie.oneshot (MacAlg.impl ⟨.little, false, none⟩ 32 (.hmac .sha_2_256 32)) [0x4a, 0x65, 0x66, 0x65]
    ("what do ya want for nothing?".toList.map fun c => BitVec.ofNat 8 c.toNat) (List.replicate 32 0) 32
    = some (Spec.beBytes 32 0x5bdcc146bf60754e6a042426089575c75a003f089d2739839dec58b964ec3843, 32) := by decide +kernel

/-- Two keys that RFC 2104 brings to the same block give the same outputs after any history. -/
theorem hmac_same (h : Host) (a : ShaAlg) (ds : Nat) (hds : ds ≤ a.size) (pre : List Mac.Call) (hpre : ∀ c ∈ pre, c.Ok ds)
    (k1 k2 : List Byte) (h1 : k1.length < 2 ^ 64) (h2 : k2.length < 2 ^ 64) (he : Spec.hmacKey (shaBlock a) (shaSpec a) k1 = Spec.hmacKey (shaBlock a) (shaSpec a) k2)
    (xs : List (List Byte)) (hx : ∀ x ∈ xs, x.length < 2 ^ 64) (dg : List (List Byte × Nat)) (hdg : ∀ d ∈ dg, min d.2 ds ≤ d.1.length) :
    ∃ outs, (Mac.run (MacAlg.impl h ds (.hmac a a.size)) (macing pre k1 xs dg)).map (·.2) = some outs ∧
      (Mac.run (MacAlg.impl h ds (.hmac a a.size)) (macing pre k2 xs dg)).map (·.2) = some outs := by
  obtain ⟨L⟩ := macLawful h (.hmac a a.size) (Nat.le_refl _) ds hds
  have e := macDigestSize h (.hmac a a.size) ds
  obtain ⟨outs, hr⟩ := Mac.run_eq' L pre (by rw [e]; exact hpre)
  obtain ⟨o1, e1⟩ := hr k1 h1 xs hx dg (by rw [e]; exact hdg)
  obtain ⟨o2, e2⟩ := hr k2 h2 xs hx dg (by rw [e]; exact hdg)
  have hs : (fun m => (shaSpec a m).take a.size) = shaSpec a := funext (shaSpec_take a)
  have hh : Spec.macOn h.endian (.hmac a a.size) k1 xs.flatten = Spec.macOn h.endian (.hmac a a.size) k2 xs.flatten := by
    simp only [Spec.macOn, Spec.macSpec, hs, Spec.hmac, he]
  rw [hh] at e1
  refine ⟨_, congrArg (Option.map (·.2)) e1, congrArg (Option.map (·.2)) e2⟩

/-- C21: a key longer than the block and its hash give the same outputs. -/
theorem C21_long_key (h : Host) (a : ShaAlg) (ds : Nat) (hds : ds ≤ a.size) (pre : List Mac.Call) (hpre : ∀ c ∈ pre, c.Ok ds)
    (key : List Byte) (hk : key.length < 2 ^ 64) (hlong : key.length > shaBlock a)
    (xs : List (List Byte)) (hx : ∀ x ∈ xs, x.length < 2 ^ 64) (dg : List (List Byte × Nat)) (hdg : ∀ d ∈ dg, min d.2 ds ≤ d.1.length) :
    ∃ outs, (Mac.run (MacAlg.impl h ds (.hmac a a.size)) (macing pre key xs dg)).map (·.2) = some outs ∧
      (Mac.run (MacAlg.impl h ds (.hmac a a.size)) (macing pre (shaSpec a key) xs dg)).map (·.2) = some outs := by
  have hb := shaBlock_le a
  have hl := shaSpec_length a key
  refine hmac_same h a ds hds pre hpre key _ hk (by omega) ?_ xs hx dg hdg
  unfold Spec.hmacKey
  rw [if_pos hlong, if_neg (by omega)]

/-- C21: a key and the same key with zero bytes appended, up to the block size, give the same outputs. -/
theorem C21_padded_key (h : Host) (a : ShaAlg) (ds : Nat) (hds : ds ≤ a.size) (pre : List Mac.Call) (hpre : ∀ c ∈ pre, c.Ok ds)
    (key : List Byte) (z : Nat) (hz : key.length + z ≤ shaBlock a)
    (xs : List (List Byte)) (hx : ∀ x ∈ xs, x.length < 2 ^ 64) (dg : List (List Byte × Nat)) (hdg : ∀ d ∈ dg, min d.2 ds ≤ d.1.length) :
    ∃ outs, (Mac.run (MacAlg.impl h ds (.hmac a a.size)) (macing pre key xs dg)).map (·.2) = some outs ∧
      (Mac.run (MacAlg.impl h ds (.hmac a a.size)) (macing pre (key ++ List.replicate z 0) xs dg)).map (·.2) = some outs := by
  have hb := shaBlock_le a
  refine hmac_same h a ds hds pre hpre key _ (by omega) (by simp; omega) ?_ xs hx dg hdg
  unfold Spec.hmacKey
  rw [if_neg (by omega), if_neg (by simp; omega)]
  simp only [List.append_assoc, List.length_append, List.length_replicate, List.replicate_append_replicate]
  congr 2
  omega

example : ∃ outs, (Mac.run (MacAlg.impl ⟨.little, false, none⟩ 64 (.hmac .sha_2_512 64)) (macing [] (List.replicate 129 5) [[1]] [(List.replicate 64 0, 64)])).map (·.2) = some outs ∧
    (Mac.run (MacAlg.impl ⟨.little, false, none⟩ 64 (.hmac .sha_2_512 64)) (macing [] (Spec.Sha.sha512 (List.replicate 129 5)) [[1]] [(List.replicate 64 0, 64)])).map (·.2) = some outs :=
  C21_long_key ⟨.little, false, none⟩ .sha_2_512 64 (by decide) [] (by simp) _ (by simp) (by simp [shaBlock]) _ (by simp) _ (by simp)

/-! ## C22, C24 -/

/-- C22: on little-endian hosts `poly_1305` is RFC 8439 Poly1305 for every 32 byte key and every message. -/
theorem C22_poly1305 (h : Host) (hl : h.endian = .little) : ComputesMac h .poly_1305 (fun key => key.length = 32) Spec.Poly1305.mac := by
  intro ds hds pre hpre key hk hkey xs hx dg hdg
  have := macComputes h .poly_1305 trivial ds hds pre hpre key hk trivial xs hx dg hdg
  rw [hl] at this
  simp only [Spec.macOn] at this
  have e : Spec.padTo 32 key = key := by unfold Spec.padTo; exact List.take_left' hkey
  rwa [e] at this

/-- C22: keys of another length are cut or zero padded to 32 bytes. -/
theorem C22_poly1305_other_keys (h : Host) (hl : h.endian = .little) :
    ComputesMac h .poly_1305 (fun _ => True) fun key => Spec.Poly1305.mac (Spec.padTo 32 key) := by
  have := macComputes h .poly_1305 trivial
  rwa [hl] at this

example : ∃ o outs, Mac.run (MacAlg.impl ⟨.little, true, none⟩ 16 .poly_1305)
    (macing [.update [1], .finalize] (List.replicate 32 0xff) [List.replicate 17 0xff, [], [3]] [(List.replicate 16 0, 16)])
    = some (o, outs ++ [Spec.written ((Spec.Poly1305.mac (List.replicate 32 0xff) (List.replicate 17 0xff ++ [3])).take 16) (List.replicate 16 0) 16]) :=
  C22_poly1305 ⟨.little, true, none⟩ rfl 16 (by decide) _ (by simp [Mac.Call.Ok]) _ (by simp) (by simp) _ (by simp) _ (by simp)

/-! Known-answer test (not a proof): RFC 8439 section 2.5.2. -/
set_option maxRecDepth 100000 in
example : MacApie.oneshot (MacAlg.impl ⟨.little, false, none⟩ 16 .poly_1305)
    (Spec.beBytes 32 0x85d6be7857556d337f4452fe42d506a80103808afb0db2fd4abff6af4149f51b)
    ("Cryptographic Forum Research Group".toList.map fun c => BitVec.ofNat 8 c.toNat) (List.replicate 16 0) 16
    = some (Spec.beBytes 16 0xa8061dc1305136c6c22b8baf0c0127a9, 16) := by decide +kernel

/-- C24 is false of the code: the same key and message give different tags on the two kinds of host. -/
theorem C24_poly1305_endian_wrong : ∃ key msg : List Byte, key.length = 32 ∧
    MacApie.oneshot (MacAlg.impl ⟨.little, false, none⟩ 16 .poly_1305) key msg (List.replicate 16 0) 16
      ≠ MacApie.oneshot (MacAlg.impl ⟨.big, false, none⟩ 16 .poly_1305) key msg (List.replicate 16 0) 16 :=
  ⟨List.replicate 16 0 ++ [1] ++ List.replicate 15 0, [], by decide, by decide +kernel⟩

/-- C24, what big-endian hosts compute: Poly1305 under the key with the bytes of every 32-bit word reversed. -/
theorem C24_poly1305_big_endian (h : Host) (hb : h.endian = .big) :
    ComputesMac h .poly_1305 (fun key => key.length = 32) fun key => Spec.Poly1305.mac (Spec.swapWords key) := by
  intro ds hds pre hpre key hk hkey xs hx dg hdg
  have := macComputes h .poly_1305 trivial ds hds pre hpre key hk trivial xs hx dg hdg
  rw [hb] at this
  simp only [Spec.macOn] at this
  have e : Spec.padTo 32 key = key := by unfold Spec.padTo; exact List.take_left' hkey
  rwa [e] at this

/-- C24, what holds: hosts of the same byte order, constant evaluation or not, agree. Missing: agreement between byte orders, which is false. -/
theorem C24_poly1305_partial (h1 h2 : Host) (he : h1.endian = h2.endian) (ds : Nat) (hds : ds ≤ 16) (key msg dst : List Byte) (n : Nat)
    (hk : key.length < 2 ^ 64) (hm : msg.length < 2 ^ 64) (hn : min n ds ≤ dst.length) :
    (MacApie.oneshot (MacAlg.impl h1 ds .poly_1305) key msg dst n).isSome ∧
    MacApie.oneshot (MacAlg.impl h1 ds .poly_1305) key msg dst n = MacApie.oneshot (MacAlg.impl h2 ds .poly_1305) key msg dst n := by
  obtain ⟨L1⟩ := macLawful h1 .poly_1305 trivial ds hds
  obtain ⟨L2⟩ := macLawful h2 .poly_1305 trivial ds hds
  rw [(MacApie.oneshots L1 key msg hk hm).1 dst n hn, (MacApie.oneshots L2 key msg hk hm).1 dst n hn, he]
  exact ⟨rfl, rfl⟩

/-! ## C23 -/

/-- C23: for every mac of the library, after construction with a key, any use of the object and `initialize(key)`: the outputs of any number of
digest calls of any sizes into buffers or containers are prefixes of one tag, a function of this key and the concatenated message alone. `outs` is what
the earlier calls output: it does not depend on what follows. -/
theorem C23_reuse (h : Host) (a : MacAlg) (ha : a.Ok) (ds : Nat) (hds : ds ≤ a.size) (key' : List Byte) (hk' : key'.length < 2 ^ 64)
    (pre : List MacApie.Call) (hpre : ∀ c ∈ pre, c.Ok ds) :
    ∃ outs, ∀ (key : List Byte), key.length < 2 ^ 64 → ∀ (xs : List (List Byte)), (∀ x ∈ xs, x.length < 2 ^ 64) →
      ∀ (dg : List DigestReq), (∀ d ∈ dg, d.Ok ds) →
      ∃ o, MacApie.run (a.impl h ds) key' (pre ++ [.init key] ++ xs.map .update ++ dg.map MacApie.ofReq)
        = some (o, outs ++ dg.map (Spec.extracted ((Spec.macOn h.endian a key xs.flatten).take ds))) := by
  obtain ⟨L⟩ := macLawful h a ha ds hds
  have e := macDigestSize h a ds
  have := MacApie.run_eq L key' hk' pre (by rw [e]; exact hpre)
  rwa [e] at this

/-- C23: directly after construction with a key. -/
theorem C23_fresh (h : Host) (a : MacAlg) (ha : a.Ok) (ds : Nat) (hds : ds ≤ a.size) (key : List Byte) (hk : key.length < 2 ^ 64)
    (xs : List (List Byte)) (hx : ∀ x ∈ xs, x.length < 2 ^ 64) (dg : List DigestReq) (hdg : ∀ d ∈ dg, d.Ok ds) :
    ∃ o, MacApie.run (a.impl h ds) key (xs.map .update ++ dg.map MacApie.ofReq)
      = some (o, dg.map (Spec.extracted ((Spec.macOn h.endian a key xs.flatten).take ds))) := by
  obtain ⟨L⟩ := macLawful h a ha ds hds
  have e := macDigestSize h a ds
  exact MacApie.run_fresh L key hk xs hx dg (by rw [e]; exact hdg)

/-- C23: default construction followed by `initialize`. -/
theorem C23_default_then_initialize (h : Host) (a : MacAlg) (ha : a.Ok) (ds : Nat) (hds : ds ≤ a.size) (key : List Byte) (hk : key.length < 2 ^ 64)
    (xs : List (List Byte)) (hx : ∀ x ∈ xs, x.length < 2 ^ 64) (dg : List DigestReq) (hdg : ∀ d ∈ dg, d.Ok ds) :
    ∃ o, MacApie.runDefault (a.impl h ds) ([.init key] ++ xs.map .update ++ dg.map MacApie.ofReq)
      = some (o, dg.map (Spec.extracted ((Spec.macOn h.endian a key xs.flatten).take ds))) := by
  obtain ⟨L⟩ := macLawful h a ha ds hds
  have e := macDigestSize h a ds
  exact MacApie.run_default L key hk xs hx dg (by rw [e]; exact hdg)

/-- C23: the class interface (the outputs of `pre` do not depend on what follows). -/
theorem C23_class (h : Host) (a : MacAlg) (ha : a.Ok) (ds : Nat) (hds : ds ≤ a.size) (pre : List Mac.Call) (hpre : ∀ c ∈ pre, c.Ok ds) :
    ∃ outs, ∀ (key : List Byte), key.length < 2 ^ 64 → ∀ (xs : List (List Byte)), (∀ x ∈ xs, x.length < 2 ^ 64) →
      ∀ (dg : List (List Byte × Nat)), (∀ d ∈ dg, min d.2 ds ≤ d.1.length) →
      ∃ o, Mac.run (a.impl h ds) (macing pre key xs dg)
        = some (o, outs ++ dg.map fun d => Spec.written ((Spec.macOn h.endian a key xs.flatten).take ds) d.1 d.2) := by
  obtain ⟨L⟩ := macLawful h a ha ds hds
  have e := macDigestSize h a ds
  have := Mac.run_eq' L pre (by rw [e]; exact hpre)
  rwa [e] at this

/-- C23: the one-line functions. -/
theorem C23_oneshot (h : Host) (a : MacAlg) (ha : a.Ok) (ds : Nat) (hds : ds ≤ a.size) (key m : List Byte) (hk : key.length < 2 ^ 64)
    (hm : m.length < 2 ^ 64) :
    (∀ dst n, min n ds ≤ dst.length →
      MacApie.oneshot (a.impl h ds) key m dst n = some (Spec.written ((Spec.macOn h.endian a key m).take ds) dst n)) ∧
    (∀ c n, MacApie.oneshotC (a.impl h ds) key m c n = some (Spec.contained ((Spec.macOn h.endian a key m).take ds) c n)) ∧
    (∀ n, MacApie.oneshotDynamic (a.impl h ds) key m n = some ⟨true, ((Spec.macOn h.endian a key m).take ds).take n⟩) ∧
    (∀ k, k ≤ ds → MacApie.oneshotStatic (a.impl h ds) key m (List.replicate k 0)
      = some ⟨false, ((Spec.macOn h.endian a key m).take ds).take k⟩) := by
  obtain ⟨L⟩ := macLawful h a ha ds hds
  have := MacApie.oneshots L key m hk hm
  rwa [macDigestSize] at this

/-- C23: no sequence of calls has undefined behaviour, on the class or on an object constructed with a key. -/
theorem C23_memory_safe (h : Host) (a : MacAlg) (ha : a.Ok) (ds : Nat) (hds : ds ≤ a.size) :
    (∀ cs : List Mac.Call, (∀ c ∈ cs, c.Ok ds) → (Mac.run (a.impl h ds) cs).isSome) ∧
    (∀ key, key.length < 2 ^ 64 → ∀ cs : List MacApie.Call, (∀ c ∈ cs, c.Ok ds) → (MacApie.run (a.impl h ds) key cs).isSome) := by
  obtain ⟨L⟩ := macLawful h a ha ds hds
  have e := macDigestSize h a ds
  constructor
  · intro cs hc
    obtain ⟨o, outs, eo, -⟩ := Mac.run_wf L cs (by rw [e]; exact hc)
    rw [eo]; rfl
  · intro key hk cs hc
    obtain ⟨o, outs, eo, -⟩ := MacApie.run_good L key hk cs (by rw [e]; exact hc)
    rw [eo]; rfl

/-- C23, limit: on a default-constructed `apie` object, asking for a digest before `initialize` reads an uninitialised flag, whatever the class. -/
theorem C23_default_uninitialised (h : Host) (a : MacAlg) (ds : Nat) (dst : List Byte) (n : Nat) :
    MacApie.runDefault (a.impl h ds) [.digest dst n] = none := rfl

example : ∃ o, MacApie.run (MacAlg.impl ⟨.big, false, none⟩ 32 (.hmac .sha_2_256 32)) [1, 2, 3] ([[0x61], [0x62]].map .update ++
      [DigestReq.cont ⟨true, [1]⟩ 7, .cont ⟨false, List.replicate 5 0xff⟩ 7, .ptr (List.replicate 50 1) 64].map MacApie.ofReq)
    = some (o, [DigestReq.cont ⟨true, [1]⟩ 7, .cont ⟨false, List.replicate 5 0xff⟩ 7, .ptr (List.replicate 50 1) 64].map
      (Spec.extracted ((Spec.macOn .big (.hmac .sha_2_256 32) [1, 2, 3] [0x61, 0x62]).take 32))) :=
  C23_fresh ⟨.big, false, none⟩ (.hmac .sha_2_256 32) (by decide : 32 ≤ 32) 32 (by decide) [1, 2, 3] (by decide) [[0x61], [0x62]] (by simp) _
    (by simp [DigestReq.Ok])

example : (MacApie.run (MacAlg.impl ⟨.little, false, none⟩ 16 .poly_1305) [1]
    [.update [5], .digest (List.replicate 32 0) 32, .update [6], .digestC ⟨true, []⟩ 3, .init [9], .digest [] 0]).isSome :=
  (C23_memory_safe ⟨.little, false, none⟩ .poly_1305 trivial 16 (by decide)).2 [1] (by decide) _ (by simp [MacApie.Call.Ok])

/-! ## C49, mac part -/

/-- C49 (mac): a resizable container ends with exactly the number of bytes returned, whatever it held before; a fixed one keeps its size and its
content beyond the bytes written. -/
theorem C49_mac_containers (h : Host) (a : MacAlg) (ha : a.Ok) (ds : Nat) (hds : ds ≤ a.size) (key m : List Byte) (hk : key.length < 2 ^ 64)
    (hm : m.length < 2 ^ 64) (c : Container) (n : Nat) :
    ∃ c' k, MacApie.oneshotC (a.impl h ds) key m c n = some (c', k) ∧ c'.dynamic = c.dynamic ∧
      c'.data.take k = ((Spec.macOn h.endian a key m).take ds).take k ∧
      (c.dynamic = true → k = min n ds ∧ c'.data.length = k) ∧
      (c.dynamic = false → k = min (min n c.data.length) ds ∧ c'.data.length = c.data.length ∧ c'.data.drop k = c.data.drop k) := by
  obtain ⟨L⟩ := macLawful h a ha ds hds
  have hl := L.length key m
  rw [macDigestSize] at hl
  refine ⟨(Spec.contained ((Spec.macOn h.endian a key m).take ds) c n).1, (Spec.contained ((Spec.macOn h.endian a key m).take ds) c n).2,
    (C23_oneshot h a ha ds hds key m hk hm).2.1 c n, ?_⟩
  generalize (Spec.macOn h.endian a key m).take ds = full at hl ⊢
  exact contained_facts full ds hl c n

end Milo.Props
