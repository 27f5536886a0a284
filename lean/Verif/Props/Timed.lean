import Verif.Proof.Timed.Calls
import Verif.Proof.MacAlg
import Verif.Props.Hash
/-
C72: the portable C++ code takes the same branches and accesses the same positions whatever the bytes of keys, nonces, messages, texts, tags and old buffer contents are.

`Timed.….run` is the code with the list of the branches it takes and of the array positions and pointers it uses (Model/Timed/), and `C72_same_results` says that it computes what the model
of the other properties computes. `Spec.Timed.…` is the public part of a call: its bytes replaced by zeros. The theorems say that two sequences of calls with the same public part, neither of
which is undefined behaviour, are observed to do the same. The verdict of `verify` is public too: the program has to tell the caller.
-/
namespace Milo.Props

open Milo

/-- The results of the observed programs are those of the models the other properties are about. -/
theorem C72_same_results (h : Host) (ds : Nat) :
    (∀ (a : ShaAlg) cs, (Timed.Hash.run (Timed.sha h ds a) cs).val = Hash.run (a.impl h ds) cs) ∧
    (∀ (a : ShaAlg) u cs, (Timed.HashApie.run (Timed.sha h ds a) u cs).val = HashApie.run (a.impl h ds) u cs) ∧
    (∀ (a : MacAlg) cs, (Timed.Mac.run (Timed.mac h ds a) cs).val = Mac.run (a.impl h ds) cs) ∧
    (∀ (a : MacAlg) cs, (Timed.MacApie.runDefault (Timed.mac h ds a) cs).val = MacApie.runDefault (a.impl h ds) cs) ∧
    (∀ (a : MacAlg) m cs, (Timed.Kdf.run (Timed.hkdf h (Timed.mac h ds a)) m cs).val = Kdf.run (Hkdf.impl h (a.impl h ds)) m cs) ∧
    (∀ (a : MacAlg) junk m cs, (Timed.Kdf.run (Timed.pbkdf2 h (Timed.mac h ds a) junk) m cs).val = Kdf.run (Pbkdf2.impl h (a.impl h ds) junk) m cs) ∧
    (∀ b cs, (Timed.Cipher.run h b cs).val = Cipher.run h (b.impl h) cs) ∧
    (∀ b cs, (Timed.Aead.run h b cs).val = Aead.run h b cs) ∧
    (∀ b cs, (Timed.AeadApie.run h b cs).val = AeadApie.run h b cs) :=
  ⟨fun a => Timed.Hash.val_run (Timed.shaLaw h ds a), fun a => Timed.HashApie.val_run (Timed.shaLaw h ds a),
    fun a => Timed.Mac.val_run (Timed.macLaw h ds a), fun a => Timed.MacApie.val_run (Timed.macLaw h ds a),
    fun a => Timed.Kdf.val_run (Timed.hkdfLaw h (Timed.macLaw h ds a)), fun a junk => Timed.Kdf.val_run (Timed.pbkdf2Law h (Timed.macLaw h ds a) junk),
    fun b => Timed.Cipher.val_run h b, fun b => Timed.Aead.val_run h b, fun b => Timed.AeadApie.val_run h b⟩

section
variable (h : Host) (ds : Nat)

/-- C72, hash classes: any calls in any order. -/
theorem C72_hash (a : ShaAlg) (cs cs' : List Hash.Call) (same : cs.map Spec.Timed.hash = cs'.map Spec.Timed.hash) (r r')
    (e : Hash.run (a.impl h ds) cs = some r) (e' : Hash.run (a.impl h ds) cs' = some r') :
    (Timed.Hash.run (Timed.sha h ds a) cs).trace = (Timed.Hash.run (Timed.sha h ds a) cs').trace :=
  Timed.Hash.same_run (Timed.shaLaw h ds a) cs cs' same r r' e e'

/-- C72, the hash api class. -/
theorem C72_hash_apie (a : ShaAlg) (u : Bool) (cs cs' : List HashApie.Call) (same : cs.map Spec.Timed.hashApie = cs'.map Spec.Timed.hashApie) (r r')
    (e : HashApie.run (a.impl h ds) u cs = some r) (e' : HashApie.run (a.impl h ds) u cs' = some r') :
    (Timed.HashApie.run (Timed.sha h ds a) u cs).trace = (Timed.HashApie.run (Timed.sha h ds a) u cs').trace :=
  Timed.HashApie.same_run (Timed.shaLaw h ds a) u cs cs' same r r' e e'

/-- C72, HMAC over each hash class, and Poly1305. -/
theorem C72_mac (a : MacAlg) (cs cs' : List Mac.Call) (same : cs.map Spec.Timed.mac = cs'.map Spec.Timed.mac) (r r')
    (e : Mac.run (a.impl h ds) cs = some r) (e' : Mac.run (a.impl h ds) cs' = some r') :
    (Timed.Mac.run (Timed.mac h ds a) cs).trace = (Timed.Mac.run (Timed.mac h ds a) cs').trace :=
  Timed.Mac.same_run (Timed.macLaw h ds a) cs cs' same r r' e e'

/-- C72, the mac api class. -/
theorem C72_mac_apie (a : MacAlg) (cs cs' : List MacApie.Call) (same : cs.map Spec.Timed.macApie = cs'.map Spec.Timed.macApie) (r r')
    (e : MacApie.runDefault (a.impl h ds) cs = some r) (e' : MacApie.runDefault (a.impl h ds) cs' = some r') :
    (Timed.MacApie.runDefault (Timed.mac h ds a) cs).trace = (Timed.MacApie.runDefault (Timed.mac h ds a) cs').trace :=
  Timed.MacApie.same_run (Timed.macLaw h ds a) cs cs' same r r' e e'

/-- C72, HKDF: the contents of the caller's memory (input keying material, salt, info) may differ too, and so may what is written there between calls. -/
theorem C72_hkdf (a : MacAlg) (m m' : Mem) (sizes : Spec.Timed.memory m = Spec.Timed.memory m') (cs cs' : List (Kdf.Call (Hkdf.impl h (a.impl h ds)).Args))
    (same : cs.map Spec.Timed.kdf = cs'.map Spec.Timed.kdf) (r r') (e : Kdf.run (Hkdf.impl h (a.impl h ds)) m cs = some r) (e' : Kdf.run (Hkdf.impl h (a.impl h ds)) m' cs' = some r') :
    (Timed.Kdf.run (Timed.hkdf h (Timed.mac h ds a)) m cs).trace = (Timed.Kdf.run (Timed.hkdf h (Timed.mac h ds a)) m' cs').trace :=
  Timed.Kdf.same_run (Timed.hkdfLaw h (Timed.macLaw h ds a)) m m' sizes cs cs' same r r' e e'

/-- C72, PBKDF2: the contents of the caller's memory (password, salt) may differ too. -/
theorem C72_pbkdf2 (a : MacAlg) (junk : Nat → Byte) (m m' : Mem) (sizes : Spec.Timed.memory m = Spec.Timed.memory m') (cs cs' : List (Kdf.Call (Pbkdf2.impl h (a.impl h ds) junk).Args))
    (same : cs.map Spec.Timed.kdf = cs'.map Spec.Timed.kdf) (r r') (e : Kdf.run (Pbkdf2.impl h (a.impl h ds) junk) m cs = some r)
    (e' : Kdf.run (Pbkdf2.impl h (a.impl h ds) junk) m' cs' = some r') :
    (Timed.Kdf.run (Timed.pbkdf2 h (Timed.mac h ds a) junk) m cs).trace = (Timed.Kdf.run (Timed.pbkdf2 h (Timed.mac h ds a) junk) m' cs').trace :=
  Timed.Kdf.same_run (Timed.pbkdf2Law h (Timed.macLaw h ds a) junk) m m' sizes cs cs' same r r' e e'

/-- C72, the ChaCha20 classes, with the portable block function and with each of the assembly ones (called on the same number of blocks; inside them: C64). -/
theorem C72_cipher (b : CipherBackend) (cs cs' : List Cipher.Call) (same : cs.map Spec.Timed.cipher = cs'.map Spec.Timed.cipher) (r r')
    (e : Cipher.run h (b.impl h) cs = some r) (e' : Cipher.run h (b.impl h) cs' = some r') : (Timed.Cipher.run h b cs).trace = (Timed.Cipher.run h b cs').trace :=
  Timed.Cipher.same_run h b cs cs' same r r' e e'

/-- C72, ChaCha20-Poly1305. -/
theorem C72_aead (b : CipherBackend) (cs cs' : List Aead.Call) (same : cs.map Spec.Timed.aead = cs'.map Spec.Timed.aead) (r r')
    (e : Aead.run h b cs = some r) (e' : Aead.run h b cs' = some r') : (Timed.Aead.run h b cs).trace = (Timed.Aead.run h b cs').trace :=
  Timed.Aead.same_run h b cs cs' same r r' e e'

/-- C72, the aead api class: only the verdicts of `verify`, which the caller gets anyway, may make a difference. In particular it is not observed how much of a wrong tag is right. -/
theorem C72_aead_apie (b : CipherBackend) (cs cs' : List AeadApie.Call) (same : cs.map Spec.Timed.aeadApie = cs'.map Spec.Timed.aeadApie) (r r')
    (e : AeadApie.run h b cs = some r) (e' : AeadApie.run h b cs' = some r') (verdicts : Spec.Timed.verdicts r.2 = Spec.Timed.verdicts r'.2) :
    (Timed.AeadApie.run h b cs).trace = (Timed.AeadApie.run h b cs').trace :=
  Timed.AeadApie.same_run h b cs cs' same r r' e e' verdicts
end


section
variable (h : Host) (ds : Nat)

/-- C72, hash classes: calls with room for their outputs are never undefined behaviour, so that there is nothing to assume about the results. -/
theorem C72_hash_total (a : ShaAlg) (hds : ds ≤ a.size) (cs cs' : List Hash.Call) (ok : ∀ c ∈ cs, c.Ok ds) (ok' : ∀ c ∈ cs', c.Ok ds)
    (same : cs.map Spec.Timed.hash = cs'.map Spec.Timed.hash) :
    (Timed.Hash.run (Timed.sha h ds a) cs).trace = (Timed.Hash.run (Timed.sha h ds a) cs').trace := by
  obtain ⟨L⟩ := shaLawful h a ds hds
  obtain ⟨o, outs, e, -⟩ := Hash.run_wf L cs (by rw [shaDigestSize]; exact ok)
  obtain ⟨o', outs', e', -⟩ := Hash.run_wf L cs' (by rw [shaDigestSize]; exact ok')
  exact C72_hash h ds a cs cs' same _ _ e e'

theorem C72_hash_apie_total (a : ShaAlg) (hds : ds ≤ a.size) (u : Bool) (cs cs' : List HashApie.Call) (ok : ∀ c ∈ cs, c.Ok ds) (ok' : ∀ c ∈ cs', c.Ok ds)
    (same : cs.map Spec.Timed.hashApie = cs'.map Spec.Timed.hashApie) :
    (Timed.HashApie.run (Timed.sha h ds a) u cs).trace = (Timed.HashApie.run (Timed.sha h ds a) u cs').trace := by
  obtain ⟨L⟩ := shaLawful h a ds hds
  obtain ⟨o, outs, e, -⟩ := HashApie.run_wf L u cs (by rw [shaDigestSize]; exact ok)
  obtain ⟨o', outs', e', -⟩ := HashApie.run_wf L u cs' (by rw [shaDigestSize]; exact ok')
  exact C72_hash_apie h ds a u cs cs' same _ _ e e'
end

/-! The hypotheses can be met, and the observations say something. -/

/-- Two keys and two messages under HMAC-SHA-256 and Poly1305. -/
def tagging (key msg : List Byte) : List Mac.Call := [.init key, .update msg, .finalize, .digest (List.replicate 16 0) 16]

set_option maxRecDepth 100000 in
example : (Timed.Mac.run (Timed.mac ⟨.little, false, none⟩ 16 .poly_1305) (tagging (List.replicate 32 1) [1, 2, 3])).trace
    = (Timed.Mac.run (Timed.mac ⟨.little, false, none⟩ 16 .poly_1305) (tagging (List.replicate 32 0xff) [0xff, 0xff, 0xff])).trace :=
  C72_mac _ _ _ _ _ rfl _ _ (Option.some_get (by decide +kernel)).symm (Option.some_get (by decide +kernel)).symm
set_option maxRecDepth 100000 in
example : (Timed.Mac.run (Timed.mac ⟨.big, false, none⟩ 16 (.hmac .sha_2_256 32)) (tagging [1, 2] [1, 2, 3])).trace
    = (Timed.Mac.run (Timed.mac ⟨.big, false, none⟩ 16 (.hmac .sha_2_256 32)) (tagging [3, 4] [4, 5, 6])).trace :=
  C72_mac _ _ _ _ _ rfl _ _ (Option.some_get (by decide +kernel)).symm (Option.some_get (by decide +kernel)).symm
/- The length of a key is observed, and there is a lot to observe. -/
set_option maxRecDepth 100000 in
example : (Timed.Mac.run (Timed.mac ⟨.little, false, none⟩ 16 (.hmac .sha_1_160 20)) (tagging [1, 2] [1, 2, 3])).trace
    ≠ (Timed.Mac.run (Timed.mac ⟨.little, false, none⟩ 16 (.hmac .sha_1_160 20)) (tagging [3] [4, 5, 6])).trace := by decide +kernel
set_option maxRecDepth 100000 in
example : 50 < (Timed.Mac.run (Timed.mac ⟨.little, false, none⟩ 16 .poly_1305) (tagging (List.replicate 32 1) [1, 2, 3])).trace.length := by decide +kernel

/-- Authenticated decryption: a tag wrong in its first byte and one wrong in its last byte. -/
def opening (tag : List Byte) : List AeadApie.Call :=
  [.init (List.replicate 32 7) (List.replicate 12 1), .aad [1, 2], .text true (.ptr ⟨[5, 6, 7], 0, 3, 0⟩), .verify tag]

set_option maxRecDepth 100000 in
example : (Timed.AeadApie.run ⟨.little, false, none⟩ .portable (opening (1 :: List.replicate 15 0))).trace
    = (Timed.AeadApie.run ⟨.little, false, none⟩ .portable (opening (List.replicate 15 0 ++ [9]))).trace :=
  C72_aead_apie _ _ _ _ rfl _ _ (Option.some_get (by decide +kernel)).symm (Option.some_get (by decide +kernel)).symm (by decide +kernel)

/-- Not every program of the library is like that: the loop of `memory_equal` (which the compiler, not the program, runs) stops at the first difference. -/
theorem C72_equal_early_exit (h : Host) (x y : Byte) (a b : List Byte) (n : Nat) (ne : x ≠ y) :
    (Timed.equalLoop h (p := 1) (q := 1) (x :: a) (y :: b) (n + 1) 0).trace ≠ (Timed.equalLoop h (p := 1) (q := 1) (y :: a) (y :: b) (n + 1) 0).trace := by
  have e : ∀ z w : Byte, (Timed.equalLoop h (p := 1) (q := 1) (z :: a) (w :: b) (n + 1) 0).trace[3]? = some (.branch (decide (z ≠ w))) := by
    intro z w
    have e1 : (z.setWidth (8 * 1) ≠ w.setWidth (8 * 1)) = (z ≠ w) := by rw [BitVec.setWidth_eq, BitVec.setWidth_eq]
    simp only [← e1]
    rfl
  intro k
  have := e x y
  rw [k, e y y] at this
  simp [ne] at this

end Milo.Props
