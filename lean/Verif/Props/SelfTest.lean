import Verif.Proof.SelfTest
import Verif.Props.Codec
import Verif.Props.Memory
import Verif.Props.Hash
import Verif.Props.Mac
import Verif.Props.Kdf
import Verif.Props.Cipher
import Verif.Props.Aead
/-
Property theorems C66, C67: the test functions of src/milo/primitive/{hash,mac,kdf,cipher,aead,codec}/test.h.

`none` is undefined behaviour; `some b`: the function returned `b`.
-/
namespace Milo.Props
open Milo Spec.Codec

/-! ## C66: vectors -/

/-- C66: the hash test accepts exactly the digests of FIPS 180-4 (cut to the option `digest_size`). -/
theorem C66_hash_vectors (h : Host) (a : ShaAlg) (ds : Nat) (hds : ds ≤ a.size) (u : Bool) (msg expected : List Byte) (hm : msg.length < 2 ^ 64) :
    SelfTest.hashDigest h (a.impl h ds) u msg expected = some (decide ((shaSpec a msg).take ds = expected)) := by
  have e := (C18_oneshot h a ds hds u msg hm).2.2.2 ds (Nat.le_refl _)
  rw [List.take_take, Nat.min_self] at e
  unfold SelfTest.hashDigest
  rw [shaDigestSize, e]
  exact C13_equal_is_equality h _ _

example : SelfTest.hashDigest ⟨.little, false, none⟩ (ShaAlg.impl ⟨.little, false, none⟩ 20 .sha_1_160) true [0x61#8] [] = some false := by
  rw [C66_hash_vectors _ .sha_1_160 20 (by decide) true [0x61#8] [] (by decide)]
  refine congrArg some (decide_eq_false fun e => ?_)
  have := congrArg List.length e
  rw [List.length_take, shaSpec_length] at this
  revert this; decide

/-- C66: the HMAC test accepts exactly the values of RFC 2104, for keys of any length and on every host. -/
theorem C66_hmac_vectors (h : Host) (a : ShaAlg) (hs ds : Nat) (hhs : hs ≤ a.size) (hds : ds ≤ hs) (key msg expected : List Byte) (hk : key.length < 2 ^ 64)
    (hm : msg.length < 2 ^ 64) :
    SelfTest.macDigest h (MacAlg.impl h ds (.hmac a hs)) key msg expected = some (decide ((Spec.macSpec (.hmac a hs) key msg).take ds = expected)) := by
  have e := (C23_oneshot h (.hmac a hs) hhs ds hds key msg hk hm).2.2.2 ds (Nat.le_refl _)
  rw [List.take_take, Nat.min_self] at e
  have ek : (MacAlg.impl h ds (.hmac a hs)).keySize = 0 := rfl
  unfold SelfTest.macDigest
  rw [if_neg (by rw [ek]; simp), macDigestSize, e]
  exact C13_equal_is_equality h _ _

/-- C66: the Poly1305 test accepts exactly the tags of RFC 8439, and refuses longer keys. Missing: big-endian hosts, where tags are wrong
(`C24_poly1305_endian_wrong`). -/
theorem C66_poly1305_vectors_partial (h : Host) (hh : h.endian = .little) (ds : Nat) (hds : ds ≤ 16) (key msg expected : List Byte) (hk : key.length < 2 ^ 64)
    (hm : msg.length < 2 ^ 64) :
    (key.length = 32 → SelfTest.macDigest h (MacAlg.impl h ds .poly_1305) key msg expected = some (decide ((Spec.Poly1305.mac key msg).take ds = expected))) ∧
    (32 < key.length → SelfTest.macDigest h (MacAlg.impl h ds .poly_1305) key msg expected = some false) := by
  have ek : (MacAlg.impl h ds .poly_1305).keySize = 32 := rfl
  refine ⟨fun h32 => ?_, fun hlong => ?_⟩
  · have e := (C23_oneshot h .poly_1305 trivial ds hds key msg hk hm).2.2.2 ds (Nat.le_refl _)
    rw [List.take_take, Nat.min_self] at e
    simp only [Spec.macOn, hh, padTo_id 32 key h32] at e
    unfold SelfTest.macDigest
    rw [if_neg (by rw [ek]; omega), macDigestSize, e]
    exact C13_equal_is_equality h _ _
  · unfold SelfTest.macDigest
    rw [if_pos ⟨by rw [ek]; omega, by rw [ek]; exact hlong⟩]

/-- C66: the HKDF test accepts exactly the values of RFC 5869, for keys of up to 255 blocks. Missing: longer keys, for which RFC 5869 has no value and the
test accepts one (`C27_hkdf_repeats`). -/
theorem C66_hkdf_vectors_partial (h : Host) (a : ShaAlg) (key salt info expected : List Byte) (hk : key.length < 2 ^ 64) (hs : salt.length < 2 ^ 64) (hi : info.length < 2 ^ 64)
    (he : expected.length ≤ 255 * a.size) (m : Mem) (hm : m 0 = key ∧ m 1 = salt ∧ m 2 = info) :
    SelfTest.kdfDerive h (hkdfClass h a a.size) m ⟨⟨0, key.length⟩, ⟨1, salt.length⟩, ⟨2, info.length⟩⟩ expected
      = some (decide ((Spec.hkdf (hmacSpec a) key salt info).take expected.length = expected)) := by
  have e := (C49_hkdf_containers h a (fun b => (m b).length) m (fun _ => rfl) ⟨0, key.length⟩ ⟨1, salt.length⟩ ⟨2, info.length⟩ (by
    intro s hx
    simp only [List.mem_cons, List.not_mem_nil, or_false] at hx
    rcases hx with rfl | rfl | rfl
    · exact ⟨by simp only [hm.1]; omega, hk⟩
    · exact ⟨by simp only [hm.2.1]; omega, hs⟩
    · exact ⟨by simp only [hm.2.2]; omega, hi⟩) _ rfl).2.2.1 expected.length he
  simp only [bytesOf, hm.1, hm.2.1, hm.2.2, List.take_length] at e
  unfold SelfTest.kdfDerive
  rw [e]
  exact C13_equal_is_equality h _ _

/-- C66: the PBKDF2 test accepts exactly the values of RFC 8018 (an iteration count of 0 meaning 1). -/
theorem C66_pbkdf2_vectors (h : Host) (junk : Nat → Byte) (a : ShaAlg) (password salt expected : List Byte) (it : W32) (hp : password.length < 2 ^ 64)
    (hs : salt.length < 2 ^ 64) (he : expected.length ≤ (2 ^ 32 - 1) * a.size) (m : Mem) (hm : m 0 = password ∧ m 1 = salt) :
    SelfTest.kdfDerive h (pbkdf2Class h junk a a.size) m ⟨⟨0, password.length⟩, ⟨1, salt.length⟩, it⟩ expected
      = some (decide ((Spec.pbkdf2 (hmacSpec a) password salt (max it.toNat 1)).take expected.length = expected)) := by
  have e := (C49_pbkdf2_containers h junk a (fun b => (m b).length) m (fun _ => rfl) ⟨0, password.length⟩ ⟨1, salt.length⟩ it (by
    intro s hx
    simp only [List.mem_cons, List.not_mem_nil, or_false] at hx
    rcases hx with rfl | rfl
    · exact ⟨by simp only [hm.1]; omega, hp⟩
    · exact ⟨by simp only [hm.2]; omega, hs⟩) _ rfl).2.2.1 expected.length he
  simp only [bytesOf, hm.1, hm.2, List.take_length] at e
  unfold SelfTest.kdfDerive
  rw [e]
  exact C13_equal_is_equality h _ _

theorem cipher_value (h : Host) (b : CipherBackend) (key : List Byte) (hk : key.length = 32) (counter : BitVec 32) (nonce : List Byte) (hn : nonce.length = 12)
    (text : List Byte) (c : Cipher.Call) (hc : c = .encryptC text ⟨true, []⟩ ∨ c = .decryptC text ⟨true, []⟩) :
    Cipher.oneshot h (b.impl h) key (Spec.leBytes 4 counter.toNat ++ nonce) c = some [(Spec.ChaCha.crypt key counter nonce text, text.length)] := by
  have hok : c.Ok ∧ Cipher.NotInit c := by rcases hc with rfl | rfl <;> exact ⟨by simp [Cipher.Call.Ok], trivial⟩
  obtain ⟨o1, e1, r1⟩ := ChaCha.init_rep h (backendLawful h b) _ _ _ (ChaCha.fresh_rep (backendLawful h b)) key (Spec.leBytes 4 counter.toNat ++ nonce)
  obtain ⟨o2, e2, -⟩ := Cipher.exec_eq h (backendLawful h b) _ o1 _ r1 c hok.1 hok.2
  obtain ⟨out, e, hr, -⟩ := C29_oneshot h b key hk counter nonce hn c (by
    intro d hd
    rw [List.mem_singleton] at hd
    subst hd
    rcases hc with rfl | rfl <;> exact ⟨hok.1, fun _ _ h => nomatch h⟩)
  have e3 : Cipher.oneshot h (b.impl h) key (Spec.leBytes 4 counter.toNat ++ nonce) c
      = some [(Spec.cipherPlaced (Cipher.streamed (ChaCha.initState key (Spec.leBytes 4 counter.toNat ++ nonce)) 0 (Spec.cipherText c)) c, (Spec.cipherText c).length)] := by
    unfold Cipher.oneshot
    simp only [e1, Option.bind_eq_bind, Option.bind_some, e2, Option.pure_def]
  rw [e3] at e
  have e4 := (List.cons.inj (Option.some.inj e)).1
  rw [e3]
  rcases hc with rfl | rfl
  all_goals
    simp only [Spec.cipherPlaced, Spec.cipherText, if_true] at e4 hr ⊢
    rw [← e4] at hr
    simp only [Spec.cipherResult] at hr
    rw [List.take_of_length_le (by rw [Cipher.streamed_length])] at hr
    rw [hr]

/-- C66: the cipher tests accept exactly the texts of RFC 8439 section 2.4, with every backend. -/
theorem C66_cipher_vectors (h : Host) (b : CipherBackend) (key : List Byte) (hk : key.length = 32) (counter : BitVec 32) (nonce : List Byte) (hn : nonce.length = 12)
    (text expected : List Byte) :
    SelfTest.cipherEncrypt h (b.impl h) key (Spec.leBytes 4 counter.toNat ++ nonce) text expected = some (decide (Spec.ChaCha.crypt key counter nonce text = expected)) ∧
    SelfTest.cipherDecrypt h (b.impl h) key (Spec.leBytes 4 counter.toNat ++ nonce) text expected = some (decide (Spec.ChaCha.crypt key counter nonce text = expected)) := by
  refine ⟨?_, ?_⟩
  · unfold SelfTest.cipherEncrypt
    rw [cipher_value h b key hk counter nonce hn text _ (.inl rfl)]
    exact C13_equal_is_equality h _ _
  · unfold SelfTest.cipherDecrypt
    rw [cipher_value h b key hk counter nonce hn text _ (.inr rfl)]
    exact C13_equal_is_equality h _ _

/-- C66: the AEAD encryption test accepts exactly the ciphertexts and tags of RFC 8439 section 2.8. Missing: big-endian hosts, where tags are wrong
(`C35_aead_big_endian_wrong`). -/
theorem C66_aead_encrypt_vectors_partial (h : Host) (hh : h.endian = .little) (b : CipherBackend) (key : List Byte) (hk : key.length = 32) (nonce : List Byte)
    (hn : nonce.length = 12) (ad : List Byte) (ha : ad.length < 2 ^ 64) (text : List Byte) (ht : text.length < 2 ^ 64) (expected tag : List Byte) :
    SelfTest.aeadEncrypt h b key nonce ad text expected tag
      = some (decide (Spec.Aead.crypt key nonce text = expected ∧ Spec.Aead.tag key nonce ad (Spec.Aead.crypt key nonce text) = tag)) := by
  have e := (C35_aead_oneshot h hh b key hk nonce hn ad ha).2.2 text ht
  unfold SelfTest.aeadEncrypt
  rw [e]
  simp only [Option.bind_eq_bind, Option.bind_some, C13_equal_is_equality, C13_match_is_equality, Option.pure_def, decide_eq_true_eq]
  by_cases h1 : Spec.Aead.crypt key nonce text = expected
  · rw [if_pos h1]
    simp only [h1, true_and]
  · rw [if_neg h1]
    simp only [h1, false_and, decide_false]

/-- C66: the AEAD decryption test accepts exactly if the tag is the one of RFC 8439 section 2.8 and the expected text is the right one; the exception of a wrong tag does
not leave it. Missing: big-endian hosts. -/
theorem C66_aead_decrypt_vectors_partial (h : Host) (hh : h.endian = .little) (b : CipherBackend) (key : List Byte) (hk : key.length = 32) (nonce : List Byte)
    (hn : nonce.length = 12) (ad : List Byte) (ha : ad.length < 2 ^ 64) (text : List Byte) (ht : text.length < 2 ^ 64) (tag expected : List Byte) :
    SelfTest.aeadDecrypt h b key nonce ad text tag expected
      = some (.returned (decide (tag = Spec.Aead.tag key nonce ad text ∧ Spec.Aead.crypt key nonce text = expected))) := by
  have et : AeadApie.tagOn h key nonce ad text = Spec.Aead.tag key nonce ad text := by
    unfold AeadApie.tagOn; rw [padTo_id 32 key hk, padTo_id 12 nonce hn, macOn_little h hh]
  have ec : Aead.crypted key nonce 0 text = Spec.Aead.crypt key nonce text := by
    rw [AeadApie.crypt_eq, padTo_id 32 key hk, padTo_id 12 nonce hn]
  unfold SelfTest.aeadDecrypt
  rw [AeadApie.openValue_eq h b false key nonce ad ha text tag ht, et, ec]
  by_cases h1 : tag = Spec.Aead.tag key nonce ad text
  · simp only [Spec.Aead.reported, h1, decide_true, if_true, Bool.false_eq_true, if_false, Option.bind_eq_bind, Option.bind_some, C13_equal_is_equality, Option.pure_def,
      true_and]
  · simp only [Spec.Aead.reported, h1, decide_false, if_false, Bool.false_eq_true, Option.bind_eq_bind, Option.bind_some, Option.pure_def, false_and]

/-- C66: the encoding tests accept exactly the texts of RFC 4648. -/
theorem C66_encode_vectors (h : Host) (sg : Bool) (src expected : List Byte) (hs : src.length < 2 ^ 61) :
    SelfTest.codecEncode h (Codec.base16 sg) src expected = some (decide (hexEncode src = expected)) ∧
    SelfTest.codecEncode h (Codec.base64 sg) src expected = some (decide (b64Encode src = expected)) := by
  have e16 : Codec.encodeValue (Codec.base16 sg) src = some (hexEncode src) := by
    unfold Codec.encodeValue Codec.encode Codec.base16 Container.resize Container.withData
    have h1 : Base16.encodeSize src.length = 2 * src.length := by unfold Base16.encodeSize; omega
    simp [h1, Base16.encode_eq, Base16.hexEncode_length]
    exact List.take_of_length_le (by rw [Base16.hexEncode_length])
  have e64 : Codec.encodeValue (Codec.base64 sg) src = some (b64Encode src) := by
    have hes := Base64.encodeSize_eq src.length (by omega)
    unfold Codec.encodeValue Codec.encode Codec.base64 Container.resize Container.withData
    simp [hes, Base64.encode_eq, Base64.b64Encode_length]
    exact List.take_of_length_le (by rw [Base64.b64Encode_length])
  unfold SelfTest.codecEncode
  rw [e16, e64]
  exact ⟨C13_equal_is_equality h _ _, C13_equal_is_equality h _ _⟩

theorem decode_test (h : Host) (C : Codec.Impl) (src expected : List Byte) (c : Container) (n : Nat) (e : Error) (hd : Codec.decode C src ⟨true, []⟩ = some (c, n, e)) :
    SelfTest.codecDecode h C src expected = some (.returned (decide (e = .none ∧ c.data = expected))) := by
  obtain ⟨h1, h2⟩ := C10_codec_value C src c n e hd
  unfold SelfTest.codecDecode
  by_cases he : e = .none
  · rw [h1 he]
    simp only [Option.bind_eq_bind, Option.bind_some, C13_equal_is_equality, he, true_and, Option.pure_def]
  · rw [h2 he]
    simp only [Option.bind_eq_bind, Option.bind_some, he, false_and, decide_false, Option.pure_def]

theorem hexDecode_isSome : (txt : List Byte) → txt.length % 2 = 0 → (∀ c ∈ txt, (hexValue c).isSome) → (hexDecode txt).isSome
  | [], _, _ => rfl
  | [_], h, _ => by simp at h
  | c0 :: c1 :: rest, h, hv => by
    obtain ⟨v0, e0⟩ := Option.isSome_iff_exists.1 (hv c0 (by simp))
    obtain ⟨v1, e1⟩ := Option.isSome_iff_exists.1 (hv c1 (by simp))
    obtain ⟨r, er⟩ := Option.isSome_iff_exists.1 (hexDecode_isSome rest (by simp at h; omega) fun c hc => hv c (by simp [hc]))
    simp [hexDecode, e0, e1, er]

theorem hexDecode_values : (txt r : List Byte) → hexDecode txt = some r → ∀ c ∈ txt, (hexValue c).isSome
  | [], _, _ => by simp
  | [_], _, h => by simp [hexDecode] at h
  | c0 :: c1 :: rest, r, h => by
    simp only [hexDecode, Option.bind_eq_bind, Option.bind_eq_some_iff] at h
    obtain ⟨v0, e0, v1, e1, r', er, -⟩ := h
    intro c hc
    simp only [List.mem_cons] at hc
    rcases hc with rfl | rfl | hc
    · rw [e0]; rfl
    · rw [e1]; rfl
    · exact hexDecode_values rest r' er c hc

/-- C66: the decoding tests accept exactly what RFC 4648 says, for 7-bit texts or on targets with unsigned `char`; for Base-16, texts of even length. Missing: other bytes on
targets with signed `char` (`C66_decode_vectors_wrong`) and Base-16 texts of odd length (C04). -/
theorem C66_decode_vectors_partial (h : Host) (sg : Bool) (src expected : List Byte) (hs : src.length < 2 ^ 62) (h7 : sg = false ∨ ∀ c ∈ src, c.toNat < 128) :
    (src.length % 2 = 0 → SelfTest.codecDecode h (Codec.base16 sg) src expected = some (.returned (decide (hexDecode src = some expected)))) ∧
    SelfTest.codecDecode h (Codec.base64 sg) src expected = some (.returned (decide (b64Decode src = some expected))) := by
  refine ⟨fun he => ?_, ?_⟩
  · have hsz : Base16.decodeSize src.length = src.length / 2 := by
      unfold Base16.decodeSize
      rw [Nat.and_one_is_mod, Nat.shiftRight_eq_div_pow]; omega
    obtain ⟨d, hd, h1, h2, h3⟩ := C03_base16_accepts_exactly_partial sg src (List.replicate (src.length / 2) 0) he (by simp) h7
    have e : Codec.decode (Codec.base16 sg) src ⟨true, []⟩ = some ((Container.resize ⟨true, d.out⟩ d.size).1, d.size, d.err) := by
      unfold Codec.decode
      have hd' : Base16.decode sg src (List.replicate (src.length / 2) 0#8) = some d := hd
      simp [Codec.base16, Container.resize, hsz, hd', Container.withData]
    rw [decode_test h _ src expected _ _ _ e]
    refine congrArg (fun b => some (Ended.returned b)) (decide_eq_decide.2 ?_)
    rw [h1]
    refine ⟨fun ⟨hv, hx⟩ => ?_, fun hx => ⟨hexDecode_values src _ hx, ?_⟩⟩
    · obtain ⟨r, er⟩ := Option.isSome_iff_exists.1 (hexDecode_isSome src he hv)
      obtain ⟨e1, e2⟩ := h3 r er
      rw [er]
      refine congrArg some ?_
      rw [← hx]
      simp [Container.resize, e1, e2]
    · obtain ⟨e1, e2⟩ := h3 expected hx
      simp [Container.resize, e1, e2]
  · obtain ⟨d, hd, h1, h2⟩ := C08_base64_accepts_exactly_partial sg src (List.replicate (Base64.decodeSize src) 0) hs (by simp) h7
    have e : Codec.decode (Codec.base64 sg) src ⟨true, []⟩ = some ((Container.resize ⟨true, d.out⟩ d.size).1, d.size, d.err) := by
      unfold Codec.decode
      have hd' : Base64.decode sg src (List.replicate (Base64.decodeSize src) 0#8) = some d := hd
      simp [Codec.base64, Container.resize, hd', Container.withData]
    rw [decode_test h _ src expected _ _ _ e]
    refine congrArg (fun b => some (Ended.returned b)) (decide_eq_decide.2 ?_)
    cases hb : b64Decode src with
    | none =>
      rw [h2 hb]
      exact ⟨(fun h => nomatch h.1), (fun h => nomatch h)⟩
    | some r =>
      rw [h1 r hb]
      simp [Container.resize]

/-- On targets with signed `char` (x86-64) the decoding tests accept texts that are none: the bytes `ff ff` as the hexadecimal digits of one byte. -/
theorem C66_decode_vectors_wrong (h : Host) : hexDecode [0xff#8, 0xff#8] = none ∧ ∃ x : Byte, SelfTest.codecDecode h (Codec.base16 true) [0xff#8, 0xff#8] [x] = some (.returned true) := by
  refine ⟨by decide, 0xff#8, ?_⟩
  have e : Codec.decode (Codec.base16 true) [0xff#8, 0xff#8] ⟨true, []⟩ = some (⟨true, [0xff#8]⟩, 1, .none) := by decide
  rw [decode_test h _ _ _ _ _ _ e]
  rfl

/-! ## C67: differential tests -/

/-- C67: the differential test of two hashes ends, without undefined behaviour, and returns true exactly if the digests of the 512 messages agree. -/
theorem C67_hash_differential (h0 h1 : Host) (a0 a1 : ShaAlg) (ds : Nat) (hd0 : ds ≤ a0.size) (hd1 : ds ≤ a1.size) (u0 u1 : Bool) :
    ∃ r, SelfTest.hashDifferential (a0.impl h0 ds) (a1.impl h1 ds) u0 u1 = some r ∧
      (r = true ↔ ∀ i, i < 512 → (shaSpec a0 (Spec.inputAt 512 i)).take ds = (shaSpec a1 (Spec.inputAt 512 i)).take ds) := by
  obtain ⟨L0⟩ := shaLawful h0 a0 ds hd0
  obtain ⟨L1⟩ := shaLawful h1 a1 ds hd1
  exact SelfTest.hashDifferential_eq L0 L1 u0 u1

/-- C67: of two implementations of the same hash (on hosts with different byte orders, with or without the SHA instructions, in constant evaluation or not) the
test returns true. -/
theorem C67_hash_agree (h0 h1 : Host) (a : ShaAlg) (ds : Nat) (hds : ds ≤ a.size) (u0 u1 : Bool) :
    SelfTest.hashDifferential (a.impl h0 ds) (a.impl h1 ds) u0 u1 = some true := by
  obtain ⟨r, e, hr⟩ := C67_hash_differential h0 h1 a a ds hds hds u0 u1
  rw [e, hr.2 fun _ _ => rfl]

/-- C67: likewise for macs: messages as above, keys of 0, 3, 6, … bytes (at most 512) of the message. -/
theorem C67_mac_differential (h0 h1 : Host) (a0 a1 : MacAlg) (ha0 : a0.Ok) (ha1 : a1.Ok) (ds : Nat) (hd0 : ds ≤ a0.size) (hd1 : ds ≤ a1.size) :
    ∃ r, SelfTest.macDifferential (a0.impl h0 ds) (a1.impl h1 ds) = some r ∧
      (r = true ↔ ∀ i, i < 512 → ∀ k, 1 + 3 * (k / 2) ≤ 515 →
        (Spec.macOn h0.endian a0 ((Spec.inputAt 512 i).take (min (3 * k) 512)) (Spec.inputAt 512 i)).take ds
          = (Spec.macOn h1.endian a1 ((Spec.inputAt 512 i).take (min (3 * k) 512)) (Spec.inputAt 512 i)).take ds) := by
  obtain ⟨L0⟩ := macLawful h0 a0 ha0 ds hd0
  obtain ⟨L1⟩ := macLawful h1 a1 ha1 ds hd1
  exact SelfTest.macDifferential_eq L0 L1

/-- C67: of two implementations of the same mac the test returns true (Poly1305: on hosts with the same byte order). -/
theorem C67_mac_agree (h0 h1 : Host) (a : MacAlg) (ha : a.Ok) (ds : Nat) (hds : ds ≤ a.size) (he : h0.endian = h1.endian ∨ a ≠ .poly_1305) :
    SelfTest.macDifferential (a.impl h0 ds) (a.impl h1 ds) = some true := by
  obtain ⟨r, e, hr⟩ := C67_mac_differential h0 h1 a a ha ha ds hds hds
  rw [e, hr.2 fun _ _ _ _ => ?_]
  rcases he with he | he
  · rw [he]
  · cases a with
    | hmac a hs => rfl
    | poly_1305 => exact absurd rfl he

/-- C67: likewise for HKDF: keys of up to 255 bytes derived from 256 byte inputs, each of them key, salt and info. -/
theorem C67_hkdf_differential (h0 h1 : Host) (a0 a1 : ShaAlg) (ds0 ds1 : Nat) (hp0 : 0 < ds0) (hp1 : 0 < ds1) (hd0 : ds0 ≤ a0.size) (hd1 : ds1 ≤ a1.size) :
    ∃ r, SelfTest.hkdfDifferential h0 h1 (MacAlg.impl h0 ds0 (.hmac a0 a0.size)) (MacAlg.impl h1 ds1 (.hmac a1 a1.size)) = some r ∧
      (r = true ↔ ∀ i, i < 256 → (Spec.hkdf (fun k m => (hmacSpec a0 k m).take ds0) (Spec.inputAt 256 i) (Spec.inputAt 256 i) (Spec.inputAt 256 i)).take 255
        = (Spec.hkdf (fun k m => (hmacSpec a1 k m).take ds1) (Spec.inputAt 256 i) (Spec.inputAt 256 i) (Spec.inputAt 256 i)).take 255) := by
  obtain ⟨M0⟩ := hmacOption h0 a0 ds0 hd0
  obtain ⟨M1⟩ := hmacOption h1 a1 ds1 hd1
  have b0 := size_bounds a0
  have b1 := size_bounds a1
  have e0 := macDigestSize h0 (.hmac a0 a0.size) ds0
  have e1 := macDigestSize h1 (.hmac a1 a1.size) ds1
  have hv : ∀ i, Hkdf.val (SelfTest.memAt 256 i) ⟨0, 256⟩ = Spec.inputAt 256 i := fun i => by
    have : SelfTest.memAt 256 i 0 = Spec.inputAt 256 i := by simp [SelfTest.memAt]
    simp only [Hkdf.val]
    rw [this, List.take_of_length_le (by rw [SelfTest.inputAt_length])]
  have := SelfTest.kdfDifferential_eq (Hkdf.lawful h0 M0 (by rw [e0]; omega) (by rw [e0]; omega)) (Hkdf.lawful h1 M1 (by rw [e1]; omega) (by rw [e1]; omega)) 256 (by omega)
    (fun _ => ⟨⟨0, 256⟩, ⟨0, 256⟩, ⟨0, 256⟩⟩) (fun _ => ⟨⟨0, 256⟩, ⟨0, 256⟩, ⟨0, 256⟩⟩)
    (by intro i s hs; simp only [Hkdf.impl, List.mem_cons, List.not_mem_nil, or_false, or_self] at hs; subst hs; simp [SelfTest.memSizes])
    (by intro i s hs; simp only [Hkdf.impl, List.mem_cons, List.not_mem_nil, or_false, or_self] at hs; subst hs; simp [SelfTest.memSizes])
    (fun i => by
      simp only [Hkdf.stream]
      rw [hkdf_length _ ds0 fun k m => by rw [List.length_take, hmacSpec_length]; omega]; omega)
    (fun i => by
      simp only [Hkdf.stream]
      rw [hkdf_length _ ds1 fun k m => by rw [List.length_take, hmacSpec_length]; omega]; omega)
  simp only [Hkdf.stream, hv] at this
  exact this

theorem C67_hkdf_agree (h0 h1 : Host) (a : ShaAlg) (ds : Nat) (hp : 0 < ds) (hds : ds ≤ a.size) :
    SelfTest.hkdfDifferential h0 h1 (MacAlg.impl h0 ds (.hmac a a.size)) (MacAlg.impl h1 ds (.hmac a a.size)) = some true := by
  obtain ⟨r, e, hr⟩ := C67_hkdf_differential h0 h1 a a ds ds hp hp hds hds
  rw [e, hr.2 fun _ _ => rfl]

/-- C67: likewise for PBKDF2: keys of up to 127 bytes, derived in `i` (at least one) iterations from the `i`-th 128 byte input, as password and salt. -/
theorem C67_pbkdf2_differential (h0 h1 : Host) (junk0 junk1 : Nat → Byte) (a0 a1 : ShaAlg) (ds0 ds1 : Nat) (hp0 : 0 < ds0) (hp1 : 0 < ds1) (hd0 : ds0 ≤ a0.size)
    (hd1 : ds1 ≤ a1.size) :
    ∃ r, SelfTest.pbkdf2Differential h0 h1 (MacAlg.impl h0 ds0 (.hmac a0 a0.size)) (MacAlg.impl h1 ds1 (.hmac a1 a1.size)) junk0 junk1 = some r ∧
      (r = true ↔ ∀ i, i < 128 → (Spec.pbkdf2 (fun k m => (hmacSpec a0 k m).take ds0) (Spec.inputAt 128 i) (Spec.inputAt 128 i) (max i 1)).take 127
        = (Spec.pbkdf2 (fun k m => (hmacSpec a1 k m).take ds1) (Spec.inputAt 128 i) (Spec.inputAt 128 i) (max i 1)).take 127) := by
  obtain ⟨M0⟩ := hmacOption h0 a0 ds0 hd0
  obtain ⟨M1⟩ := hmacOption h1 a1 ds1 hd1
  have b0 := size_bounds a0
  have b1 := size_bounds a1
  have e0 := macDigestSize h0 (.hmac a0 a0.size) ds0
  have e1 := macDigestSize h1 (.hmac a1 a1.size) ds1
  have hv : ∀ i, Hkdf.val (SelfTest.memAt 128 i) ⟨0, 128⟩ = Spec.inputAt 128 i := fun i => by
    have : SelfTest.memAt 128 i 0 = Spec.inputAt 128 i := by simp [SelfTest.memAt]
    simp only [Hkdf.val]
    rw [this, List.take_of_length_le (by rw [SelfTest.inputAt_length])]
  have hlen : ∀ ds : Nat, 0 < ds → 128 - 1 ≤ (2 ^ 32 - 1) * ds := fun ds h => by omega
  have := SelfTest.kdfDifferential_eq (Pbkdf2.lawful h0 junk0 M0 (by rw [e0]; omega) (by rw [e0]; omega)) (Pbkdf2.lawful h1 junk1 M1 (by rw [e1]; omega) (by rw [e1]; omega)) 128
    (by omega) (fun i => ⟨⟨0, 128⟩, ⟨0, 128⟩, BitVec.ofNat 32 i⟩) (fun i => ⟨⟨0, 128⟩, ⟨0, 128⟩, BitVec.ofNat 32 i⟩)
    (by intro i s hs; simp only [Pbkdf2.impl, List.mem_cons, List.not_mem_nil, or_false, or_self] at hs; subst hs; simp [SelfTest.memSizes])
    (by intro i s hs; simp only [Pbkdf2.impl, List.mem_cons, List.not_mem_nil, or_false, or_self] at hs; subst hs; simp [SelfTest.memSizes])
    (fun i => by
      simp only [Pbkdf2.stream]
      rw [pbkdf2_length _ ds0 (fun k m => by rw [List.length_take, hmacSpec_length]; omega) _ _ _ (by omega)]
      exact hlen _ hp0)
    (fun i => by
      simp only [Pbkdf2.stream]
      rw [pbkdf2_length _ ds1 (fun k m => by rw [List.length_take, hmacSpec_length]; omega) _ _ _ (by omega)]
      exact hlen _ hp1)
  simp only [Pbkdf2.stream, hv] at this
  obtain ⟨r, e, hr⟩ := this
  refine ⟨r, e, hr.trans (forall_congr' fun i => ?_)⟩
  constructor
  · intro h hi
    have := h hi
    rwa [BitVec.toNat_ofNat, Nat.mod_eq_of_lt (by omega)] at this
  · intro h hi
    rw [BitVec.toNat_ofNat, Nat.mod_eq_of_lt (by omega)]
    exact h hi

theorem C67_pbkdf2_agree (h0 h1 : Host) (junk0 junk1 : Nat → Byte) (a : ShaAlg) (ds : Nat) (hp : 0 < ds) (hds : ds ≤ a.size) :
    SelfTest.pbkdf2Differential h0 h1 (MacAlg.impl h0 ds (.hmac a a.size)) (MacAlg.impl h1 ds (.hmac a a.size)) junk0 junk1 = some true := by
  obtain ⟨r, e, hr⟩ := C67_pbkdf2_differential h0 h1 junk0 junk1 a a ds ds hp hp hds hds
  rw [e, hr.2 fun _ _ => rfl]

/-- C67: the differential test of two ChaCha20 backends, on any hosts, returns true. -/
theorem C67_cipher_agree (h0 h1 : Host) (b0 b1 : CipherBackend) : SelfTest.cipherDifferential h0 h1 (b0.impl h0) (b1.impl h1) = some true :=
  SelfTest.cipherDifferential_eq h0 h1 (backendLawful h0 b0) (backendLawful h1 b1)

/-- The hypotheses are met by different algorithms too, and the test tells them apart: SHA-256 and SHA-512/256. -/
example : SelfTest.hashDifferential (ShaAlg.impl ⟨.little, false, none⟩ 32 .sha_2_256) (ShaAlg.impl ⟨.little, false, none⟩ 32 .sha_2_512_256) true false = some false := by
  obtain ⟨r, e, hr⟩ := C67_hash_differential ⟨.little, false, none⟩ ⟨.little, false, none⟩ .sha_2_256 .sha_2_512_256 32 (by decide) (by decide) true false
  have hne : (shaSpec .sha_2_256 (List.replicate 512 0)).take 1 ≠ (shaSpec .sha_2_512_256 (List.replicate 512 0)).take 1 := by decide +kernel
  cases r with
  | false => exact e
  | true =>
    have := congrArg (List.take 1) (hr.1 rfl 0 (by omega))
    rw [List.take_take, List.take_take, SelfTest.inputAt_zero] at this
    exact absurd this hne

/-- Likewise Poly1305 on hosts of different byte orders (finding C24). -/
example : SelfTest.macDifferential (MacAlg.impl ⟨.little, false, none⟩ 16 .poly_1305) (MacAlg.impl ⟨.big, false, none⟩ 16 .poly_1305) = some false := by
  obtain ⟨r, e, hr⟩ := C67_mac_differential ⟨.little, false, none⟩ ⟨.big, false, none⟩ .poly_1305 .poly_1305 trivial trivial 16 (by decide) (by decide)
  cases r with
  | false => exact e
  | true =>
    refine absurd (hr.1 rfl 2 (by omega) 10 (by omega)) ?_
    decide +kernel

/-- The hypotheses of C66 are met. -/
example : SelfTest.codecDecode ⟨.little, false, none⟩ (Codec.base16 true) [0x36#8, 0x31#8] [0x61#8] = some (.returned true) := by
  rw [(C66_decode_vectors_partial ⟨.little, false, none⟩ true [0x36#8, 0x31#8] [0x61#8] (by decide) (.inr (by decide))).1 rfl]
  decide
example : SelfTest.aeadDecrypt ⟨.little, false, none⟩ .portable (List.replicate 32 1) (List.replicate 12 2) [3] [4] [5] [6] = some (.returned false) := by
  rw [C66_aead_decrypt_vectors_partial ⟨.little, false, none⟩ rfl .portable (List.replicate 32 1) (by decide) (List.replicate 12 2) (by decide) [3] (by decide) [4] (by decide) [5] [6]]
  refine congrArg (fun b => some (Ended.returned b)) (decide_eq_false fun h => absurd h.1 ?_)
  decide +kernel

end Milo.Props
