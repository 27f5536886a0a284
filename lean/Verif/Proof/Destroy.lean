import Verif.Spec.Destroy
import Verif.Proof.Mixed
import Verif.Proof.AeadUse
import Verif.Proof.Hkdf
import Verif.Proof.Pbkdf2
/- Destructors zero the memory of objects. -/
namespace Milo
open Memory Spec

theorem erase_all {p : Nat} (buf : List (Word p)) (n : Nat) (h : buf.length = n) : erase buf n = some (List.replicate n 0) := by
  rw [erase_eq _ _ (by omega), List.drop_of_length_le (by omega), List.append_nil]

theorem image_zero (e : Endian) (p n : Nat) : ∀ b ∈ image e (List.replicate n (0 : Word p)), b = 0#8 := by
  rw [image_zeros]
  intro b hb
  exact (List.mem_replicate.1 hb).2

theorem toBytes_zero (e : Endian) (n : Nat) : ∀ b ∈ toBytes e (0 : Word n), b = 0#8 := by
  have h := image_zero e n 1
  simpa [image] using h

theorem sizeBytes_zero (h : Host) : ∀ b ∈ sizeBytes h 0, b = 0#8 := toBytes_zero h.endian 8

theorem bytes_zero (n : Nat) : ∀ b ∈ (List.replicate n 0 : List (Word 1)), b = 0#8 := fun _ hb => (List.mem_replicate.1 hb).2

theorem Sha1.wiped (h : Host) (o : Sha1.Obj) (w : Sha1.Wf o) : Wiped (Sha1.dtor h) o := by
  refine ⟨{ o with state := List.replicate 5 0, processed := 0, buffer := List.replicate (64 * 2) 0, bufferSize := 0 }, ?_, ?_⟩
  · simp only [Sha1.dtor]
    rw [erase_all _ 5 w.state, erase_all (p := 1) _ (64 * 2) w.buffer]
    rfl
  · intro b hb
    simp only [Sha1.dtor, List.mem_append] at hb
    rcases hb with ((hb | hb) | hb) | hb
    · exact image_zero _ _ _ b hb
    · exact toBytes_zero _ 8 b hb
    · exact bytes_zero _ b hb
    · exact sizeBytes_zero h b hb

theorem Sha256.wiped (h : Host) (o : Sha256.Obj) (w : Sha256.Wf o) : Wiped (Sha256.dtor h) o := by
  refine ⟨{ o with state := List.replicate 8 0, processed := 0, buffer := List.replicate (64 * 2) 0, bufferSize := 0 }, ?_, ?_⟩
  · simp only [Sha256.dtor]
    rw [erase_all _ 8 w.state, erase_all (p := 1) _ (64 * 2) w.buffer]
    rfl
  · intro b hb
    simp only [Sha256.dtor, List.mem_append] at hb
    rcases hb with ((hb | hb) | hb) | hb
    · exact image_zero _ _ _ b hb
    · exact toBytes_zero _ 8 b hb
    · exact bytes_zero _ b hb
    · exact sizeBytes_zero h b hb

theorem Sha512.wiped (h : Host) (o : Sha512.Obj) (w : Sha512.Wf o) : Wiped (Sha512.dtor h) o := by
  refine ⟨{ o with state := List.replicate 8 0, processed0 := 0, processed1 := 0, buffer := List.replicate (128 * 2) 0, bufferSize := 0 }, ?_, ?_⟩
  · simp only [Sha512.dtor]
    rw [erase_all _ 8 w.state, erase_all (p := 1) _ (128 * 2) w.buffer, erase_all (p := 8) [o.processed0, o.processed1] 2 rfl]
    rfl
  · intro b hb
    simp only [Sha512.dtor, List.mem_append] at hb
    rcases hb with (((hb | hb) | hb) | hb) | hb
    · exact image_zero _ _ _ b hb
    · exact toBytes_zero _ 8 b hb
    · exact toBytes_zero _ 8 b hb
    · exact bytes_zero _ b hb
    · exact sizeBytes_zero h b hb

theorem lawful_congr_wf {H : HashImpl} {F G : List Byte → List Byte} (h : F = G) (L : Lawful H F) : ∃ L' : Lawful H G, L'.Wf = L.Wf := by
  subst h; exact ⟨L, rfl⟩

/-- Every hash object can be destroyed and is then zero. -/
theorem shaWiped (h : Host) (a : ShaAlg) (ds : Nat) (hds : ds ≤ a.size) :
    ∃ L : Lawful (a.impl h ds) (fun m => (shaSpec a m).take ds), ∀ o, L.Wf o → Wiped (a.dtor h ds) o := by
  obtain ⟨L⟩ := shaLawful h a ds hds
  have key : ∀ {G : List Byte → List Byte} (L' : Lawful (a.impl h ds) G), G = (fun m => (shaSpec a m).take ds) → (∀ o, L'.Wf o → Wiped (a.dtor h ds) o) →
      ∃ L : Lawful (a.impl h ds) (fun m => (shaSpec a m).take ds), ∀ o, L.Wf o → Wiped (a.dtor h ds) o := by
    intro G L' hG hw
    subst hG
    exact ⟨L', hw⟩
  cases a with
  | sha_1_160 => exact ⟨Sha1.lawful h (Sha1.blocks_ok h) ds hds, fun o w => Sha1.wiped h o w⟩
  | sha_2_224 =>
    refine key (Sha256.lawful h (Sha256.blocks_ok h) 224 ds (.inl rfl) (by simp [ShaAlg.size] at hds; omega)) ?_ fun o w => Sha256.wiped h o w
    funext m
    simp only [Sha256.F, shaSpec, Spec.Sha.sha224, Sha256.iv224_eq]
    exact (take_take_min _ _ _ hds).symm
  | sha_2_256 =>
    refine key (Sha256.lawful h (Sha256.blocks_ok h) 256 ds (.inr rfl) (by simp [ShaAlg.size] at hds; omega)) ?_ fun o w => Sha256.wiped h o w
    funext m
    simp only [Sha256.F, shaSpec, Spec.Sha.sha256, Sha256.iv256_eq]; rfl
  | sha_2_384 =>
    refine key (Sha512.lawful h (Sha512.blocksSw_ok h) 384 ds (.inr (.inr (.inl rfl))) (by simp [ShaAlg.size] at hds; omega)) ?_ fun o w => Sha512.wiped h o w
    funext m
    simp only [Sha512.F, shaSpec, Spec.Sha.sha384, Sha512.iv384_eq]
    exact (take_take_min _ _ _ hds).symm
  | sha_2_512 =>
    refine key (Sha512.lawful h (Sha512.blocksSw_ok h) 512 ds (.inr (.inr (.inr rfl))) (by simp [ShaAlg.size] at hds; omega)) ?_ fun o w => Sha512.wiped h o w
    funext m
    simp only [Sha512.F, shaSpec, Spec.Sha.sha512, Sha512.iv512_eq]; rfl
  | sha_2_512_224 =>
    refine key (Sha512.lawful h (Sha512.blocksSw_ok h) 224 ds (.inl rfl) (by simp [ShaAlg.size] at hds; omega)) ?_ fun o w => Sha512.wiped h o w
    funext m
    simp only [Sha512.F, shaSpec, Spec.Sha.sha512_224, Sha512.iv224_eq]
    exact (take_take_min _ _ _ hds).symm
  | sha_2_512_256 =>
    refine key (Sha512.lawful h (Sha512.blocksSw_ok h) 256 ds (.inr (.inl rfl)) (by simp [ShaAlg.size] at hds; omega)) ?_ fun o w => Sha512.wiped h o w
    funext m
    simp only [Sha512.F, shaSpec, Spec.Sha.sha512_256, Sha512.iv256_eq]
    exact (take_take_min _ _ _ hds).symm

theorem Hmac.wiped {H : HashImpl} {F : List Byte → List Byte} (L : Lawful H F) (D : Dtor H.σ) (hD : ∀ o, L.Wf o → Wiped D o) (o : Hmac.Obj H) (w : Hmac.Wf L o) :
    Wiped (Hmac.dtor H D) o := by
  obtain ⟨s, e, z⟩ := hD _ w.1
  refine ⟨⟨s, List.replicate (H.blockSize * 2) 0⟩, ?_, ?_⟩
  · simp only [Hmac.dtor]
    rw [erase_all (p := 1) _ (H.blockSize * 2) (by rw [w.2, Nat.mul_comm]), e]
    rfl
  · intro b hb
    simp only [Hmac.dtor, List.mem_append] at hb
    rcases hb with hb | hb
    · exact z b hb
    · exact bytes_zero _ b hb

theorem Poly1305.wiped (h : Host) (o : Poly1305.Obj) (w : Poly1305.Wf o) : Wiped (Poly1305.dtor h) o := by
  refine ⟨{ o with keyR := List.replicate 8 0, keyS := List.replicate 4 0, acc := List.replicate 5 0, buffer := List.replicate 16 0, bufferSize := 0 }, ?_, ?_⟩
  · simp only [Poly1305.dtor]
    rw [erase_all _ 8 w.r, erase_all _ 4 w.s, erase_all _ 5 w.acc, erase_all (p := 1) _ 16 w.buffer]
    rfl
  · intro b hb
    simp only [Poly1305.dtor, List.mem_append] at hb
    rcases hb with (((hb | hb) | hb) | hb) | hb
    · exact image_zero _ _ _ b hb
    · exact image_zero _ _ _ b hb
    · exact image_zero _ _ _ b hb
    · exact bytes_zero _ b hb
    · exact sizeBytes_zero h b hb

/-- Every mac object can be destroyed and is then zero. -/
theorem macWiped (h : Host) (a : MacAlg) (ha : a.Ok) (ds : Nat) (hds : ds ≤ a.size) :
    ∃ L : LawfulMac (a.impl h ds) (fun k m => (Spec.macOn h.endian a k m).take ds), ∀ o, L.Wf o → Wiped (a.dtor h ds) o := by
  cases a with
  | hmac a hs =>
    obtain ⟨L, hL⟩ := shaWiped h a hs ha
    have hb := shaBlock_le a
    have ha' : hs ≤ a.size := ha
    obtain ⟨M, e, -, -⟩ := Hmac.lawful_block h L (shaBlock a) ds (shaBlockSize h a hs) (by rw [shaDigestSize]; exact hds) (by rw [shaDigestSize]; omega) (by omega)
    refine ⟨M, fun o w => ?_⟩
    rw [e] at w
    exact Hmac.wiped L _ hL o w
  | poly_1305 =>
    obtain ⟨M, e, -, -⟩ := Poly1305.lawful_spec h ds hds
    refine ⟨M, fun o w => ?_⟩
    rw [e] at w
    exact Poly1305.wiped h o w

theorem Hkdf.wiped (h : Host) {M : MacImpl} {F : List Byte → List Byte → List Byte} (L : LawfulMac M F) (D : Dtor M.σ) (hD : ∀ o, L.Wf o → Wiped D o)
    (sizes : Nat → Nat) (o : Hkdf.Obj M) (w : Hkdf.Wf L sizes o) : Wiped (Hkdf.dtor h M D) o := by
  obtain ⟨w1, -, w3, w4, -⟩ := w
  obtain ⟨s, e, z⟩ := hD _ w1
  refine ⟨{ o with hmac := s, counter := 0, prk := List.replicate M.digestSize 0, buffer := List.replicate M.digestSize 0, bufferSize := 0 }, ?_, ?_⟩
  · simp only [Hkdf.dtor]
    rw [erase_all (p := 1) _ _ w3, erase_all (p := 1) _ _ w4, e]
    rfl
  · intro b hb
    simp only [Hkdf.dtor, List.mem_append, List.mem_singleton] at hb
    rcases hb with (((hb | hb) | hb) | hb) | hb
    · exact z b hb
    · exact hb
    · exact bytes_zero _ b hb
    · exact bytes_zero _ b hb
    · exact sizeBytes_zero h b hb

theorem Pbkdf2.wiped (h : Host) {M : MacImpl} {F : List Byte → List Byte → List Byte} (L : LawfulMac M F) (D : Dtor M.σ) (hD : ∀ o, L.Wf o → Wiped D o)
    (sizes : Nat → Nat) (o : Pbkdf2.Obj M) (w : Pbkdf2.Wf L sizes o) : Wiped (Pbkdf2.dtor h M D) o := by
  obtain ⟨w1, -, -, w4, -⟩ := w
  obtain ⟨s, e, z⟩ := hD _ w1
  refine ⟨{ o with prf := s, iterations := 0, counter := 0, buffer := List.replicate M.digestSize 0, bufferSize := 0 }, ?_, ?_⟩
  · simp only [Pbkdf2.dtor]
    rw [erase_all (p := 1) _ _ w4, e]
    rfl
  · intro b hb
    simp only [Pbkdf2.dtor, List.mem_append] at hb
    rcases hb with (((hb | hb) | hb) | hb) | hb
    · exact z b hb
    · exact toBytes_zero _ 4 b hb
    · exact toBytes_zero _ 4 b hb
    · exact bytes_zero _ b hb
    · exact sizeBytes_zero h b hb

theorem ChaCha.wiped (h : Host) (B : ChaCha.Backend) (o : ChaCha.Obj) (w : ∃ st0 pos, ChaCha.Rep B st0 o pos) : Wiped (ChaCha.dtor h) o := by
  obtain ⟨st0, pos, w⟩ := w
  have h1 : o.state.length = 16 := by
    obtain ⟨h1, -, -, g, h2, -⟩ := w
    rw [h2, ChaCha.ctr_length, h1]
  have h2 : o.buffer.length = 64 * 8 := w.2.1
  refine ⟨⟨List.replicate 16 0, List.replicate (64 * 8) 0, 0⟩, ?_, ?_⟩
  · simp only [ChaCha.dtor]
    rw [erase_all _ 16 h1, erase_all (p := 1) _ (64 * 8) h2]
    rfl
  · intro b hb
    simp only [ChaCha.dtor, List.mem_append] at hb
    rcases hb with (hb | hb) | hb
    · exact image_zero _ _ _ b hb
    · exact bytes_zero _ b hb
    · exact sizeBytes_zero h b hb

theorem Aead.wiped (h : Host) (B : ChaCha.Backend) {M : MacImpl} {F : List Byte → List Byte → List Byte} (L : LawfulMac M F) (D : Dtor M.σ)
    (hD : ∀ o, L.Wf o → Wiped D o) (o : Aead.Obj M) (w : Aead.Base B L o) :
    ∃ o', (Aead.dtor h M D).destroy o = some o' ∧ (∀ b ∈ (Aead.dtor h M D).memory o', b = 0#8) ∧ o'.aadSize = o.aadSize ∧ o'.eddSize = o.eddSize := by
  obtain ⟨s, e, z⟩ := hD _ w.2
  obtain ⟨c, e1, z1⟩ := ChaCha.wiped h B o.cipher w.1
  refine ⟨{ o with cipher := c, mac := s }, ?_, ?_, rfl, rfl⟩
  · simp only [Aead.dtor]
    rw [e, e1]
    rfl
  · intro b hb
    simp only [Aead.dtor, List.mem_append] at hb
    rcases hb with hb | hb
    · exact z1 b hb
    · exact z b hb

end Milo
