import Verif.Proof.Sha1Asm
import Verif.Proof.Sha256Asm
import Verif.Proof.Sha1Hash
import Verif.Proof.Sha256Hash
import Verif.Proof.Sha512Hash
import Verif.Proof.HashApie
import Verif.Spec.ShaAlg
/- The seven hash classes are lawful. -/
namespace Milo
open Spec.Sha

/-- Whatever backend is chosen. -/
theorem Sha1.blocks_ok (h : Host) : BlocksOk 64 (fun st : List W32 => st.length = 5) Spec.Sha.Sha1.compress (Sha1.blocks h) := by
  unfold Sha1.blocks
  by_cases hc : h.consteval = true
  · rw [if_pos hc]; exact Sha1.blocksSw_ok h
  · rw [if_neg hc]
    cases h.sha with
    | none => exact Sha1.blocksSw_ok h
    | some junk => exact Sha1.Asm.blocks_ok junk

theorem Sha256.blocks_ok (h : Host) : BlocksOk 64 (fun st : List W32 => st.length = 8) Sha256.compress (Sha256.blocks h) := by
  unfold Sha256.blocks
  by_cases hc : h.consteval = true
  · rw [if_pos hc]; exact Sha256.blocksSw_ok h
  · rw [if_neg hc]
    cases h.sha with
    | none => exact Sha256.blocksSw_ok h
    | some junk => exact Sha256.Asm.blocks_ok junk

theorem lawful_congr {H : HashImpl} {F G : List Byte → List Byte} (h : F = G) (L : Lawful H F) : Nonempty (Lawful H G) := by
  subst h; exact ⟨L⟩

theorem take_take_min (l : List Byte) (a b : Nat) (h : a ≤ b) : (l.take b).take a = l.take a := by
  rw [List.take_take, Nat.min_eq_left h]

theorem shaLawful (h : Host) (a : ShaAlg) (ds : Nat) (hds : ds ≤ a.size) :
    Nonempty (Lawful (a.impl h ds) (fun m => (shaSpec a m).take ds)) := by
  cases a with
  | sha_1_160 => exact ⟨Sha1.lawful h (Sha1.blocks_ok h) ds hds⟩
  | sha_2_224 =>
    refine lawful_congr ?_ (Sha256.lawful h (Sha256.blocks_ok h) 224 ds (.inl rfl) (by simp [ShaAlg.size] at hds; omega))
    funext m
    simp only [Sha256.F, shaSpec, sha224, Sha256.iv224_eq]
    exact (take_take_min _ _ _ hds).symm
  | sha_2_256 =>
    refine lawful_congr ?_ (Sha256.lawful h (Sha256.blocks_ok h) 256 ds (.inr rfl) (by simp [ShaAlg.size] at hds; omega))
    funext m
    simp only [Sha256.F, shaSpec, sha256, Sha256.iv256_eq]; rfl
  | sha_2_384 =>
    refine lawful_congr ?_ (Sha512.lawful h (Sha512.blocksSw_ok h) 384 ds (.inr (.inr (.inl rfl))) (by simp [ShaAlg.size] at hds; omega))
    funext m
    simp only [Sha512.F, shaSpec, sha384, Sha512.iv384_eq]
    exact (take_take_min _ _ _ hds).symm
  | sha_2_512 =>
    refine lawful_congr ?_ (Sha512.lawful h (Sha512.blocksSw_ok h) 512 ds (.inr (.inr (.inr rfl))) (by simp [ShaAlg.size] at hds; omega))
    funext m
    simp only [Sha512.F, shaSpec, sha512, Sha512.iv512_eq]; rfl
  | sha_2_512_224 =>
    refine lawful_congr ?_ (Sha512.lawful h (Sha512.blocksSw_ok h) 224 ds (.inl rfl) (by simp [ShaAlg.size] at hds; omega))
    funext m
    simp only [Sha512.F, shaSpec, sha512_224, Sha512.iv224_eq]
    exact (take_take_min _ _ _ hds).symm
  | sha_2_512_256 =>
    refine lawful_congr ?_ (Sha512.lawful h (Sha512.blocksSw_ok h) 256 ds (.inr (.inl rfl)) (by simp [ShaAlg.size] at hds; omega))
    funext m
    simp only [Sha512.F, shaSpec, sha512_256, Sha512.iv256_eq]
    exact (take_take_min _ _ _ hds).symm

theorem shaDigestSize (h : Host) (a : ShaAlg) (ds : Nat) : (a.impl h ds).digestSize = ds := by cases a <;> rfl

theorem iterate_length {α : Type} (n B L : Nat) (compress : List α → List Byte → List α) (hc : ∀ st b, (compress st b).length = n) (iv : List α)
    (hiv : iv.length = n) (m : List Byte) : (iterate compress B L iv m).length = n := by
  unfold iterate
  generalize Spec.chunks B (pad B L m) = cs
  induction cs generalizing iv with
  | nil => exact hiv
  | cons c cs ih => exact ih _ (hc _ _)

theorem len32 (iv : List W32) (hiv : iv.length = 8) (m : List Byte) :
    (output (n := 4) (iterate (Sha2.compress p32) 64 8 iv m)).length = 32 :=
  (image_big_length 4 _).trans (congrArg (· * 4) (iterate_length 8 64 8 (Sha2.compress p32) (fun _ _ => rfl) iv hiv m))

theorem len64 (iv : List W64) (hiv : iv.length = 8) (m : List Byte) :
    (output (n := 8) (iterate (Sha2.compress p64) 128 16 iv m)).length = 64 :=
  (image_big_length 8 _).trans (congrArg (· * 8) (iterate_length 8 128 16 (Sha2.compress p64) (fun _ _ => rfl) iv hiv m))

/-- The digest sizes of FIPS 180-4. -/
theorem shaSpec_length (a : ShaAlg) (m : List Byte) : (shaSpec a m).length = a.size := by
  cases a
  · exact (image_big_length 4 _).trans (congrArg (· * 4) (iterate_length 5 64 8 Sha1.compress (fun _ _ => rfl) Sha1.iv rfl m))
  · exact List.length_take.trans (congrArg (min 28) (len32 iv224 rfl m))
  · exact len32 iv256 rfl m
  · exact List.length_take.trans (congrArg (min 48) (len64 iv384 rfl m))
  · exact len64 iv512 rfl m
  · exact List.length_take.trans (congrArg (min 28) (len64 _ (by rw [← Sha512.iv224_eq]; rfl) m))
  · exact List.length_take.trans (congrArg (min 32) (len64 _ (by rw [← Sha512.iv256_eq]; rfl) m))

theorem shaSpec_take (a : ShaAlg) (m : List Byte) : (shaSpec a m).take a.size = shaSpec a m :=
  List.take_of_length_le (Nat.le_of_eq (shaSpec_length a m))

end Milo
