import Verif.Proof.ShaAlg
import Verif.Proof.Hmac
import Verif.Proof.PolyHash
import Verif.Spec.MacAlg
/- The mac classes are lawful. -/
namespace Milo
open Memory

theorem fit_padTo (n : Nat) (l : List Byte) : fit n l = Spec.padTo n l := by
  unfold fit Spec.padTo
  rw [List.take_append, List.take_replicate]
  congr 2; omega

theorem toBytes_little_ofBytes_big (n : Nat) (bs : List Byte) (h : bs.length = n) : toBytes .little (ofBytes .big n bs) = bs.reverse := by
  have := toBytes_ofBytes .little n bs.reverse (by simp [h])
  simpa [ofBytes] using this

theorem image_swap (n : Nat) (bs : List Byte) (h : bs.length = n * 4) : image .little (ofImage .big 4 n bs) = Spec.swapWords bs := by
  induction n generalizing bs with
  | zero =>
    have : bs = [] := List.length_eq_zero_iff.mp (by omega)
    subst this
    simp [ofImage, Spec.swapWords, chunks_nil]
  | succ n ih =>
    have e : bs = bs.take 4 ++ bs.drop 4 := by simp
    have hl : (bs.take 4).length = 4 := by simp; omega
    simp only [ofImage, image_cons]
    rw [toBytes_little_ofBytes_big _ _ hl, ih (bs.drop 4) (by simp; omega)]
    unfold Spec.swapWords
    conv => rhs; rw [e, chunks_cons 4 (by omega) _ _ hl]
    simp

theorem polyF_eq (h : Host) (ds : Nat) : Poly1305.F h ds = fun k m => (Spec.macOn h.endian .poly_1305 k m).take ds := by
  funext k m
  unfold Poly1305.F Poly1305.seen Spec.macOn
  congr 2
  cases h.endian with
  | little => simp only; rw [image_ofImage _ _ _ _ (by simp), fit_padTo]
  | big => simp only; rw [image_swap _ _ (by simp), fit_padTo]

theorem shaBlockSize (h : Host) (a : ShaAlg) (ds : Nat) : (a.impl h ds).blockSize = shaBlock a := by cases a <;> rfl

theorem shaBlock_le (a : ShaAlg) : a.size ≤ shaBlock a ∧ shaBlock a ≤ 128 := by cases a <;> decide

theorem macLawful (h : Host) (a : MacAlg) (ha : a.Ok) (ds : Nat) (hds : ds ≤ a.size) :
    Nonempty (LawfulMac (a.impl h ds) (fun k m => (Spec.macOn h.endian a k m).take ds)) := by
  cases a with
  | hmac a hs =>
    obtain ⟨L⟩ := shaLawful h a hs ha
    have hb := shaBlock_le a
    have ha' : hs ≤ a.size := ha
    have := Hmac.lawful h L ds (by rw [shaDigestSize]; exact hds) (by rw [shaDigestSize, shaBlockSize]; omega)
      (by rw [shaBlockSize]; omega)
    rw [shaBlockSize] at this
    exact ⟨this⟩
  | poly_1305 =>
    have L := Poly1305.lawful h ds hds
    rw [polyF_eq] at L
    exact ⟨L⟩

theorem macDigestSize (h : Host) (a : MacAlg) (ds : Nat) : (a.impl h ds).digestSize = ds := by cases a <;> rfl

end Milo
