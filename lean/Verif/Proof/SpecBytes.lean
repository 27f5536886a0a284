import Verif.Spec.Bytes
import Verif.Proof.Memory
/- The specification's byte strings and the model's. -/
namespace Milo.Memory
open Milo

theorem spec_leNat (bs : List Byte) : Spec.leNat bs = leNat bs := by
  induction bs with
  | nil => rfl
  | cons b bs ih => simp [Spec.leNat, leNat] at *; rw [ih]

theorem spec_beFold (b : List Byte) (acc : Nat) :
    b.foldl (fun acc b => acc * 256 + b.toNat) acc = acc * 256 ^ b.length + Spec.beNat b := by
  induction b generalizing acc with
  | nil => simp [Spec.beNat]
  | cons x b ih =>
    unfold Spec.beNat
    simp only [List.foldl_cons, List.length_cons]
    rw [ih, ih (0 * 256 + x.toNat), Nat.pow_succ, Nat.add_mul, Nat.zero_mul, Nat.zero_add, Nat.mul_assoc,
      Nat.mul_comm 256, Nat.add_assoc]

theorem spec_beNat_append (a b : List Byte) : Spec.beNat (a ++ b) = Spec.beNat a * 256 ^ b.length + Spec.beNat b := by
  conv => lhs; unfold Spec.beNat
  rw [List.foldl_append, spec_beFold]; rfl

theorem spec_beNat (bs : List Byte) : Spec.beNat bs = leNat bs.reverse := by
  induction bs with
  | nil => rfl
  | cons b bs ih =>
    have h1 : Spec.beNat (b :: bs) = Spec.beNat [b] * 256 ^ bs.length + Spec.beNat bs := spec_beNat_append [b] bs
    rw [h1, ih, List.reverse_cons, leNat_append]
    simp [Spec.beNat, leNat, Nat.mul_comm]; omega

theorem ofBytes_toNat (e : Endian) (n : Nat) (bs : List Byte) (h : bs.length = n) :
    (ofBytes e n bs).toNat = match e with | .little => Spec.leNat bs | .big => Spec.beNat bs := by
  subst h
  cases e
  · simp only [ofBytes, BitVec.toNat_ofNat, spec_leNat]
    rw [← pow256]; exact Nat.mod_eq_of_lt (leNat_lt bs)
  · simp only [ofBytes, BitVec.toNat_ofNat, spec_beNat]
    rw [← pow256]; exact Nat.mod_eq_of_lt (by have := leNat_lt bs.reverse; simpa using this)

theorem spec_leBytes (n x : Nat) : Spec.leBytes n x = toLE n x := by
  apply List.ext_getElem?
  intro i
  by_cases hi : i < n
  · rw [toLE_getElem _ _ _ hi]; simp [Spec.leBytes, hi]
  · rw [List.getElem?_eq_none (by simp [Spec.leBytes]; omega), List.getElem?_eq_none (by simp; omega)]

theorem spec_beBytes (n x : Nat) : Spec.beBytes n x = (toLE n x).reverse := by
  apply List.ext_getElem?
  intro i
  by_cases hi : i < n
  · rw [List.getElem?_reverse (by simpa using hi), toLE_length, toLE_getElem _ _ _ (by omega)]
    simp [Spec.beBytes, hi]
  · rw [List.getElem?_eq_none (by simp [Spec.beBytes]; omega), List.getElem?_eq_none (by simp; omega)]

theorem toBytes_big {n : Nat} (w : Word n) : toBytes .big w = Spec.beBytes n w.toNat := by rw [spec_beBytes]; rfl
theorem toBytes_little {n : Nat} (w : Word n) : toBytes .little w = Spec.leBytes n w.toNat := by rw [spec_leBytes]; rfl

theorem chunks_nil {α} (n : Nat) : Spec.chunks n ([] : List α) = [] := by unfold Spec.chunks; simp
theorem chunks_cons {α} (n : Nat) (hn : 0 < n) (a b : List α) (ha : a.length = n) : Spec.chunks n (a ++ b) = a :: Spec.chunks n b := by
  rw [Spec.chunks, dif_neg]
  · rw [List.take_left' ha, List.drop_left' ha]
  · rintro (h | h)
    · simp at h; rw [h.1] at ha; simp at ha; omega
    · omega

end Milo.Memory
