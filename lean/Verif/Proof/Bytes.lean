import Verif.Model.Memory
import Verif.Proof.Buf
/- Lemmas about byte representations. -/
namespace Milo.Memory
open Milo

@[simp] theorem toLE_length (n w : Nat) : (toLE n w).length = n := by
  induction n generalizing w with
  | zero => rfl
  | succ n ih => simp [toLE, ih]

theorem leNat_lt (bs : List Byte) : leNat bs < 256 ^ bs.length := by
  induction bs with
  | nil => simp [leNat]
  | cons b bs ih =>
    have := b.isLt
    simp only [leNat, List.length_cons, Nat.pow_succ]
    omega

theorem leNat_toLE (n w : Nat) : leNat (toLE n w) = w % 256 ^ n := by
  induction n generalizing w with
  | zero => simp [toLE, leNat, Nat.mod_one]
  | succ n ih =>
    have h8 : (2 : Nat) ^ 8 = 256 := rfl
    simp only [toLE, leNat, ih, BitVec.toNat_ofNat, h8]
    rw [Nat.pow_succ, Nat.mul_comm (256 ^ n) 256, Nat.mod_mul]

theorem toLE_leNat (bs : List Byte) : toLE bs.length (leNat bs) = bs := by
  induction bs with
  | nil => rfl
  | cons b bs ih =>
    simp only [List.length_cons, toLE, leNat]
    have hb := b.isLt
    have h1 : (b.toNat + 256 * leNat bs) / 256 = leNat bs := by omega
    rw [h1, ih]
    congr 1
    apply BitVec.eq_of_toNat_eq; simp; omega

theorem toLE_leNat' {n : Nat} {bs : List Byte} (h : bs.length = n) : toLE n (leNat bs) = bs := by
  subst h; exact toLE_leNat bs

theorem toLE_mod (n w : Nat) : toLE n (w % 256 ^ n) = toLE n w := by
  rw [← leNat_toLE]; exact toLE_leNat' (by simp)

theorem leNat_append (a b : List Byte) : leNat (a ++ b) = leNat a + 256 ^ a.length * leNat b := by
  induction a with
  | nil => simp [leNat]
  | cons x a ih =>
    simp only [List.cons_append, leNat, ih, List.length_cons, Nat.pow_succ]
    rw [Nat.mul_add, Nat.mul_comm (256 ^ a.length) 256, Nat.mul_assoc]; omega

theorem toLE_add (n m w : Nat) : toLE (n + m) w = toLE n w ++ toLE m (w / 256 ^ n) := by
  induction n generalizing w with
  | zero => simp [toLE]
  | succ n ih =>
    rw [show n + 1 + m = (n + m) + 1 by omega]
    simp only [toLE, ih, List.cons_append]
    rw [Nat.div_div_eq_div_mul, Nat.pow_succ, Nat.mul_comm 256]

theorem toLE_take (n k w : Nat) (h : k ≤ n) : (toLE n w).take k = toLE k w := by
  obtain ⟨m, rfl⟩ := Nat.exists_eq_add_of_le h
  rw [toLE_add, List.take_left' (by simp)]

theorem toLE_drop (n k w : Nat) (h : k ≤ n) : (toLE n w).drop k = toLE (n - k) (w / 256 ^ k) := by
  obtain ⟨m, rfl⟩ := Nat.exists_eq_add_of_le h
  rw [toLE_add, List.drop_left' (by simp)]; congr 1; omega

theorem leNat_replicate_zero (n : Nat) : leNat (List.replicate n 0#8) = 0 := by
  induction n with
  | zero => rfl
  | succ n ih => simp [List.replicate_succ, leNat, ih]

theorem pow256 (n : Nat) : (256 : Nat) ^ n = 2 ^ (8 * n) := by
  rw [show (256 : Nat) = 2 ^ 8 by rfl, ← Nat.pow_mul]

@[simp] theorem toBytes_length (e : Endian) {n : Nat} (w : Word n) : (toBytes e w).length = n := by
  cases e <;> simp [toBytes]

theorem toBytes_ofBytes (e : Endian) (n : Nat) (bs : List Byte) (h : bs.length = n) : toBytes e (ofBytes e n bs) = bs := by
  subst h
  cases e
  · simp only [toBytes, ofBytes, BitVec.toNat_ofNat, ← pow256]
    rw [toLE_mod, toLE_leNat]
  · simp only [toBytes, ofBytes, BitVec.toNat_ofNat, ← pow256]
    rw [toLE_mod, toLE_leNat' (by simp), List.reverse_reverse]

theorem ofBytes_toBytes (e : Endian) {n : Nat} (w : Word n) : ofBytes e n (toBytes e w) = w := by
  have hw := w.isLt
  cases e
  · simp only [toBytes, ofBytes]; rw [leNat_toLE, pow256, Nat.mod_eq_of_lt hw]; simp
  · simp only [toBytes, ofBytes, List.reverse_reverse]; rw [leNat_toLE, pow256, Nat.mod_eq_of_lt hw]; simp

@[simp] theorem image_length (e : Endian) {p : Nat} (buf : List (Word p)) : (image e buf).length = buf.length * p := by
  induction buf with
  | nil => simp [image]
  | cons x buf ih => simp [image] at *; rw [ih, Nat.add_mul]; omega

theorem image_append (e : Endian) {p : Nat} (a b : List (Word p)) : image e (a ++ b) = image e a ++ image e b := by
  simp [image]

theorem image_cons (e : Endian) {p : Nat} (a : Word p) (b : List (Word p)) : image e (a :: b) = toBytes e a ++ image e b := by
  simp [image]

@[simp] theorem image_nil (e : Endian) {p : Nat} : image e ([] : List (Word p)) = [] := rfl

theorem image_drop (e : Endian) {p : Nat} (buf : List (Word p)) (i : Nat) :
    (image e buf).drop (i * p) = image e (buf.drop i) := by
  by_cases h : i ≤ buf.length
  · have : buf = buf.take i ++ buf.drop i := by simp
    conv => lhs; rw [this]
    rw [image_append, List.drop_left' (by simp [Nat.min_eq_left h])]
  · rw [List.drop_eq_nil_of_le (as := buf) (by omega), List.drop_eq_nil_of_le]
    · rfl
    · rw [image_length]; exact Nat.mul_le_mul_right _ (by omega)

theorem image_take (e : Endian) {p : Nat} (buf : List (Word p)) (i : Nat) :
    (image e buf).take (i * p) = image e (buf.take i) := by
  by_cases h : i ≤ buf.length
  · have : buf = buf.take i ++ buf.drop i := by simp
    conv => lhs; rw [this]
    rw [image_append, List.take_left' (by simp [Nat.min_eq_left h])]
  · rw [List.take_of_length_le (l := buf) (by omega), List.take_of_length_le]
    rw [image_length]; exact Nat.mul_le_mul_right _ (by omega)

theorem ofImage_image (e : Endian) {p : Nat} (buf : List (Word p)) : ofImage e p buf.length (image e buf) = buf := by
  induction buf with
  | nil => rfl
  | cons x buf ih =>
    simp only [List.length_cons, ofImage, image_cons]
    rw [List.take_left' (by simp), List.drop_left' (by simp), ofBytes_toBytes, ih]

theorem image_ofImage (e : Endian) (p n : Nat) (bs : List Byte) (h : bs.length = n * p) : image e (ofImage e p n bs) = bs := by
  induction n generalizing bs with
  | zero => simp at h; subst h; rfl
  | succ n ih =>
    rw [Nat.add_mul, Nat.one_mul] at h
    simp only [ofImage, image_cons]
    rw [toBytes_ofBytes _ _ _ (by simp; omega), ih _ (by simp; omega), List.take_append_drop]

@[simp] theorem ofImage_length (e : Endian) (p n : Nat) (bs : List Byte) : (ofImage e p n bs).length = n := by
  induction n generalizing bs with
  | zero => rfl
  | succ n ih => simp [ofImage, ih]

/-- Two arrays of the same length with the same object representation are equal. -/
theorem image_inj (e : Endian) {p : Nat} {a b : List (Word p)} (hl : a.length = b.length) (h : image e a = image e b) :
    a = b := by
  rw [← ofImage_image e a, ← ofImage_image e b, h, hl]

@[simp] theorem image_bytes (e : Endian) (buf : List (Word 1)) : image e buf = buf := by
  induction buf with
  | nil => rfl
  | cons b buf ih =>
    rw [image_cons, ih]
    cases e <;> simp [toBytes, toLE]

@[simp] theorem image_bytes' (e : Endian) (buf : List Byte) : image (p := 1) e buf = buf := image_bytes e buf

@[simp] theorem ofImage_bytes (e : Endian) (buf : List Byte) : ofImage e 1 buf.length buf = buf := by
  have := ofImage_image (p := 1) e buf
  rwa [image_bytes'] at this

theorem ofImage_bytes' (e : Endian) (n : Nat) (buf : List Byte) (h : buf.length = n) : ofImage e 1 n buf = buf := by
  subst h; exact ofImage_bytes e buf

end Milo.Memory
