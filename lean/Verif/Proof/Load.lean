import Verif.Proof.Bytes
/- Semantics of `memory_load` in terms of the object representation. -/
namespace Milo.Memory
open Milo

theorem image_reverse {p : Nat} (xs : List (Word p)) : (image .big xs).reverse = image .little xs.reverse := by
  induction xs with
  | nil => rfl
  | cons x xs ih =>
    rw [image_cons, List.reverse_append, ih, List.reverse_cons, image_append, image_cons]
    simp [toBytes]

/-- Value accumulated most significant element first. -/
def horner {p : Nat} (xs : List (Word p)) (acc : Nat) : Nat := xs.foldl (fun a x => a * 256 ^ p + x.toNat) acc

theorem horner_append {p : Nat} (a b : List (Word p)) (acc : Nat) : horner (a ++ b) acc = horner b (horner a acc) := by
  simp [horner]

theorem leNat_toBytes_little {p : Nat} (x : Word p) : leNat (toBytes .little x) = x.toNat := by
  simp only [toBytes]; rw [leNat_toLE, pow256, Nat.mod_eq_of_lt x.isLt]

theorem horner_reverse {p : Nat} (xs : List (Word p)) : horner xs.reverse 0 = leNat (image .little xs) := by
  induction xs with
  | nil => rfl
  | cons x xs ih =>
    rw [List.reverse_cons, horner_append, ih, image_cons, leNat_append, leNat_toBytes_little, toBytes_length]
    simp only [horner, List.foldl_cons, List.foldl_nil]
    rw [Nat.mul_comm, Nat.add_comm]

theorem widen_eq (sgp : Bool) {v p : Nat} (h : p ≤ v) (x : Word p) : widen sgp v x = BitVec.ofNat (8 * v) x.toNat := by
  unfold widen
  apply BitVec.eq_of_getLsbD_eq
  intro i hi
  by_cases hp : i < 8 * p
  · cases sgp <;> simp [hi, hp, BitVec.getElem_signExtend]
  · cases sgp <;> simp [hi, hp, BitVec.getLsbD_ofNat]
    all_goals
      apply Nat.testBit_lt_two_pow
      exact Nat.lt_of_lt_of_le x.isLt (Nat.pow_le_pow_right (by omega) (by omega))

theorem shl_or (v p a b : Nat) (hb : b < 2 ^ (8 * p)) :
    ((BitVec.ofNat (8 * v) a) <<< (8 * p)) ||| BitVec.ofNat (8 * v) b = BitVec.ofNat (8 * v) (a * 256 ^ p + b) := by
  rw [← BitVec.add_eq_or_of_and_eq_zero]
  · apply BitVec.eq_of_toNat_eq
    simp [pow256, Nat.shiftLeft_eq]
  · apply BitVec.eq_of_getLsbD_eq
    intro i hi
    simp [BitVec.getLsbD_ofNat]
    intro _ h8 _ _ _
    apply Nat.testBit_lt_two_pow
    exact Nat.lt_of_lt_of_le hb (Nat.pow_le_pow_right (by omega) (by omega))

theorem gather_eq (sgp : Bool) {v p : Nat} (hpv : p ≤ v) (buf : List (Word p)) (seg : Nat) (is : List Nat)
    (xs : List (Word p)) (hx : is.map (fun i => buf[seg + i]?) = xs.map some) (acc : Nat) :
    gather sgp v buf seg is (BitVec.ofNat _ acc) = some (BitVec.ofNat _ (horner xs acc)) := by
  induction is generalizing xs acc with
  | nil => cases xs with
    | nil => rfl
    | cons _ _ => simp at hx
  | cons i is ih =>
    cases xs with
    | nil => simp at hx
    | cons x xs =>
      simp only [List.map_cons, List.cons.injEq] at hx
      unfold gather rd1
      rw [hx.1]
      simp only [Option.bind_eq_bind, Option.bind_some]
      rw [widen_eq sgp hpv, shl_or _ _ _ _ x.isLt, ih xs hx.2]
      rfl

theorem gather_none (sgp : Bool) {v p : Nat} (buf : List (Word p)) (seg : Nat) (is : List Nat)
    (h : ∃ i ∈ is, buf.length ≤ seg + i) (val : Word v) : gather sgp v buf seg is val = none := by
  induction is generalizing val with
  | nil => simp at h
  | cons i is ih =>
    unfold gather rd1
    by_cases hi : buf.length ≤ seg + i
    · simp [List.getElem?_eq_none hi]
    · rw [List.getElem?_eq_getElem (by omega)]
      simp only [Option.bind_eq_bind, Option.bind_some]
      apply ih
      obtain ⟨j, hj, hl⟩ := h
      rcases List.mem_cons.mp hj with rfl | hj
      · omega
      · exact ⟨j, hj, hl⟩

theorem range_map_get {p : Nat} (buf : List (Word p)) (seg k : Nat) (h : seg + k ≤ buf.length) :
    (List.range k).map (fun i => buf[seg + i]?) = ((buf.drop seg).take k).map some := by
  apply List.ext_getElem?
  intro i
  by_cases hi : i < k
  · simp [List.getElem?_take, List.getElem?_drop, hi]
    rw [List.getElem?_eq_getElem (by omega)]; simp
  · simp [List.getElem?_take, hi]

/-- The accumulation loop over `k` elements yields the value of their object representation. -/
theorem gather_image (sgp : Bool) (e : Endian) {v p : Nat} (hpv : p ≤ v) (buf : List (Word p)) (seg k : Nat)
    (h : seg + k ≤ buf.length) :
    gather sgp v buf seg (loadOrder e k) 0 = some (ofBytes e v (image e ((buf.drop seg).take k))) := by
  have h0 : (0 : Word v) = BitVec.ofNat _ 0 := rfl
  rw [h0]
  cases e with
  | little =>
    rw [gather_eq sgp hpv buf seg _ ((buf.drop seg).take k).reverse _ 0, horner_reverse]
    · rfl
    · simp only [loadOrder]
      rw [List.map_reverse, range_map_get _ _ _ h, List.map_reverse]
  | big =>
    rw [gather_eq sgp hpv buf seg _ ((buf.drop seg).take k) _ 0]
    · simp only [ofBytes]
      rw [image_reverse, ← horner_reverse, List.reverse_reverse]
    · simp only [loadOrder]
      exact range_map_get _ _ _ h

theorem gather_oob (sgp : Bool) (e : Endian) {v p : Nat} (buf : List (Word p)) (seg k : Nat) (hk : 0 < k)
    (h : ¬ seg + k ≤ buf.length) (val : Word v) : gather sgp v buf seg (loadOrder e k) val = none := by
  apply gather_none
  refine ⟨k - 1, ?_, by omega⟩
  cases e <;> simp [loadOrder] <;> omega

/-- The bytes of one element, seen as a sub-word. -/
theorem part_eq (e : Endian) {v p : Nat} (x : Word p) (o : Nat) (h : o + v ≤ p) :
    (x >>> partBits e v p o).setWidth (8 * v) = ofBytes e v (((toBytes e x).drop o).take v) := by
  apply BitVec.eq_of_toNat_eq
  cases e with
  | little =>
    simp only [toBytes, ofBytes, partBits, BitVec.toNat_setWidth, BitVec.toNat_ushiftRight, BitVec.toNat_ofNat]
    rw [toLE_drop _ _ _ (by omega), toLE_take _ _ _ (by omega), leNat_toLE, pow256, pow256, Nat.mod_mod,
      Nat.shiftRight_eq_div_pow]
  | big =>
    simp only [toBytes, ofBytes, partBits, BitVec.toNat_setWidth, BitVec.toNat_ushiftRight, BitVec.toNat_ofNat]
    rw [List.drop_reverse, List.take_reverse, List.reverse_reverse, toLE_length, List.length_take, toLE_length]
    rw [toLE_take _ _ _ (by omega), toLE_drop _ _ _ (by omega), leNat_toLE, pow256, pow256, Nat.shiftRight_eq_div_pow]
    rw [show min (p - o) p - v = p - o - v by omega, show 8 * (p - o - (p - o - v)) = 8 * v by omega, Nat.mod_mod,
      show 8 * (p - o - v) = 8 * p - 8 * o - 8 * v by omega]

theorem get_image (e : Endian) {p : Nat} (buf : List (Word p)) (i : Nat) (h : i < buf.length) :
    ((image e buf).drop (i * p)).take p = toBytes e buf[i] := by
  rw [image_drop, List.drop_eq_getElem_cons h, image_cons, List.take_left' (by simp)]

/-- Sizes the library combines: one is a multiple of the other. -/
def Compatible (v p : Nat) : Prop := 0 < v ∧ 0 < p ∧ (p ∣ v ∨ v ∣ p)

theorem setWidth_self {p : Nat} (x : Word p) : x.setWidth (8 * p) = x := BitVec.setWidth_eq x

/-- `memory_load` reads the `v` bytes at byte offset `off * v` of the object representation, in host order — whichever
branch (constant evaluation or run time) and whatever the signedness of the element type. -/
theorem load_eq (h : Host) (sgp : Bool) {v p : Nat} (hc : Compatible v p) (buf : List (Word p)) (off : Nat) :
    load h sgp v buf off = (rdN (image h.endian buf) (off * v) v).map (ofBytes h.endian v) := by
  obtain ⟨hv, hp, hdiv⟩ := hc
  unfold load
  by_cases hvp : v = p
  · subst hvp
    simp only [if_true, rd1, rdN, image_length]
    by_cases hlt : off < buf.length
    · rw [List.getElem?_eq_getElem hlt, if_pos]
      · simp [get_image, hlt, ofBytes_toBytes]
      · rw [← Nat.succ_mul]; exact Nat.mul_le_mul_right _ hlt
    · rw [List.getElem?_eq_none (by omega), if_neg]
      · rfl
      · rw [← Nat.succ_mul]; intro hle
        have := Nat.le_of_mul_le_mul_right hle hv
        omega
  · simp only [hvp, if_false]
    by_cases hce : h.consteval = true
    · simp only [hce, if_true]
      rcases hdiv with ⟨k, rfl⟩ | ⟨k, rfl⟩
      · -- wide value
        have hk : 0 < k := Nat.pos_of_ne_zero (by rintro rfl; simp at hv)
        have e1 : p * k % p = 0 := Nat.mul_mod_right p k
        have e2 : off * (p * k) / p = off * k := by
          rw [show off * (p * k) = p * (off * k) by rw [Nat.mul_left_comm], Nat.mul_div_cancel_left _ hp]
        have e3 : p * k / p = k := Nat.mul_div_cancel_left _ hp
        simp only [e1, e2, e3, Nat.lt_irrefl, gt_iff_lt, if_false]
        have e4 : off * (p * k) = off * k * p := by rw [Nat.mul_comm p k, Nat.mul_assoc]
        unfold rdN
        rw [image_length]
        by_cases hb : off * k + k ≤ buf.length
        · rw [gather_image _ _ (Nat.le_mul_of_pos_right p hk) _ _ _ hb, if_pos]
          · simp only [Option.map_some]
            rw [e4, image_drop, Nat.mul_comm p k, image_take]
          · rw [e4, Nat.mul_comm p k, ← Nat.add_mul]; exact Nat.mul_le_mul_right _ hb
        · rw [gather_oob _ _ _ _ _ hk hb, if_neg]
          · rfl
          · rw [e4, Nat.mul_comm p k, ← Nat.add_mul]; intro hle
            exact hb (Nat.le_of_mul_le_mul_right hle hp)
      · -- narrow value
        have hk : 0 < k := Nat.pos_of_ne_zero (by rintro rfl; simp at hp)
        have hk1 : k ≠ 1 := by rintro rfl; simp at hvp
        have hlt : v < v * k := by
          have : v * 1 < v * k := Nat.mul_lt_mul_of_pos_left (by omega) hv
          omega
        have e1 : v % (v * k) = v := Nat.mod_eq_of_lt hlt
        have e2 : off * v / (v * k) = off / k := by rw [Nat.mul_comm, Nat.mul_div_mul_left _ _ hv]
        have e3 : off * v % (v * k) = v * (off % k) := by rw [Nat.mul_comm off, Nat.mul_mod_mul_left]
        have hmod : off % k < k := Nat.mod_lt _ hk
        have hpart : v * (off % k) + v ≤ v * k := by
          rw [← Nat.mul_succ]; exact Nat.mul_le_mul_left _ hmod
        have e4 : off * v = off / k * (v * k) + v * (off % k) := by
          have := Nat.div_add_mod (off * v) (v * k)
          rw [e2, e3] at this
          rw [← this]; congr 1; exact Nat.mul_comm _ _
        simp only [e1, e2, e3, hv, gt_iff_lt, if_true]
        unfold rdN rd1
        rw [image_length]
        by_cases hb : off / k < buf.length
        · rw [List.getElem?_eq_getElem hb, if_pos]
          · simp only [Option.bind_eq_bind, Option.bind_some, Option.map_some]
            rw [e4, ← List.drop_drop, image_drop, List.drop_eq_getElem_cons hb, image_cons,
              List.drop_append_of_le_length (by simp; omega), List.take_append_of_le_length (by simp; omega)]
            rw [← part_eq _ _ _ hpart]
            simp
          · rw [e4, Nat.add_assoc]
            exact Nat.le_trans (Nat.add_le_add_left hpart _) (by rw [← Nat.succ_mul]; exact Nat.mul_le_mul_right _ hb)
        · rw [List.getElem?_eq_none (by omega), if_neg]
          · rfl
          · intro hle
            have : buf.length * (v * k) ≤ off / k * (v * k) := Nat.mul_le_mul_right _ (by omega)
            omega
    · simp only [hce, Bool.false_eq_true, if_false]
      cases rdN (image h.endian buf) (off * v) v <;> rfl

end Milo.Memory
