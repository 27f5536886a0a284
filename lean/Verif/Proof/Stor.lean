import Verif.Proof.Load
/- Semantics of `memory_stor` in terms of the object representation. -/
namespace Milo.Memory
open Milo

theorem wrN_some {α} (buf xs : List α) (off : Nat) (h : off + xs.length ≤ buf.length) :
    wrN buf off xs = some (buf.take off ++ xs ++ buf.drop (off + xs.length)) := by simp [wrN, h]

theorem ofImage_eq (e : Endian) {p : Nat} (out : List (Word p)) (n : Nat) (bs : List Byte) (hn : out.length = n)
    (h : image e out = bs) : out = ofImage e p n bs := by
  subst hn h; exact (ofImage_image e out).symm

theorem set_image (e : Endian) {p : Nat} (buf : List (Word p)) (i : Nat) (x : Word p) (h : i < buf.length) :
    image e (buf.set i x) = (image e buf).take (i * p) ++ toBytes e x ++ (image e buf).drop (i * p + p) := by
  rw [image_take, ← Nat.succ_mul, image_drop, List.set_eq_take_append_cons_drop, if_pos h, image_append, image_cons,
    List.append_assoc]

/-- Byte `j` of a word. -/
theorem toLE_getElem (n w j : Nat) (h : j < n) : (toLE n w)[j]? = some (BitVec.ofNat 8 (w / 256 ^ j)) := by
  induction n generalizing w j with
  | zero => omega
  | succ n ih =>
    cases j with
    | zero => simp [toLE]
    | succ j =>
      simp only [toLE, List.getElem?_cons_succ]
      rw [ih _ _ (by omega), Nat.div_div_eq_div_mul, Nat.pow_succ, Nat.mul_comm 256]

theorem byte_bit {n : Nat} (w : Word n) (j b : Nat) (hb : b < 8) :
    (BitVec.ofNat 8 (w.toNat / 256 ^ j)).getLsbD b = w.getLsbD (8 * j + b) := by
  rw [BitVec.getLsbD_ofNat, pow256, ← Nat.shiftRight_eq_div_pow, Nat.testBit_shiftRight]
  simp [hb, BitVec.getLsbD]

/-- Two words agree when their bytes do. -/
theorem toLE_ext {n : Nat} (w : Word n) (bs : List Byte) (hl : bs.length = n)
    (h : ∀ j b, j < n → b < 8 → ∃ x, bs[j]? = some x ∧ x.getLsbD b = w.getLsbD (8 * j + b)) : toLE n w.toNat = bs := by
  apply List.ext_getElem?
  intro j
  by_cases hj : j < n
  · obtain ⟨x, hx, _⟩ := h j 0 hj (by omega)
    rw [toLE_getElem _ _ _ hj, hx]
    congr 1
    apply BitVec.eq_of_getLsbD_eq
    intro b hb
    obtain ⟨y, hy, hyb⟩ := h j b hj hb
    rw [byte_bit _ _ _ hb, ← hyb]
    rw [hx] at hy; cases hy; rfl
  · rw [List.getElem?_eq_none (by simp; omega), List.getElem?_eq_none (by omega)]

theorem insertBits_bytes {v p : Nat} (x : Word p) (val : Word v) (o : Nat) (h : o + v ≤ p) :
    toLE p (insertBits x val (8 * o)).toNat = (toLE p x.toNat).take o ++ toLE v val.toNat ++ (toLE p x.toNat).drop (o + v) := by
  apply toLE_ext
  · simp; omega
  intro j b hj hb
  unfold insertBits
  have hi : 8 * j + b < 8 * p := by omega
  by_cases h1 : j < o
  · refine ⟨BitVec.ofNat 8 (x.toNat / 256 ^ j), ?_, ?_⟩
    · rw [List.append_assoc, List.getElem?_append_left (by simp; omega), List.getElem?_take_of_lt h1, toLE_getElem _ _ _ hj]
    · rw [byte_bit _ _ _ hb]
      have : 8 * j + b < 8 * o := by omega
      simp [this, hi]
  by_cases h2 : j < o + v
  · refine ⟨BitVec.ofNat 8 (val.toNat / 256 ^ (j - o)), ?_, ?_⟩
    · rw [List.append_assoc, List.getElem?_append_right (by simp; omega), List.length_take, toLE_length,
        Nat.min_eq_left (by omega), List.getElem?_append_left (by simp; omega), toLE_getElem _ _ _ (by omega)]
    · rw [byte_bit _ _ _ hb]
      have a1 : ¬ 8 * j + b < 8 * o := by omega
      have a2 : 8 * j + b - 8 * o < 8 * v := by omega
      have a3 : 8 * j + b - 8 * o < 8 * p := by omega
      have a4 : 8 * j + b - 8 * o = 8 * (j - o) + b := by omega
      simp [a1, a2, a3, hi, ← a4]
  · refine ⟨BitVec.ofNat 8 (x.toNat / 256 ^ j), ?_, ?_⟩
    · rw [List.getElem?_append_right (by simp; omega), List.length_append, List.length_take, toLE_length, toLE_length,
        Nat.min_eq_left (by omega), List.getElem?_drop, ← toLE_getElem _ _ _ hj]
      congr 1; omega
    · rw [byte_bit _ _ _ hb]
      have a1 : ¬ 8 * j + b < 8 * o := by omega
      have a2 : ¬ 8 * j + b - 8 * o < 8 * v := by omega
      have a3 : val.getLsbD (8 * j + b - 8 * o) = false := BitVec.getLsbD_of_ge _ _ (by omega)
      simp [a1, a2, a3, hi]

theorem insert_eq (e : Endian) {v p : Nat} (x : Word p) (val : Word v) (o : Nat) (h : o + v ≤ p) :
    toBytes e (insertBits x val (partBits e v p o))
      = (toBytes e x).take o ++ toBytes e val ++ (toBytes e x).drop (o + v) := by
  cases e with
  | little => simp only [toBytes, partBits]; exact insertBits_bytes x val o h
  | big =>
    simp only [toBytes, partBits]
    rw [show 8 * p - 8 * o - 8 * v = 8 * (p - o - v) by omega, insertBits_bytes x val _ (by omega)]
    simp only [List.reverse_append, List.take_reverse, List.drop_reverse, toLE_length, List.append_assoc]
    rw [show p - o - v + v = p - o by omega, show p - o - v = p - (o + v) by omega]

/-- Little endian stores: ascending elements. -/
theorem scatter_asc {v p : Nat} (seg s k : Nat) (val : Word v) (pre mid post : List (Word p)) (hpk : p * k ≤ v)
    (hpre : pre.length = seg + s) (hmid : mid.length = k) :
    ∃ ws : List (Word p), ws.length = k ∧ scatter seg (List.range' s k) val (pre ++ mid ++ post) = some (pre ++ ws ++ post) ∧
      image .little ws = toLE (p * k) val.toNat := by
  induction k generalizing s val pre mid with
  | zero =>
    simp at hmid; subst hmid
    exact ⟨[], rfl, by simp [scatter], by simp [toLE]⟩
  | succ k ih =>
    rw [Nat.mul_succ] at hpk
    match mid, hmid with
    | m :: mid, hmid =>
      simp only [List.length_cons, Nat.add_right_cancel_iff] at hmid
      obtain ⟨ws, hl, hs, hi⟩ := ih (s + 1) (val >>> (8 * p)) (pre ++ [val.setWidth (8 * p)]) mid (by omega)
        (by simp; omega) hmid
      refine ⟨val.setWidth (8 * p) :: ws, by simp [hl], ?_, ?_⟩
      · rw [List.range'_succ]
        unfold scatter
        rw [List.append_assoc, List.cons_append, wr1_append' _ _ _ _ _ hpre.symm]
        simp only [Option.bind_eq_bind, Option.bind_some]
        simp only [List.append_assoc, List.cons_append, List.nil_append] at hs ⊢
        exact hs
      · rw [image_cons, hi, Nat.mul_succ, Nat.add_comm (p * k) p, toLE_add]
        simp only [toBytes, BitVec.toNat_setWidth, BitVec.toNat_ushiftRight]
        rw [← pow256, toLE_mod, Nat.shiftRight_eq_div_pow, ← pow256]

/-- Big endian stores: descending elements. -/
theorem scatter_desc {v p : Nat} (seg k : Nat) (val : Word v) (pre mid post : List (Word p)) (hpk : p * k ≤ v)
    (hpre : pre.length = seg) (hmid : mid.length = k) :
    ∃ ws : List (Word p), ws.length = k ∧ scatter seg (List.range k).reverse val (pre ++ mid ++ post) = some (pre ++ ws ++ post) ∧
      image .big ws = (toLE (p * k) val.toNat).reverse := by
  induction k generalizing val mid post with
  | zero =>
    simp at hmid; subst hmid
    exact ⟨[], rfl, by simp [scatter], by simp [toLE]⟩
  | succ k ih =>
    rw [Nat.mul_succ] at hpk
    have hne : mid ≠ [] := by rintro rfl; simp at hmid
    obtain ⟨mid', m, rfl⟩ : ∃ mid' m, mid = mid' ++ [m] := ⟨_, _, (List.dropLast_concat_getLast hne).symm⟩
    simp only [List.length_append, List.length_cons, List.length_nil, Nat.add_right_cancel_iff, Nat.zero_add] at hmid
    obtain ⟨ws, hl, hs, hi⟩ := ih (val >>> (8 * p)) mid' (val.setWidth (8 * p) :: post) (by omega) hmid
    refine ⟨ws ++ [val.setWidth (8 * p)], by simp [hl], ?_, ?_⟩
    · rw [List.range_succ, List.reverse_append, List.reverse_singleton, List.singleton_append]
      unfold scatter
      rw [show pre ++ (mid' ++ [m]) ++ post = (pre ++ mid') ++ m :: post by simp,
        wr1_append' _ _ _ _ _ (by simp [hpre, hmid])]
      simp only [Option.bind_eq_bind, Option.bind_some]
      rw [hs]; simp
    · rw [image_append, image_cons, image_nil, List.append_nil, hi, Nat.mul_succ, Nat.add_comm (p * k) p, toLE_add,
        List.reverse_append]
      simp only [toBytes, BitVec.toNat_setWidth, BitVec.toNat_ushiftRight]
      rw [← pow256, toLE_mod, Nat.shiftRight_eq_div_pow, ← pow256]

theorem scatter_none {v p : Nat} (seg : Nat) (is : List Nat) (val : Word v) (buf : List (Word p))
    (h : ∃ i ∈ is, buf.length ≤ seg + i) : scatter seg is val buf = none := by
  induction is generalizing val buf with
  | nil => simp at h
  | cons i is ih =>
    unfold scatter
    by_cases hi : seg + i < buf.length
    · rw [wr1_isSome _ _ _ hi]
      simp only [Option.bind_eq_bind, Option.bind_some]
      apply ih
      obtain ⟨j, hj, hl⟩ := h
      rcases List.mem_cons.mp hj with rfl | hj
      · omega
      · exact ⟨j, hj, by simpa using hl⟩
    · simp [wr1, hi]

theorem toBytes_take (e : Endian) {v : Nat} (val : Word v) (m : Nat) (hm : m ≤ v) :
    (toBytes e val).take m = match e with
      | .little => toLE m val.toNat
      | .big => (toLE m (val.toNat / 256 ^ (v - m))).reverse := by
  cases e with
  | little => exact toLE_take _ _ _ hm
  | big =>
    simp only [toBytes]
    rw [List.take_reverse, toLE_length, toLE_drop _ _ _ (by omega), show v - (v - m) = m by omega]

/-- Stores of `k` elements. `val` has been shifted down on big endian hosts when fewer than all elements are stored. -/
theorem scatter_image (e : Endian) {v p : Nat} (seg k : Nat) (val : Word v) (buf : List (Word p)) (hpk : p * k ≤ v)
    (hb : seg + k ≤ buf.length) :
    ∃ out, scatter seg (storOrder e k) val buf = some out ∧ out.length = buf.length ∧
      image e out = (image e buf).take (seg * p) ++
        (match e with | .little => toLE (p * k) val.toNat | .big => (toLE (p * k) val.toNat).reverse) ++
        (image e buf).drop (seg * p + p * k) := by
  have hsplit : buf = buf.take seg ++ (buf.drop seg).take k ++ buf.drop (seg + k) := by
    rw [← List.drop_drop, List.append_assoc, List.take_append_drop, List.take_append_drop]
  have hl1 : (buf.take seg).length = seg := by simp; omega
  have hl2 : ((buf.drop seg).take k).length = k := by simp; omega
  have hpost : (image e buf).drop (seg * p + p * k) = image e (buf.drop (seg + k)) := by
    rw [← image_drop, Nat.add_mul, Nat.mul_comm k p]
  cases e with
  | little =>
    obtain ⟨ws, hl, hs, hi⟩ := scatter_asc seg 0 k val (buf.take seg) ((buf.drop seg).take k) (buf.drop (seg + k)) hpk
      (by omega) hl2
    rw [← hsplit] at hs
    refine ⟨_, by simpa [storOrder, List.range_eq_range'] using hs, by simp [hl]; omega, ?_⟩
    simp only [image_append, hi, image_take, hpost, List.append_assoc]
  | big =>
    obtain ⟨ws, hl, hs, hi⟩ := scatter_desc seg k val (buf.take seg) ((buf.drop seg).take k) (buf.drop (seg + k)) hpk
      hl1 hl2
    rw [← hsplit] at hs
    refine ⟨_, by simpa [storOrder] using hs, by simp [hl]; omega, ?_⟩
    simp only [image_append, hi, image_take, hpost, List.append_assoc]

theorem scatter_oob (e : Endian) {v p : Nat} (seg k : Nat) (val : Word v) (buf : List (Word p)) (hk : 0 < k)
    (hb : ¬ seg + k ≤ buf.length) : scatter seg (storOrder e k) val buf = none := by
  apply scatter_none
  refine ⟨k - 1, ?_, by omega⟩
  cases e <;> simp [storOrder] <;> omega

/-- The narrow-value store. -/
theorem insert_stor (e : Endian) {v k : Nat} (hv : 0 < v) (hk : 0 < k) (buf : List (Word (v * k))) (off : Nat)
    (val : Word v) :
    (rd1 buf (off / k)).bind (fun x => wr1 buf (off / k) (insertBits x val (partBits e v (v * k) (v * (off % k)))))
      = (wrN (image e buf) (off * v) (toBytes e val)).map (ofImage e (v * k) buf.length) := by
  have e2 : off * v / (v * k) = off / k := by rw [Nat.mul_comm, Nat.mul_div_mul_left _ _ hv]
  have e3 : off * v % (v * k) = v * (off % k) := by rw [Nat.mul_comm off, Nat.mul_mod_mul_left]
  have hmod : off % k < k := Nat.mod_lt _ hk
  have hpart : v * (off % k) + v ≤ v * k := by rw [← Nat.mul_succ]; exact Nat.mul_le_mul_left _ hmod
  have e4 : off * v = off / k * (v * k) + v * (off % k) := by
    have := Nat.div_add_mod (off * v) (v * k)
    rw [e2, e3] at this
    rw [← this]; congr 1; exact Nat.mul_comm _ _
  unfold rd1
  by_cases hb : off / k < buf.length
  · have hle : off * v + v ≤ buf.length * (v * k) := by
      rw [e4, Nat.add_assoc]
      exact Nat.le_trans (Nat.add_le_add_left hpart _) (by rw [← Nat.succ_mul]; exact Nat.mul_le_mul_right _ hb)
    rw [List.getElem?_eq_getElem hb, wrN_some _ _ _ (by simpa using hle)]
    simp only [Option.bind_some, wr1, hb, if_true, Option.map_some]
    congr 1
    apply ofImage_eq
    · simp
    · rw [set_image _ _ _ _ hb, insert_eq _ _ _ _ hpart, ← get_image e buf _ hb]
      generalize himg : image e buf = I
      have hI : I.length = buf.length * (v * k) := by rw [← himg, image_length]
      rw [toBytes_length, List.take_take, Nat.min_eq_left (by omega), List.drop_take, List.drop_drop, e4]
      simp only [List.append_assoc]
      rw [List.take_add, List.append_assoc]
      congr 1; congr 1; congr 1
      generalize ha : off / k * (v * k) = a
      generalize hc : v * (off % k) = c at hpart
      generalize v * k = n at hpart
      rw [show a + n = a + (c + v) + (n - (c + v)) by omega, ← List.drop_drop (i := n - (c + v)),
        List.take_append_drop, Nat.add_assoc]
  · rw [List.getElem?_eq_none (by omega)]
    unfold wrN
    rw [if_neg]
    · rfl
    · rw [toBytes_length, image_length]
      intro hle
      have : buf.length * (v * k) ≤ off / k * (v * k) := Nat.mul_le_mul_right _ (by omega)
      omega

theorem wr1_stor (e : Endian) {v : Nat} (hv : 0 < v) (buf : List (Word v)) (off : Nat) (val : Word v) :
    wr1 buf off val = (wrN (image e buf) (off * v) (toBytes e val)).map (ofImage e v buf.length) := by
  by_cases hb : off < buf.length
  · have hle : off * v + v ≤ buf.length * v := by rw [← Nat.succ_mul]; exact Nat.mul_le_mul_right _ hb
    rw [wrN_some _ _ _ (by simpa using hle)]
    simp only [wr1, hb, if_true, Option.map_some]
    congr 1
    apply ofImage_eq
    · simp
    · rw [set_image _ _ _ _ hb]; simp
  · unfold wrN
    rw [if_neg]
    · simp [wr1, hb]
    · rw [toBytes_length, image_length]
      intro hle
      rw [← Nat.succ_mul] at hle
      have := Nat.le_of_mul_le_mul_right hle hv
      omega

/-- `memory_stor` replaces the `v` bytes at byte offset `off * v` of the object representation — in either branch. -/
theorem stor_eq (h : Host) {v p : Nat} (hc : Compatible v p) (buf : List (Word p)) (off : Nat) (val : Word v) :
    stor h buf off val
      = (wrN (image h.endian buf) (off * v) (toBytes h.endian val)).map (ofImage h.endian p buf.length) := by
  obtain ⟨hv, hp, hdiv⟩ := hc
  unfold stor
  by_cases hvp : v = p
  · subst hvp
    simp only [if_true, setWidth_self]
    exact wr1_stor _ hv _ _ _
  · simp only [hvp, if_false]
    by_cases hce : h.consteval = true
    · simp only [hce, if_true]
      rcases hdiv with ⟨k, rfl⟩ | ⟨k, rfl⟩
      · have hk : 0 < k := Nat.pos_of_ne_zero (by rintro rfl; simp at hv)
        have e1 : p * k % p = 0 := Nat.mul_mod_right p k
        have e2 : off * (p * k) / p = off * k := by
          rw [show off * (p * k) = p * (off * k) by rw [Nat.mul_left_comm], Nat.mul_div_cancel_left _ hp]
        have e3 : p * k / p = k := Nat.mul_div_cancel_left _ hp
        simp only [e1, e2, e3, Nat.lt_irrefl, gt_iff_lt, if_false]
        have e4 : off * (p * k) = off * k * p := by rw [Nat.mul_comm p k, Nat.mul_assoc]
        by_cases hb : off * k + k ≤ buf.length
        · obtain ⟨out, hs, hl, hi⟩ := scatter_image h.endian (off * k) k val buf (Nat.le_refl _) hb
          rw [hs, wrN_some]
          · simp only [Option.map_some]
            congr 1
            apply ofImage_eq _ _ _ _ hl
            rw [hi, e4, toBytes_length]
            cases h.endian <;> rfl
          · rw [toBytes_length, image_length, e4, Nat.mul_comm p k, ← Nat.add_mul]
            exact Nat.mul_le_mul_right _ hb
        · rw [scatter_oob _ _ _ _ _ hk hb]
          unfold wrN
          rw [if_neg]
          · rfl
          · rw [toBytes_length, image_length, e4, Nat.mul_comm p k, ← Nat.add_mul]
            intro hle
            exact hb (Nat.le_of_mul_le_mul_right hle hp)
      · have hk : 0 < k := Nat.pos_of_ne_zero (by rintro rfl; simp at hp)
        have hk1 : k ≠ 1 := by rintro rfl; simp at hvp
        have hlt : v < v * k := by
          have : v * 1 < v * k := Nat.mul_lt_mul_of_pos_left (by omega) hv
          omega
        have e1 : v % (v * k) = v := Nat.mod_eq_of_lt hlt
        have e2 : off * v / (v * k) = off / k := by rw [Nat.mul_comm, Nat.mul_div_mul_left _ _ hv]
        have e3 : off * v % (v * k) = v * (off % k) := by rw [Nat.mul_comm off, Nat.mul_mod_mul_left]
        simp only [e1, e2, e3, hv, gt_iff_lt, if_true]
        exact insert_stor _ hv hk _ _ _
    · simp only [hce, Bool.false_eq_true, if_false]
      cases wrN (image h.endian buf) (off * v) (toBytes h.endian val) <;> rfl

/-- `memory_stor` with a count stores the first `min v (p * size)` bytes of the value's object representation. -/
theorem storN_eq (h : Host) {v p : Nat} (hc : Compatible v p) (buf : List (Word p)) (off : Nat) (val : Word v) (size : Nat)
    (hs : 0 < size) :
    storN h buf off val size
      = (wrN (image h.endian buf) (off * v) ((toBytes h.endian val).take (min v (p * size)))).map
          (ofImage h.endian p buf.length) := by
  by_cases hce : h.consteval = true
  · by_cases hnar : v ≤ p
    · have hm : min v (p * size) = v := Nat.min_eq_left (Nat.le_trans hnar (Nat.le_mul_of_pos_right p hs))
      have := stor_eq h hc buf off val
      rw [hm, List.take_of_length_le (by simp), ← this]
      unfold storN stor
      simp only [hce, if_true, show ¬ size = 0 by omega, if_false]
      by_cases hvp : v = p
      · simp [hvp]
      · have : v % p > 0 := by rw [Nat.mod_eq_of_lt (by omega)]; exact hc.1
        simp [hvp, this]
    · obtain ⟨hv, hp, hdiv⟩ := hc
      obtain ⟨k, rfl⟩ : p ∣ v := by
        rcases hdiv with hd | hd
        · exact hd
        · exact absurd (Nat.le_of_dvd hp hd) hnar
      have hk : 0 < k := Nat.pos_of_ne_zero (by rintro rfl; simp at hv)
      have e1 : p * k % p = 0 := Nat.mul_mod_right p k
      have e2 : off * (p * k) / p = off * k := by
        rw [show off * (p * k) = p * (off * k) by rw [Nat.mul_left_comm], Nat.mul_div_cancel_left _ hp]
      have e3 : p * k / p = k := Nat.mul_div_cancel_left _ hp
      have e4 : off * (p * k) = off * k * p := by rw [Nat.mul_comm p k, Nat.mul_assoc]
      have e5 : min (p * k) (p * size) = p * min size k := by rw [Nat.min_comm size k, ← Nat.mul_min_mul_left]
      have hne : ¬ p * k = p := by omega
      unfold storN
      simp only [hce, if_true, show ¬ size = 0 by omega, if_false, hne, e1, e2, e3, e5, Nat.lt_irrefl, gt_iff_lt]
      generalize hm : min size k = m
      have hmk : m ≤ k := by omega
      have hm0 : 0 < m := by omega
      have hpm : p * m ≤ p * k := Nat.mul_le_mul_left _ hmk
      by_cases hb : off * k + m ≤ buf.length
      · obtain ⟨out, hs, hl, hi⟩ := scatter_image h.endian (off * k) m
          (if h.endian = .big then val >>> (8 * (p * (k - m))) else val) buf hpm hb
        rw [hs, wrN_some]
        · simp only [Option.map_some]
          congr 1
          apply ofImage_eq _ _ _ _ hl
          rw [hi, e4, toBytes_take _ _ _ hpm]
          cases h.endian
          · simp
          · simp only [if_true, List.length_reverse, toLE_length, BitVec.toNat_ushiftRight]
            rw [Nat.shiftRight_eq_div_pow, ← pow256, Nat.mul_sub]
        · rw [List.length_take, toBytes_length, image_length, e4, Nat.min_eq_left hpm, Nat.mul_comm p m, ← Nat.add_mul]
          exact Nat.mul_le_mul_right _ hb
      · rw [scatter_oob _ _ _ _ _ hm0 hb]
        unfold wrN
        rw [if_neg]
        · rfl
        · rw [List.length_take, toBytes_length, image_length, e4, Nat.min_eq_left hpm, Nat.mul_comm p m, ← Nat.add_mul]
          intro hle
          exact hb (Nat.le_of_mul_le_mul_right hle hp)
  · unfold storN
    simp only [hce, Bool.false_eq_true, if_false]
    cases wrN (image h.endian buf) (off * v) ((toBytes h.endian val).take (min v (p * size))) <;> rfl

end Milo.Memory
