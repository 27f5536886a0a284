import Verif.Proof.Stor
/- Semantics of the remaining memory primitives. -/
namespace Milo.Memory
open Milo

/-- Sizes for which `endian_swap` exists. -/
def Swappable (n : Nat) : Prop := n = 1 ∨ n = 2 ∨ n = 4 ∨ n = 8

theorem swapSw_bytes {n : Nat} (hn : Swappable n) (a : Word n) : toLE n (swapSw n a).toNat = (toLE n a.toNat).reverse := by
  have hrev : ∀ j, j < n → (toLE n a.toNat).reverse[j]? = some (BitVec.ofNat 8 (a.toNat / 256 ^ (n - 1 - j))) := by
    intro j hj
    rw [List.getElem?_reverse (by simpa using hj), toLE_length, toLE_getElem _ _ _ (by omega)]
  apply toLE_ext _ _ (by simp)
  intro j b hj hb
  refine ⟨_, hrev j hj, ?_⟩
  rw [byte_bit _ _ _ hb]
  rcases hn with rfl | rfl | rfl | rfl
  · have : j = 0 := by omega
    subst this; simp [swapSw]
  · have hj' : j = 0 ∨ j = 1 := by omega
    have hb' : b = 0 ∨ b = 1 ∨ b = 2 ∨ b = 3 ∨ b = 4 ∨ b = 5 ∨ b = 6 ∨ b = 7 := by omega
    rcases hj' with rfl | rfl <;> rcases hb' with rfl | rfl | rfl | rfl | rfl | rfl | rfl | rfl <;>
      simp [swapSw]
  · have hj' : j = 0 ∨ j = 1 ∨ j = 2 ∨ j = 3 := by omega
    have hb' : b = 0 ∨ b = 1 ∨ b = 2 ∨ b = 3 ∨ b = 4 ∨ b = 5 ∨ b = 6 ∨ b = 7 := by omega
    rcases hj' with rfl | rfl | rfl | rfl <;> rcases hb' with rfl | rfl | rfl | rfl | rfl | rfl | rfl | rfl <;>
      simp [swapSw, BitVec.getLsbD_ofNat]
  · have hj' : j = 0 ∨ j = 1 ∨ j = 2 ∨ j = 3 ∨ j = 4 ∨ j = 5 ∨ j = 6 ∨ j = 7 := by omega
    have hb' : b = 0 ∨ b = 1 ∨ b = 2 ∨ b = 3 ∨ b = 4 ∨ b = 5 ∨ b = 6 ∨ b = 7 := by omega
    rcases hj' with rfl | rfl | rfl | rfl | rfl | rfl | rfl | rfl <;>
      rcases hb' with rfl | rfl | rfl | rfl | rfl | rfl | rfl | rfl <;>
      simp [swapSw, BitVec.getLsbD_ofNat]

theorem swapSw_eq_swapBi {n : Nat} (hn : Swappable n) (a : Word n) : swapSw n a = swapBi n a := by
  rw [← ofBytes_toBytes .little (swapSw n a)]
  unfold swapBi
  simp only [toBytes]
  rw [swapSw_bytes hn]

theorem swap_eq (h : Host) {n : Nat} (hn : Swappable n) (a : Word n) : swap h n a = swapBi n a := by
  unfold swap; split
  · exact swapSw_eq_swapBi hn a
  · rfl

theorem toBytes_swapBi (e : Endian) {n : Nat} (a : Word n) : toBytes e (swapBi n a) = (toBytes e a).reverse := by
  have : toBytes .little (swapBi n a) = toBytes .big a := toBytes_ofBytes _ _ _ (by simp)
  cases e
  · rw [this]; simp [toBytes]
  · have h2 : toBytes .big (swapBi n a) = (toBytes .little (swapBi n a)).reverse := rfl
    rw [h2, this]

theorem toBytes_bigof (h : Host) {n : Nat} (hn : Swappable n) (a : Word n) : toBytes h.endian (bigof h a) = toBytes .big a := by
  unfold bigof
  cases he : h.endian
  · simp only [if_true]; rw [swap_eq h hn, toBytes_swapBi]; rfl
  · simp

theorem toBytes_littleof (h : Host) {n : Nat} (hn : Swappable n) (a : Word n) :
    toBytes h.endian (littleof h a) = toBytes .little a := by
  unfold littleof
  cases he : h.endian
  · simp
  · simp only [if_true]; rw [swap_eq h hn, toBytes_swapBi]; simp [toBytes]

theorem toBytes_inj (e : Endian) {n : Nat} {a b : Word n} (h : toBytes e a = toBytes e b) : a = b := by
  rw [← ofBytes_toBytes e a, h, ofBytes_toBytes]

theorem bigof_ofBytes (h : Host) {n : Nat} (hn : Swappable n) (bs : List Byte) (hl : bs.length = n) :
    bigof h (ofBytes h.endian n bs) = ofBytes .big n bs := by
  apply toBytes_inj .big
  rw [toBytes_ofBytes _ _ _ hl]
  unfold bigof
  cases he : h.endian
  · simp only [if_true]; rw [swap_eq h hn, toBytes_swapBi]
    have : toBytes .big (ofBytes .little n bs) = (toBytes .little (ofBytes .little n bs)).reverse := rfl
    rw [this, toBytes_ofBytes _ _ _ hl, List.reverse_reverse]
  · simp [toBytes_ofBytes _ _ _ hl]

theorem littleof_ofBytes (h : Host) {n : Nat} (hn : Swappable n) (bs : List Byte) (hl : bs.length = n) :
    littleof h (ofBytes h.endian n bs) = ofBytes .little n bs := by
  apply toBytes_inj .little
  rw [toBytes_ofBytes _ _ _ hl]
  unfold littleof
  cases he : h.endian
  · simp [toBytes_ofBytes _ _ _ hl]
  · simp only [if_true]; rw [swap_eq h hn, toBytes_swapBi]
    have : toBytes .little (ofBytes .big n bs) = (toBytes .big (ofBytes .big n bs)).reverse := by simp [toBytes]
    rw [this, toBytes_ofBytes _ _ _ hl, List.reverse_reverse]

theorem drop_left_add {α} (a b : List α) (m n : Nat) (h : a.length = m) : (a ++ b).drop (m + n) = b.drop n := by
  subst h; simp

theorem rdN_length {α} {buf bs : List α} {off n : Nat} (h : rdN buf off n = some bs) : bs.length = n := by
  unfold rdN at h; split at h
  · cases h; simp; omega
  · cases h

theorem rdN_some {α} (buf : List α) (off n : Nat) (h : off + n ≤ buf.length) :
    rdN buf off n = some ((buf.drop off).take n) := by simp [rdN, h]

theorem loadBe_eq (h : Host) (sgp : Bool) {v p : Nat} (hc : Compatible v p) (hv : Swappable v) (buf : List (Word p)) (off : Nat) :
    loadBe h sgp v buf off = (rdN (image h.endian buf) (off * v) v).map (ofBytes .big v) := by
  unfold loadBe
  rw [load_eq h sgp hc]
  cases hr : rdN (image h.endian buf) (off * v) v with
  | none => rfl
  | some bs => simp [bigof_ofBytes h hv bs (rdN_length hr)]

theorem loadLe_eq (h : Host) (sgp : Bool) {v p : Nat} (hc : Compatible v p) (hv : Swappable v) (buf : List (Word p)) (off : Nat) :
    loadLe h sgp v buf off = (rdN (image h.endian buf) (off * v) v).map (ofBytes .little v) := by
  unfold loadLe
  rw [load_eq h sgp hc]
  cases hr : rdN (image h.endian buf) (off * v) v with
  | none => rfl
  | some bs => simp [littleof_ofBytes h hv bs (rdN_length hr)]

theorem storBe_eq (h : Host) {v p : Nat} (hc : Compatible v p) (hv : Swappable v) (buf : List (Word p)) (off : Nat) (val : Word v) :
    storBe h buf off val
      = (wrN (image h.endian buf) (off * v) (toBytes .big val)).map (ofImage h.endian p buf.length) := by
  unfold storBe; rw [stor_eq h hc, toBytes_bigof h hv]

theorem storLe_eq (h : Host) {v p : Nat} (hc : Compatible v p) (hv : Swappable v) (buf : List (Word p)) (off : Nat) (val : Word v) :
    storLe h buf off val
      = (wrN (image h.endian buf) (off * v) (toBytes .little val)).map (ofImage h.endian p buf.length) := by
  unfold storLe; rw [stor_eq h hc, toBytes_littleof h hv]

theorem storBeN_eq (h : Host) {v p : Nat} (hc : Compatible v p) (hv : Swappable v) (buf : List (Word p)) (off : Nat) (val : Word v)
    (size : Nat) (hs : 0 < size) :
    storBeN h buf off val size
      = (wrN (image h.endian buf) (off * v) ((toBytes .big val).take (min v (p * size)))).map
          (ofImage h.endian p buf.length) := by
  unfold storBeN; rw [storN_eq h hc _ _ _ _ hs, toBytes_bigof h hv]

theorem storLeN_eq (h : Host) {v p : Nat} (hc : Compatible v p) (hv : Swappable v) (buf : List (Word p)) (off : Nat) (val : Word v)
    (size : Nat) (hs : 0 < size) :
    storLeN h buf off val size
      = (wrN (image h.endian buf) (off * v) ((toBytes .little val).take (min v (p * size)))).map
          (ofImage h.endian p buf.length) := by
  unfold storLeN; rw [storN_eq h hc _ _ _ _ hs, toBytes_littleof h hv]

/-- `memory_load` with a count reads the first `min v (p * size)` bytes and zero-fills the rest of the value. -/
theorem loadN_eq (h : Host) (sgp : Bool) {v p : Nat} (hc : Compatible v p) (buf : List (Word p)) (off size : Nat)
    (hs : 0 < size) :
    loadN h sgp v buf off size
      = (rdN (image h.endian buf) (off * v) (min v (p * size))).map
          (fun bs => ofBytes h.endian v (bs ++ List.replicate (v - min v (p * size)) 0#8)) := by
  by_cases hce : h.consteval = true
  · by_cases hnar : v ≤ p
    · have hm : min v (p * size) = v := Nat.min_eq_left (Nat.le_trans hnar (Nat.le_mul_of_pos_right p hs))
      have := load_eq h sgp hc buf off
      rw [hm]
      simp only [Nat.sub_self, List.replicate_zero, List.append_nil]
      rw [← this]
      unfold loadN load
      simp only [hce, if_true, show ¬ size = 0 by omega, if_false]
      by_cases hvp : v = p
      · simp [hvp]
      · have : v % p > 0 := by rw [Nat.mod_eq_of_lt (by omega)]; exact hc.1
        simp [hvp, this]
    · obtain ⟨hv, hp, hdiv⟩ := hc
      obtain ⟨k, rfl⟩ : p ∣ v := by
        rcases hdiv with hd | hd
        · exact hd
        · exact absurd (Nat.le_of_dvd hp hd) hnar
      have hk : 0 < k := Nat.pos_of_ne_zero (by rintro rfl; simp at hv)
      have e1 : p * k % p = 0 := Nat.mul_mod_right p k
      have e2 : off * (p * k) / p = off * k := by
        rw [show off * (p * k) = p * (off * k) by rw [Nat.mul_left_comm], Nat.mul_div_cancel_left _ hp]
      have e3 : p * k / p = k := Nat.mul_div_cancel_left _ hp
      have e4 : off * (p * k) = off * k * p := by rw [Nat.mul_comm p k, Nat.mul_assoc]
      have e5 : min (p * k) (p * size) = p * min size k := by rw [Nat.min_comm size k, ← Nat.mul_min_mul_left]
      have hne : ¬ p * k = p := by omega
      unfold loadN
      simp only [hce, if_true, show ¬ size = 0 by omega, if_false, hne, e1, e2, e3, e5, Nat.lt_irrefl, gt_iff_lt]
      generalize hm : min size k = m
      have hmk : m ≤ k := by omega
      have hm0 : 0 < m := by omega
      have hpm : p * m ≤ p * k := Nat.mul_le_mul_left _ hmk
      unfold rdN
      rw [image_length, e4, Nat.mul_comm p m, ← Nat.add_mul, image_drop, image_take]
      by_cases hb : off * k + m ≤ buf.length
      · rw [gather_image _ _ (by omega) _ _ _ hb, if_pos (Nat.mul_le_mul_right _ hb)]
        simp only [Option.bind_eq_bind, Option.bind_some, Option.map_some]
        generalize hI : image h.endian (List.take m (List.drop (off * k) buf)) = I
        have hIl : I.length = p * m := by
          rw [← hI, image_length]; simp; rw [Nat.min_eq_left (by omega), Nat.mul_comm]
        cases he : h.endian
        · simp only [reduceCtorEq, if_false, ofBytes]
          rw [leNat_append, leNat_replicate_zero]; simp
        · simp only [if_true, ofBytes]
          rw [List.reverse_append, List.reverse_replicate, leNat_append, leNat_replicate_zero]
          simp only [List.length_replicate, Nat.zero_add]
          congr 1
          apply BitVec.eq_of_toNat_eq
          simp only [BitVec.toNat_shiftLeft, BitVec.toNat_ofNat, pow256, Nat.mul_sub, Nat.mul_comm m p, Nat.shiftLeft_eq]
          rw [Nat.mod_mul_mod, Nat.mul_comm]
      · rw [gather_oob _ _ _ _ _ hm0 hb, if_neg]
        · rfl
        · intro hle; exact hb (Nat.le_of_mul_le_mul_right hle hp)
  · unfold loadN
    simp only [hce, Bool.false_eq_true, if_false]
    cases rdN (image h.endian buf) (off * v) (min v (p * size)) <;> rfl

theorem loadBeN_eq (h : Host) (sgp : Bool) {v p : Nat} (hc : Compatible v p) (hv : Swappable v) (buf : List (Word p))
    (off size : Nat) (hs : 0 < size) :
    loadBeN h sgp v buf off size
      = (rdN (image h.endian buf) (off * v) (min v (p * size))).map
          (fun bs => ofBytes .big v (bs ++ List.replicate (v - min v (p * size)) 0#8)) := by
  unfold loadBeN
  rw [loadN_eq h sgp hc _ _ _ hs]
  cases hr : rdN (image h.endian buf) (off * v) (min v (p * size)) with
  | none => rfl
  | some bs =>
    have := rdN_length hr
    simp only [Option.map_some]
    rw [bigof_ofBytes h hv]
    simp; omega

theorem loadLeN_eq (h : Host) (sgp : Bool) {v p : Nat} (hc : Compatible v p) (hv : Swappable v) (buf : List (Word p))
    (off size : Nat) (hs : 0 < size) :
    loadLeN h sgp v buf off size
      = (rdN (image h.endian buf) (off * v) (min v (p * size))).map
          (fun bs => ofBytes .little v (bs ++ List.replicate (v - min v (p * size)) 0#8)) := by
  unfold loadLeN
  rw [loadN_eq h sgp hc _ _ _ hs]
  cases hr : rdN (image h.endian buf) (off * v) (min v (p * size)) with
  | none => rfl
  | some bs =>
    have := rdN_length hr
    simp only [Option.map_some]
    rw [littleof_ofBytes h hv]
    simp; omega

theorem compatible_one {p : Nat} (hp : 0 < p) : Compatible 1 p := ⟨by omega, hp, .inr ⟨p, by omega⟩⟩

theorem load1 (h : Host) (sgp : Bool) {p : Nat} (hp : 0 < p) (buf : List (Word p)) (i : Nat) (hi : i < (image h.endian buf).length) :
    load h sgp 1 buf i = some (image h.endian buf)[i] := by
  rw [load_eq h sgp (compatible_one hp), rdN_some _ _ _ (by omega), Nat.mul_one, List.drop_eq_getElem_cons hi]
  simp only [List.take_succ_cons, List.take_zero, Option.map_some]
  congr 1
  generalize (image h.endian buf)[i] = b
  cases h.endian <;> simp [ofBytes, leNat]

theorem load1_none (h : Host) (sgp : Bool) {p : Nat} (hp : 0 < p) (buf : List (Word p)) (i : Nat)
    (hi : ¬ i < (image h.endian buf).length) : load h sgp 1 buf i = none := by
  rw [load_eq h sgp (compatible_one hp)]
  unfold rdN
  rw [if_neg (by omega)]; rfl

theorem toBytes_one (e : Endian) (b : Byte) : toBytes (n := 1) e b = [b] := by
  cases e <;> simp [toBytes, toLE]

theorem stor1 (h : Host) {p : Nat} (hp : 0 < p) (buf : List (Word p)) (i : Nat) (b : Byte) :
    stor h (v := 1) buf i b = (wrN (image h.endian buf) i [b]).map (ofImage h.endian p buf.length) := by
  rw [stor_eq h (compatible_one hp), toBytes_one, Nat.mul_one]

/-- Writing bytes one at a time through `memory_stor` from position `i`. -/
theorem forM'_stor1 (h : Host) {p : Nat} (hp : 0 < p) (bs : List Byte) (f : Nat → List (Word p) → Option (List (Word p)))
    (i : Nat) (buf : List (Word p)) (hb : i + bs.length ≤ (image h.endian buf).length)
    (hf : ∀ j buf', j < bs.length → buf'.length = buf.length → f (i + j) buf' = (bs[j]?).bind (fun b => stor h (v := 1) buf' (i + j) b)) :
    forM' f bs.length i buf = (wrN (image h.endian buf) i bs).map (ofImage h.endian p buf.length) := by
  induction bs generalizing i buf with
  | nil =>
    simp at hb
    simp [forM', wrN, hb, ofImage_image]
  | cons b bs ih =>
    simp only [List.length_cons] at hb ⊢
    unfold forM'
    have h0 := hf 0 buf (by simp) rfl
    rw [Nat.add_zero] at h0
    rw [h0]
    simp only [List.getElem?_cons_zero, Option.bind_some]
    rw [stor1 h hp, wrN_some _ _ _ (by simp; simp at hb; omega), wrN_some _ _ _ (by simpa using hb)]
    simp only [Option.map_some, Option.bind_eq_bind, Option.bind_some, List.length_cons, List.length_nil, Nat.zero_add]
    generalize hI : image h.endian buf = I at hb
    have hIl : I.length = buf.length * p := by rw [← hI, image_length]
    have himg : image h.endian (ofImage h.endian p buf.length (I.take i ++ [b] ++ I.drop (i + 1))) = I.take i ++ [b] ++ I.drop (i + 1) := by
      apply image_ofImage; simp; omega
    rw [ih (i + 1) (ofImage h.endian p buf.length (I.take i ++ [b] ++ I.drop (i + 1)))]
    · rw [himg, wrN_some _ _ _ (by simp; omega)]
      simp only [ofImage_length, Option.map_some]
      congr 2
      have h1 : (I.take i ++ [b]).length = i + 1 := by simp; omega
      rw [List.take_left' h1, drop_left_add _ _ _ _ h1, List.drop_drop]
      simp only [List.append_assoc, List.singleton_append]
      rw [show i + 1 + bs.length = i + (bs.length + 1) by omega]
    · rw [himg]; simp; omega
    · intro j buf' hj hl
      have := hf (j + 1) buf' (by simp; omega) (by simpa using hl)
      rw [show i + 1 + j = i + (j + 1) by omega, this]
      simp

/-- `memory_copy`: the first `size` bytes of the destination's object representation become those of the source. -/
theorem copy_eq (h : Host) {p q : Nat} (hp : 0 < p) (hq : 0 < q) (dst : List (Word p)) (src : List (Word q)) (size : Nat)
    (hs : size ≤ src.length * q) (hd : size ≤ dst.length * p) :
    copy h dst src size = some (ofImage h.endian p dst.length ((image h.endian src).take size ++ (image h.endian dst).drop size)) := by
  have hsl : size ≤ (image h.endian src).length := by simpa using hs
  have hdl : size ≤ (image h.endian dst).length := by simpa using hd
  have hl : ((image h.endian src).take size).length = size := by
    rw [List.length_take, Nat.min_eq_left hsl]
  have key : (wrN (image h.endian dst) 0 ((image h.endian src).take size)).map (ofImage h.endian p dst.length)
      = some (ofImage h.endian p dst.length ((image h.endian src).take size ++ (image h.endian dst).drop size)) := by
    rw [wrN_some _ _ _ (by omega), hl]; simp
  unfold copy
  by_cases hce : h.consteval = true
  · simp only [hce, if_true]
    rw [← key]
    have := forM'_stor1 h hp ((image h.endian src).take size) (fun i dst => do
      let x ← load h false 1 src i
      stor h dst i x) 0 dst (by omega) (by
        intro j buf' hj hl'
        rw [hl] at hj
        simp only [Nat.zero_add]
        rw [load1 h false hq src j (by omega)]
        simp [List.getElem?_take, hj, List.getElem?_eq_getElem (show j < (image h.endian src).length by omega)])
    rw [hl] at this
    exact this
  · simp only [hce, Bool.false_eq_true, if_false]
    rw [rdN_some _ _ _ (by omega), List.drop_zero]
    simp only [Option.bind_eq_bind, Option.bind_some]
    rw [← key]
    cases wrN (image h.endian dst) 0 ((image h.endian src).take size) <;> rfl

theorem copy_image (h : Host) {p q : Nat} (hp : 0 < p) (hq : 0 < q) (dst : List (Word p)) (src : List (Word q)) (size : Nat)
    (hs : size ≤ src.length * q) (hd : size ≤ dst.length * p) :
    ∃ out, copy h dst src size = some out ∧ out.length = dst.length ∧
      image h.endian out = (image h.endian src).take size ++ (image h.endian dst).drop size := by
  refine ⟨_, copy_eq h hp hq dst src size hs hd, by simp, ?_⟩
  apply image_ofImage; simp; omega

/-- Byte buffers. -/
theorem copy_bytes (h : Host) (dst src : List Byte) (size : Nat) (hs : size ≤ src.length) (hd : size ≤ dst.length) :
    copy h (p := 1) (q := 1) dst src size = some (src.take size ++ dst.drop size) := by
  rw [copy_eq h (by omega) (by omega) _ _ _ (by omega) (by omega)]
  simp only [image_bytes']
  congr 1
  apply ofImage_bytes'
  simp; omega

theorem set_eq (h : Host) {p : Nat} (hp : 0 < p) (buf : List (Word p)) (val : Byte) (size : Nat) (hs : size ≤ buf.length * p) :
    set h buf val size
      = some (ofImage h.endian p buf.length (List.replicate size val ++ (image h.endian buf).drop size)) := by
  have hsl : size ≤ (image h.endian buf).length := by simpa using hs
  have key : (wrN (image h.endian buf) 0 (List.replicate size val)).map (ofImage h.endian p buf.length)
      = some (ofImage h.endian p buf.length (List.replicate size val ++ (image h.endian buf).drop size)) := by
    rw [wrN_some _ _ _ (by simpa using hs)]; simp
  unfold set
  by_cases hce : h.consteval = true
  · simp only [hce, if_true]
    rw [← key]
    have := forM'_stor1 h hp (List.replicate size val) (fun i buf => stor h (v := 1) buf i val) 0 buf (by simpa using hs) (by
        intro j buf' hj hl'
        simp at hj
        simp [List.getElem?_replicate, hj])
    rw [List.length_replicate] at this
    exact this
  · simp only [hce, Bool.false_eq_true, if_false]
    rw [← key]
    cases wrN (image h.endian buf) 0 (List.replicate size val) <;> rfl

theorem set_bytes (h : Host) (buf : List Byte) (val : Byte) (size : Nat) (hs : size ≤ buf.length) :
    set h (p := 1) buf val size = some (List.replicate size val ++ buf.drop size) := by
  rw [set_eq h (by omega) _ _ _ (by omega)]
  simp only [image_bytes']
  congr 1
  apply ofImage_bytes'
  simp; omega

/-- `memory_xor` of byte buffers. -/
theorem xor_eq (h : Host) (dst a b : List Byte) (size : Nat) (ha : size ≤ a.length) (hb : size ≤ b.length) (hd : size ≤ dst.length) :
    xor h dst a b size = some ((List.zipWith (· ^^^ ·) a b).take size ++ dst.drop size) := by
  have hl : ((List.zipWith (· ^^^ ·) a b).take size).length = size := by simp; omega
  unfold xor
  have := forM'_stor1 h (p := 1) (by omega) ((List.zipWith (· ^^^ ·) a b).take size) (fun i dst => do
      let x ← load h false (p := 1) 1 a i
      let y ← load h false (p := 1) 1 b i
      stor h (v := 1) (p := 1) dst i (x ^^^ y)) 0 dst (by simp only [image_bytes']; omega) (by
        intro j buf' hj hl'
        rw [hl] at hj
        simp only [Nat.zero_add]
        have e1 := load1 h false (p := 1) (by omega) a j (by simp only [image_bytes']; omega)
        have e2 := load1 h false (p := 1) (by omega) b j (by simp only [image_bytes']; omega)
        simp only [image_bytes'] at e1 e2
        simp only [e1, e2, Option.bind_eq_bind, Option.bind_some]
        rw [List.getElem?_take_of_lt hj, List.getElem?_eq_getElem (by simp; omega), List.getElem_zipWith, Option.bind_some])
  rw [hl] at this
  rw [this]
  simp only [image_bytes']
  rw [wrN_some _ _ _ (by omega)]
  simp only [Option.map_some, List.take_zero, List.nil_append, Nat.zero_add]
  congr 1
  rw [hl]
  apply ofImage_bytes'
  simp; omega

theorem wr_zero_loop {p : Nat} (buf : List (Word p)) (n i : Nat) (h : i + n ≤ buf.length) :
    forM' (fun i buf => wr1 buf i 0) n i buf = some (buf.take i ++ List.replicate n 0 ++ buf.drop (i + n)) := by
  induction n generalizing i buf with
  | zero => simp [forM']
  | succ n ih =>
    unfold forM'
    rw [wr1_isSome _ _ _ (by omega)]
    simp only [Option.bind_eq_bind, Option.bind_some]
    rw [ih _ _ (by simp; omega)]
    congr 1
    rw [List.set_eq_take_append_cons_drop, if_pos (by omega)]
    have h1 : (buf.take i ++ [(0 : Word p)]).length = i + 1 := by simp; omega
    rw [show buf.take i ++ 0 :: buf.drop (i + 1) = (buf.take i ++ [0]) ++ buf.drop (i + 1) by simp, List.take_left' h1,
      drop_left_add _ _ _ _ h1, List.drop_drop, List.replicate_succ]
    simp only [List.append_assoc, List.nil_append, List.cons_append]
    rw [show i + 1 + n = i + (n + 1) by omega]

theorem zero_eq {p : Nat} (buf : List (Word p)) (n : Nat) (h : n ≤ buf.length) :
    zero buf n = some (List.replicate n 0 ++ buf.drop n) := by
  unfold zero; rw [wr_zero_loop _ _ _ (by omega)]; simp

theorem erase_eq {p : Nat} (buf : List (Word p)) (n : Nat) (h : n ≤ buf.length) :
    erase buf n = some (List.replicate n 0 ++ buf.drop n) := by
  unfold erase; rw [wr_zero_loop _ _ _ (by omega)]; simp

theorem image_zeros (e : Endian) (p n : Nat) : image e (List.replicate n (0 : Word p)) = List.replicate (n * p) 0#8 := by
  have h0 : ∀ m, toLE m 0 = List.replicate m 0#8 := by
    intro m
    induction m with
    | zero => rfl
    | succ m ih => simp [toLE, ih, List.replicate_succ]
  induction n with
  | zero => simp
  | succ n ih =>
    rw [List.replicate_succ, image_cons, ih, Nat.add_mul, Nat.one_mul]
    have : toBytes e (0 : Word p) = List.replicate p 0#8 := by
      cases e <;> simp [toBytes, h0]
    simp only [this, List.replicate_append_replicate, Nat.add_comm]

/-- Bytes `bs` truncated to `n`, or extended with zeros to `n`. -/
def fit (n : Nat) (bs : List Byte) : List Byte := bs.take n ++ List.replicate (n - bs.length) 0#8

@[simp] theorem fit_length (n : Nat) (bs : List Byte) : (fit n bs).length = n := by simp [fit]; omega

/-- `memory_init`: truncate or zero-extend the source bytes. -/
theorem init_eq (h : Host) {p q : Nat} (hp : 0 < p) (hq : 0 < q) (dst : List (Word p)) (src : List (Word q)) :
    init h dst src = some (ofImage h.endian p dst.length (fit (dst.length * p) (image h.endian src))) := by
  unfold init
  rw [zero_eq _ _ (Nat.le_refl _)]
  simp only [Option.bind_eq_bind, Option.bind_some, List.drop_length, List.append_nil]
  rw [copy_eq h hp hq _ _ _ (by omega) (by simp; omega)]
  simp only [List.length_replicate]
  congr 2
  rw [image_zeros, List.drop_replicate]
  unfold fit
  rw [image_length]
  by_cases hle : dst.length * p ≤ src.length * q
  · rw [Nat.min_eq_left hle, show dst.length * p - dst.length * p = 0 by omega, show dst.length * p - src.length * q = 0 by omega]
  · rw [Nat.min_eq_right (by omega), List.take_of_length_le (by simp), List.take_of_length_le (by simp; omega)]

theorem ofImage_map_bigof (h : Host) {p : Nat} (hp : Swappable p) (n : Nat) (bs : List Byte) (hl : bs.length = n * p) :
    (ofImage h.endian p n bs).map (bigof h) = ofImage .big p n bs := by
  induction n generalizing bs with
  | zero => rfl
  | succ n ih =>
    rw [Nat.succ_mul] at hl
    simp only [ofImage, List.map_cons]
    rw [bigof_ofBytes h hp _ (by simp; omega), ih _ (by simp; omega)]

theorem ofImage_map_littleof (h : Host) {p : Nat} (hp : Swappable p) (n : Nat) (bs : List Byte) (hl : bs.length = n * p) :
    (ofImage h.endian p n bs).map (littleof h) = ofImage .little p n bs := by
  induction n generalizing bs with
  | zero => rfl
  | succ n ih =>
    rw [Nat.succ_mul] at hl
    simp only [ofImage, List.map_cons]
    rw [littleof_ofBytes h hp _ (by simp; omega), ih _ (by simp; omega)]

theorem initBe_eq (h : Host) {p q : Nat} (hp : Swappable p) (hq : 0 < q) (dst : List (Word p)) (src : List (Word q)) :
    initBe h dst src = some (ofImage .big p dst.length (fit (dst.length * p) (image h.endian src))) := by
  have hp0 : 0 < p := by rcases hp with rfl | rfl | rfl | rfl <;> omega
  unfold initBe
  rw [init_eq h hp0 hq]
  simp only [Option.bind_eq_bind, Option.bind_some]
  split
  · rw [ofImage_map_bigof h hp _ _ (by simp)]; rfl
  · rename_i hh
    by_cases h1 : p = 1
    · subst h1
      rw [ofImage_bytes' _ _ _ (by simp), ofImage_bytes' _ _ _ (by simp)]; rfl
    · have : h.endian = .big := by
        cases he : h.endian with
        | big => rfl
        | little => exact absurd ⟨h1, by simp [he]⟩ hh
      rw [this]; rfl

theorem initLe_eq (h : Host) {p q : Nat} (hp : Swappable p) (hq : 0 < q) (dst : List (Word p)) (src : List (Word q)) :
    initLe h dst src = some (ofImage .little p dst.length (fit (dst.length * p) (image h.endian src))) := by
  have hp0 : 0 < p := by rcases hp with rfl | rfl | rfl | rfl <;> omega
  unfold initLe
  rw [init_eq h hp0 hq]
  simp only [Option.bind_eq_bind, Option.bind_some]
  split
  · rw [ofImage_map_littleof h hp _ _ (by simp)]; rfl
  · rename_i hh
    by_cases h1 : p = 1
    · subst h1
      rw [ofImage_bytes' _ _ _ (by simp), ofImage_bytes' _ _ _ (by simp)]; rfl
    · have : h.endian = .little := by
        cases he : h.endian with
        | little => rfl
        | big => exact absurd ⟨h1, by simp [he]⟩ hh
      rw [this]; rfl

/-- Writing whole words one after the other into a byte buffer. -/
theorem forM'_words (e : Endian) {q : Nat} (src : List (Word q)) (f : Nat → List Byte → Option (List Byte))
    (k i : Nat) (dst : List Byte) (hk : i + k ≤ src.length) (hb : (i + k) * q ≤ dst.length)
    (hf : ∀ j dst', i ≤ j → j < i + k → dst'.length = dst.length →
      f j dst' = (src[j]?).bind (fun x => wrN dst' (j * q) (toBytes e x))) :
    forM' f k i dst = some (dst.take (i * q) ++ image e ((src.drop i).take k) ++ dst.drop ((i + k) * q)) := by
  induction k generalizing i dst with
  | zero => simp [forM']
  | succ k ih =>
    unfold forM'
    have hqk : (i + 1 + k) * q ≤ dst.length := by rw [show i + 1 + k = i + (k + 1) by omega]; exact hb
    have h1q : (i + 1) * q ≤ dst.length := Nat.le_trans (Nat.mul_le_mul_right q (by omega)) hqk
    have h1q' : i * q + q ≤ dst.length := by rw [← Nat.succ_mul]; exact h1q
    rw [hf i dst (by omega) (by omega) rfl, List.getElem?_eq_getElem (by omega)]
    simp only [Option.bind_some]
    rw [wrN_some _ _ _ (by simpa using h1q')]
    simp only [Option.bind_eq_bind, Option.bind_some, toBytes_length]
    have hlen : (dst.take (i * q) ++ toBytes e src[i] ++ dst.drop (i * q + q)).length = dst.length := by simp; omega
    rw [ih (i + 1) _ (by omega) (by omega) (by
      intro j dst' h1 h2 h3
      exact hf j dst' (by omega) (by omega) (by omega))]
    congr 1
    have h1 : (dst.take (i * q) ++ toBytes e src[i]).length = (i + 1) * q := by simp; rw [Nat.succ_mul]; omega
    rw [List.take_left' h1, Nat.add_mul (i + 1) k, drop_left_add _ _ _ _ h1, List.drop_drop, List.drop_eq_getElem_cons (l := src) (i := i) (by omega), List.take_succ_cons, image_cons]
    simp only [List.append_assoc]
    rw [show i * q + q + k * q = (i + (k + 1)) * q by rw [Nat.add_mul, Nat.succ_mul]; omega]

/-- The word-wise copy loops (`memory_copy_be`, `memory_copy_le`), given what the stores do. -/
theorem copyWords (e : Endian) {q : Nat} (hq0 : 0 < q) (dst : List Byte) (src : List (Word q)) (size : Nat)
    (f : List Byte → Nat → Word q → Option (List Byte)) (g : List Byte → Nat → Word q → Nat → Option (List Byte))
    (hf : ∀ d i x, f d i x = wrN d (i * q) (toBytes e x))
    (hg : ∀ d i x n, 0 < n → n < q → g d i x n = wrN d (i * q) ((toBytes e x).take n))
    (hs : size ≤ src.length * q) (hd : size ≤ dst.length) :
    ((forM' (fun i dst => (rd1 src i).bind fun x => f dst i x) (size / q) 0 dst).bind fun dst =>
      if size % q > 0 then (rd1 src (size / q)).bind fun x => g dst (size / q) x (size % q) else pure dst)
      = some ((image e src).take size ++ dst.drop size) := by
  have hdm := Nat.div_add_mod size q
  have hcomm : size / q * q = q * (size / q) := Nat.mul_comm _ _
  have hfull : size / q * q ≤ size := by omega
  have hfl : size / q ≤ src.length := by
    apply Nat.le_of_mul_le_mul_right _ hq0
    omega
  rw [forM'_words e src _ (size / q) 0 dst (by omega) (by simp; omega) (by
    intro j dst' _ _ _
    simp only [hf]; rfl)]
  simp only [Option.bind_some, Nat.zero_mul, List.take_zero, List.nil_append, List.drop_zero, Nat.zero_add]
  generalize hn : size / q = n at *
  generalize hr : size % q = r at *
  have hmod : r < q := by rw [← hr]; exact Nat.mod_lt _ hq0
  split
  · rename_i hlast
    have hlt : n < src.length := by
      apply Nat.lt_of_mul_lt_mul_right (a := q)
      omega
    rw [rd1_lt _ _ hlt]
    simp only [Option.bind_some]
    rw [hg _ _ _ _ hlast hmod]
    have hil : (image e (src.take n)).length = n * q := by
      rw [image_length, List.length_take, Nat.min_eq_left (by omega)]
    have htl : ((toBytes e src[n]).take r).length = r := by simp; omega
    rw [wrN_some _ _ _ (by rw [htl, List.length_append, hil, List.length_drop]; omega), htl]
    congr 1
    rw [List.take_left' hil, drop_left_add _ _ _ _ hil,
      List.drop_drop, ← get_image e src _ hlt, List.take_take, Nat.min_eq_left (by omega), ← image_take, ← List.take_add]
    rw [show n * q + r = size by omega]
  · rename_i hlast
    have : n * q = size := by omega
    rw [this, ← image_take, this]; rfl

theorem wrN_length {α} {buf xs o : List α} {i : Nat} (h : wrN buf i xs = some o) : o.length = buf.length := by
  unfold wrN at h; split at h
  · cases h; simp; omega
  · cases h

theorem wrN_ofImage (e : Endian) (buf xs : List Byte) (i : Nat) :
    (wrN buf i xs).map (ofImage e 1 buf.length) = wrN buf i xs := by
  cases h : wrN buf i xs with
  | none => rfl
  | some o => simp only [Option.map_some]; rw [ofImage_bytes' _ _ _ (wrN_length h)]

theorem copyBe_eq (h : Host) {q : Nat} (hq : Swappable q) (dst : List Byte) (src : List (Word q)) (size : Nat)
    (hs : size ≤ src.length * q) (hd : size ≤ dst.length) :
    copyBe h (p := 1) dst src size = some ((image .big src).take size ++ dst.drop size) := by
  have hq0 : 0 < q := by rcases hq with rfl | rfl | rfl | rfl <;> omega
  have hc : Compatible q 1 := ⟨hq0, by omega, .inl ⟨q, by omega⟩⟩
  exact copyWords .big hq0 dst src size (fun d i x => storBe h (p := 1) d i x) (fun d i x n => storBeN h (p := 1) d i x n)
    (fun d i x => by rw [storBe_eq h hc hq, image_bytes', wrN_ofImage])
    (fun d i x n h0 hn => by rw [storBeN_eq h hc hq _ _ _ _ h0, image_bytes', wrN_ofImage, Nat.one_mul, Nat.min_eq_right (by omega)])
    hs hd

theorem copyLe_eq (h : Host) {q : Nat} (hq : Swappable q) (dst : List Byte) (src : List (Word q)) (size : Nat)
    (hs : size ≤ src.length * q) (hd : size ≤ dst.length) :
    copyLe h (p := 1) dst src size = some ((image .little src).take size ++ dst.drop size) := by
  have hq0 : 0 < q := by rcases hq with rfl | rfl | rfl | rfl <;> omega
  have hc : Compatible q 1 := ⟨hq0, by omega, .inl ⟨q, by omega⟩⟩
  exact copyWords .little hq0 dst src size (fun d i x => storLe h (p := 1) d i x) (fun d i x n => storLeN h (p := 1) d i x n)
    (fun d i x => by rw [storLe_eq h hc hq, image_bytes', wrN_ofImage])
    (fun d i x n h0 hn => by rw [storLeN_eq h hc hq _ _ _ _ h0, image_bytes', wrN_ofImage, Nat.one_mul, Nat.min_eq_right (by omega)])
    hs hd

/-! ### comparisons -/

theorem equalLoop_eq (h : Host) {p q : Nat} (hp : 0 < p) (hq : 0 < q) (a : List (Word p)) (b : List (Word q)) (n i : Nat)
    (ha : i + n ≤ a.length * p) (hb : i + n ≤ b.length * q) :
    equalLoop h a b n i
      = some (decide (((image h.endian a).drop i).take n = ((image h.endian b).drop i).take n)) := by
  induction n generalizing i with
  | zero => simp [equalLoop]
  | succ n ih =>
    have hia : i < (image h.endian a).length := by rw [image_length]; omega
    have hib : i < (image h.endian b).length := by rw [image_length]; omega
    unfold equalLoop
    rw [load1 h false hp a i hia, load1 h false hq b i hib]
    simp only [Option.bind_eq_bind, Option.bind_some]
    rw [List.drop_eq_getElem_cons hia, List.drop_eq_getElem_cons hib]
    simp only [List.take_succ_cons, List.cons.injEq]
    by_cases hx : (image h.endian a)[i] = (image h.endian b)[i]
    · simp only [hx, ne_eq, not_true_eq_false, if_false, true_and]
      exact ih (i + 1) (by omega) (by omega)
    · simp [hx]

theorem equal_eq (h : Host) {p q : Nat} (hp : 0 < p) (hq : 0 < q) (a : List (Word p)) (b : List (Word q)) (size : Nat)
    (ha : size ≤ a.length * p) (hb : size ≤ b.length * q) :
    equal h a b size = some (decide ((image h.endian a).take size = (image h.endian b).take size)) := by
  unfold equal
  split
  · rw [equalLoop_eq h hp hq _ _ _ _ (by omega) (by omega)]; simp
  · rw [rdN_some _ _ _ (by rw [image_length]; omega), rdN_some _ _ _ (by rw [image_length]; omega)]
    simp

theorem or_eq_zero_byte (a b : Byte) : a ||| b = 0#8 ↔ a = 0#8 ∧ b = 0#8 := by
  constructor
  · intro h
    have hb : ∀ i, a.getLsbD i = false ∧ b.getLsbD i = false := by
      intro i
      have := congrArg (fun v => v.getLsbD i) h
      simpa using this
    exact ⟨BitVec.eq_of_getLsbD_eq (fun i _ => by simpa using (hb i).1),
      BitVec.eq_of_getLsbD_eq (fun i _ => by simpa using (hb i).2)⟩
  · rintro ⟨rfl, rfl⟩; rfl

theorem matchLoop_eq (h : Host) {p q : Nat} (hp : 0 < p) (hq : 0 < q) (a : List (Word p)) (b : List (Word q)) (n i : Nat)
    (t : Byte) (c : Nat) (ha : i + n ≤ a.length * p) (hb : i + n ≤ b.length * q) :
    ∃ t', forM' (fun i (tn : Byte × Nat) => do
        let x ← load h false 1 a i
        let y ← load h false 1 b i
        pure ((tn.1 ||| (x ^^^ y) : Byte), tn.2 + 1)) n i (t, c) = some (t', c + n) ∧
      (t' = 0#8 ↔ t = 0#8 ∧ ((image h.endian a).drop i).take n = ((image h.endian b).drop i).take n) := by
  induction n generalizing i t c with
  | zero => exact ⟨t, by simp [forM'], by simp⟩
  | succ n ih =>
    have hia : i < (image h.endian a).length := by rw [image_length]; omega
    have hib : i < (image h.endian b).length := by rw [image_length]; omega
    obtain ⟨t', he, hz⟩ := ih (i + 1) (t ||| ((image h.endian a)[i] ^^^ (image h.endian b)[i])) (c + 1) (by omega) (by omega)
    refine ⟨t', ?_, ?_⟩
    · unfold forM'
      rw [load1 h false hp a i hia, load1 h false hq b i hib]
      simp only [Option.bind_eq_bind, Option.bind_some, Option.pure_def]
      rw [show c + (n + 1) = c + 1 + n by omega]
      exact he
    · rw [hz, or_eq_zero_byte, List.drop_eq_getElem_cons hia, List.drop_eq_getElem_cons hib]
      simp only [List.take_succ_cons, List.cons.injEq, BitVec.xor_eq_zero_iff, and_assoc]

theorem matchPtr_eq (h : Host) {p q : Nat} (hp : 0 < p) (hq : 0 < q) (a : List (Word p)) (b : List (Word q)) (size : Nat)
    (ha : size ≤ a.length * p) (hb : size ≤ b.length * q) :
    matchPtr h a b size = some (decide ((image h.endian a).take size = (image h.endian b).take size), size) := by
  unfold matchPtr
  obtain ⟨t', he, hz⟩ := matchLoop_eq h hp hq a b size 0 0#8 0 (by omega) (by omega)
  rw [he]
  simp only [Option.bind_eq_bind, Option.bind_some, Nat.zero_add]
  simp only [hz, true_and, List.drop_zero]
  rfl

end Milo.Memory
