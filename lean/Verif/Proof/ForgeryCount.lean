import Verif.Proof.Forgery
import Mathlib.Data.Set.Card
import Mathlib.Algebra.Order.BigOperators.Group.Finset
/- How many keys. -/
namespace Milo.Forgery
open Spec.Poly1305 Milo.Memory

/-! ### s -/

theorem count_s (a M K c : ℕ) (hM : 0 < M) (hc : c < M) : ((Finset.range (M * K)).filter fun s => (a + s) % M = c).card = K := by
  have : ((Finset.range (M * K)).filter fun s => (a + s) % M = c) = (Finset.range K).image fun j => (c + (M - a % M)) % M + M * j := by
    ext s
    simp only [Finset.mem_filter, Finset.mem_range, Finset.mem_image]
    have ha := Nat.mod_lt a hM
    have hd := Nat.mod_lt (c + (M - a % M)) hM
    constructor
    · rintro ⟨h1, h2⟩
      refine ⟨s / M, Nat.div_lt_of_lt_mul h1, ?_⟩
      have : (c + (M - a % M)) % M = s % M := by
        rw [← h2]
        have e : a = a % M + M * (a / M) := (Nat.mod_add_div a M).symm
        have : ((a + s) % M + (M - a % M)) % M = (a + s + (M - a % M)) % M := by rw [Nat.mod_add_mod]
        rw [this]
        have : a + s + (M - a % M) = s + M * (a / M + 1) := by rw [Nat.mul_add, Nat.mul_one]; omega
        rw [this, Nat.add_mul_mod_self_left]
      rw [this]; exact Nat.mod_add_div s M
    · rintro ⟨j, hj, rfl⟩
      refine ⟨?_, ?_⟩
      · calc (c + (M - a % M)) % M + M * j < M + M * j := by omega
          _ = M * (j + 1) := by ring
          _ ≤ M * K := Nat.mul_le_mul_left _ hj
      · rw [← Nat.add_assoc, Nat.add_mul_mod_self_left, Nat.add_mod_mod]
        have e : a = a % M + M * (a / M) := (Nat.mod_add_div a M).symm
        have : a + (c + (M - a % M)) = c + M * (a / M + 1) := by rw [Nat.mul_add, Nat.mul_one]; omega
        rw [this, Nat.add_mul_mod_self_left, Nat.mod_eq_of_lt hc]
  rw [this, Finset.card_image_of_injective _ (fun i j h => by
    have : M * i = M * j := by simpa using h
    exact Nat.eq_of_mul_eq_mul_left hM this), Finset.card_range]

/-! ### r -/

/-- The bits `clamp` clears. -/
def cleared (r : ℕ) : ℕ := r / 2 ^ 28 % 2 ^ 6 + 2 ^ 6 * (r / 2 ^ 60 % 2 ^ 6) + 2 ^ 12 * (r / 2 ^ 92 % 2 ^ 6) + 2 ^ 18 * (r / 2 ^ 124 % 2 ^ 4)

theorem cleared_lt (r : ℕ) : cleared r < 2 ^ 22 := by
  unfold cleared
  have h1 := Nat.mod_lt (r / 2 ^ 28) (show 2 ^ 6 > 0 by norm_num)
  have h2 := Nat.mod_lt (r / 2 ^ 60) (show 2 ^ 6 > 0 by norm_num)
  have h3 := Nat.mod_lt (r / 2 ^ 92) (show 2 ^ 6 > 0 by norm_num)
  have h4 := Nat.mod_lt (r / 2 ^ 124) (show 2 ^ 4 > 0 by norm_num)
  generalize r / 2 ^ 28 % 2 ^ 6 = x1 at *
  generalize r / 2 ^ 60 % 2 ^ 6 = x2 at *
  generalize r / 2 ^ 92 % 2 ^ 6 = x3 at *
  generalize r / 2 ^ 124 % 2 ^ 4 = x4 at *
  norm_num at *
  omega

theorem field_bit (r q : ℕ) (lo w : ℕ) (h : r / 2 ^ lo % 2 ^ w = q / 2 ^ lo % 2 ^ w) (i : ℕ) (h1 : lo ≤ i) (h2 : i < lo + w) : r.testBit i = q.testBit i := by
  have := congrArg (fun x => Nat.testBit x (i - lo)) h
  simp only [Nat.testBit_mod_two_pow, Nat.testBit_div_two_pow, show i - lo < w by omega, decide_true, Bool.true_and, show lo + (i - lo) = i by omega] at this
  rwa [show i - lo + lo = i by omega] at this

theorem mask_bits : ∀ i < 128, Nat.testBit 0x0ffffffc0ffffffc0ffffffc0fffffff i = true ∨ (28 ≤ i ∧ i < 34) ∨ (60 ≤ i ∧ i < 66) ∨ (92 ≤ i ∧ i < 98) ∨ (124 ≤ i ∧ i < 128) := by
  decide +kernel

theorem clamp_inj (r q : ℕ) (hr : r < 2 ^ 128) (hq : q < 2 ^ 128) (h : clamp r = clamp q) (hc : cleared r = cleared q) : r = q := by
  unfold cleared at hc
  have a1 := Nat.mod_lt (r / 2 ^ 28) (show 2 ^ 6 > 0 by norm_num)
  have a2 := Nat.mod_lt (r / 2 ^ 60) (show 2 ^ 6 > 0 by norm_num)
  have a3 := Nat.mod_lt (r / 2 ^ 92) (show 2 ^ 6 > 0 by norm_num)
  have a4 := Nat.mod_lt (r / 2 ^ 124) (show 2 ^ 4 > 0 by norm_num)
  have b1 := Nat.mod_lt (q / 2 ^ 28) (show 2 ^ 6 > 0 by norm_num)
  have b2 := Nat.mod_lt (q / 2 ^ 60) (show 2 ^ 6 > 0 by norm_num)
  have b3 := Nat.mod_lt (q / 2 ^ 92) (show 2 ^ 6 > 0 by norm_num)
  have b4 := Nat.mod_lt (q / 2 ^ 124) (show 2 ^ 4 > 0 by norm_num)
  obtain ⟨c1, c2, c3, c4⟩ : r / 2 ^ 28 % 2 ^ 6 = q / 2 ^ 28 % 2 ^ 6 ∧ r / 2 ^ 60 % 2 ^ 6 = q / 2 ^ 60 % 2 ^ 6 ∧ r / 2 ^ 92 % 2 ^ 6 = q / 2 ^ 92 % 2 ^ 6 ∧
      r / 2 ^ 124 % 2 ^ 4 = q / 2 ^ 124 % 2 ^ 4 := by
    generalize r / 2 ^ 28 % 2 ^ 6 = x1 at *
    generalize r / 2 ^ 60 % 2 ^ 6 = x2 at *
    generalize r / 2 ^ 92 % 2 ^ 6 = x3 at *
    generalize r / 2 ^ 124 % 2 ^ 4 = x4 at *
    generalize q / 2 ^ 28 % 2 ^ 6 = y1 at *
    generalize q / 2 ^ 60 % 2 ^ 6 = y2 at *
    generalize q / 2 ^ 92 % 2 ^ 6 = y3 at *
    generalize q / 2 ^ 124 % 2 ^ 4 = y4 at *
    norm_num at *
    omega
  apply Nat.eq_of_testBit_eq
  intro i
  by_cases hi : i < 128
  · rcases mask_bits i hi with hm | ⟨h1, h2⟩ | ⟨h1, h2⟩ | ⟨h1, h2⟩ | ⟨h1, h2⟩
    · have := congrArg (fun x => Nat.testBit x i) h
      simpa only [clamp, Nat.testBit_and, hm, Bool.and_true] using this
    · exact field_bit r q 28 6 c1 i h1 h2
    · exact field_bit r q 60 6 c2 i h1 h2
    · exact field_bit r q 92 6 c3 i h1 h2
    · exact field_bit r q 124 4 c4 i h1 h2
  · have : 2 ^ 128 ≤ 2 ^ i := Nat.pow_le_pow_right (by norm_num) (by omega)
    rw [Nat.testBit_lt_two_pow (by omega), Nat.testBit_lt_two_pow (by omega)]

theorem count_clamp (c : ℕ) : ((Finset.range (2 ^ 128)).filter fun r => clamp r = c).card ≤ 2 ^ 22 := by
  have : (((Finset.range (2 ^ 128)).filter fun r => clamp r = c).image cleared).card ≤ (Finset.range (2 ^ 22)).card :=
    Finset.card_le_card fun x hx => by
      obtain ⟨r, -, rfl⟩ := Finset.mem_image.mp hx
      exact Finset.mem_range.mpr (cleared_lt r)
  rw [Finset.card_image_of_injOn, Finset.card_range] at this
  · exact this
  · intro x hx y hy h
    simp only [Finset.coe_filter, Finset.mem_range, Set.mem_setOf_eq] at hx hy
    exact clamp_inj x y hx.1 hy.1 (hx.2.trans hy.2.symm) h

theorem count_r (B : Finset ℕ) : ((Finset.range (2 ^ 128)).filter fun r => clamp r ∈ B).card ≤ 2 ^ 22 * B.card := by
  refine Finset.card_le_mul_card_image_of_maps_to (f := clamp) (t := B) (fun a ha => (Finset.mem_filter.mp ha).2) (2 ^ 22) fun b hb => ?_
  refine le_trans (Finset.card_le_card fun x hx => ?_) (count_clamp b)
  simp only [Finset.mem_filter] at hx ⊢
  exact ⟨hx.1.1, hx.2⟩

/-! ### keys -/

def keyOf (x : (_ : ℕ) × ℕ) : List Byte := Spec.leBytes 16 x.1 ++ Spec.leBytes 16 x.2

theorem leBytes_length (n x : ℕ) : (Spec.leBytes n x).length = n := by simp [Spec.leBytes]

theorem leNat_leBytes (x : ℕ) (h : x < 2 ^ 128) : Spec.leNat (Spec.leBytes 16 x) = x := by
  rw [spec_leNat, spec_leBytes, leNat_toLE, show (256 : ℕ) ^ 16 = 2 ^ 128 by norm_num, Nat.mod_eq_of_lt h]

theorem keyOf_parts (x : (_ : ℕ) × ℕ) (h1 : x.1 < 2 ^ 128) (h2 : x.2 < 2 ^ 128) :
    (keyOf x).length = 32 ∧ Spec.leNat ((keyOf x).take 16) = x.1 ∧ Spec.leNat (((keyOf x).drop 16).take 16) = x.2 := by
  unfold keyOf
  refine ⟨by simp [leBytes_length], ?_, ?_⟩
  · rw [List.take_left' (leBytes_length 16 _), leNat_leBytes _ h1]
  · rw [List.drop_left' (leBytes_length 16 _), List.take_of_length_le (by simp [leBytes_length]), leNat_leBytes _ h2]

theorem keyOf_surj (key : List Byte) (h : key.length = 32) :
    keyOf ⟨Spec.leNat (key.take 16), Spec.leNat ((key.drop 16).take 16)⟩ = key ∧ Spec.leNat (key.take 16) < 2 ^ 128 ∧ Spec.leNat ((key.drop 16).take 16) < 2 ^ 128 := by
  have l1 : (key.take 16).length = 16 := by simp [h]
  have l2 : ((key.drop 16).take 16).length = 16 := by simp [h]
  refine ⟨?_, ?_, ?_⟩
  · unfold keyOf
    simp only [spec_leBytes, spec_leNat]
    rw [toLE_leNat' l1, toLE_leNat' l2, List.take_of_length_le (l := key.drop 16) (by simp [h]), List.take_append_drop]
  · have := leNat_lt (key.take 16)
    rw [l1] at this
    rw [spec_leNat]; exact lt_of_lt_of_eq this (by norm_num)
  · have := leNat_lt ((key.drop 16).take 16)
    rw [l2] at this
    rw [spec_leNat]; exact lt_of_lt_of_eq this (by norm_num)

theorem keyOf_injOn (T : Set ((_ : ℕ) × ℕ)) (hT : ∀ x ∈ T, x.1 < 2 ^ 128 ∧ x.2 < 2 ^ 128) : Set.InjOn keyOf T := by
  intro x hx y hy h
  obtain ⟨-, x1, x2⟩ := keyOf_parts x (hT x hx).1 (hT x hx).2
  obtain ⟨-, y1, y2⟩ := keyOf_parts y (hT y hy).1 (hT y hy).2
  rw [h] at x1 x2
  exact Sigma.ext (by rw [← x1, y1]) (heq_of_eq (by rw [← x2, y2]))

theorem mac_take (key m t : List Byte) (n : ℕ) (hn : n ≤ 16) (ht : t.length = n) :
    (mac key m).take n = t ↔ (acc (clamp (Spec.leNat (key.take 16))) m + Spec.leNat ((key.drop 16).take 16)) % 256 ^ n = leNat t := by
  have e : (mac key m).take n = toLE n (acc (clamp (Spec.leNat (key.take 16))) m + Spec.leNat ((key.drop 16).take 16)) := by
    have h1 : ∀ x, (Spec.leBytes 16 x).take n = Spec.leBytes n x := fun x => by
      unfold Spec.leBytes
      rw [← List.map_take, List.take_range, Nat.min_eq_left hn]
    have h3 : ∀ x, toLE n (x % 2 ^ 128) = toLE n x := fun x => by
      rw [← toLE_leNat' (toLE_length n (x % 2 ^ 128)), leNat_toLE, show (2 : ℕ) ^ 128 = 256 ^ 16 by norm_num, Nat.mod_mod_of_dvd _ (Nat.pow_dvd_pow 256 hn), ← leNat_toLE,
        toLE_leNat' (toLE_length n x)]
    show (Spec.leBytes 16 _).take n = _
    rw [h1, spec_leBytes, h3]
    rfl
  rw [e]
  constructor
  · intro h; rw [← h, leNat_toLE]
  · intro h; rw [← leNat_toLE] at h
    rw [← toLE_leNat' (toLE_length n _), h, toLE_leNat' ht]

/-- The `s` that give `m` a tag beginning with `t`. -/
noncomputable def ss (n : ℕ) (m t : List Byte) (r : ℕ) : Finset ℕ := (Finset.range (256 ^ n * 256 ^ (16 - n))).filter fun s => (acc (clamp r) m + s) % 256 ^ n = leNat t

theorem ss_card (n : ℕ) (m t : List Byte) (ht : t.length = n) (r : ℕ) : (ss n m t r).card = 256 ^ (16 - n) :=
  count_s _ _ _ _ (by positivity) (by have := leNat_lt t; rwa [ht] at this)

theorem pow_split (n : ℕ) (hn : n ≤ 16) : 256 ^ n * 256 ^ (16 - n) = 2 ^ 128 := by
  rw [← pow_add, show n + (16 - n) = 16 by omega]; norm_num

theorem keys_one (n : ℕ) (hn : n ≤ 16) (m t : List Byte) (ht : t.length = n) :
    {key : List Byte | key.length = 32 ∧ (mac key m).take n = t} = keyOf '' (((Finset.range (2 ^ 128)).sigma (ss n m t) : Finset ((_ : ℕ) × ℕ)) : Set ((_ : ℕ) × ℕ)) := by
  ext key
  simp only [Set.mem_setOf_eq, Set.mem_image, Finset.coe_sigma, Finset.mem_coe, Set.mem_sigma_iff, Finset.mem_range, ss, Finset.mem_filter, pow_split n hn]
  constructor
  · rintro ⟨hl, hk⟩
    obtain ⟨e, h1, h2⟩ := keyOf_surj key hl
    exact ⟨_, ⟨h1, h2, (mac_take key m t n hn ht).mp hk⟩, e⟩
  · rintro ⟨x, ⟨h1, h2, h3⟩, rfl⟩
    obtain ⟨hl, p1, p2⟩ := keyOf_parts x h1 h2
    refine ⟨hl, (mac_take _ m t n hn ht).mpr ?_⟩
    rw [p1, p2]; exact h3

theorem sigma_small (n : ℕ) (hn : n ≤ 16) (m t : List Byte) (R : Finset ℕ) (hR : R ⊆ Finset.range (2 ^ 128)) :
    ∀ x ∈ ((R.sigma (ss n m t) : Finset ((_ : ℕ) × ℕ)) : Set ((_ : ℕ) × ℕ)), x.1 < 2 ^ 128 ∧ x.2 < 2 ^ 128 := by
  intro x hx
  simp only [Finset.coe_sigma, Set.mem_sigma_iff, Finset.mem_coe, ss, Finset.mem_filter, Finset.mem_range, pow_split n hn] at hx
  exact ⟨Finset.mem_range.mp (hR hx.1), hx.2.1⟩

theorem count_one (n : ℕ) (hn : n ≤ 16) (m t : List Byte) (ht : t.length = n) :
    {key : List Byte | key.length = 32 ∧ (mac key m).take n = t}.ncard = 2 ^ 128 * 256 ^ (16 - n) := by
  rw [keys_one n hn m t ht, Set.ncard_image_of_injOn (keyOf_injOn _ (sigma_small n hn m t _ (Finset.Subset.refl _))), Set.ncard_coe_finset, Finset.card_sigma,
    Finset.sum_const_nat (fun r _ => ss_card n m t ht r), Finset.card_range]

theorem count_two (n : ℕ) (hn : n ≤ 16) (m m' t t' : List Byte) (hne : m ≠ m') (ht : t.length = n) :
    {key : List Byte | key.length = 32 ∧ (mac key m).take n = t ∧ (mac key m').take n = t'}.ncard
      ≤ 2 ^ (131 - 8 * n) * max ((m.length + 15) / 16) ((m'.length + 15) / 16) * 2 ^ 22 * 256 ^ (16 - n) := by
  have hsub : {key : List Byte | key.length = 32 ∧ (mac key m).take n = t ∧ (mac key m').take n = t'}
      ⊆ keyOf '' ((((Finset.range (2 ^ 128)).filter fun r => clamp r ∈ bad n m m' t t').sigma (ss n m t) : Finset ((_ : ℕ) × ℕ)) : Set ((_ : ℕ) × ℕ)) := by
    rintro key ⟨hl, hk, hk'⟩
    obtain ⟨e, h1, h2⟩ := keyOf_surj key hl
    refine ⟨_, ?_, e⟩
    simp only [Finset.coe_sigma, Set.mem_sigma_iff, Finset.mem_coe, ss, Finset.mem_filter, Finset.mem_range, pow_split n hn]
    exact ⟨⟨h1, mem_bad n hn m m' t t' key hne hk hk'⟩, h2, (mac_take key m t n hn ht).mp hk⟩
  refine le_trans (Set.ncard_le_ncard hsub (Set.toFinite _)) (le_trans (Set.ncard_image_le (Set.toFinite _)) ?_)
  rw [Set.ncard_coe_finset, Finset.card_sigma, Finset.sum_const_nat (fun r _ => ss_card n m t ht r)]
  refine Nat.mul_le_mul_right _ (le_trans (count_r _) ?_)
  rw [Nat.mul_comm]
  exact Nat.mul_le_mul_right _ (bad_card n m m' t t')

end Milo.Forgery
