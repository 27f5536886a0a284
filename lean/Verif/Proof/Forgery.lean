import Verif.Proof.Prime1305
import Verif.Proof.SpecBytes
import Verif.Spec.Poly1305
import Mathlib.Algebra.Polynomial.Roots
import Mathlib.Data.ZMod.Basic
import Mathlib.Data.Int.ModEq
import Mathlib.Tactic.Zify
/- Poly1305 as a polynomial over the field with `2^130 - 5` elements, and its roots. -/
namespace Milo.Forgery
open Polynomial Spec.Poly1305 Milo.Memory

abbrev P : ℕ := 2 ^ 130 - 5
instance : Fact (Nat.Prime P) := ⟨Prime1305.prime⟩

/-- The coefficient a block stands for. -/
def val (b : List Byte) : ℕ := Spec.leNat (b ++ [1])

noncomputable def polyFrom (Q : (ZMod P)[X]) (bs : List (List Byte)) : (ZMod P)[X] := bs.foldl (fun Q b => (Q + C (val b : ZMod P)) * X) Q

theorem polyFrom_snoc (Q : (ZMod P)[X]) (bs : List (List Byte)) (b : List Byte) : polyFrom Q (bs ++ [b]) = (polyFrom Q bs + C (val b : ZMod P)) * X := by
  simp [polyFrom]

theorem eval_polyFrom (r : ℕ) (bs : List (List Byte)) : ∀ (acc : ℕ) (Q : (ZMod P)[X]), ((acc : ℕ) : ZMod P) = Q.eval (r : ZMod P) →
    ((bs.foldl (absorb r) acc : ℕ) : ZMod P) = (polyFrom Q bs).eval (r : ZMod P) := by
  induction bs with
  | nil => intro acc Q h; exact h
  | cons b bs ih =>
    intro acc Q h
    refine ih _ _ ?_
    have : p = P := rfl
    simp only [absorb, this, ZMod.natCast_mod, Nat.cast_mul, Nat.cast_add, h, eval_mul, eval_add, eval_C, eval_X, val]

theorem natDegree_polyFrom (bs : List (List Byte)) : ∀ (Q : (ZMod P)[X]) , (polyFrom Q bs).natDegree ≤ Q.natDegree + bs.length := by
  induction bs with
  | nil => intro Q; exact le_refl _
  | cons b bs ih =>
    intro Q
    refine le_trans (ih _) ?_
    have : ((Q + C (val b : ZMod P)) * X).natDegree ≤ Q.natDegree + 1 := by
      refine le_trans natDegree_mul_le ?_
      rw [natDegree_add_C, natDegree_X]
    simp only [List.length_cons]
    omega

theorem coeff_zero (bs : List (List Byte)) : (polyFrom 0 bs).coeff 0 = 0 := by
  rcases List.eq_nil_or_concat bs with rfl | ⟨l, b, rfl⟩
  · simp [polyFrom]
  · rw [List.concat_eq_append, polyFrom_snoc, coeff_mul_X_zero]

theorem val_eq (b : List Byte) : val b = leNat b + 256 ^ b.length := by
  unfold val
  rw [spec_leNat, leNat_append]
  simp [leNat]

theorem val_lt (b : List Byte) (h : b.length ≤ 16) : val b < P := by
  rw [val_eq]
  have h1 := leNat_lt b
  have h2 : 256 ^ b.length ≤ 256 ^ 16 := Nat.pow_le_pow_right (by norm_num) h
  have : 256 ^ 16 + 256 ^ 16 < P := by norm_num
  omega

theorem val_pos (b : List Byte) : 0 < val b := by
  rw [val_eq]; positivity

theorem val_inj (b c : List Byte) (h : val b = val c) : b = c := by
  rw [val_eq, val_eq] at h
  have hb := leNat_lt b
  have hc := leNat_lt c
  have hl : b.length = c.length := by
    rcases Nat.lt_trichotomy b.length c.length with h1 | h1 | h1
    · exfalso
      have : 256 ^ (b.length + 1) ≤ 256 ^ c.length := Nat.pow_le_pow_right (by norm_num) h1
      rw [pow_succ] at this
      omega
    · exact h1
    · exfalso
      have : 256 ^ (c.length + 1) ≤ 256 ^ b.length := Nat.pow_le_pow_right (by norm_num) h1
      rw [pow_succ] at this
      omega
  rw [hl] at h
  have e : leNat b = leNat c := by omega
  rw [← toLE_leNat b, ← toLE_leNat c, hl, e]

theorem cast_inj {x y : ℕ} (hx : x < P) (hy : y < P) (h : (x : ZMod P) = y) : x = y := by
  have := congrArg ZMod.val h
  rwa [ZMod.val_natCast_of_lt hx, ZMod.val_natCast_of_lt hy] at this

theorem poly_inj (bs : List (List Byte)) (hb : ∀ b ∈ bs, b.length ≤ 16) : ∀ cs : List (List Byte), (∀ c ∈ cs, c.length ≤ 16) → polyFrom 0 bs = polyFrom 0 cs → bs = cs := by
  have nz : ∀ (l : List (List Byte)) (b : List Byte), b.length ≤ 16 → polyFrom 0 (l ++ [b]) ≠ 0 := by
    intro l b h e
    rw [polyFrom_snoc] at e
    have := congrArg (fun q => coeff q 1) e
    simp only [coeff_mul_X, coeff_add, coeff_zero, coeff_C_zero, zero_add, Polynomial.coeff_zero] at this
    have := cast_inj (val_lt b h) (by norm_num : 0 < P) (by simpa using this)
    have := val_pos b
    omega
  induction bs using List.reverseRecOn with
  | nil =>
    intro cs hc e
    rcases List.eq_nil_or_concat cs with rfl | ⟨l, b, rfl⟩
    · rfl
    · rw [List.concat_eq_append] at *
      exact absurd e.symm (nz l b (hc b (by simp)))
  | append_singleton bs b ih =>
    intro cs hc e
    rcases List.eq_nil_or_concat cs with rfl | ⟨l, c, rfl⟩
    · exact absurd e (nz bs b (hb b (by simp)))
    · rw [List.concat_eq_append] at *
      rw [polyFrom_snoc, polyFrom_snoc] at e
      have e := mul_right_cancel₀ X_ne_zero e
      have e0 := congrArg (fun q => coeff q 0) e
      simp only [coeff_add, coeff_zero, coeff_C_zero, zero_add] at e0
      have hv := val_inj b c (cast_inj (val_lt b (hb b (by simp))) (val_lt c (hc c (by simp))) e0)
      subst hv
      have := ih (fun x hx => hb x (by simp [hx])) l (fun x hx => hc x (by simp [hx])) (add_right_cancel e)
      rw [this]

/-! ### chunks -/

theorem chunks_facts (m : List Byte) : (Spec.chunks 16 m).flatten = m ∧ (∀ c ∈ Spec.chunks 16 m, c.length ≤ 16) ∧ (Spec.chunks 16 m).length = (m.length + 15) / 16 := by
  induction m using Spec.chunks.induct (n := 16) with
  | case1 l h =>
    have : l = [] := by simpa using h
    subst this
    simp [chunks_nil]
  | case2 l h ih =>
    unfold Spec.chunks
    rw [dif_neg h]
    obtain ⟨i1, i2, i3⟩ := ih
    have hl : 0 < l.length := List.length_pos_iff.mpr (fun e => h (.inl e))
    refine ⟨by rw [List.flatten_cons, i1, List.take_append_drop], ?_, ?_⟩
    · intro c hc
      rcases List.mem_cons.mp hc with rfl | hc
      · simp
      · exact i2 c hc
    · simp only [List.length_cons, i3, List.length_drop]
      omega

theorem chunks_inj (m m' : List Byte) (h : Spec.chunks 16 m = Spec.chunks 16 m') : m = m' := by
  rw [← (chunks_facts m).1, ← (chunks_facts m').1, h]

noncomputable def poly (m : List Byte) : (ZMod P)[X] := polyFrom 0 (Spec.chunks 16 m)

theorem poly_injective (m m' : List Byte) (h : poly m = poly m') : m = m' :=
  chunks_inj m m' (poly_inj _ (chunks_facts m).2.1 _ (chunks_facts m').2.1 h)

/-- The accumulator after a message. -/
def acc (r : ℕ) (m : List Byte) : ℕ := (Spec.chunks 16 m).foldl (absorb r) 0

theorem acc_lt (r : ℕ) (m : List Byte) : acc r m < P := by
  unfold acc
  rcases List.eq_nil_or_concat (Spec.chunks 16 m) with h | ⟨l, b, h⟩
  · rw [h]; norm_num
  · rw [h, List.concat_eq_append, List.foldl_append]
    exact Nat.mod_lt _ (by norm_num [p])

theorem acc_eval (r : ℕ) (m : List Byte) : (acc r m : ZMod P) = (poly m).eval (r : ZMod P) := eval_polyFrom r _ 0 0 (by simp)

/-- The values of `r` for which the accumulators of two messages differ by `d`. -/
noncomputable def roots (m m' : List Byte) (d : ℤ) : Finset ℕ := ((poly m - poly m' - C (d : ZMod P)).roots.toFinset).image ZMod.val

theorem roots_card (m m' : List Byte) (d : ℤ) : (roots m m' d).card ≤ max ((m.length + 15) / 16) ((m'.length + 15) / 16) := by
  refine le_trans Finset.card_image_le (le_trans (Multiset.toFinset_card_le _) (le_trans (card_roots' _) ?_))
  rw [natDegree_sub_C]
  refine le_trans (natDegree_sub_le _ _) ?_
  have h1 := natDegree_polyFrom (Spec.chunks 16 m) 0
  have h2 := natDegree_polyFrom (Spec.chunks 16 m') 0
  rw [(chunks_facts m).2.2, natDegree_zero, zero_add] at h1
  rw [(chunks_facts m').2.2, natDegree_zero, zero_add] at h2
  exact max_le_max h1 h2

theorem mem_roots (m m' : List Byte) (hne : m ≠ m') (d : ℤ) (r : ℕ) (hr : r < P) (h : (acc r m : ℤ) - acc r m' = d) : r ∈ roots m m' d := by
  unfold roots
  rw [Finset.mem_image]
  refine ⟨(r : ZMod P), ?_, ZMod.val_natCast_of_lt hr⟩
  rw [Multiset.mem_toFinset, Polynomial.mem_roots', IsRoot.def, eval_sub, eval_sub, eval_C, ← acc_eval, ← acc_eval]
  refine ⟨fun e => hne ?_, ?_⟩
  · have e0 := congrArg (fun q => coeff q 0) e
    simp only [poly, coeff_sub, coeff_zero, coeff_C_zero, sub_self, zero_sub, Polynomial.coeff_zero, neg_eq_zero] at e0
    rw [e0, C_0, sub_zero] at e
    exact poly_injective m m' (sub_eq_zero.mp e)
  · rw [← h]; push_cast; ring

theorem take_leBytes (n x : ℕ) (hn : n ≤ 16) (t : List Byte) (h : (Spec.leBytes 16 x).take n = t) : x % 256 ^ n = leNat t := by
  rw [← h]
  have : (Spec.leBytes 16 x).take n = Spec.leBytes n x := by
    unfold Spec.leBytes
    rw [← List.map_take, List.take_range, Nat.min_eq_left hn]
  rw [this, spec_leBytes, leNat_toLE]

/-- The accumulators of two messages with tags beginning with `t` and `t'` differ by one of these. -/
def diff (n : ℕ) (t t' : List Byte) (k : ℕ) : ℤ := ((leNat t : ℤ) - leNat t' + P) % (256 : ℤ) ^ n + k * (256 : ℤ) ^ n - P

theorem diff_of (n : ℕ) (hn : n ≤ 16) (t t' : List Byte) (A A' s : ℕ) (hA : A < P) (hA' : A' < P) (h : (A + s) % 256 ^ n = leNat t) (h' : (A' + s) % 256 ^ n = leNat t') :
    ∃ k < 2 ^ (131 - 8 * n), (A : ℤ) - A' = diff n t t' k := by
  have hM : (0 : ℤ) < (256 : ℤ) ^ n := by positivity
  have hcong : ((A : ℤ) - A' + P) % (256 : ℤ) ^ n = ((leNat t : ℤ) - leNat t' + P) % (256 : ℤ) ^ n := by
    rw [← h, ← h']
    push_cast
    have e1 : ((A : ℤ) + s) % 256 ^ n ≡ (A : ℤ) + s [ZMOD 256 ^ n] := Int.mod_modEq _ _
    have e2 : ((A' : ℤ) + s) % 256 ^ n ≡ (A' : ℤ) + s [ZMOD 256 ^ n] := Int.mod_modEq _ _
    have := ((e1.sub e2).add_right (P : ℤ)).symm
    have e3 : (A : ℤ) + s - (A' + s) + P = A - A' + P := by ring
    rw [e3] at this
    have e4 : (P : ℤ) = 1361129467683753853853498429727072845819 := by norm_num
    rw [e4] at this
    exact this
  have hpos : 0 ≤ (A : ℤ) - A' + P := by omega
  refine ⟨(((A : ℤ) - A' + P) / (256 : ℤ) ^ n).toNat, ?_, ?_⟩
  · have hq : 0 ≤ ((A : ℤ) - A' + P) / (256 : ℤ) ^ n := Int.ediv_nonneg hpos hM.le
    have hlt : ((A : ℤ) - A' + P) / (256 : ℤ) ^ n < 2 ^ (131 - 8 * n) := by
      rw [Int.ediv_lt_iff_lt_mul hM]
      have : (2 : ℤ) ^ (131 - 8 * n) * 256 ^ n = 2 ^ 131 := by
        rw [show (256 : ℤ) = 2 ^ 8 by norm_num, ← pow_mul, ← pow_add]
        congr 1; omega
      rw [this]
      have : (P : ℤ) = 2 ^ 130 - 5 := by norm_num
      have hA2 : (A : ℤ) < P := by exact_mod_cast hA
      rw [this] at *
      have : (2 : ℤ) ^ 131 = 2 ^ 130 + 2 ^ 130 := by norm_num
      omega
    zify
    rw [Int.toNat_of_nonneg hq]
    exact_mod_cast hlt
  · unfold diff
    rw [← hcong, Int.toNat_of_nonneg (Int.ediv_nonneg hpos hM.le)]
    have := Int.emod_add_ediv_mul ((A : ℤ) - A' + P) ((256 : ℤ) ^ n)
    omega

/-- The values of `r` for which `m` and `m'` have tags beginning with `t` and `t'` under some `s`. -/
noncomputable def bad (n : ℕ) (m m' t t' : List Byte) : Finset ℕ := (Finset.range (2 ^ (131 - 8 * n))).biUnion fun k => roots m m' (diff n t t' k)

theorem bad_card (n : ℕ) (m m' t t' : List Byte) : (bad n m m' t t').card ≤ 2 ^ (131 - 8 * n) * max ((m.length + 15) / 16) ((m'.length + 15) / 16) := by
  have := Finset.card_biUnion_le_card_mul (Finset.range (2 ^ (131 - 8 * n))) (fun k => roots m m' (diff n t t' k)) _ fun k _ => roots_card m m' (diff n t t' k)
  rwa [Finset.card_range] at this

theorem clamp_lt (x : ℕ) : clamp x < 2 ^ 124 := lt_of_le_of_lt Nat.and_le_right (by norm_num)

theorem mem_bad (n : ℕ) (hn : n ≤ 16) (m m' t t' key : List Byte) (hne : m ≠ m') (h : (mac key m).take n = t) (h' : (mac key m').take n = t') :
    clamp (Spec.leNat (key.take 16)) ∈ bad n m m' t t' := by
  have key1 : ∀ (x s : ℕ) (t : List Byte), (Spec.leBytes 16 ((x + s) % 2 ^ 128)).take n = t → (x + s) % 256 ^ n = leNat t := by
    intro x s t ht
    have := take_leBytes n _ hn t ht
    rwa [show (2 : ℕ) ^ 128 = 256 ^ 16 by norm_num, Nat.mod_mod_of_dvd _ (Nat.pow_dvd_pow 256 hn)] at this
  obtain ⟨k, hk, hd⟩ := diff_of n hn t t' _ _ _ (acc_lt (clamp (Spec.leNat (key.take 16))) m) (acc_lt (clamp (Spec.leNat (key.take 16))) m') (key1 _ _ t h) (key1 _ _ t' h')
  unfold bad
  rw [Finset.mem_biUnion]
  exact ⟨k, Finset.mem_range.mpr hk, mem_roots m m' hne _ _ (lt_trans (clamp_lt _) (by norm_num)) hd⟩

end Milo.Forgery
