import Mathlib.Tactic.Ring
import Verif.Model.Poly1305
import Verif.Spec.Poly1305
/- The limb arithmetic of Poly1305. -/
namespace Milo.Poly1305
open Memory

theorem mul_toNat (x y : W64) (h : x.toNat * y.toNat < 2 ^ 64) : (x * y).toNat = x.toNat * y.toNat := by
  rw [BitVec.toNat_mul, Nat.mod_eq_of_lt h]

theorem add_toNat (x y : W64) (h : x.toNat + y.toNat < 2 ^ 64) : (x + y).toNat = x.toNat + y.toNat := by
  rw [BitVec.toNat_add, Nat.mod_eq_of_lt h]

theorem u64_toNat (x : W32) : (u64 x).toNat = x.toNat := by
  have := x.isLt
  simp only [u64, BitVec.toNat_setWidth]; omega

theorem lo_toNat (x : W64) : (u64 (u32 x)).toNat = x.toNat % 2 ^ 32 := by
  rw [u64_toNat]; simp only [u32, BitVec.toNat_setWidth]

theorem shr_toNat (x : W64) (n : Nat) : (x >>> n).toNat = x.toNat / 2 ^ n := by
  rw [BitVec.toNat_ushiftRight, Nat.shiftRight_eq_div_pow]

/-- Five limbs as a number. -/
def val5 (a : Acc) : Nat := a.a0.toNat + 2 ^ 32 * a.a1.toNat + 2 ^ 64 * a.a2.toNat + 2 ^ 96 * a.a3.toNat + 2 ^ 128 * a.a4.toNat

/-- Limbs of 32 bits, the top one at most `b`. -/
structure Limbs (b : Nat) (a : Acc) : Prop where
  a0 : a.a0.toNat < 2 ^ 32
  a1 : a.a1.toNat < 2 ^ 32
  a2 : a.a2.toNat < 2 ^ 32
  a3 : a.a3.toNat < 2 ^ 32
  a4 : a.a4.toNat ≤ b

/-- The carry propagation after the products, with the products as unknowns. -/
theorem reduce_lin (T0 T1 T2 T3 E : Nat) :
    let c := E + T3 / 2 ^ 32
    let b0 := T0 % 2 ^ 32 + c / 4 * 5
    let b1 := T1 % 2 ^ 32 + b0 / 2 ^ 32 + T0 / 2 ^ 32
    let b2 := T2 % 2 ^ 32 + b1 / 2 ^ 32 + T1 / 2 ^ 32
    let b3 := T3 % 2 ^ 32 + b2 / 2 ^ 32 + T2 / 2 ^ 32
    let b4 := b3 / 2 ^ 32 + c % 4
    b0 % 2 ^ 32 + 2 ^ 32 * (b1 % 2 ^ 32) + 2 ^ 64 * (b2 % 2 ^ 32) + 2 ^ 96 * (b3 % 2 ^ 32) + 2 ^ 128 * b4
      + (2 ^ 130 - 5) * (c / 4) = T0 + 2 ^ 32 * T1 + 2 ^ 64 * T2 + 2 ^ 96 * T3 + 2 ^ 128 * E := by
  intro c b0 b1 b2 b3 b4
  have hc : c = E + T3 / 2 ^ 32 := rfl
  have h0 : b0 = T0 % 2 ^ 32 + c / 4 * 5 := rfl
  have h1 : b1 = T1 % 2 ^ 32 + b0 / 2 ^ 32 + T0 / 2 ^ 32 := rfl
  have h2 : b2 = T2 % 2 ^ 32 + b1 / 2 ^ 32 + T1 / 2 ^ 32 := rfl
  have h3 : b3 = T3 % 2 ^ 32 + b2 / 2 ^ 32 + T2 / 2 ^ 32 := rfl
  have h4 : b4 = b3 / 2 ^ 32 + c % 4 := rfl
  clear_value c b0 b1 b2 b3 b4
  omega

/-- The products modulo `p`: `r0 = 4 q0 + e0`, `ri = 4 qi`. -/
theorem fold_ring (a0 a1 a2 a3 a4 q0 q1 q2 q3 e0 : Nat) :
    (a0 + 2 ^ 32 * a1 + 2 ^ 64 * a2 + 2 ^ 96 * a3 + 2 ^ 128 * a4) *
      ((4 * q0 + e0) + 2 ^ 32 * (4 * q1) + 2 ^ 64 * (4 * q2) + 2 ^ 96 * (4 * q3))
    = ((4 * q0 + e0) * a0 + q3 * 5 * a1 + q2 * 5 * a2 + q1 * 5 * a3 + q0 * 5 * a4)
      + 2 ^ 32 * (4 * q1 * a0 + (4 * q0 + e0) * a1 + q3 * 5 * a2 + q2 * 5 * a3 + q1 * 5 * a4)
      + 2 ^ 64 * (4 * q2 * a0 + 4 * q1 * a1 + (4 * q0 + e0) * a2 + q3 * 5 * a3 + q2 * 5 * a4)
      + 2 ^ 96 * (4 * q3 * a0 + 4 * q2 * a1 + 4 * q1 * a2 + (4 * q0 + e0) * a3 + q3 * 5 * a4)
      + 2 ^ 128 * (e0 * a4)
      + 1361129467683753853853498429727072845819 * ((q3 * a1 + q2 * a2 + q1 * a3 + q0 * a4)
        + 2 ^ 32 * (q3 * a2 + q2 * a3 + q1 * a4) + 2 ^ 64 * (q3 * a3 + q2 * a4) + 2 ^ 96 * (q3 * a4)) := by
  ring

/-- The key words of `m_key_r` and the number they stand for. -/
structure KeyOk (k : List W32) (r : Nat) : Prop where
  ex : ∃ k0 k1 k2 k3 k4 k5 k6 k7 : W32, k = [k0, k1, k2, k3, k4, k5, k6, k7] ∧
    k0.toNat < 2 ^ 28 ∧ k1.toNat < 2 ^ 28 ∧ k2.toNat < 2 ^ 28 ∧ k3.toNat < 2 ^ 28 ∧
    k1.toNat % 4 = 0 ∧ k2.toNat % 4 = 0 ∧ k3.toNat % 4 = 0 ∧
    k4.toNat = k0.toNat / 4 * 5 ∧ k5.toNat = k1.toNat / 4 * 5 ∧ k6.toNat = k2.toNat / 4 * 5 ∧ k7.toNat = k3.toNat / 4 * 5 ∧
    r = k0.toNat + 2 ^ 32 * k1.toNat + 2 ^ 64 * k2.toNat + 2 ^ 96 * k3.toNat

theorem prod_lt {a b A B : Nat} (ha : a < A) (hb : b < B) : a * b < A * B := Nat.mul_lt_mul'' ha hb

theorem sum5 (x0 x1 x2 x3 x4 : W64) (h : x0.toNat + x1.toNat + x2.toNat + x3.toNat + x4.toNat < 2 ^ 64) :
    (x0 + x1 + x2 + x3 + x4).toNat = x0.toNat + x1.toNat + x2.toNat + x3.toNat + x4.toNat := by
  rw [add_toNat, add_toNat, add_toNat, add_toNat]
  · omega
  · rw [add_toNat] <;> omega
  · rw [add_toNat, add_toNat] <;> (try rw [add_toNat]) <;> omega
  · rw [add_toNat, add_toNat, add_toNat] <;> (try rw [add_toNat]) <;> (try rw [add_toNat]) <;> omega

theorem sum3 (x0 x1 x2 : W64) (h : x0.toNat + x1.toNat + x2.toNat < 2 ^ 64) :
    (x0 + x1 + x2).toNat = x0.toNat + x1.toNat + x2.toNat := by
  rw [add_toNat, add_toNat]
  · omega
  · rw [add_toNat] <;> omega

theorem and3 (x : W64) : (x &&& 3#64).toNat = x.toNat % 4 := by
  rw [BitVec.toNat_and]
  exact Nat.and_two_pow_sub_one_eq_mod x.toNat 2

theorem and3' (x : W32) : (x &&& 3#32).toNat = x.toNat % 4 := by
  rw [BitVec.toNat_and]
  exact Nat.and_two_pow_sub_one_eq_mod x.toNat 2

/-- One product: bounds and exactness. -/
theorem prod_ok (k : W32) (a : W64) (K A : Nat) (hk : k.toNat < K) (ha : a.toNat < A) (hKA : K * A ≤ 2 ^ 64) :
    (u64 k * a).toNat = k.toNat * a.toNat ∧ k.toNat * a.toNat < K * A := by
  have := prod_lt hk ha
  refine ⟨?_, this⟩
  rw [mul_toNat, u64_toNat]
  rw [u64_toNat]; omega

/-- The multiplication step multiplies by `r` modulo `p`. -/
theorem mulStep_eq (k : List W32) (r : Nat) (hk : KeyOk k r) (a : Acc) (ha : Limbs 6 a) :
    ∃ a', mulStep k a = some a' ∧ Limbs 4 a' ∧ val5 a' % Spec.Poly1305.p = val5 a * r % Spec.Poly1305.p := by
  obtain ⟨k0, k1, k2, k3, k4, k5, k6, k7, rfl, b0, b1, b2, b3, z1, z2, z3, e4, e5, e6, e7, rfl⟩ := hk.ex
  obtain ⟨l0, l1, l2, l3, l4⟩ := ha
  obtain ⟨a0, a1, a2, a3, a4⟩ := a
  simp only at l0 l1 l2 l3 l4
  have b4 : k4.toNat < 5 * 2 ^ 26 := by omega
  have b5 : k5.toNat < 5 * 2 ^ 26 := by omega
  have b6 : k6.toNat < 5 * 2 ^ 26 := by omega
  have b7 : k7.toNat < 5 * 2 ^ 26 := by omega
  have l4' : a4.toNat < 7 := by omega
  -- the products
  obtain ⟨p00, q00⟩ := prod_ok k0 a0 _ _ b0 l0 (by decide)
  obtain ⟨p71, q71⟩ := prod_ok k7 a1 _ _ b7 l1 (by decide)
  obtain ⟨p62, q62⟩ := prod_ok k6 a2 _ _ b6 l2 (by decide)
  obtain ⟨p53, q53⟩ := prod_ok k5 a3 _ _ b5 l3 (by decide)
  obtain ⟨p44, q44⟩ := prod_ok k4 a4 _ _ b4 l4' (by decide)
  obtain ⟨p10, q10⟩ := prod_ok k1 a0 _ _ b1 l0 (by decide)
  obtain ⟨p01, q01⟩ := prod_ok k0 a1 _ _ b0 l1 (by decide)
  obtain ⟨p72, q72⟩ := prod_ok k7 a2 _ _ b7 l2 (by decide)
  obtain ⟨p63, q63⟩ := prod_ok k6 a3 _ _ b6 l3 (by decide)
  obtain ⟨p54, q54⟩ := prod_ok k5 a4 _ _ b5 l4' (by decide)
  obtain ⟨p20, q20⟩ := prod_ok k2 a0 _ _ b2 l0 (by decide)
  obtain ⟨p11, q11⟩ := prod_ok k1 a1 _ _ b1 l1 (by decide)
  obtain ⟨p02, q02⟩ := prod_ok k0 a2 _ _ b0 l2 (by decide)
  obtain ⟨p73, q73⟩ := prod_ok k7 a3 _ _ b7 l3 (by decide)
  obtain ⟨p64, q64⟩ := prod_ok k6 a4 _ _ b6 l4' (by decide)
  obtain ⟨p30, q30⟩ := prod_ok k3 a0 _ _ b3 l0 (by decide)
  obtain ⟨p21, q21⟩ := prod_ok k2 a1 _ _ b2 l1 (by decide)
  obtain ⟨p12, q12⟩ := prod_ok k1 a2 _ _ b1 l2 (by decide)
  obtain ⟨p03, q03⟩ := prod_ok k0 a3 _ _ b0 l3 (by decide)
  obtain ⟨p74, q74⟩ := prod_ok k7 a4 _ _ b7 l4' (by decide)
  obtain ⟨pe, qe⟩ := prod_ok (k0 &&& 3#32) a4 4 7 (by rw [and3']; omega) l4' (by decide)
  rw [and3'] at pe qe
  -- the sums of products
  have T0 := sum5 (u64 k0 * a0) (u64 k7 * a1) (u64 k6 * a2) (u64 k5 * a3) (u64 k4 * a4) (by rw [p00, p71, p62, p53, p44]; omega)
  have T1 := sum5 (u64 k1 * a0) (u64 k0 * a1) (u64 k7 * a2) (u64 k6 * a3) (u64 k5 * a4) (by rw [p10, p01, p72, p63, p54]; omega)
  have T2 := sum5 (u64 k2 * a0) (u64 k1 * a1) (u64 k0 * a2) (u64 k7 * a3) (u64 k6 * a4) (by rw [p20, p11, p02, p73, p64]; omega)
  have T3 := sum5 (u64 k3 * a0) (u64 k2 * a1) (u64 k1 * a2) (u64 k0 * a3) (u64 k7 * a4) (by rw [p30, p21, p12, p03, p74]; omega)
  rw [p00, p71, p62, p53, p44] at T0
  rw [p10, p01, p72, p63, p54] at T1
  rw [p20, p11, p02, p73, p64] at T2
  rw [p30, p21, p12, p03, p74] at T3
  have ring := fold_ring a0.toNat a1.toNat a2.toNat a3.toNat a4.toNat (k0.toNat / 4) (k1.toNat / 4) (k2.toNat / 4) (k3.toNat / 4) (k0.toNat % 4)
  have d0 : 4 * (k0.toNat / 4) + k0.toNat % 4 = k0.toNat := Nat.div_add_mod ..
  have d1 : 4 * (k1.toNat / 4) = k1.toNat := by omega
  have d2 : 4 * (k2.toNat / 4) = k2.toNat := by omega
  have d3 : 4 * (k3.toNat / 4) = k3.toNat := by omega
  rw [d0, d1, d2, d3, ← e4, ← e5, ← e6, ← e7] at ring
  refine ⟨_, rfl, ?_⟩
  generalize u64 k0 * a0 + u64 k7 * a1 + u64 k6 * a2 + u64 k5 * a3 + u64 k4 * a4 = t0 at T0 ⊢
  generalize u64 k1 * a0 + u64 k0 * a1 + u64 k7 * a2 + u64 k6 * a3 + u64 k5 * a4 = t1 at T1 ⊢
  generalize u64 k2 * a0 + u64 k1 * a1 + u64 k0 * a2 + u64 k7 * a3 + u64 k6 * a4 = t2 at T2 ⊢
  generalize u64 k3 * a0 + u64 k2 * a1 + u64 k1 * a2 + u64 k0 * a3 + u64 k7 * a4 = t3 at T3 ⊢
  rw [← T0, ← T1, ← T2, ← T3] at ring
  have B0 : t0.toNat < 2 ^ 63 := by omega
  have B1 : t1.toNat < 2 ^ 63 := by omega
  have B2 : t2.toNat < 2 ^ 63 := by omega
  have B3 : t3.toNat < 2 ^ 63 := by omega
  clear T0 T1 T2 T3 q00 q71 q62 q53 q44 q10 q01 q72 q63 q54 q20 q11 q02 q73 q64 q30 q21 q12 q03 q74
  clear p00 p71 p62 p53 p44 p10 p01 p72 p63 p54 p20 p11 p02 p73 p64 p30 p21 p12 p03 p74
  generalize k0.toNat % 4 * a4.toNat = E at ring pe qe
  have lin := reduce_lin t0.toNat t1.toNat t2.toNat t3.toNat E
  simp only at lin
  generalize u64 (k0 &&& 3#32) * a4 = e at pe ⊢
  have hc : (e + t3 >>> 32).toNat = E + t3.toNat / 2 ^ 32 := by rw [add_toNat, pe, shr_toNat]; rw [pe, shr_toNat]; omega
  generalize e + t3 >>> 32 = c at hc ⊢
  have hc5 : ((c >>> 2) * 5#64).toNat = c.toNat / 4 * 5 := by
    rw [mul_toNat, shr_toNat]
    · rfl
    · rw [shr_toNat, hc]; show _ / 4 * 5 < _; omega
  have h0 : (u64 (u32 t0) + (c >>> 2) * 5#64).toNat = t0.toNat % 2 ^ 32 + c.toNat / 4 * 5 := by
    rw [add_toNat, hc5, lo_toNat]; rw [hc5, lo_toNat, hc]; omega
  generalize u64 (u32 t0) + (c >>> 2) * 5#64 = s0 at h0 ⊢
  have hc' : c.toNat / 4 * 5 < 2 ^ 34 := by rw [hc]; omega
  have h1 : (u64 (u32 t1) + s0 >>> 32 + t0 >>> 32).toNat = t1.toNat % 2 ^ 32 + s0.toNat / 2 ^ 32 + t0.toNat / 2 ^ 32 := by
    rw [sum3, lo_toNat, shr_toNat, shr_toNat]; rw [lo_toNat, shr_toNat, shr_toNat]; omega
  generalize u64 (u32 t1) + s0 >>> 32 + t0 >>> 32 = s1 at h1 ⊢
  have h2 : (u64 (u32 t2) + s1 >>> 32 + t1 >>> 32).toNat = t2.toNat % 2 ^ 32 + s1.toNat / 2 ^ 32 + t1.toNat / 2 ^ 32 := by
    rw [sum3, lo_toNat, shr_toNat, shr_toNat]; rw [lo_toNat, shr_toNat, shr_toNat]; omega
  generalize u64 (u32 t2) + s1 >>> 32 + t1 >>> 32 = s2 at h2 ⊢
  have h3 : (u64 (u32 t3) + s2 >>> 32 + t2 >>> 32).toNat = t3.toNat % 2 ^ 32 + s2.toNat / 2 ^ 32 + t2.toNat / 2 ^ 32 := by
    rw [sum3, lo_toNat, shr_toNat, shr_toNat]; rw [lo_toNat, shr_toNat, shr_toNat]; omega
  generalize u64 (u32 t3) + s2 >>> 32 + t2 >>> 32 = s3 at h3 ⊢
  have h4 : (s3 >>> 32 + (c &&& 3#64)).toNat = s3.toNat / 2 ^ 32 + c.toNat % 4 := by
    rw [add_toNat, shr_toNat, and3]; rw [shr_toNat, and3]; omega
  generalize s3 >>> 32 + (c &&& 3#64) = s4 at h4 ⊢
  rw [← hc] at lin
  rw [← h0] at lin
  rw [← h1] at lin
  rw [← h2] at lin
  rw [← h3] at lin
  rw [← h4] at lin
  have hs4 : s4.toNat ≤ 4 := by omega
  refine ⟨⟨?_, ?_, ?_, ?_, ?_⟩, ?_⟩
  · show (u64 (u32 s0)).toNat < _; rw [lo_toNat]; omega
  · show (u64 (u32 s1)).toNat < _; rw [lo_toNat]; omega
  · show (u64 (u32 s2)).toNat < _; rw [lo_toNat]; omega
  · show (u64 (u32 s3)).toNat < _; rw [lo_toNat]; omega
  · show (u64 (u32 s4)).toNat ≤ _; rw [lo_toNat]; omega
  · unfold val5
    simp only [lo_toNat]
    have hs4' : s4.toNat % 2 ^ 32 = s4.toNat := by omega
    rw [hs4', ring]
    rw [show Spec.Poly1305.p = 1361129467683753853853498429727072845819 from rfl]
    rw [show (2 : Nat) ^ 130 - 5 = 1361129467683753853853498429727072845819 from rfl] at lin
    rw [← lin, Nat.add_mul_mod_self_left, Nat.add_mul_mod_self_left]

end Milo.Poly1305
