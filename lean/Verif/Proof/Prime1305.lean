import Mathlib.NumberTheory.LucasPrimality
import Mathlib.Tactic.NormNum.Prime
import Mathlib.Algebra.BigOperators.Associated
/- `2^130 - 5` is prime: a Pratt certificate. -/
namespace Milo.Prime1305

/-- `b ^ e % m` by squaring. -/
def powMod : ℕ → ℕ → ℕ → ℕ → ℕ
  | 0, _, _, m => 1 % m
  | f + 1, b, e, m => if e % 2 = 0 then powMod f (b * b % m) (e / 2) m else b * powMod f (b * b % m) (e / 2) m % m

theorem powMod_eq (f b e m : ℕ) (he : e < 2 ^ f) : powMod f b e m = b ^ e % m := by
  induction f generalizing b e with
  | zero => simp at he; simp [he, powMod]
  | succ f ih =>
    have h2 : e / 2 < 2 ^ f := by rw [pow_succ] at he; omega
    have hsq : (b * b % m) ^ (e / 2) % m = b ^ (2 * (e / 2)) % m := by rw [← Nat.pow_mod, ← pow_two, ← pow_mul]
    rw [powMod, ih _ _ h2, hsq]
    split
    · rename_i h0
      rw [show 2 * (e / 2) = e by omega]
    · rename_i h0
      rw [Nat.mul_mod, Nat.mod_mod, ← Nat.mul_mod, ← pow_succ', show 2 * (e / 2) + 1 = e by omega]

def check (p a : ℕ) (fs : List ℕ) : Bool :=
  1 < p && p < 2 ^ 200 && fs.prod == p - 1 && powMod 200 a (p - 1) p == 1 && fs.all fun q => powMod 200 a ((p - 1) / q) p != 1

theorem pratt (p a : ℕ) (fs : List ℕ) (hp : 1 < p) (hf : ∀ q ∈ fs, q.Prime) (hprod : fs.prod = p - 1) (h1 : a ^ (p - 1) % p = 1)
    (hq : ∀ q ∈ fs, a ^ ((p - 1) / q) % p ≠ 1) : p.Prime := by
  have key : ∀ k : ℕ, (a : ZMod p) ^ k = 1 ↔ a ^ k % p = 1 := fun k => by
    rw [← Nat.cast_pow, ← Nat.cast_one, ZMod.natCast_eq_natCast_iff, Nat.ModEq, Nat.mod_eq_of_lt hp]
  refine lucas_primality p (a : ZMod p) ((key _).mpr h1) fun q hqp hd => ?_
  rw [Ne, key]
  refine hq q ?_
  rw [← hprod] at hd
  obtain ⟨x, hx, hdx⟩ := (Prime.dvd_prod_iff hqp.prime).mp hd
  rwa [(Nat.prime_dvd_prime_iff_eq hqp (hf x hx)).mp hdx]

theorem pratt_check (p a : ℕ) (fs : List ℕ) (hf : ∀ q ∈ fs, q.Prime) (h : check p a fs = true) : p.Prime := by
  simp only [check, Bool.and_eq_true, decide_eq_true_eq, beq_iff_eq, List.all_eq_true, bne_iff_ne] at h
  obtain ⟨⟨⟨⟨h1, h2⟩, h3⟩, h4⟩, h5⟩ := h
  refine pratt p a fs h1 hf h3 (by rwa [powMod_eq _ _ _ _ (by omega)] at h4) fun q hq => ?_
  have := h5 q hq
  rwa [powMod_eq _ _ _ _ (lt_of_le_of_lt (Nat.div_le_self _ _) (by omega))] at this

theorem p1 : Nat.Prime 32985101 := by norm_num
theorem p2 : Nat.Prime 3134801 := by norm_num

theorem p3 : Nat.Prime 4024685905107147541 :=
  pratt_check _ 2 [2, 2, 3, 3, 5, 13, 43, 4889, 37003, 221101]
    (by simp only [List.mem_cons, List.not_mem_nil, or_false, forall_eq_or_imp, forall_eq]; norm_num) (by decide +kernel)

theorem p4 : Nat.Prime 897064739519922787230182993783 :=
  pratt_check _ 5 [2, 73, 487, 3134801, 4024685905107147541]
    (by simp only [List.mem_cons, List.not_mem_nil, or_false, forall_eq_or_imp, forall_eq]; exact ⟨by norm_num, by norm_num, by norm_num, p2, p3⟩) (by decide +kernel)

theorem prime : Nat.Prime (2 ^ 130 - 5) := by
  have : Nat.Prime 1361129467683753853853498429727072845819 :=
    pratt_check _ 2 [2, 23, 32985101, 897064739519922787230182993783]
      (by simp only [List.mem_cons, List.not_mem_nil, or_false, forall_eq_or_imp, forall_eq]; exact ⟨by norm_num, by norm_num, p1, p4⟩) (by decide +kernel)
  have e : 2 ^ 130 - 5 = 1361129467683753853853498429727072845819 := by norm_num
  rw [e]; exact this

end Milo.Prime1305
