import Verif.Proof.PolyResumeUse
import Verif.Proof.PolyCore
import Verif.Proof.ForgeryCount
/- What a tag, sixteen bytes more and another tag tell of the key of Poly1305. -/
namespace Milo.Forgery
open Spec.Poly1305 Milo.Memory Spec.Resume

/-- The solution of `b * r = a`. -/
noncomputable def quot (q a b : ℕ) : ℕ := ((a : ZMod q) * (b : ZMod q)⁻¹).val

/-- The multipliers a pair of answers leaves. -/
noncomputable def left (t1 t2 y : ℕ) : Finset ℕ :=
  ((Finset.range 5) ×ˢ (Finset.range 5)).image fun x => quot P (t2 + 2 ^ 128 * x.2) (t1 + 2 ^ 128 * x.1 + (y + 2 ^ 128))

theorem left_card (t1 t2 y : ℕ) : (left t1 t2 y).card ≤ 25 := by
  refine le_trans Finset.card_image_le ?_
  rw [Finset.card_product, Finset.card_range]

theorem solve {q : ℕ} [Fact (Nat.Prime q)] (a b r : ℕ) (hr : r < q) (hb : ¬ q ∣ b) (h : a % q = b * r % q) :
    quot q a b = r := by
  have hb : (b : ZMod q) ≠ 0 := fun e => hb ((ZMod.natCast_eq_zero_iff _ _).mp e)
  unfold quot
  have e : (a : ZMod q) = (b : ZMod q) * (r : ZMod q) := by
    rw [← Nat.cast_mul]
    exact (ZMod.natCast_eq_natCast_iff _ _ _).mpr h
  rw [e, mul_comm, ← mul_assoc, inv_mul_cancel₀ hb, one_mul, ZMod.val_natCast_of_lt hr]

theorem mem_left (key m y : List Byte) (v : ℕ) (hv : PolyResumed key m y v) (hm : m.length % 16 = 0) (hy : y.length = 16)
    (hne : (polyTag key m + Spec.leNat y + 5) % 2 ^ 128 ≠ 0) : clamp (Spec.leNat (key.take 16)) ∈ left (polyTag key m) (v % 2 ^ 128) (Spec.leNat y) := by
  obtain ⟨c, e, b, hc, he, hbd, hve, hvb, hu⟩ := Poly1305.one_block key m y v hv hm hy (by rw [Poly1305.polyTag_eq]; exact Nat.mod_lt _ (by norm_num)) hne
  have hrp : clamp (Spec.leNat (key.take 16)) < P := lt_trans (clamp_lt _) (by norm_num)
  rw [show p = P from rfl] at hvb hu
  have sol := solve _ _ _ hrp hu hvb
  unfold left
  rw [Finset.mem_image]
  refine ⟨(c, e), ?_, ?_⟩
  · rw [Finset.mem_product, Finset.mem_range, Finset.mem_range]
    exact ⟨hc, he⟩
  · rw [← sol]
    show quot P _ _ = _
    rw [← hve, ← hbd]

theorem count_known (B : Finset ℕ) (m t : List Byte) (ht : t.length = 16) :
    {key : List Byte | key.length = 32 ∧ mac key m = t ∧ clamp (Spec.leNat (key.take 16)) ∈ B}.ncard ≤ 2 ^ 22 * B.card := by
  have full : ∀ key, (mac key m).take 16 = mac key m := fun key => List.take_of_length_le (by unfold mac; rw [leBytes_length])
  have hsub : {key : List Byte | key.length = 32 ∧ mac key m = t ∧ clamp (Spec.leNat (key.take 16)) ∈ B}
      ⊆ keyOf '' ((((Finset.range (2 ^ 128)).filter fun r => clamp r ∈ B).sigma (ss 16 m t) : Finset ((_ : ℕ) × ℕ)) : Set ((_ : ℕ) × ℕ)) := by
    rintro key ⟨hl, hk, hk'⟩
    obtain ⟨e, h1, h2⟩ := keyOf_surj key hl
    refine ⟨_, ?_, e⟩
    simp only [Finset.coe_sigma, Set.mem_sigma_iff, Finset.mem_coe, ss, Finset.mem_filter, Finset.mem_range, pow_split 16 (Nat.le_refl _)]
    exact ⟨⟨h1, hk'⟩, h2, (mac_take key m t 16 (Nat.le_refl _) ht).mp (by rw [full]; exact hk)⟩
  refine le_trans (Set.ncard_le_ncard hsub (Set.toFinite _)) (le_trans (Set.ncard_image_le (Set.toFinite _)) ?_)
  rw [Set.ncard_coe_finset, Finset.card_sigma, Finset.sum_const_nat (fun r _ => ss_card 16 m t ht r)]
  simpa using count_r B

theorem keys_finite : {key : List Byte | key.length = 32}.Finite := by
  refine ((((Finset.range (2 ^ 128)).sigma fun _ => Finset.range (2 ^ 128) : Finset ((_ : ℕ) × ℕ)).finite_toSet).image keyOf).subset fun key hl => ?_
  obtain ⟨e, h1, h2⟩ := keyOf_surj key hl
  exact ⟨_, by simpa using ⟨h1, h2⟩, e⟩

end Milo.Forgery
