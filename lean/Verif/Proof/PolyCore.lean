import Verif.Proof.PolyHash
import Verif.Spec.Resume
/- The arithmetic of a Poly1305 object that is given one block after its tag. -/
namespace Milo.Poly1305
open Spec.Resume Memory

theorem one_fold (r T : Nat) (y : List Byte) (hy : y.length = 16) :
    (Spec.chunks 16 (y.take (y.length / 16 * 16))).foldl (Spec.Poly1305.absorb r) T = (T + (Spec.leNat y + 340282366920938463463374607431768211456)) * r % Spec.Poly1305.p := by
  have e : y.take (y.length / 16 * 16) = y := List.take_of_length_le (by omega)
  have hval : Spec.leNat (y ++ [1]) = Spec.leNat y + 340282366920938463463374607431768211456 := by
    rw [spec_leNat, spec_leNat, leNat_append, hy]
    have : (256 ^ 16 : Nat) * leNat [1] = 340282366920938463463374607431768211456 := by decide
    rw [this]
  rw [e, chunks_short y (by omega) (by omega), List.foldl_cons, List.foldl_nil]
  unfold Spec.Poly1305.absorb
  rw [hval]

theorem one_block (key m y : List Byte) (v : Nat) (hv : PolyResumed key m y v) (hm : m.length % 16 = 0) (hy : y.length = 16) (t1 : polyTag key m < 2 ^ 128)
    (hne : (polyTag key m + Spec.leNat y + 5) % 2 ^ 128 ≠ 0) :
    ∃ c e b, c < 5 ∧ e < 5 ∧ b = polyTag key m + 2 ^ 128 * c + (Spec.leNat y + 2 ^ 128) ∧ v = v % 2 ^ 128 + 2 ^ 128 * e ∧
      v % Spec.Poly1305.p = b * Spec.Poly1305.clamp (Spec.leNat (key.take 16)) % Spec.Poly1305.p ∧ ¬ Spec.Poly1305.p ∣ b := by
  obtain ⟨c, hc, hb, -, hv⟩ := hv
  have hd : m.drop (m.length / 16 * 16) = [] := List.drop_of_length_le (by omega)
  rw [hd, List.nil_append, one_fold _ _ y hy, Nat.mod_mod] at hv
  have yl := leNat_lt y
  rw [hy, show (256 : Nat) ^ 16 = 2 ^ 128 by decide, ← spec_leNat] at yl
  obtain ⟨b, hbd⟩ : ∃ b, b = polyTag key m + 2 ^ 128 * c := ⟨_, rfl⟩
  refine ⟨c, v / 2 ^ 128, b + (Spec.leNat y + 340282366920938463463374607431768211456), by clear hv; omega, by clear hv; omega, by clear hv; omega, by clear hv; omega, ?_, ?_⟩
  · rw [hbd]
    exact hv
  clear hv
  rintro ⟨k, hk⟩
  have hp : Spec.Poly1305.p = 1361129467683753853853498429727072845819 := by decide
  rw [hp] at hk
  rcases k with _ | _ | k <;> omega

end Milo.Poly1305
