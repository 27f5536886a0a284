import Verif.Spec.MacAlg
/- Values of the specifications that differ, by evaluation in the kernel. -/
namespace Milo

set_option maxRecDepth 100000 in
theorem shaSpec_zero (a : ShaAlg) : shaSpec a [] ≠ shaSpec a [0] := by
  cases a <;> decide +kernel

set_option maxRecDepth 100000 in
set_option maxHeartbeats 8000000 in
theorem hmac_zero (a : ShaAlg) : Spec.hmac (shaBlock a) (shaSpec a) [] [] ≠ Spec.hmac (shaBlock a) (shaSpec a) [] [0] := by
  cases a <;> decide +kernel

end Milo
