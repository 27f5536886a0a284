import Verif.Spec.Bytes
import Mathlib.Data.Set.Card
/- Forgery against a one-time authenticator, by counting keys. -/
namespace Spec.Forgery

/-- The keys of 32 bytes under which `accepts`. -/
def keys (accepts : List (BitVec 8) → Prop) : Set (List (BitVec 8)) := {key | key.length = 32 ∧ accepts key}

/-- Of the keys for which `seen` holds, at most the fraction `a / 2^106` satisfies `forged` too. -/
def Rare (seen forged : List (BitVec 8) → Prop) (a : Nat) : Prop := (keys fun k => seen k ∧ forged k).ncard * 2 ^ 106 ≤ a * (keys seen).ncard

/-- Blocks of 16 bytes, the last one possibly shorter. -/
def blocks (n : Nat) : Nat := (n + 15) / 16

end Spec.Forgery
