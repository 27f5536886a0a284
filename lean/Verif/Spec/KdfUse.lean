import Verif.Model.Kdf
import Verif.Spec.Kdf
/- Vocabulary of the kdf properties: what a sequence of calls does to the caller's memory, and what it asks for. -/
namespace Milo.Kdf

/-- The caller's memory after a sequence of calls: what the caller wrote to it. -/
def memAfter {A : Type} (m : Mem) : List (Call A) → Mem
  | [] => m
  | .poke b content :: cs => memAfter (fun i => if i = b then content else m i) cs
  | .init _ :: cs => memAfter m cs
  | .derive _ :: cs => memAfter m cs

/-- The requests among calls. -/
def reqs {A : Type} : List (Call A) → List DigestReq
  | [] => []
  | .derive r :: cs => r :: reqs cs
  | .init _ :: cs => reqs cs
  | .poke _ _ :: cs => reqs cs

/-- Calls that only derive, or change buffers that are not retained (any buffer, in constant evaluation). -/
def Later (h : Host) {A : Type} (kept : List Nat) : Call A → Prop
  | .init _ => False
  | .poke b _ => h.consteval = true ∨ b ∉ kept
  | .derive _ => True

end Milo.Kdf
