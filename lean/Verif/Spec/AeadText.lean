import Verif.Spec.Aead
/- Bytes of text passed to `encrypt` and `decrypt`. -/
namespace Milo

/-- Bytes of text in a call of the class. -/
def Aead.Call.size : Aead.Call → Nat
  | .encrypt s => s.n
  | .decrypt s => s.n
  | _ => 0

/-- Bytes of text in a call of `apie`. -/
def AeadApie.Call.size : AeadApie.Call → Nat
  | .text _ t => (Spec.Aead.text t).length
  | _ => 0

end Milo
