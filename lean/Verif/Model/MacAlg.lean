import Verif.Model.ShaAlg
import Verif.Model.Hmac
import Verif.Model.Poly1305
/- The documented mac types: src/milo/primitive/mac/hmac.h, src/milo/primitive/mac/poly.h. -/
namespace Milo

/-- mac/hmac.h:7-13 `hmac<hash>` over any hash of the library (with its own `digest_size` option `hs`); mac/poly.h `poly_1305`. -/
inductive MacAlg where
  | hmac (a : ShaAlg) (hs : Nat)
  | poly_1305
  deriving DecidableEq, Repr

/-- The default digest size. (detail/mac/hmac/hmac.h:15-70, detail/mac/poly/poly_1305.h:15-233) -/
def MacAlg.size : MacAlg → Nat
  | .hmac _ hs => hs
  | .poly_1305 => 16

/-- The hash inside exists: its `digest_size` option does not exceed the algorithm's output. (internal/option.h; detail/mac/hmac/hmac.h:15-40) -/
def MacAlg.Ok : MacAlg → Prop
  | .hmac a hs => hs ≤ a.size
  | .poly_1305 => True

/-- The class; `ds` is the value of option `digest_size`. (detail/mac/hmac/hmac.h:15-198, detail/mac/poly/poly_1305.h:15-233) -/
def MacAlg.impl (h : Host) (ds : Nat) : MacAlg → MacImpl
  | .hmac a hs => Hmac.impl h (a.impl h hs) ds
  | .poly_1305 => Poly1305.impl h ds

end Milo
