import Verif.Model.Base64
import Verif.Model.Container
/- Model of src/milo/primitive/codec/apie.h. -/
namespace Milo

namespace Codec

/-- The static interface of a codec (src/milo/meta.h:385-470 concept `codec`). -/
structure Impl where
  encode : List Byte → List Byte → Option (List Byte × Nat)
  encodeSize : List Byte → Nat
  decode : List Byte → List Byte → Option Base16.Decoded
  decodeSize : List Byte → Nat

/-- detail/codec/base_16.h:14-182 -/
def base16 (sg : Bool) : Impl :=
  ⟨Base16.encode, fun x => Base16.encodeSize x.length, Base16.decode sg, fun x => Base16.decodeSize x.length⟩
/-- detail/codec/base_64.h:14-273 -/
def base64 (sg : Bool) : Impl :=
  ⟨Base64.encode, fun x => Base64.encodeSize x.length, Base64.decode sg, Base64.decodeSize⟩

/-- codec/apie.h `apie::encode(const t_from&, t_to&)` (the container overload, lines 60-100 with comments). -/
def encode (C : Impl) (src : List Byte) (to : Container) : Option (Container × Nat) := do
  let to := (to.resize (C.encodeSize src)).1
  let (d, size) ← C.encode src to.data
  let to := ((to.withData d).resize size).1
  pure (to, size)

/-- codec/apie.h `apie::encode<t_to>(const t_from&)`: into a default-constructed (empty) dynamic container. -/
def encodeValue (C : Impl) (src : List Byte) : Option (List Byte) := do
  let (c, _) ← encode C src ⟨true, []⟩
  pure c.data

/-- codec/apie.h pointer overload of `decode` without error parameter: output buffer and how the call ended. -/
def decodePtrThrow (C : Impl) (src out : List Byte) : Option (List Byte × Ended Nat) := do
  let d ← C.decode src out
  if d.err ≠ .none then pure (d.out, .thrown d.err) else pure (d.out, .returned d.size)

/-- codec/apie.h `apie::decode(const t_from&, t_to&, error&)`. -/
def decode (C : Impl) (src : List Byte) (to : Container) : Option (Container × Nat × Error) := do
  let to := (to.resize (C.decodeSize src)).1
  let d ← C.decode src to.data
  let to := ((to.withData d.out).resize d.size).1
  pure (to, d.size, d.err)

/-- codec/apie.h `apie::decode(const t_from&, t_to&)`: when the pointer overload throws, the second resize is skipped. -/
def decodeThrow (C : Impl) (src : List Byte) (to : Container) : Option (Container × Ended Nat) := do
  let to := (to.resize (C.decodeSize src)).1
  let (d, e) ← decodePtrThrow C src to.data
  match e with
  | .returned size => pure (((to.withData d).resize size).1, .returned size)
  | .thrown e => pure (to.withData d, .thrown e)
  | .terminated => pure (to.withData d, .terminated)

/-- codec/apie.h `apie::decode<t_to>(const t_from&)`; also literal.h `_base_16`, `_base_64`. -/
def decodeValue (C : Impl) (src : List Byte) : Option (Ended (List Byte)) := do
  let (c, e) ← decodeThrow C src ⟨true, []⟩
  match e with
  | .returned _ => pure (.returned c.data)
  | .thrown e => pure (.thrown e)
  | .terminated => pure .terminated

end Codec
end Milo
