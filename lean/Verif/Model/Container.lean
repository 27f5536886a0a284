import Verif.Model.Base
/-
Model of containers (src/milo/meta.h:356-376 `container_dynamic`, `container_static`; src/milo/internal/utility.h:148-173
`resize`).
-/
namespace Milo

/-- A byte container: resizable (`std::string`, `std::vector`) or of fixed size (`std::array`, `std::span`). (the concepts of meta.h and internal/utility.h:147-174 `resize`) -/
structure Container where
  dynamic : Bool
  data : List Byte
  deriving DecidableEq, Repr

/-- utility.h:148-173 `resize`: new container and returned size. A resizable container is cut or extended with
`value_type()` (zero); memory is assumed to be available (otherwise: Model/Alloc.lean). -/
def Container.resize (c : Container) (n : Nat) : Container × Nat :=
  if c.dynamic then
    ({ c with data := c.data.take n ++ List.replicate (n - c.data.length) 0#8 }, n)
  else
    (c, min n c.data.length)

/-- Writing through `data()`. (used in */apie.h) -/
def Container.withData (c : Container) (d : List Byte) : Container := { c with data := d }

/-- A request for a digest: `digest(ptr, n)` with `ptr` pointing at `dst`, or `digest(container, n)`. (hash/apie.h:152-270, mac/apie.h:234-350, aead/apie.h:622-740) -/
inductive DigestReq where
  | ptr (dst : List Byte) (n : Nat)
  | cont (c : Container) (n : Nat)
  deriving Repr

/-- The caller's obligation for a digest of `ds` bytes: the buffer has room for what is asked for. Containers know their size. (hash/apie.h:152-270) -/
def DigestReq.Ok (ds : Nat) : DigestReq → Prop
  | .ptr dst n => min n ds ≤ dst.length
  | .cont _ _ => True

/-- How a call that may throw ends. `terminated` is an exception leaving a `noexcept` function. (`noexcept` in */apie.h) -/
inductive Ended (α : Type) where
  | returned (a : α)
  | thrown (e : Error)
  | terminated
  deriving DecidableEq, Repr

end Milo
