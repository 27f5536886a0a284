/-
Common vocabulary of the model: bytes, machine words, bounds-checked memory accesses.

`Option` is used throughout with one meaning: `none` is undefined behaviour of the C++ program (an access outside the
buffer the library owns or was given).
-/
namespace Milo

/-- `uint8_t`, `char`, `unsigned char`: the byte concept of src/milo/meta.h (`meta::byte`, size-one integral types). -/
abbrev Byte := BitVec 8
/-- `uint32_t` (throughout src/milo, e.g. detail/hash/sha/sha_1_160_impl_sw.h:31-40) -/
abbrev W32 := BitVec 32
/-- `uint64_t`, `uintptr_t`, `size_t` on a 64-bit target (throughout src/milo, e.g. detail/codec/base_16.h:36-60) -/
abbrev W64 := BitVec 64

/-- Host byte order: src/milo/internal/endian.h:16-18 (`endian_big`, `endian_little`; mixed-endian hosts are excluded). -/
inductive Endian where
  | little
  | big
  deriving DecidableEq, Repr

/-- Error codes: src/milo/error.h (enumerators of `milo::error`). -/
inductive Error where
  | none
  | size
  | aeadVerify
  | codecBase64Encode
  | codecBase64Decode
  | codecBase16Encode
  | codecBase16Decode
  deriving DecidableEq, Repr

/-- `ptr[i]` as a read; `none` when out of bounds. (no code in /repo: the subscript of C++) -/
def rd1 {α : Type u} (buf : List α) (i : Nat) : Option α := buf[i]?

/-- `ptr[i] = x`; `none` when out of bounds. (no code in /repo: the subscript of C++) -/
def wr1 {α : Type u} (buf : List α) (i : Nat) (x : α) : Option (List α) :=
  if i < buf.length then some (buf.set i x) else none

/-- Read of `n` consecutive elements at offset `off`; `none` when any of them is out of bounds. (no code in /repo: pointer and size of C++) -/
def rdN {α : Type u} (buf : List α) (off n : Nat) : Option (List α) :=
  if off + n ≤ buf.length then some ((buf.drop off).take n) else none

/-- Write of the consecutive elements `xs` at offset `off`; `none` when any of them is out of bounds. (no code in /repo: pointer and size of C++) -/
def wrN {α : Type u} (buf : List α) (off : Nat) (xs : List α) : Option (List α) :=
  if off + xs.length ≤ buf.length then some (buf.take off ++ xs ++ buf.drop (off + xs.length)) else none

end Milo
