import Verif.Model.Base
/-
Model of src/milo/internal/bit.h, endian.h and memory.h.

Typed arrays are lists of `Word p` (`p` bytes per element); their object representation on a host is `image`.
Both the constant-evaluation branch (`MILO_INTERNAL_CONSTEVAL`) and the run-time (`std::memcpy`) branch are modelled.
Signed element types are modelled by the same bits (conversions between the signed and unsigned type of one width are
modular); where a signed element is widened, sign extension is explicit (`sgp`).
-/
namespace Milo

/-- What the language leaves to the host and the evaluation context. (internal/endian.h:16-18; `std::is_constant_evaluated()` in internal/memory.h:21-587) -/
structure Host where
  endian : Endian
  /-- inside constant evaluation (`MILO_INTERNAL_CONSTEVAL`), or at run time -/
  consteval : Bool
  /-- the class of the SHA-1/SHA-2-256 family chosen at run time (by the processor's features or by an option): the portable one (`none`), or the one
  using the SHA instructions, with what the vector registers hold when its code is entered -/
  sha : Option (Nat → Nat → BitVec 32)

/-- An unsigned integer of `n` bytes. (the types of internal/memory.h:21-585) -/
abbrev Word (n : Nat) := BitVec (8 * n)

namespace Memory

/-- Value of bytes, least significant first. (no code in /repo: object representation of integers, read in internal/memory.h:21-300) -/
def leNat : List Byte → Nat
  | [] => 0
  | b :: bs => b.toNat + 256 * leNat bs

/-- The bytes of a word, least significant first. (no code in /repo: object representation of integers, written in internal/memory.h:310-585) -/
def toLE : (n : Nat) → Nat → List Byte
  | 0, _ => []
  | n + 1, w => BitVec.ofNat 8 w :: toLE n (w / 256)

/-- Object representation of a word. (no code in /repo: what `memcpy` in internal/memory.h:310-500 copies) -/
def toBytes (e : Endian) {n : Nat} (w : Word n) : List Byte :=
  match e with
  | .little => toLE n w.toNat
  | .big => (toLE n w.toNat).reverse

/-- Word with a given object representation. (no code in /repo: what `memcpy` in internal/memory.h:21-220 makes) -/
def ofBytes (e : Endian) (n : Nat) (bs : List Byte) : Word n :=
  match e with
  | .little => BitVec.ofNat (8 * n) (leNat bs)
  | .big => BitVec.ofNat (8 * n) (leNat bs.reverse)

/-- Object representation of an array. (no code in /repo: what `memcpy` in internal/memory.h:21-585 sees) -/
def image (e : Endian) {p : Nat} (buf : List (Word p)) : List Byte := buf.flatMap (toBytes e)

/-- The array of `n` elements with a given object representation. (no code in /repo: what `memcpy` in internal/memory.h:21-585 leaves) -/
def ofImage (e : Endian) (p : Nat) : (n : Nat) → List Byte → List (Word p)
  | 0, _ => []
  | n + 1, bs => ofBytes e p (bs.take p) :: ofImage e p n (bs.drop p)

/-! ### bit.h -/

/-- bit.h:31-43 `bit_rotl`; a shift by the full width (`a_by = 0` or `a_by > bits`) is undefined. -/
def rotl {w : Nat} (x : BitVec w) (n : Nat) : Option (BitVec w) :=
  if 0 < n ∧ n < w then some (x <<< n ||| x >>> (w - n)) else none

/-- bit.h:45-57 `bit_rotr`. -/
def rotr {w : Nat} (x : BitVec w) (n : Nat) : Option (BitVec w) :=
  if 0 < n ∧ n < w then some (x >>> n ||| x <<< (w - n)) else none

/-! ### endian.h -/

/-- endian.h:20-63 `endian_swap_sw` (one, two, four, eight bytes; others do not compile). -/
def swapSw : (n : Nat) → Word n → Word n
  | 1, a => a
  | 2, a => a <<< 8 ||| a >>> 8
  | 4, a => a >>> 24 ||| a <<< 24 ||| (a &&& 0x00ff0000#32) >>> 8 ||| (a &&& 0x0000ff00#32) <<< 8
  | 8, a =>
    a >>> 56 ||| a <<< 56 ||| (a &&& 0x00ff000000000000#64) >>> 40 ||| (a &&& 0x000000000000ff00#64) <<< 40 |||
    (a &&& 0x0000ff0000000000#64) >>> 24 ||| (a &&& 0x0000000000ff0000#64) <<< 24 |||
    (a &&& 0x000000ff00000000#64) >>> 8 ||| (a &&& 0x00000000ff000000#64) <<< 8
  | _, a => a

/-- endian.h:65-112 `endian_swap_bi`: the compiler builtins (`__builtin_bswap*`, `_byteswap_*`) reverse the bytes
(assumed). -/
def swapBi (n : Nat) (a : Word n) : Word n := ofBytes .little n (toBytes .big a)

/-- endian.h:114-155 `endian_swap`. (On compilers without builtins the run-time branch is `endian_swap_sw` too; the two are
proved equal.) -/
def swap (h : Host) (n : Nat) (a : Word n) : Word n := if h.consteval then swapSw n a else swapBi n a

/-- endian.h:157-171 `endian_bigof`. -/
def bigof (h : Host) {n : Nat} (a : Word n) : Word n := if h.endian = .little then swap h n a else a

/-- endian.h:173-187 `endian_littleof`. -/
def littleof (h : Host) {n : Nat} (a : Word n) : Word n := if h.endian = .big then swap h n a else a

/-! ### memory.h: load and store -/

/-- memory.h:78, 179 `val_type(a_ptr[seg + i]) & val_type(ptr_type(-1))`: widen (with sign extension if the element type is
signed), then mask. -/
def widen (sgp : Bool) (v : Nat) {p : Nat} (x : Word p) : Word v :=
  (if sgp then x.signExtend (8 * v) else x.setWidth (8 * v)) &&& (BitVec.allOnes (8 * p)).setWidth (8 * v)

/-- memory.h:82-98 the accumulation loop, over the index list it visits. -/
def gather (sgp : Bool) (v : Nat) {p : Nat} (buf : List (Word p)) (seg : Nat) : List Nat → Word v → Option (Word v)
  | [], val => some val
  | i :: is, val => do
    let x ← rd1 buf (seg + i)
    gather sgp v buf seg is ((val <<< (8 * p)) ||| widen sgp v x)

/-- Indices `i_beg … i_end` of the loops: descending for little endian loads, ascending for big endian ones. (internal/memory.h:21-220) -/
def loadOrder (e : Endian) (k : Nat) : List Nat :=
  match e with
  | .little => (List.range k).reverse
  | .big => List.range k

/-- memory.h:63-76 the narrow-value case `sizeof(val) < sizeof(*ptr)`: shift amount. -/
def partBits (e : Endian) (v p off : Nat) : Nat :=
  match e with
  | .little => 8 * off
  | .big => 8 * p - 8 * off - 8 * v

/-- memory.h:15-110 `memory_load<t_val>(ptr, off)`. -/
def load (h : Host) (sgp : Bool) (v : Nat) {p : Nat} (buf : List (Word p)) (off : Nat) : Option (Word v) :=
  if v = p then do
    let x ← rd1 buf off
    pure (x.setWidth (8 * v))
  else if h.consteval then
    let seg := off * v / p
    let o := off * v % p
    if v % p > 0 then do
      let x ← rd1 buf seg
      pure ((x >>> partBits h.endian v p o).setWidth (8 * v))
    else
      gather sgp v buf seg (loadOrder h.endian (v / p)) 0
  else do
    let bs ← rdN (image h.endian buf) (off * v) v
    pure (ofBytes h.endian v bs)

/-- memory.h:112-214 `memory_load<t_val>(ptr, off, size)`; `size` counts elements of the pointer's type. -/
def loadN (h : Host) (sgp : Bool) (v : Nat) {p : Nat} (buf : List (Word p)) (off size : Nat) : Option (Word v) :=
  if h.consteval then
    let seg := off * v / p
    let o := off * v % p
    if size = 0 then some 0
    else if v = p then do
      let x ← rd1 buf off
      pure (x.setWidth (8 * v))
    else if v % p > 0 then do
      let x ← rd1 buf seg
      pure ((x >>> partBits h.endian v p o).setWidth (8 * v))
    else do
      let todo := min size (v / p)
      let val ← gather sgp v buf seg (loadOrder h.endian todo) 0
      pure (if h.endian = .big then val <<< (8 * (p * (v / p - todo))) else val)
  else do
    let m := min v (p * size)
    let bs ← rdN (image h.endian buf) (off * v) m
    -- the remaining bytes of `val` keep their initial zero
    pure (ofBytes h.endian v (bs ++ List.replicate (v - m) 0#8))

/-- memory.h:216-302 `memory_load_be`/`memory_load_le`, with and without size. -/
def loadBe (h : Host) (sgp : Bool) (v : Nat) {p : Nat} (buf : List (Word p)) (off : Nat) : Option (Word v) :=
  (load h sgp v buf off).map (bigof h)
/-- internal/memory.h:266-285 `memory_load_le(ptr)` -/
def loadLe (h : Host) (sgp : Bool) (v : Nat) {p : Nat} (buf : List (Word p)) (off : Nat) : Option (Word v) :=
  (load h sgp v buf off).map (littleof h)
/-- internal/memory.h:243-264 `memory_load_be(ptr, size)` -/
def loadBeN (h : Host) (sgp : Bool) (v : Nat) {p : Nat} (buf : List (Word p)) (off size : Nat) : Option (Word v) :=
  (loadN h sgp v buf off size).map (bigof h)
/-- internal/memory.h:287-308 `memory_load_le(ptr, size)` -/
def loadLeN (h : Host) (sgp : Bool) (v : Nat) {p : Nat} (buf : List (Word p)) (off size : Nat) : Option (Word v) :=
  (loadN h sgp v buf off size).map (littleof h)

/-- memory.h:365-379 the store loop: `a_ptr[seg + i] = job_type(val); val >>= ptr_bits`. -/
def scatter {v p : Nat} (seg : Nat) : List Nat → Word v → List (Word p) → Option (List (Word p))
  | [], _, buf => some buf
  | i :: is, val, buf => do
    let buf ← wr1 buf (seg + i) (val.setWidth (8 * p))
    scatter seg is (val >>> (8 * p)) buf

/-- Indices of the store loops: ascending for little endian, descending for big endian. (internal/memory.h:310-500) -/
def storOrder (e : Endian) (k : Nat) : List Nat :=
  match e with
  | .little => List.range k
  | .big => (List.range k).reverse

/-- memory.h:357 the narrow-value store: replace the bits of `val` inside one element. -/
def insertBits {v p : Nat} (x : Word p) (val : Word v) (bits : Nat) : Word p :=
  (x &&& ~~~ (((BitVec.allOnes (8 * v)).setWidth (8 * p)) <<< bits)) ||| (val.setWidth (8 * p)) <<< bits

/-- memory.h:304-390 `memory_stor(ptr, off, val)`. -/
def stor (h : Host) {v p : Nat} (buf : List (Word p)) (off : Nat) (val : Word v) : Option (List (Word p)) :=
  if v = p then
    wr1 buf off (val.setWidth (8 * p))
  else if h.consteval then
    let seg := off * v / p
    let o := off * v % p
    if v % p > 0 then do
      let x ← rd1 buf seg
      wr1 buf seg (insertBits x val (partBits h.endian v p o))
    else
      scatter seg (storOrder h.endian (v / p)) val buf
  else do
    let bs ← wrN (image h.endian buf) (off * v) (toBytes h.endian val)
    pure (ofImage h.endian p buf.length bs)

/-- memory.h:392-495 `memory_stor(ptr, off, val, size)`. -/
def storN (h : Host) {v p : Nat} (buf : List (Word p)) (off : Nat) (val : Word v) (size : Nat) : Option (List (Word p)) :=
  if h.consteval then
    let seg := off * v / p
    let o := off * v % p
    if size = 0 then some buf
    else if v = p then wr1 buf off (val.setWidth (8 * p))
    else if v % p > 0 then do
      let x ← rd1 buf seg
      wr1 buf seg (insertBits x val (partBits h.endian v p o))
    else
      let todo := min size (v / p)
      let val := if h.endian = .big then val >>> (8 * (p * (v / p - todo))) else val
      scatter seg (storOrder h.endian todo) val buf
  else do
    let bs ← wrN (image h.endian buf) (off * v) ((toBytes h.endian val).take (min v (p * size)))
    pure (ofImage h.endian p buf.length bs)

/-- memory.h:497-583 `memory_stor_be`/`memory_stor_le`, with and without size. -/
def storBe (h : Host) {v p : Nat} (buf : List (Word p)) (off : Nat) (val : Word v) : Option (List (Word p)) :=
  stor h buf off (bigof h val)
/-- internal/memory.h:545-563 `memory_stor_le(ptr, val)` -/
def storLe (h : Host) {v p : Nat} (buf : List (Word p)) (off : Nat) (val : Word v) : Option (List (Word p)) :=
  stor h buf off (littleof h val)
/-- internal/memory.h:523-543 `memory_stor_be(ptr, val, size)` -/
def storBeN (h : Host) {v p : Nat} (buf : List (Word p)) (off : Nat) (val : Word v) (size : Nat) : Option (List (Word p)) :=
  storN h buf off (bigof h val) size
/-- internal/memory.h:565-585 `memory_stor_le(ptr, val, size)` -/
def storLeN (h : Host) {v p : Nat} (buf : List (Word p)) (off : Nat) (val : Word v) (size : Nat) : Option (List (Word p)) :=
  storN h buf off (littleof h val) size

/-! ### memory.h: bulk operations -/

/-- Loop `for (i = 0; i < n; ++i)` threading a state. (as in internal/memory.h:587-750) -/
def forM' {σ : Type} (f : Nat → σ → Option σ) : (n : Nat) → (i : Nat) → σ → Option σ
  | 0, _, s => some s
  | n + 1, i, s => do
    let s ← f i s
    forM' f n (i + 1) s

/-- memory.h:581-617 `memory_copy` (non-overlapping source and destination). The byte-wise loads and stores have
`t_val = uint8_t`. -/
def copy (h : Host) {p q : Nat} (dst : List (Word p)) (src : List (Word q)) (size : Nat) : Option (List (Word p)) :=
  if h.consteval then
    forM' (fun i dst => do
      let x ← load h false 1 src i
      stor h dst i x) size 0 dst
  else do
    let bs ← rdN (image h.endian src) 0 size
    let out ← wrN (image h.endian dst) 0 bs
    pure (ofImage h.endian p dst.length out)

/-- memory.h:619-651 `memory_copy_be`. -/
def copyBe (h : Host) {p q : Nat} (dst : List (Word p)) (src : List (Word q)) (size : Nat) : Option (List (Word p)) := do
  let full := size / q
  let last := size % q
  let dst ← forM' (fun i dst => do
    let x ← rd1 src i
    storBe h dst i x) full 0 dst
  if last > 0 then do
    let x ← rd1 src full
    storBeN h dst full x last
  else pure dst

/-- memory.h:653-685 `memory_copy_le`. -/
def copyLe (h : Host) {p q : Nat} (dst : List (Word p)) (src : List (Word q)) (size : Nat) : Option (List (Word p)) := do
  let full := size / q
  let last := size % q
  let dst ← forM' (fun i dst => do
    let x ← rd1 src i
    storLe h dst i x) full 0 dst
  if last > 0 then do
    let x ← rd1 src full
    storLeN h dst full x last
  else pure dst

/-- memory.h:687-716 `memory_set` with a byte value. -/
def set (h : Host) {p : Nat} (buf : List (Word p)) (val : Byte) (size : Nat) : Option (List (Word p)) :=
  if h.consteval then
    forM' (fun i buf => stor h (v := 1) buf i val) size 0 buf
  else do
    let out ← wrN (image h.endian buf) 0 (List.replicate size val)
    pure (ofImage h.endian p buf.length out)

/-- memory.h:718-745 `memory_xor` with three distinct byte buffers, `size` bytes. -/
def xor (h : Host) (dst src0 src1 : List Byte) (size : Nat) : Option (List Byte) :=
  forM' (fun i dst => do
    let x ← load h false (p := 1) 1 src0 i
    let y ← load h false (p := 1) 1 src1 i
    stor h (v := 1) (p := 1) dst i (x ^^^ y)) size 0 dst

/-- memory.h:757-777 the early-exit comparison loop of `memory_equal`. -/
def equalLoop (h : Host) {p q : Nat} (a : List (Word p)) (b : List (Word q)) : (n i : Nat) → Option Bool
  | 0, _ => some true
  | n + 1, i => do
    let x ← load h false 1 a i
    let y ← load h false 1 b i
    if x ≠ y then pure false else equalLoop h a b n (i + 1)

/-- memory.h:746-784 `memory_equal` on pointers (`std::memcmp` at run time). -/
def equal (h : Host) {p q : Nat} (a : List (Word p)) (b : List (Word q)) (size : Nat) : Option Bool :=
  if h.consteval then equalLoop h a b size 0
  else do
    let x ← rdN (image h.endian a) 0 size
    let y ← rdN (image h.endian b) 0 size
    pure (decide (x = y))

/-- memory.h:786-812 `memory_equal` on containers (`&&` short-circuits). -/
def equalC (h : Host) {p q : Nat} (a : List (Word p)) (b : List (Word q)) : Option Bool :=
  if a.length * p = b.length * q then equal h a b (b.length * q) else some false

/-- memory.h:814-840 `memory_match` on pointers: OR of XORs, no early exit. Returns the result and the number of byte pairs
inspected. -/
def matchPtr (h : Host) {p q : Nat} (a : List (Word p)) (b : List (Word q)) (size : Nat) : Option (Bool × Nat) := do
  let (tmp, n) ← forM' (fun i (tn : Byte × Nat) => do
    let x ← load h false 1 a i
    let y ← load h false 1 b i
    pure ((tn.1 ||| (x ^^^ y) : Byte), tn.2 + 1)) size 0 ((0#8 : Byte), 0)
  pure (decide (tmp = 0#8), n)

/-- memory.h:842-875 `memory_match` on containers. -/
def matchC (h : Host) {p q : Nat} (a : List (Word p)) (b : List (Word q)) : Option (Bool × Nat) := do
  let (m, n) ← matchPtr h a b (min (a.length * p) (b.length * q))
  pure (decide (a.length * p = b.length * q) && m, n)

/-- memory.h:877-891 `memory_zero` (counts elements). -/
def zero {p : Nat} (buf : List (Word p)) (n : Nat) : Option (List (Word p)) :=
  forM' (fun i buf => wr1 buf i 0) n 0 buf

/-- memory.h:907-935 `memory_erase` on a pointer and a count; also the array overload (:955-967) with the array's length.
The `volatile` of the run-time branch keeps the stores from being removed; both branches store the same values. -/
def erase {p : Nat} (buf : List (Word p)) (n : Nat) : Option (List (Word p)) :=
  forM' (fun i buf => wr1 buf i 0) n 0 buf

/-- memory.h:969-1015 `memory_init`. -/
def init (h : Host) {p q : Nat} (dst : List (Word p)) (src : List (Word q)) : Option (List (Word p)) := do
  let dst' ← zero dst dst.length
  copy h dst' src (min (dst.length * p) (src.length * q))

/-- memory.h:1017-1065 `memory_init_be`. -/
def initBe (h : Host) {p q : Nat} (dst : List (Word p)) (src : List (Word q)) : Option (List (Word p)) := do
  let dst ← init h dst src
  if p ≠ 1 ∧ h.endian ≠ .big then pure (dst.map (bigof h)) else pure dst

/-- memory.h:1067-1115 `memory_init_le`. -/
def initLe (h : Host) {p q : Nat} (dst : List (Word p)) (src : List (Word q)) : Option (List (Word p)) := do
  let dst ← init h dst src
  if p ≠ 1 ∧ h.endian ≠ .little then pure (dst.map (littleof h)) else pure dst

end Memory
end Milo
