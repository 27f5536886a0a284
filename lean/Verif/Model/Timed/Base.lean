import Verif.Model.Update
import Verif.Model.HashApie
/-
The same code with what an observer of its timing sees: a computation also lists the branches it takes and the positions it accesses.

The functions in Model/Timed/ repeat those of Model/ line by line (they are proved to have the same results, Proof/Timed*.lean), with every condition the program
tests at run time written `branch` and every access to an array one of `rd1`, `wr1`, `rdN`, `wrN`, `at_`, `advance`. Conditions on template parameters, on the byte order
and on constant evaluation are decided by the compiler and not listed.
-/
namespace Milo.Timed

/-- What is observed. (no code in /repo: vocabulary of the claim) -/
inductive Event where
  /-- outcome of a condition (an `if`, a short-circuit, or the condition of a loop) -/
  | branch (taken : Bool)
  /-- access to `n` consecutive elements of an array from position `pos` on -/
  | access (pos n : Nat)
  /-- a pointer moved by `off` elements -/
  | pointer (off : Nat)
  /-- a function in assembly, on so many blocks (the lines it executes and the addresses it accesses: Props/Leak.lean) -/
  | assembly (blocks : Nat)
  deriving DecidableEq, Repr

/-- A computation with what is observed of it. `val = none` is undefined behaviour. (no code in /repo: vocabulary of the claim) -/
structure T (α : Type) where
  trace : List Event
  val : Option α

instance : Monad T where
  pure a := ⟨[], some a⟩
  bind x f :=
    match x.val with
    | none => ⟨x.trace, none⟩
    | some a => ⟨x.trace ++ (f a).trace, (f a).val⟩

/-- Undefined behaviour. (no code in /repo) -/
def fail {α : Type} : T α := ⟨[], none⟩

/-- A computation of which nothing is observed (no access, no condition). (no code in /repo) -/
def quiet {α : Type} (x : Option α) : T α := ⟨[], x⟩

/-- `if (c) a else b` (no code in /repo: the `if` of C++) -/
def branch {α : Type} (c : Prop) [Decidable c] (a b : T α) : T α := do
  (⟨[.branch (decide c)], some ()⟩ : T Unit)
  if c then a else b

/-- Model/Base.lean `rd1`. -/
def rd1 {α : Type} (buf : List α) (i : Nat) : T α := ⟨[.access i 1], Milo.rd1 buf i⟩
/-- Model/Base.lean `wr1`. -/
def wr1 {α : Type} (buf : List α) (i : Nat) (x : α) : T (List α) := ⟨[.access i 1], Milo.wr1 buf i x⟩
/-- Model/Base.lean `rdN`. -/
def rdN {α : Type} (buf : List α) (off n : Nat) : T (List α) := ⟨[.access off n], Milo.rdN buf off n⟩
/-- Model/Base.lean `wrN`. -/
def wrN {α : Type} (buf : List α) (off : Nat) (xs : List α) : T (List α) := ⟨[.access off xs.length], Milo.wrN buf off xs⟩

/-- Model/Update.lean `at_`. -/
def at_ {α : Type} (buf : List α) (off : Nat) (f : List α → T (List α)) : T (List α) := do
  (⟨[.pointer off], if off ≤ buf.length then some () else none⟩ : T Unit)
  let out ← f (buf.drop off)
  pure (buf.take off ++ out)

/-- Model/Update.lean `advance`. -/
def advance {α : Type} (src : List α) (n : Nat) : T (List α) := ⟨[.pointer n], Milo.advance src n⟩

/-- Model/Memory.lean `forM'`: `for (i = …; …; ++i)`; the condition is tested before each iteration. -/
def forM' {σ : Type} (f : Nat → σ → T σ) : (n : Nat) → (i : Nat) → σ → T σ
  | 0, _, s => ⟨[.branch false], some s⟩
  | n + 1, i, s => do
    (⟨[.branch true], some ()⟩ : T Unit)
    let s ← f i s
    forM' f n (i + 1) s

/-! ### memory.h -/
open Milo.Memory (widen loadOrder storOrder partBits image ofImage ofBytes toBytes bigof littleof insertBits)

/-- memory.h:82-98, Model/Memory.lean `gather`. -/
def gather (sgp : Bool) (v : Nat) {p : Nat} (buf : List (Word p)) (seg : Nat) : List Nat → Word v → T (Word v)
  | [], val => ⟨[.branch false], some val⟩
  | i :: is, val => do
    (⟨[.branch true], some ()⟩ : T Unit)
    let x ← rd1 buf (seg + i)
    gather sgp v buf seg is ((val <<< (8 * p)) ||| widen sgp v x)

/-- memory.h:15-110 `memory_load<t_val>(ptr, off)`. -/
def load (h : Host) (sgp : Bool) (v : Nat) {p : Nat} (buf : List (Word p)) (off : Nat) : T (Word v) :=
  if v = p then do
    let x ← rd1 buf off
    pure (x.setWidth (8 * v))
  else if h.consteval then
    let seg := off * v / p
    let o := off * v % p
    if v % p > 0 then do
      let x ← rd1 buf seg
      pure ((x >>> partBits h.endian v p o).setWidth (8 * v))
    else
      gather sgp v buf seg (loadOrder h.endian (v / p)) 0
  else do
    let bs ← rdN (image h.endian buf) (off * v) v
    pure (ofBytes h.endian v bs)

/-- memory.h:112-214 `memory_load<t_val>(ptr, off, size)`. -/
def loadN (h : Host) (sgp : Bool) (v : Nat) {p : Nat} (buf : List (Word p)) (off size : Nat) : T (Word v) :=
  if h.consteval then
    let seg := off * v / p
    let o := off * v % p
    branch (size = 0) (pure 0)
    (if v = p then do
      let x ← rd1 buf off
      pure (x.setWidth (8 * v))
    else if v % p > 0 then do
      let x ← rd1 buf seg
      pure ((x >>> partBits h.endian v p o).setWidth (8 * v))
    else do
      let todo := min size (v / p)
      let val ← gather sgp v buf seg (loadOrder h.endian todo) 0
      pure (if h.endian = .big then val <<< (8 * (p * (v / p - todo))) else val))
  else do
    let m := min v (p * size)
    let bs ← rdN (image h.endian buf) (off * v) m
    pure (ofBytes h.endian v (bs ++ List.replicate (v - m) 0#8))

/-- memory.h:216-302 `memory_load_be`/`memory_load_le` (endian.h: shifts and masks, no branch). -/
def loadBe (h : Host) (sgp : Bool) (v : Nat) {p : Nat} (buf : List (Word p)) (off : Nat) : T (Word v) := do
  let x ← load h sgp v buf off
  pure (bigof h x)
/-- internal/memory.h:266-285 `memory_load_le(ptr)` -/
def loadLe (h : Host) (sgp : Bool) (v : Nat) {p : Nat} (buf : List (Word p)) (off : Nat) : T (Word v) := do
  let x ← load h sgp v buf off
  pure (littleof h x)

/-- memory.h:365-379, Model/Memory.lean `scatter`. -/
def scatter {v p : Nat} (seg : Nat) : List Nat → Word v → List (Word p) → T (List (Word p))
  | [], _, buf => ⟨[.branch false], some buf⟩
  | i :: is, val, buf => do
    (⟨[.branch true], some ()⟩ : T Unit)
    let buf ← wr1 buf (seg + i) (val.setWidth (8 * p))
    scatter seg is (val >>> (8 * p)) buf

/-- memory.h:304-390 `memory_stor(ptr, off, val)`. -/
def stor (h : Host) {v p : Nat} (buf : List (Word p)) (off : Nat) (val : Word v) : T (List (Word p)) :=
  if v = p then
    wr1 buf off (val.setWidth (8 * p))
  else if h.consteval then
    let seg := off * v / p
    let o := off * v % p
    if v % p > 0 then do
      let x ← rd1 buf seg
      wr1 buf seg (insertBits x val (partBits h.endian v p o))
    else
      scatter seg (storOrder h.endian (v / p)) val buf
  else do
    let bs ← wrN (image h.endian buf) (off * v) (toBytes h.endian val)
    pure (ofImage h.endian p buf.length bs)

/-- memory.h:392-495 `memory_stor(ptr, off, val, size)`. -/
def storN (h : Host) {v p : Nat} (buf : List (Word p)) (off : Nat) (val : Word v) (size : Nat) : T (List (Word p)) :=
  if h.consteval then
    let seg := off * v / p
    let o := off * v % p
    branch (size = 0) (pure buf)
    (if v = p then wr1 buf off (val.setWidth (8 * p))
    else if v % p > 0 then do
      let x ← rd1 buf seg
      wr1 buf seg (insertBits x val (partBits h.endian v p o))
    else
      let todo := min size (v / p)
      let val := if h.endian = .big then val >>> (8 * (p * (v / p - todo))) else val
      scatter seg (storOrder h.endian todo) val buf)
  else do
    let bs ← wrN (image h.endian buf) (off * v) ((toBytes h.endian val).take (min v (p * size)))
    pure (ofImage h.endian p buf.length bs)

/-- memory.h:497-583 `memory_stor_be`/`memory_stor_le`, with and without size. -/
def storBe (h : Host) {v p : Nat} (buf : List (Word p)) (off : Nat) (val : Word v) : T (List (Word p)) := stor h buf off (bigof h val)
/-- internal/memory.h:545-563 `memory_stor_le(ptr, val)` -/
def storLe (h : Host) {v p : Nat} (buf : List (Word p)) (off : Nat) (val : Word v) : T (List (Word p)) := stor h buf off (littleof h val)
/-- internal/memory.h:523-543 `memory_stor_be(ptr, val, size)` -/
def storBeN (h : Host) {v p : Nat} (buf : List (Word p)) (off : Nat) (val : Word v) (size : Nat) : T (List (Word p)) := storN h buf off (bigof h val) size
/-- internal/memory.h:565-585 `memory_stor_le(ptr, val, size)` -/
def storLeN (h : Host) {v p : Nat} (buf : List (Word p)) (off : Nat) (val : Word v) (size : Nat) : T (List (Word p)) := storN h buf off (littleof h val) size

/-- memory.h:581-617 `memory_copy`. -/
def copy (h : Host) {p q : Nat} (dst : List (Word p)) (src : List (Word q)) (size : Nat) : T (List (Word p)) :=
  if h.consteval then
    forM' (fun i dst => do
      let x ← load h false 1 src i
      stor h dst i x) size 0 dst
  else do
    let bs ← rdN (image h.endian src) 0 size
    let out ← wrN (image h.endian dst) 0 bs
    pure (ofImage h.endian p dst.length out)

/-- memory.h:619-651 `memory_copy_be`. -/
def copyBe (h : Host) {p q : Nat} (dst : List (Word p)) (src : List (Word q)) (size : Nat) : T (List (Word p)) := do
  let full := size / q
  let last := size % q
  let dst ← forM' (fun i dst => do
    let x ← rd1 src i
    storBe h dst i x) full 0 dst
  branch (last > 0) (do
    let x ← rd1 src full
    storBeN h dst full x last)
    (pure dst)

/-- memory.h:653-685 `memory_copy_le`. -/
def copyLe (h : Host) {p q : Nat} (dst : List (Word p)) (src : List (Word q)) (size : Nat) : T (List (Word p)) := do
  let full := size / q
  let last := size % q
  let dst ← forM' (fun i dst => do
    let x ← rd1 src i
    storLe h dst i x) full 0 dst
  branch (last > 0) (do
    let x ← rd1 src full
    storLeN h dst full x last)
    (pure dst)

/-- memory.h:687-716 `memory_set` with a byte value. -/
def set (h : Host) {p : Nat} (buf : List (Word p)) (val : Byte) (size : Nat) : T (List (Word p)) :=
  if h.consteval then
    forM' (fun i buf => stor h (v := 1) buf i val) size 0 buf
  else do
    let out ← wrN (image h.endian buf) 0 (List.replicate size val)
    pure (ofImage h.endian p buf.length out)

/-- memory.h:718-745 `memory_xor`. -/
def xor (h : Host) (dst src0 src1 : List Byte) (size : Nat) : T (List Byte) :=
  forM' (fun i dst => do
    let x ← load h false (p := 1) 1 src0 i
    let y ← load h false (p := 1) 1 src1 i
    stor h (v := 1) (p := 1) dst i (x ^^^ y)) size 0 dst

/-- memory.h:757-777 the early-exit comparison of `memory_equal` in constant evaluation. -/
def equalLoop (h : Host) {p q : Nat} (a : List (Word p)) (b : List (Word q)) : (n i : Nat) → T Bool
  | 0, _ => ⟨[.branch false], some true⟩
  | n + 1, i => do
    (⟨[.branch true], some ()⟩ : T Unit)
    let x ← load h false 1 a i
    let y ← load h false 1 b i
    branch (x ≠ y) (pure false) (equalLoop h a b n (i + 1))

/-- memory.h:814-840 `memory_match` on pointers. -/
def matchPtr (h : Host) {p q : Nat} (a : List (Word p)) (b : List (Word q)) (size : Nat) : T (Bool × Nat) := do
  let (tmp, n) ← forM' (fun i (tn : Byte × Nat) => do
    let x ← load h false 1 a i
    let y ← load h false 1 b i
    pure ((tn.1 ||| (x ^^^ y) : Byte), tn.2 + 1)) size 0 ((0#8 : Byte), 0)
  pure (decide (tmp = 0#8), n)

/-- memory.h:842-875 `memory_match` on containers (`&`, no short-circuit). -/
def matchC (h : Host) {p q : Nat} (a : List (Word p)) (b : List (Word q)) : T (Bool × Nat) := do
  let (m, n) ← matchPtr h a b (min (a.length * p) (b.length * q))
  pure (decide (a.length * p = b.length * q) && m, n)

/-- memory.h:877-891 `memory_zero`; memory.h:907-935 `memory_erase`. -/
def zero {p : Nat} (buf : List (Word p)) (n : Nat) : T (List (Word p)) := forM' (fun i buf => wr1 buf i 0) n 0 buf

/-- memory.h:969-1015 `memory_init`. -/
def init (h : Host) {p q : Nat} (dst : List (Word p)) (src : List (Word q)) : T (List (Word p)) := do
  let dst' ← zero dst dst.length
  copy h dst' src (min (dst.length * p) (src.length * q))

/-- memory.h:1047-1063 the loop that swaps the bytes of every element in place. -/
def mapLoop {p : Nat} (f : Word p → Word p) (buf : List (Word p)) : T (List (Word p)) :=
  ⟨(List.range buf.length).flatMap (fun i => [.branch true, .access i 1, .access i 1]) ++ [.branch false], some (buf.map f)⟩

/-- memory.h:1017-1065 `memory_init_be`. -/
def initBe (h : Host) {p q : Nat} (dst : List (Word p)) (src : List (Word q)) : T (List (Word p)) := do
  let dst ← init h dst src
  if p ≠ 1 ∧ h.endian ≠ .big then mapLoop (bigof h) dst else pure dst

/-- memory.h:1067-1115 `memory_init_le`. -/
def initLe (h : Host) {p q : Nat} (dst : List (Word p)) (src : List (Word q)) : T (List (Word p)) := do
  let dst ← init h dst src
  if p ≠ 1 ∧ h.endian ≠ .little then mapLoop (littleof h) dst else pure dst

/-! ### update.h -/

/-- internal/update.h:54-94 whole blocks from the source, then the rest into the buffer. -/
def soakRest (h : Host) {σ : Type} (block : Nat) (blocks : Nat → σ → List Byte → T σ) (buf : List Byte) (src : List Byte) (st : σ) : T (Nat × List Byte × σ) := do
  let full := src.length / block
  let last := src.length % block
  let (src, st) ← branch (full ≠ 0) (do
      let st ← blocks full st src
      let src ← advance src (full * block)
      pure (src, st))
    (pure (src, st))
  let buf ← branch (last ≠ 0) (copy h (p := 1) (q := 1) buf src last) (pure buf)
  pure (last, buf, st)

/-- internal/update.h:15-95 `update_block_soak`. -/
def soak (h : Host) {σ : Type} (block : Nat) (blocks : Nat → σ → List Byte → T σ)
    (buf : List Byte) (bufSize : Nat) (src : List Byte) (st : σ) : T (Nat × List Byte × σ) :=
  branch (bufSize > 0)
    (if bufSize > block then fail else do
    let left := block - bufSize
    let todo := min left src.length
    let buf ← at_ buf bufSize fun p => copy h (p := 1) (q := 1) p src todo
    branch (todo < left) (pure (bufSize + todo, buf, st))
      (do
      let st ← blocks 1 st buf
      let src ← advance src todo
      soakRest h block blocks buf src st))
    (soakRest h block blocks buf src st)

end Milo.Timed
