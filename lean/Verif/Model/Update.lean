import Verif.Model.Memory
/- Model of src/milo/internal/update.h (first half) and of pointer-offset accesses. -/
namespace Milo

/-- `T* p = buf + off`, then an operation on `p`: forming the pointer beyond the end is undefined. The operation sees and
replaces the elements from `off` on. (as in internal/update.h:22-104) -/
def at_ {α : Type} (buf : List α) (off : Nat) (f : List α → Option (List α)) : Option (List α) :=
  if off ≤ buf.length then do
    let out ← f (buf.drop off)
    pure (buf.take off ++ out)
  else none

/-- `src += n` for a read pointer. (internal/update.h:22-104) -/
def advance {α : Type} (src : List α) (n : Nat) : Option (List α) :=
  if n ≤ src.length then some (src.drop n) else none

/-- internal/update.h:15-95 `update_block_soak`. `blocks n st src` is `impl_type::invoke<0>(n, args…, src)`; `st` stands for the
forwarded arguments it updates. The caller's `(a_src_ptr, a_src_size)` is the list `src`. Returns the new buffer fill, the buffer
and the state. `block_size - a_buf_size` would wrap when `a_buf_size > block_size`; that is treated as undefined. -/
def soak (h : Host) {σ : Type} (block : Nat) (blocks : Nat → σ → List Byte → Option σ)
    (buf : List Byte) (bufSize : Nat) (src : List Byte) (st : σ) : Option (Nat × List Byte × σ) :=
  let rest (buf : List Byte) (src : List Byte) (st : σ) : Option (Nat × List Byte × σ) := do
    let full := src.length / block
    let last := src.length % block
    let (src, st) ← if full ≠ 0 then do
        let st ← blocks full st src
        let src ← advance src (full * block)
        pure (src, st)
      else pure (src, st)
    let buf ← if last ≠ 0 then Memory.copy h (p := 1) (q := 1) buf src last else pure buf
    pure (last, buf, st)
  if bufSize > 0 then
    if bufSize > block then none else do
    let left := block - bufSize
    let todo := min left src.length
    let buf ← at_ buf bufSize fun p => Memory.copy h (p := 1) (q := 1) p src todo
    if todo < left then pure (bufSize + todo, buf, st)
    else do
      let st ← blocks 1 st buf
      let src ← advance src todo
      rest buf src st
  else rest buf src st

end Milo
