import Verif.Spec.Copies
import Verif.Model.Aead
import Verif.Model.Hkdf
import Verif.Model.Pbkdf2
import Verif.Model.MacAlg
/-
Copying, moving, assigning and destroying objects. All classes and all `apie` templates declare the default, copy and move constructors and
`operator =(const T&)` as defaulted (sha_1_160.h:77-96, sha_2_256.h:77-96, sha_2_512.h:75-94, hmac.h:57-73, poly_1305.h:77-97, hkdf.h:51-68, pbkdf_2.h:53-72, chacha.h:73-91,
chacha_20_poly_1305.h:56-69, the five apie.h): memberwise, in order. There is no move assignment: `x = std::move(y)` copies.
-/
namespace Milo
open Spec.Copies (Op put)

/-- A class whose objects may refer to an environment (the caller's memory, the heap of a constant evaluation). `none` is undefined behaviour. (constructors, assignment and destructors of */apie.h and of the classes in detail/, e.g. hash/apie.h:36-60) -/
structure ObjClass (C O : Type) where
  E : Type
  S : Type
  construct : E → Option (E × S)
  copy : E → S → Option (E × S)
  /-- the new object and what is left of the source -/
  move : E → S → Option (E × S × S)
  /-- assignment to an object (first) from another (second) -/
  assign : E → S → S → Option (E × S)
  assignSelf : E → S → Option (E × S)
  destroy : E → S → Option E
  exec : E → S → C → Option (E × S × List O)
  env : E → C → E

namespace ObjClass
variable {C O : Type} (T : ObjClass C O)

/-- One step of a program with numbered objects. (no code in /repo: a program that uses the classes of */apie.h) -/
def step (s : T.E × (Nat → Option T.S)) : Op C → Option ((T.E × (Nat → Option T.S)) × List O)
  | .new i => match s.2 i with
    | none => do
      let (e, x) ← T.construct s.1
      pure ((e, put s.2 i (some x)), [])
    | some _ => none
  | .copy i j => match s.2 i, s.2 j with
    | none, some y => do
      let (e, x) ← T.copy s.1 y
      pure ((e, put s.2 i (some x)), [])
    | _, _ => none
  | .move i j => match s.2 i, s.2 j with
    | none, some y => do
      let (e, x, y) ← T.move s.1 y
      pure ((e, put (put s.2 i (some x)) j (some y)), [])
    | _, _ => none
  | .assign i j => match s.2 i, s.2 j with
    | some x, some y => do
      let (e, x) ← if i = j then T.assignSelf s.1 x else T.assign s.1 x y
      pure ((e, put s.2 i (some x)), [])
    | _, _ => none
  | .drop i => match s.2 i with
    | some x => do
      let e ← T.destroy s.1 x
      pure ((e, put s.2 i none), [])
    | none => none
  | .call i c => match s.2 i with
    | some x => do
      let (e, x, out) ← T.exec s.1 x c
      pure ((e, put s.2 i (some x)), out)
    | none => none
  | .env c => some ((T.env s.1 c, s.2), [])

/-- A program, from the environment `e`, without any objects. (no code in /repo: a program that uses the classes of */apie.h) -/
def run (e : T.E) (ops : List (Op C)) : Option ((T.E × (Nat → Option T.S)) × List O) := runCalls T.step (e, fun _ => none) ops

end ObjClass

/-! ### Classes without pointers -/

/-- A class all of whose members are copied as they are. Copying reads every member: a member that is indeterminate makes it undefined (`readable` is false). Moving
is copying (arithmetic types and arrays of them). (`= default` in hash/apie.h:36-60, detail/hash/sha/sha_1_160.h:15-193 and the others) -/
def plainClass {C O E S : Type} (fresh : S) (readable : S → Bool) (exec : S × E → C → Option ((S × E) × List O)) (env : E → C → E) : ObjClass C O where
  E := E
  S := S
  construct e := some (e, fresh)
  copy e y := if readable y then some (e, y) else none
  move e y := if readable y then some (e, y, y) else none
  assign e _ y := if readable y then some (e, y) else none
  assignSelf e x := if readable x then some (e, x) else none
  destroy e _ := some e
  exec e x c := do
    let ((x, e), out) ← exec (x, e) c
    pure (e, x, out)
  env := env

/-- Without an environment. (no code in /repo: hash, mac, cipher and aead classes refer to no memory but their own) -/
def noEnv {C O S : Type} (exec : S → C → Option (S × List O)) (s : S × Unit) (c : C) : Option ((S × Unit) × List O) := do
  let (x, out) ← exec s.1 c
  pure ((x, ()), out)

namespace Copies

/-- The hash classes: every member has an initialiser (sha_1_160.h:67-73, sha_2_256.h:67-73, sha_2_512.h:65-71). -/
def hash (H : HashImpl) : ObjClass Hash.Call Hash.Out := plainClass H.fresh (fun _ => true) (noEnv (Hash.exec H)) fun e _ => e
/-- hash/apie.h:36-58: the constructor sets `m_finalized`. -/
def hashApie (H : HashImpl) (u : Bool) : ObjClass HashApie.Call HashApie.Out :=
  plainClass (HashApie.construct H u) (fun _ => true) (noEnv (HashApie.exec H)) fun e _ => e

/-- The mac classes: every member has an initialiser (hmac.h:51-53, poly_1305.h:65-73). -/
def mac (M : MacImpl) : ObjClass Mac.Call Mac.Out := plainClass M.fresh (fun _ => true) (noEnv (Mac.exec M)) fun e _ => e
/-- mac/apie.h:36-55: `bool m_finalized;` is indeterminate until `initialize` (after `T x;`; `T x{};` would zero it). -/
def macApie (M : MacImpl) : ObjClass MacApie.Call MacApie.Out :=
  plainClass (MacApie.constructDefault M) (fun o => o.finalized.isSome) (noEnv (MacApie.exec M)) fun e _ => e

/-- `cipher::chacha_20` and its apie: chacha.h:65-91, cipher/apie.h:39-56. -/
def cipher (h : Host) (B : ChaCha.Backend) : ObjClass Cipher.Call Cipher.Out :=
  plainClass ChaCha.fresh (fun _ => true) (noEnv (Cipher.exec h B)) fun e _ => e

/-- chacha_20_poly_1305.h:46-52: `uint64_t m_aad_processed_size; uint64_t m_edd_processed_size;` are indeterminate until `initialize`. -/
def aead (h : Host) (B : ChaCha.Backend) : ObjClass Aead.Call Aead.Out :=
  plainClass (Aead.fresh (Aead.poly h)) (fun o => o.aadSize.isSome && o.eddSize.isSome) (noEnv (Aead.exec h B)) fun e _ => e
/-- aead/apie.h:39-43: so are the flags. -/
def aeadApie (h : Host) (B : ChaCha.Backend) : ObjClass AeadApie.Call AeadApie.Out :=
  plainClass (AeadApie.constructDefault (Aead.poly h))
    (fun o => o.impl.aadSize.isSome && o.impl.eddSize.isSome && o.finalizedAad.isSome && o.finalized.isSome) (noEnv (AeadApie.exec h B)) fun e _ => e

/-- The caller's memory after a change of one buffer; other calls leave it alone. (no code in /repo: what the caller does between calls of kdf/apie.h) -/
def poke {A : Type} (m : Mem) : Kdf.Call A → Mem
  | .poke b content => fun i => if i = b then content else m i
  | _ => m

/-- The kdf classes and `kdf::apie` (whose only member is the implementation) at run time: the views are pointers and sizes (memory.h:1136-1206, not in constant
evaluation), copied as they are. -/
def kdf (K : KdfImpl) : ObjClass (Kdf.Call K.Args) Kdf.Out := plainClass K.fresh (fun _ => true) (Kdf.exec K) poke

/-! ### The kdf classes in constant evaluation: views own heap memory -/

/-- Memory obtained with `new value_type[size]`. (internal/memory.h:1116-1260 `memory_bytes_const_view`: in constant evaluation) -/
structure Heap where
  next : Nat
  cells : Nat → Option (List Byte)

/-- memory.h:1124-1126 `m_ptr`, `m_size`; a null pointer is `none`. -/
structure HView where
  cell : Option Nat
  size : Nat

namespace HView

/-- memory.h:1130-1134. -/
def null : HView := ⟨none, 0⟩

/-- Reading `m_size` bytes at `m_ptr`; memory that was freed may not be read. (internal/memory.h:1116-1260 `memory_bytes_const_view`: its bytes) -/
def read (hp : Heap) (v : HView) : Option (List Byte) :=
  match v.cell with
  | none => rdN [] 0 v.size
  | some p => do
    let bs ← hp.cells p
    rdN bs 0 v.size

/-- `new value_type[size]`, filled. (internal/memory.h:1116-1260 `memory_bytes_const_view`) -/
def alloc (hp : Heap) (bs : List Byte) : Heap × HView :=
  (⟨hp.next + 1, put hp.cells hp.next (some bs)⟩, ⟨some hp.next, bs.length⟩)

/-- memory.h:1170-1176 `delete[] m_ptr`: nothing for a null pointer, undefined for memory that was freed already. -/
def free (hp : Heap) (v : HView) : Option Heap :=
  match v.cell with
  | none => some hp
  | some p => match hp.cells p with
    | none => none
    | some _ => some ⟨hp.next, put hp.cells p none⟩

/-- memory.h:1148-1168 the copy constructor. -/
def copyNew (hp : Heap) (v : HView) : Option (Heap × HView) := do
  let bs ← v.read hp
  pure (alloc hp bs)

/-- memory.h:1136-1146 the move constructor: the new view and what is left of the source. -/
def moveNew (v : HView) : HView × HView := (v, null)

/-- memory.h:1180-1206 construction from a pointer and a size. -/
def fromSpan (hp : Heap) (m : Mem) (s : Span) : Option (Heap × HView) := do
  let bs ← s.read m
  pure (alloc hp bs)

/-- memory.h:1211-1234 move assignment from another view: the target and what is left of the source. -/
def moveAssign (hp : Heap) (dst src : HView) : Option (Heap × HView × HView) := do
  let hp ← free hp dst
  pure (hp, src, null)

/-- memory.h:1237-1266 copy assignment from another view: the old memory is freed first. -/
def copyAssign (hp : Heap) (dst src : HView) : Option (Heap × HView) := do
  let hp ← free hp dst
  copyNew hp src

/-- hkdf.h:124-127, pbkdf_2.h:159-168 `m_view = memory_bytes_const_view(ptr, size)`: a temporary, a move assignment, the end of the temporary. -/
def retain (hp : Heap) (m : Mem) (dst : HView) (s : Span) : Option (Heap × HView) := do
  let (hp, tmp) ← fromSpan hp m s
  let (hp, dst, tmp) ← moveAssign hp dst tmp
  let hp ← free hp tmp
  pure (hp, dst)

end HView

/-- Copying the views one after the other. (internal/memory.h:1116-1260 `memory_bytes_const_view`: copy constructor) -/
def copyAll : Heap → List HView → Option (Heap × List HView)
  | hp, [] => some (hp, [])
  | hp, v :: vs => do
    let (hp, v) ← HView.copyNew hp v
    let (hp, vs) ← copyAll hp vs
    pure (hp, v :: vs)

/-- Assigning the views one after the other (internal/memory.h:1116-1260 `memory_bytes_const_view`: `operator=`). -/
def assignAll : Heap → List HView → List HView → Option (Heap × List HView)
  | hp, d :: ds, v :: vs => do
    let (hp, d) ← HView.copyAssign hp d v
    let (hp, ds) ← assignAll hp ds vs
    pure (hp, d :: ds)
  | hp, _, _ => some (hp, [])

/-- Destroying the views one after the other (internal/memory.h:1116-1260 `memory_bytes_const_view`: destructor). -/
def freeAll : Heap → List HView → Option Heap
  | hp, [] => some hp
  | hp, v :: vs => do
    let hp ← HView.free hp v
    freeAll hp vs

/-- Making the views of the arguments (internal/memory.h:1116-1260 `memory_bytes_const_view`: constructor with pointer and size). -/
def retainAll (m : Mem) : Heap → List HView → List Span → Option (Heap × List HView)
  | hp, d :: ds, s :: ss => do
    let (hp, d) ← HView.retain hp m d s
    let (hp, ds) ← retainAll m hp ds ss
    pure (hp, d :: ds)
  | hp, _, _ => some (hp, [])

/-- A kdf class and its views: which arguments they are made of, and the state with views of given content. (detail/kdf/hkdf.h:15-112, detail/kdf/pbkdf_2.h:15-153) -/
structure Viewed where
  K : KdfImpl
  views : K.Args → List Span
  count : Nat
  setViews : K.σ → List (List Byte) → K.σ

/-- hkdf.h:39 `m_info`. -/
def hkdf (h : Host) (M : MacImpl) : Viewed where
  K := Hkdf.impl h M
  views := fun a => [a.info]
  count := 1
  setViews := fun (o : Hkdf.Obj M) bs => { o with info := .owned (bs.getD 0 []) }

/-- pbkdf_2.h:39-41 `m_ikm`, `m_salt`. -/
def pbkdf2 (h : Host) (M : MacImpl) (junk : Nat → Byte) : Viewed where
  K := Pbkdf2.impl h M junk
  views := fun a => [a.ikm, a.salt]
  count := 2
  setViews := fun (o : Pbkdf2.Obj M) bs => { o with ikm := .owned (bs.getD 0 []), salt := .owned (bs.getD 1 []) }

/-- An object in constant evaluation: the views, and the state apart from them (the views in `st` mean nothing). (detail/kdf/hkdf.h:40-66, detail/kdf/pbkdf_2.h:40-68) -/
structure HObj (V : Viewed) where
  st : V.K.σ
  views : List HView

/-- The class in constant evaluation: copies own memory of their own, a moved-from object has null views, destruction frees. (detail/kdf/hkdf.h:15-112, detail/kdf/pbkdf_2.h:15-153) -/
def heapKdf (V : Viewed) : ObjClass (Kdf.Call V.K.Args) Kdf.Out where
  E := Mem × Heap
  S := HObj V
  construct e := some (e, ⟨V.K.fresh, List.replicate V.count HView.null⟩)
  copy e y := do
    let (hp, vs) ← copyAll e.2 y.views
    pure ((e.1, hp), ⟨y.st, vs⟩)
  move e y := some (e, ⟨y.st, y.views.map fun v => (HView.moveNew v).1⟩, ⟨y.st, y.views.map fun v => (HView.moveNew v).2⟩)
  assign e x y := do
    let (hp, vs) ← assignAll e.2 x.views y.views
    pure ((e.1, hp), ⟨y.st, vs⟩)
  assignSelf e x := some (e, x)
  destroy e x := do
    let hp ← freeAll e.2 x.views
    pure (e.1, hp)
  exec e x c := match c with
    | .init a => do
      let (hp, vs) ← retainAll e.1 e.2 x.views (V.views a)
      let st ← V.K.init x.st e.1 a
      pure ((e.1, hp), ⟨st, vs⟩, [])
    | .poke b content => some ((poke e.1 (.poke b content : Kdf.Call V.K.Args), e.2), x, [])
    | .derive r => do
      let bs ← x.views.mapM fun v => v.read e.2
      let (st, out) ← Kdf.deriveReq V.K (V.setViews x.st bs) e.1 r
      pure (e, ⟨st, x.views⟩, [out])
  env e c := (poke e.1 c, e.2)

/-- An empty heap. (no code in /repo) -/
def Heap.empty : Heap := ⟨0, fun _ => none⟩

end Copies
end Milo
