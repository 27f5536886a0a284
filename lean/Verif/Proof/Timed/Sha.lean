import Verif.Model.Timed.Sha
import Verif.Proof.Timed.Base
/- The hash functions: results and shapes. -/
namespace Milo.Timed

/-- The timed member functions have the results of the class, and what is observed depends on the shape. -/
structure HashT.Law {H : HashImpl} (t : HashT H) where
  shape : Shape H.σ
  updateVal : ∀ o x, (t.update o x).val = H.update o x
  finalizeVal : ∀ o, (t.finalize o).val = H.finalize o
  digestVal : ∀ o d n, (t.digest o d n).val = H.digest o d n
  fresh : shape.same H.fresh H.fresh
  init : ∀ o o', shape.same o o' → shape.same (H.init o) (H.init o')
  update : ∀ o o' (x x' : List Byte), shape.same o o' → x.length = x'.length → Same (t.update o x) (t.update o' x')
  finalize : ∀ o o', shape.same o o' → Same (t.finalize o) (t.finalize o')
  digest : ∀ o o' (d d' : List Byte) n, shape.same o o' → d.length = d'.length → Same (t.digest o d n) (t.digest o' d' n)

/-- Backends that agree in shape. -/
def BlocksSame {w : Nat} (f : Nat → List (BitVec w) → List Byte → T (List (BitVec w))) : Prop :=
  ∀ n (s t : List (BitVec w)) (x y : List Byte), Shape.same s t → x.length = y.length → Same (f n s x) (f n t y)

namespace Sha1
open Milo.Sha1

instance : Shape Regs := ⟨fun _ _ => True⟩
instance : Shape Obj := ⟨fun a b => a.state.length = b.state.length ∧ a.buffer.length = b.buffer.length ∧ a.bufferSize = b.bufferSize⟩

@[simp] theorem val_schedule00 (h : Host) (src : List Byte) (j : Nat) (s : List W32) : (schedule00 h src j s).val = Milo.Sha1.schedule00 h src j s := by
  unfold schedule00 Milo.Sha1.schedule00; simp only [val_bind, val_loadBe, val_pure]; rfl
@[simp] theorem val_schedule16 (j : Nat) (s : List W32) : (schedule16 j s).val = Milo.Sha1.schedule16 j s := by
  unfold schedule16 Milo.Sha1.schedule16; simp only [val_bind, val_rd1, val_pure]; rfl
@[simp] theorem val_round (f : W32 → W32 → W32 → W32) (ki : Nat) (j : Nat) (s : List W32) (r : Regs) : (round f ki j s r).val = Milo.Sha1.round f ki j s r := by
  unfold round Milo.Sha1.round; simp only [val_bind, val_rd1, val_pure]; rfl
theorem val_block (h : Host) (r : Regs) (src : List Byte) : (block h r src).val = Milo.Sha1.block h r src := by
  unfold block Milo.Sha1.block
  simp only [val_bind, val_pure]
  refine obind (val_for _ _ ?_ _ _ _) (fun s => obind (val_for _ _ ?_ _ _ _) (fun s => obind (val_for _ _ ?_ _ _ _)
    (fun s => obind (val_for _ _ ?_ _ _ _) (fun s => obind (val_for _ _ ?_ _ _ _) (fun s => rfl)))))
  all_goals intro i s; simp only [val_bind, val_pure, val_schedule00, val_schedule16, val_round]; rfl
theorem val_blocksLoop (h : Host) : ∀ (n : Nat) (r : Regs) (src : List Byte), (blocksLoop h n r src).val = Milo.Sha1.blocksLoop h n r src := by
  intro n
  induction n with
  | zero => intro r src; rfl
  | succ n ih => intro r src; simp only [blocksLoop, Milo.Sha1.blocksLoop, val_bind, val_block, val_advance, ih, Option.bind_some]; rfl
theorem val_blocksSw (h : Host) (n : Nat) (st : List W32) (src : List Byte) : (blocksSw h n st src).val = Milo.Sha1.blocksSw h n st src := by
  unfold blocksSw Milo.Sha1.blocksSw
  simp only [val_bind, val_rd1, val_wr1, val_blocksLoop]
  rfl

section
variable (h : Host) (f : Nat → List W32 → List Byte → T (List W32)) (g : Nat → List W32 → List Byte → Option (List W32)) (e : ∀ n s x, (f n s x).val = g n s x)
include e
theorem val_update (o : Obj) (x : List Byte) : (update h f o x).val = Milo.Sha1.update h g o x := by
  unfold update Milo.Sha1.update
  simp only [val_bind, val_pure, val_soak h _ f g e]
  rfl
theorem val_finalize (o : Obj) : (finalize h f o).val = Milo.Sha1.finalize h g o := by
  unfold finalize Milo.Sha1.finalize
  simp only [val_bind, val_pure, val_wr1, e]
  refine obind rfl (fun b => obind (val_for _ _ (fun _ _ => rfl) _ _ _) (fun b => obind (val_at _ _ _ _ fun x => val_storBe h (v := 8) (p := 1) x _ _) ?_))
  exact fun b => rfl
end
theorem val_digest (h : Host) (ds : Nat) (o : Obj) (d : List Byte) (n : Nat) : (digest h ds o d n).val = Milo.Sha1.digest h ds o d n := by
  unfold digest Milo.Sha1.digest
  simp only [val_bind, val_pure, val_copyBe]
  rfl

theorem same_schedule00 {h : Host} {x y : List Byte} {j : Nat} {s t : List W32} (e : s.length = t.length) : Same (schedule00 h x j s) (schedule00 h y j t) :=
  Same.bind (Same.loadBe rfl) fun _ _ _ => Same.pure (by simp [e])
theorem same_schedule16 {j : Nat} {s t : List W32} (e : s.length = t.length) : Same (schedule16 j s) (schedule16 j t) :=
  Same.bind (Same.rd1 rfl) fun _ _ _ => Same.bind (Same.rd1 rfl) fun _ _ _ => Same.bind (Same.rd1 rfl) fun _ _ _ => Same.bind (Same.rd1 rfl) fun _ _ _ => Same.pure (by simp [e])
theorem same_round {f : W32 → W32 → W32 → W32} {ki : Nat} {j : Nat} {s t : List W32} {r r' : Regs} : Same (round f ki j s r) (round f ki j t r') :=
  Same.bind (Same.rd1 rfl) fun _ _ _ => Same.bind (Same.rd1 rfl) fun _ _ _ => Same.pure trivial
theorem same_block {h : Host} {r r' : Regs} {x y : List Byte} : Same (block h r x) (block h r' y) := by
  unfold block
  refine Same.bind (α := List W32 × Regs) (Same.forM' ?_ rfl rfl ⟨rfl, trivial⟩) fun s t e => ?_
  · intro i s t e
    exact Same.bind (same_schedule00 e.1) fun _ _ e => Same.bind same_round fun _ _ _ => Same.pure ⟨e, trivial⟩
  refine Same.bind (α := List W32 × Regs) (Same.forM' ?_ rfl rfl e) fun s t e => ?_
  · intro i s t e
    exact Same.bind (same_schedule16 e.1) fun _ _ e => Same.bind same_round fun _ _ _ => Same.pure ⟨e, trivial⟩
  refine Same.bind (α := List W32 × Regs) (Same.forM' ?_ rfl rfl e) fun s t e => ?_
  · intro i s t e
    exact Same.bind (same_schedule16 e.1) fun _ _ e => Same.bind same_round fun _ _ _ => Same.pure ⟨e, trivial⟩
  refine Same.bind (α := List W32 × Regs) (Same.forM' ?_ rfl rfl e) fun s t e => ?_
  · intro i s t e
    exact Same.bind (same_schedule16 e.1) fun _ _ e => Same.bind same_round fun _ _ _ => Same.pure ⟨e, trivial⟩
  refine Same.bind (α := List W32 × Regs) (Same.forM' ?_ rfl rfl e) fun s t e => ?_
  · intro i s t e
    exact Same.bind (same_schedule16 e.1) fun _ _ e => Same.bind same_round fun _ _ _ => Same.pure ⟨e, trivial⟩
  exact Same.pure trivial
theorem same_blocksLoop {h : Host} : ∀ (n : Nat) (r r' : Regs) (x y : List Byte), x.length = y.length → Same (blocksLoop h n r x) (blocksLoop h n r' y) := by
  intro n
  induction n with
  | zero => intro r r' x y e; exact Same.of rfl trivial
  | succ n ih => intro r r' x y e; exact Same.bind Same.tick fun _ _ _ => Same.bind same_block fun _ _ _ => Same.bind (Same.advance rfl e) fun _ _ e => ih _ _ _ _ e
theorem same_blocksSw (h : Host) : BlocksSame (blocksSw h) := by
  intro n s t x y e ex
  unfold blocksSw
  refine Same.bind (Same.rd1 rfl) fun _ _ _ => ?_; refine Same.bind (Same.rd1 rfl) fun _ _ _ => ?_; refine Same.bind (Same.rd1 rfl) fun _ _ _ => ?_; refine Same.bind (Same.rd1 rfl) fun _ _ _ => ?_; refine Same.bind (Same.rd1 rfl) fun _ _ _ => ?_;
  refine Same.bind (same_blocksLoop _ _ _ _ _ ex) fun _ _ _ => ?_
  refine Same.bind (Same.wr1 rfl e) fun _ _ e => ?_; refine Same.bind (Same.wr1 rfl e) fun _ _ e => ?_; refine Same.bind (Same.wr1 rfl e) fun _ _ e => ?_; refine Same.bind (Same.wr1 rfl e) fun _ _ e => ?_;
  exact Same.wr1 rfl e

section
variable (h : Host) (f : Nat → List W32 → List Byte → T (List W32)) (hf : BlocksSame f)
include hf
theorem same_update (o o' : Obj) (x x' : List Byte) (e : Shape.same o o') (ex : x.length = x'.length) : Same (update h f o x) (update h f o' x') := by
  unfold update
  refine Same.bind (Same.soak hf e.2.1 ex e.1 e.2.2) ?_
  rintro ⟨a, b, c⟩ ⟨a', b', c'⟩ ⟨e1, e2, e3⟩
  exact Same.pure ⟨e3, e2, e1⟩
theorem same_finalize (o o' : Obj) (e : Shape.same o o') : Same (finalize h f o) (finalize h f o') := by
  obtain ⟨e1, e2, e3⟩ := e
  unfold finalize
  rw [e3]
  refine Same.bind (Same.wr1 rfl e2) fun _ _ e => Same.bind (Same.forM' (by intro _ _ _ e; exact Same.wr1 rfl e) rfl rfl e) fun _ _ e => ?_
  refine Same.bind (Same.at_ rfl e fun _ _ e => Same.storBe rfl e) fun _ _ e => ?_
  exact Same.bind (hf _ _ _ _ _ e1 e) fun _ _ e5 => Same.pure ⟨e5, e, rfl⟩
end
theorem same_digest (h : Host) (ds : Nat) (o o' : Obj) (d d' : List Byte) (n : Nat) (e : d.length = d'.length) : Same (digest h ds o d n) (digest h ds o' d' n) :=
  Same.bind (Same.copyBe e rfl) fun _ _ e => Same.pure ⟨e, rfl⟩

end Sha1

namespace Sha256
open Milo.Sha256

instance : Shape Regs := ⟨fun _ _ => True⟩
instance : Shape Obj := ⟨fun a b => a.state.length = b.state.length ∧ a.buffer.length = b.buffer.length ∧ a.bufferSize = b.bufferSize⟩

@[simp] theorem val_schedule00 (h : Host) (src : List Byte) (j : Nat) (s : List W32) : (schedule00 h src j s).val = Milo.Sha256.schedule00 h src j s := by
  unfold schedule00 Milo.Sha256.schedule00; simp only [val_bind, val_loadBe, val_pure]; rfl
@[simp] theorem val_schedule16 (j : Nat) (s : List W32) : (schedule16 j s).val = Milo.Sha256.schedule16 j s := by
  unfold schedule16 Milo.Sha256.schedule16; simp only [val_bind, val_rd1, val_pure]; rfl
@[simp] theorem val_round (j : Nat) (s : List W32) (r : Regs) : (round j s r).val = Milo.Sha256.round j s r := by
  unfold round Milo.Sha256.round; simp only [val_bind, val_rd1, val_pure]; rfl
theorem val_block (h : Host) (r : Regs) (src : List Byte) : (block h r src).val = Milo.Sha256.block h r src := by
  unfold block Milo.Sha256.block
  simp only [val_bind, val_pure]
  refine obind (val_for _ _ ?_ _ _ _) (fun s => obind (val_for _ _ ?_ _ _ _) (fun s => rfl))
  all_goals intro i s; simp only [val_bind, val_pure, val_schedule00, val_schedule16, val_round]; rfl
theorem val_blocksLoop (h : Host) : ∀ (n : Nat) (r : Regs) (src : List Byte), (blocksLoop h n r src).val = Milo.Sha256.blocksLoop h n r src := by
  intro n
  induction n with
  | zero => intro r src; rfl
  | succ n ih => intro r src; simp only [blocksLoop, Milo.Sha256.blocksLoop, val_bind, val_block, val_advance, ih, Option.bind_some]; rfl
theorem val_blocksSw (h : Host) (n : Nat) (st : List W32) (src : List Byte) : (blocksSw h n st src).val = Milo.Sha256.blocksSw h n st src := by
  unfold blocksSw Milo.Sha256.blocksSw
  simp only [val_bind, val_rd1, val_wr1, val_blocksLoop]
  rfl

section
variable (h : Host) (f : Nat → List W32 → List Byte → T (List W32)) (g : Nat → List W32 → List Byte → Option (List W32)) (e : ∀ n s x, (f n s x).val = g n s x)
include e
theorem val_update (o : Obj) (x : List Byte) : (update h f o x).val = Milo.Sha256.update h g o x := by
  unfold update Milo.Sha256.update
  simp only [val_bind, val_pure, val_soak h _ f g e]
  rfl
theorem val_finalize (o : Obj) : (finalize h f o).val = Milo.Sha256.finalize h g o := by
  unfold finalize Milo.Sha256.finalize
  simp only [val_bind, val_pure, val_wr1, e]
  refine obind rfl (fun b => obind (val_for _ _ (fun _ _ => rfl) _ _ _) (fun b => obind (val_at _ _ _ _ fun x => val_storBe h (v := 8) (p := 1) x _ _) ?_))
  exact fun b => rfl
end
theorem val_digest (h : Host) (ds : Nat) (o : Obj) (d : List Byte) (n : Nat) : (digest h ds o d n).val = Milo.Sha256.digest h ds o d n := by
  unfold digest Milo.Sha256.digest
  simp only [val_bind, val_pure, val_copyBe]
  rfl

theorem same_schedule00 {h : Host} {x y : List Byte} {j : Nat} {s t : List W32} (e : s.length = t.length) : Same (schedule00 h x j s) (schedule00 h y j t) :=
  Same.bind (Same.loadBe rfl) fun _ _ _ => Same.pure (by simp [e])
theorem same_schedule16 {j : Nat} {s t : List W32} (e : s.length = t.length) : Same (schedule16 j s) (schedule16 j t) :=
  Same.bind (Same.rd1 rfl) fun _ _ _ => Same.bind (Same.rd1 rfl) fun _ _ _ => Same.bind (Same.rd1 rfl) fun _ _ _ => Same.bind (Same.rd1 rfl) fun _ _ _ => Same.pure (by simp [e])
theorem same_round {j : Nat} {s t : List W32} {r r' : Regs} : Same (round j s r) (round j t r') :=
  Same.bind (Same.rd1 rfl) fun _ _ _ => Same.bind (Same.rd1 rfl) fun _ _ _ => Same.pure trivial
theorem same_block {h : Host} {r r' : Regs} {x y : List Byte} : Same (block h r x) (block h r' y) := by
  unfold block
  refine Same.bind (α := List W32 × Regs) (Same.forM' ?_ rfl rfl ⟨rfl, trivial⟩) fun s t e => ?_
  · intro i s t e
    exact Same.bind (same_schedule00 e.1) fun _ _ e => Same.bind same_round fun _ _ _ => Same.pure ⟨e, trivial⟩
  refine Same.bind (α := List W32 × Regs) (Same.forM' ?_ rfl rfl e) fun s t e => ?_
  · intro i s t e
    exact Same.bind (same_schedule16 e.1) fun _ _ e => Same.bind same_round fun _ _ _ => Same.pure ⟨e, trivial⟩
  exact Same.pure trivial
theorem same_blocksLoop {h : Host} : ∀ (n : Nat) (r r' : Regs) (x y : List Byte), x.length = y.length → Same (blocksLoop h n r x) (blocksLoop h n r' y) := by
  intro n
  induction n with
  | zero => intro r r' x y e; exact Same.of rfl trivial
  | succ n ih => intro r r' x y e; exact Same.bind Same.tick fun _ _ _ => Same.bind same_block fun _ _ _ => Same.bind (Same.advance rfl e) fun _ _ e => ih _ _ _ _ e
theorem same_blocksSw (h : Host) : BlocksSame (blocksSw h) := by
  intro n s t x y e ex
  unfold blocksSw
  refine Same.bind (Same.rd1 rfl) fun _ _ _ => ?_; refine Same.bind (Same.rd1 rfl) fun _ _ _ => ?_; refine Same.bind (Same.rd1 rfl) fun _ _ _ => ?_; refine Same.bind (Same.rd1 rfl) fun _ _ _ => ?_; refine Same.bind (Same.rd1 rfl) fun _ _ _ => ?_; refine Same.bind (Same.rd1 rfl) fun _ _ _ => ?_; refine Same.bind (Same.rd1 rfl) fun _ _ _ => ?_; refine Same.bind (Same.rd1 rfl) fun _ _ _ => ?_;
  refine Same.bind (same_blocksLoop _ _ _ _ _ ex) fun _ _ _ => ?_
  refine Same.bind (Same.wr1 rfl e) fun _ _ e => ?_; refine Same.bind (Same.wr1 rfl e) fun _ _ e => ?_; refine Same.bind (Same.wr1 rfl e) fun _ _ e => ?_; refine Same.bind (Same.wr1 rfl e) fun _ _ e => ?_; refine Same.bind (Same.wr1 rfl e) fun _ _ e => ?_; refine Same.bind (Same.wr1 rfl e) fun _ _ e => ?_; refine Same.bind (Same.wr1 rfl e) fun _ _ e => ?_;
  exact Same.wr1 rfl e

section
variable (h : Host) (f : Nat → List W32 → List Byte → T (List W32)) (hf : BlocksSame f)
include hf
theorem same_update (o o' : Obj) (x x' : List Byte) (e : Shape.same o o') (ex : x.length = x'.length) : Same (update h f o x) (update h f o' x') := by
  unfold update
  refine Same.bind (Same.soak hf e.2.1 ex e.1 e.2.2) ?_
  rintro ⟨a, b, c⟩ ⟨a', b', c'⟩ ⟨e1, e2, e3⟩
  exact Same.pure ⟨e3, e2, e1⟩
theorem same_finalize (o o' : Obj) (e : Shape.same o o') : Same (finalize h f o) (finalize h f o') := by
  obtain ⟨e1, e2, e3⟩ := e
  unfold finalize
  rw [e3]
  refine Same.bind (Same.wr1 rfl e2) fun _ _ e => Same.bind (Same.forM' (by intro _ _ _ e; exact Same.wr1 rfl e) rfl rfl e) fun _ _ e => ?_
  refine Same.bind (Same.at_ rfl e fun _ _ e => Same.storBe rfl e) fun _ _ e => ?_
  exact Same.bind (hf _ _ _ _ _ e1 e) fun _ _ e5 => Same.pure ⟨e5, e, rfl⟩
end
theorem same_digest (h : Host) (ds : Nat) (o o' : Obj) (d d' : List Byte) (n : Nat) (e : d.length = d'.length) : Same (digest h ds o d n) (digest h ds o' d' n) :=
  Same.bind (Same.copyBe e rfl) fun _ _ e => Same.pure ⟨e, rfl⟩

end Sha256

namespace Sha512
open Milo.Sha512

instance : Shape Regs := ⟨fun _ _ => True⟩
instance : Shape Obj := ⟨fun a b => a.state.length = b.state.length ∧ a.buffer.length = b.buffer.length ∧ a.bufferSize = b.bufferSize⟩

@[simp] theorem val_schedule00 (h : Host) (src : List Byte) (j : Nat) (s : List W64) : (schedule00 h src j s).val = Milo.Sha512.schedule00 h src j s := by
  unfold schedule00 Milo.Sha512.schedule00; simp only [val_bind, val_loadBe, val_pure]; rfl
@[simp] theorem val_schedule16 (j : Nat) (s : List W64) : (schedule16 j s).val = Milo.Sha512.schedule16 j s := by
  unfold schedule16 Milo.Sha512.schedule16; simp only [val_bind, val_rd1, val_pure]; rfl
@[simp] theorem val_round (j : Nat) (s : List W64) (r : Regs) : (round j s r).val = Milo.Sha512.round j s r := by
  unfold round Milo.Sha512.round; simp only [val_bind, val_rd1, val_pure]; rfl
theorem val_block (h : Host) (r : Regs) (src : List Byte) : (block h r src).val = Milo.Sha512.block h r src := by
  unfold block Milo.Sha512.block
  simp only [val_bind, val_pure]
  refine obind (val_for _ _ ?_ _ _ _) (fun s => obind (val_for _ _ ?_ _ _ _) (fun s => rfl))
  all_goals intro i s; simp only [val_bind, val_pure, val_schedule00, val_schedule16, val_round]; rfl
theorem val_blocksLoop (h : Host) : ∀ (n : Nat) (r : Regs) (src : List Byte), (blocksLoop h n r src).val = Milo.Sha512.blocksLoop h n r src := by
  intro n
  induction n with
  | zero => intro r src; rfl
  | succ n ih => intro r src; simp only [blocksLoop, Milo.Sha512.blocksLoop, val_bind, val_block, val_advance, ih, Option.bind_some]; rfl
theorem val_blocksSw (h : Host) (n : Nat) (st : List W64) (src : List Byte) : (blocksSw h n st src).val = Milo.Sha512.blocksSw h n st src := by
  unfold blocksSw Milo.Sha512.blocksSw
  simp only [val_bind, val_rd1, val_wr1, val_blocksLoop]
  rfl

section
variable (h : Host) (f : Nat → List W64 → List Byte → T (List W64)) (g : Nat → List W64 → List Byte → Option (List W64)) (e : ∀ n s x, (f n s x).val = g n s x)
include e
theorem val_update (o : Obj) (x : List Byte) : (update h f o x).val = Milo.Sha512.update h g o x := by
  unfold update Milo.Sha512.update
  simp only [val_bind, val_pure, val_soak h _ f g e]
  rfl
theorem val_finalize (o : Obj) : (finalize h f o).val = Milo.Sha512.finalize h g o := by
  unfold finalize Milo.Sha512.finalize
  simp only [val_bind, val_pure, val_wr1, e]
  refine obind rfl (fun b => obind (val_for _ _ (fun _ _ => rfl) _ _ _) (fun b => obind (val_at _ _ _ _ fun x => val_storBe h (v := 8) (p := 1) x _ _) ?_))
  refine fun b => obind (val_at _ _ _ _ fun x => val_storBe h (v := 8) (p := 1) x _ _) ?_
  exact fun b => rfl
end
theorem val_digest (h : Host) (ds : Nat) (o : Obj) (d : List Byte) (n : Nat) : (digest h ds o d n).val = Milo.Sha512.digest h ds o d n := by
  unfold digest Milo.Sha512.digest
  simp only [val_bind, val_pure, val_copyBe]
  rfl

theorem same_schedule00 {h : Host} {x y : List Byte} {j : Nat} {s t : List W64} (e : s.length = t.length) : Same (schedule00 h x j s) (schedule00 h y j t) :=
  Same.bind (Same.loadBe rfl) fun _ _ _ => Same.pure (by simp [e])
theorem same_schedule16 {j : Nat} {s t : List W64} (e : s.length = t.length) : Same (schedule16 j s) (schedule16 j t) :=
  Same.bind (Same.rd1 rfl) fun _ _ _ => Same.bind (Same.rd1 rfl) fun _ _ _ => Same.bind (Same.rd1 rfl) fun _ _ _ => Same.bind (Same.rd1 rfl) fun _ _ _ => Same.pure (by simp [e])
theorem same_round {j : Nat} {s t : List W64} {r r' : Regs} : Same (round j s r) (round j t r') :=
  Same.bind (Same.rd1 rfl) fun _ _ _ => Same.bind (Same.rd1 rfl) fun _ _ _ => Same.pure trivial
theorem same_block {h : Host} {r r' : Regs} {x y : List Byte} : Same (block h r x) (block h r' y) := by
  unfold block
  refine Same.bind (α := List W64 × Regs) (Same.forM' ?_ rfl rfl ⟨rfl, trivial⟩) fun s t e => ?_
  · intro i s t e
    exact Same.bind (same_schedule00 e.1) fun _ _ e => Same.bind same_round fun _ _ _ => Same.pure ⟨e, trivial⟩
  refine Same.bind (α := List W64 × Regs) (Same.forM' ?_ rfl rfl e) fun s t e => ?_
  · intro i s t e
    exact Same.bind (same_schedule16 e.1) fun _ _ e => Same.bind same_round fun _ _ _ => Same.pure ⟨e, trivial⟩
  exact Same.pure trivial
theorem same_blocksLoop {h : Host} : ∀ (n : Nat) (r r' : Regs) (x y : List Byte), x.length = y.length → Same (blocksLoop h n r x) (blocksLoop h n r' y) := by
  intro n
  induction n with
  | zero => intro r r' x y e; exact Same.of rfl trivial
  | succ n ih => intro r r' x y e; exact Same.bind Same.tick fun _ _ _ => Same.bind same_block fun _ _ _ => Same.bind (Same.advance rfl e) fun _ _ e => ih _ _ _ _ e
theorem same_blocksSw (h : Host) : BlocksSame (blocksSw h) := by
  intro n s t x y e ex
  unfold blocksSw
  refine Same.bind (Same.rd1 rfl) fun _ _ _ => ?_; refine Same.bind (Same.rd1 rfl) fun _ _ _ => ?_; refine Same.bind (Same.rd1 rfl) fun _ _ _ => ?_; refine Same.bind (Same.rd1 rfl) fun _ _ _ => ?_; refine Same.bind (Same.rd1 rfl) fun _ _ _ => ?_; refine Same.bind (Same.rd1 rfl) fun _ _ _ => ?_; refine Same.bind (Same.rd1 rfl) fun _ _ _ => ?_; refine Same.bind (Same.rd1 rfl) fun _ _ _ => ?_;
  refine Same.bind (same_blocksLoop _ _ _ _ _ ex) fun _ _ _ => ?_
  refine Same.bind (Same.wr1 rfl e) fun _ _ e => ?_; refine Same.bind (Same.wr1 rfl e) fun _ _ e => ?_; refine Same.bind (Same.wr1 rfl e) fun _ _ e => ?_; refine Same.bind (Same.wr1 rfl e) fun _ _ e => ?_; refine Same.bind (Same.wr1 rfl e) fun _ _ e => ?_; refine Same.bind (Same.wr1 rfl e) fun _ _ e => ?_; refine Same.bind (Same.wr1 rfl e) fun _ _ e => ?_;
  exact Same.wr1 rfl e

section
variable (h : Host) (f : Nat → List W64 → List Byte → T (List W64)) (hf : BlocksSame f)
include hf
theorem same_update (o o' : Obj) (x x' : List Byte) (e : Shape.same o o') (ex : x.length = x'.length) : Same (update h f o x) (update h f o' x') := by
  unfold update
  refine Same.bind (Same.soak hf e.2.1 ex e.1 e.2.2) ?_
  rintro ⟨a, b, c⟩ ⟨a', b', c'⟩ ⟨e1, e2, e3⟩
  exact Same.pure ⟨e3, e2, e1⟩
theorem same_finalize (o o' : Obj) (e : Shape.same o o') : Same (finalize h f o) (finalize h f o') := by
  obtain ⟨e1, e2, e3⟩ := e
  unfold finalize
  rw [e3]
  refine Same.bind (Same.wr1 rfl e2) fun _ _ e => Same.bind (Same.forM' (by intro _ _ _ e; exact Same.wr1 rfl e) rfl rfl e) fun _ _ e => ?_
  refine Same.bind (Same.at_ rfl e fun _ _ e => Same.storBe rfl e) fun _ _ e => ?_
  refine Same.bind (Same.at_ rfl e fun _ _ e => Same.storBe rfl e) fun _ _ e => ?_
  exact Same.bind (hf _ _ _ _ _ e1 e) fun _ _ e5 => Same.pure ⟨e5, e, rfl⟩
end
theorem same_digest (h : Host) (ds : Nat) (o o' : Obj) (d d' : List Byte) (n : Nat) (e : d.length = d'.length) : Same (digest h ds o d n) (digest h ds o' d' n) :=
  Same.bind (Same.copyBe e rfl) fun _ _ e => Same.pure ⟨e, rfl⟩

end Sha512

theorem Sha1.asm_length {junk n st src u} (e : Milo.Sha1.Asm.blocks junk n st src = some u) : u.length = st.length := by
  unfold Milo.Sha1.Asm.blocks Milo.Sha1.Asm.finish at e
  simp only [Option.bind_eq_bind, Option.bind_eq_some_iff] at e
  obtain ⟨_, _, _, _, _, _, _, _, _, _, _, _, _, _, _, _, _, _, _, _, _, _, a, e1, b, e2, c, e3, d, e4, e5⟩ := e
  rw [wr1_length e5, wr1_length e4, wr1_length e3, wr1_length e2, wr1_length e1]

theorem Sha256.asm_length {junk n st src u} (e : Milo.Sha256.Asm.blocks junk n st src = some u) : u.length = st.length := by
  unfold Milo.Sha256.Asm.blocks Milo.Sha256.Asm.finish at e
  simp only [Option.bind_eq_bind, Option.bind_eq_some_iff] at e
  obtain ⟨_, _, _, _, _, _, _, _, _, _, _, _, _, _, _, _, _, _, _, _, _, _, _, _, _, _, _, _, a, e1, b, e2, c, e3, d, e4, f, e5, g, e6, i, e7, e8⟩ := e
  rw [wr1_length e8, wr1_length e7, wr1_length e6, wr1_length e5, wr1_length e4, wr1_length e3, wr1_length e2, wr1_length e1]

theorem Sha1.val_blocks (h : Host) (n : Nat) (st : List W32) (src : List Byte) : (Sha1.blocks h n st src).val = Milo.Sha1.blocks h n st src := by
  unfold Sha1.blocks Milo.Sha1.blocks
  cases h.consteval with
  | true => exact Sha1.val_blocksSw h n st src
  | false =>
    cases h.sha with
    | none => exact Sha1.val_blocksSw h n st src
    | some j => rfl
theorem Sha1.same_blocks (h : Host) : BlocksSame (Sha1.blocks h) := by
  unfold Sha1.blocks
  split
  · exact Sha1.same_blocksSw h
  · split
    · exact Sha1.same_blocksSw h
    · intro n s t x y e ex a b ha hb
      exact ⟨rfl, by rw [same_list, Sha1.asm_length ha, Sha1.asm_length hb]; exact e⟩

theorem Sha256.val_blocks (h : Host) (n : Nat) (st : List W32) (src : List Byte) : (Sha256.blocks h n st src).val = Milo.Sha256.blocks h n st src := by
  unfold Sha256.blocks Milo.Sha256.blocks
  cases h.consteval with
  | true => exact Sha256.val_blocksSw h n st src
  | false =>
    cases h.sha with
    | none => exact Sha256.val_blocksSw h n st src
    | some j => rfl
theorem Sha256.same_blocks (h : Host) : BlocksSame (Sha256.blocks h) := by
  unfold Sha256.blocks
  split
  · exact Sha256.same_blocksSw h
  · split
    · exact Sha256.same_blocksSw h
    · intro n s t x y e ex a b ha hb
      exact ⟨rfl, by rw [same_list, Sha256.asm_length ha, Sha256.asm_length hb]; exact e⟩

/-- The seven hash types. -/
def shaLaw (h : Host) (ds : Nat) : (a : ShaAlg) → (sha h ds a).Law
  | .sha_1_160 => ⟨inferInstanceAs (Shape Milo.Sha1.Obj), fun o x => Sha1.val_update h _ _ (Sha1.val_blocks h) o x, fun o => Sha1.val_finalize h _ _ (Sha1.val_blocks h) o, fun o d n => Sha1.val_digest h ds o d n,
      ⟨rfl, rfl, rfl⟩, fun o o' e => ⟨rfl, e.2.1, rfl⟩, Sha1.same_update h _ (Sha1.same_blocks h), Sha1.same_finalize h _ (Sha1.same_blocks h), fun o o' d d' n _ e => Sha1.same_digest h ds o o' d d' n e⟩
  | .sha_2_224 => ⟨inferInstanceAs (Shape Milo.Sha256.Obj), fun o x => Sha256.val_update h _ _ (Sha256.val_blocks h) o x, fun o => Sha256.val_finalize h _ _ (Sha256.val_blocks h) o, fun o d n => Sha256.val_digest h ds o d n,
      ⟨rfl, rfl, rfl⟩, fun o o' e => ⟨rfl, e.2.1, rfl⟩, Sha256.same_update h _ (Sha256.same_blocks h), Sha256.same_finalize h _ (Sha256.same_blocks h), fun o o' d d' n _ e => Sha256.same_digest h ds o o' d d' n e⟩
  | .sha_2_256 => ⟨inferInstanceAs (Shape Milo.Sha256.Obj), fun o x => Sha256.val_update h _ _ (Sha256.val_blocks h) o x, fun o => Sha256.val_finalize h _ _ (Sha256.val_blocks h) o, fun o d n => Sha256.val_digest h ds o d n,
      ⟨rfl, rfl, rfl⟩, fun o o' e => ⟨rfl, e.2.1, rfl⟩, Sha256.same_update h _ (Sha256.same_blocks h), Sha256.same_finalize h _ (Sha256.same_blocks h), fun o o' d d' n _ e => Sha256.same_digest h ds o o' d d' n e⟩
  | .sha_2_384 => ⟨inferInstanceAs (Shape Milo.Sha512.Obj), fun o x => Sha512.val_update h _ _ (Sha512.val_blocksSw h) o x, fun o => Sha512.val_finalize h _ _ (Sha512.val_blocksSw h) o, fun o d n => Sha512.val_digest h ds o d n,
      ⟨rfl, rfl, rfl⟩, fun o o' e => ⟨rfl, e.2.1, rfl⟩, Sha512.same_update h _ (Sha512.same_blocksSw h), Sha512.same_finalize h _ (Sha512.same_blocksSw h), fun o o' d d' n _ e => Sha512.same_digest h ds o o' d d' n e⟩
  | .sha_2_512 => ⟨inferInstanceAs (Shape Milo.Sha512.Obj), fun o x => Sha512.val_update h _ _ (Sha512.val_blocksSw h) o x, fun o => Sha512.val_finalize h _ _ (Sha512.val_blocksSw h) o, fun o d n => Sha512.val_digest h ds o d n,
      ⟨rfl, rfl, rfl⟩, fun o o' e => ⟨rfl, e.2.1, rfl⟩, Sha512.same_update h _ (Sha512.same_blocksSw h), Sha512.same_finalize h _ (Sha512.same_blocksSw h), fun o o' d d' n _ e => Sha512.same_digest h ds o o' d d' n e⟩
  | .sha_2_512_224 => ⟨inferInstanceAs (Shape Milo.Sha512.Obj), fun o x => Sha512.val_update h _ _ (Sha512.val_blocksSw h) o x, fun o => Sha512.val_finalize h _ _ (Sha512.val_blocksSw h) o, fun o d n => Sha512.val_digest h ds o d n,
      ⟨rfl, rfl, rfl⟩, fun o o' e => ⟨rfl, e.2.1, rfl⟩, Sha512.same_update h _ (Sha512.same_blocksSw h), Sha512.same_finalize h _ (Sha512.same_blocksSw h), fun o o' d d' n _ e => Sha512.same_digest h ds o o' d d' n e⟩
  | .sha_2_512_256 => ⟨inferInstanceAs (Shape Milo.Sha512.Obj), fun o x => Sha512.val_update h _ _ (Sha512.val_blocksSw h) o x, fun o => Sha512.val_finalize h _ _ (Sha512.val_blocksSw h) o, fun o d n => Sha512.val_digest h ds o d n,
      ⟨rfl, rfl, rfl⟩, fun o o' e => ⟨rfl, e.2.1, rfl⟩, Sha512.same_update h _ (Sha512.same_blocksSw h), Sha512.same_finalize h _ (Sha512.same_blocksSw h), fun o o' d d' n _ e => Sha512.same_digest h ds o o' d d' n e⟩

end Milo.Timed
