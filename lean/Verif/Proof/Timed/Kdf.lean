import Verif.Model.Timed.Kdf
import Verif.Proof.Timed.Mac
/- The kdf classes: results and shapes. -/
namespace Milo.Timed

/-- Memories whose buffers have the same sizes. -/
def SameMem (m m' : Mem) : Prop := ∀ b, (m b).length = (m' b).length

/-- What is public of a view: where and how much. -/
instance : Shape View := ⟨fun a b => match a, b with
  | .ref s, .ref s' => s = s'
  | .owned x, .owned y => x.length = y.length
  | _, _ => False⟩

@[simp] theorem val_read (m : Mem) (s : Span) : (read m s).val = s.read m := rfl
@[simp] theorem val_viewMake (h : Host) (m : Mem) (s : Span) : (viewMake h m s).val = View.make h m s := by
  unfold viewMake View.make
  simp only [val_ite, val_bind, val_pure, val_read]
  split
  · cases s.read m <;> rfl
  · rfl
@[simp] theorem val_viewBytes (m : Mem) (v : View) : (viewBytes m v).val = v.bytes m := by cases v <;> rfl

theorem Same.read {m m' : Mem} {s : Span} : Same (Timed.read m s) (Timed.read m' s) := Same.rdN rfl rfl
theorem Same.viewMake {h : Host} {m m' : Mem} {s : Span} : Same (Timed.viewMake h m s) (Timed.viewMake h m' s) := by
  unfold Timed.viewMake
  exact Same.ite Iff.rfl (fun _ _ => Same.bind Same.read fun _ _ e => Same.pure e) fun _ _ => Same.pure rfl
theorem Same.viewBytes {m m' : Mem} {v v' : View} (e : Shape.same v v') : Same (Timed.viewBytes m v) (Timed.viewBytes m' v') := by
  cases v with
  | ref s => cases v' with
    | ref s' => cases e; exact Same.read
    | owned y => exact e.elim
  | owned x => cases v' with
    | ref s' => exact e.elim
    | owned y =>
      have e : x.length = y.length := e
      exact Same.of (by rw [e]) e

/-- The timed member functions have the results of the class, and what is observed depends on the shape. -/
structure KdfT.Law {K : KdfImpl} (t : KdfT K) where
  shape : Shape K.σ
  initVal : ∀ o m a, (t.init o m a).val = K.init o m a
  deriveVal : ∀ o m d n, (t.derive o m d n).val = K.derive o m d n
  fresh : shape.same K.fresh K.fresh
  init : ∀ o o' m m' a, shape.same o o' → SameMem m m' → Same (t.init o m a) (t.init o' m' a)
  derive : ∀ o o' m m' (d d' : List Byte) n, shape.same o o' → SameMem m m' → d.length = d'.length → Same (t.derive o m d n) (t.derive o' m' d' n)

namespace Hkdf
open Milo.Hkdf (Obj Args Loop)

variable (h : Host) {M : MacImpl} {t : MacT M} (L : t.Law)

include L in
theorem val_expand (m : Mem) (o : Obj M) (dst : List Byte) (c : BitVec 8) (prev : List Byte) : (expand t m o dst c prev).val = Milo.Hkdf.expand M m o dst c prev := by
  unfold expand Milo.Hkdf.expand
  simp only [val_bind, val_pure, L.initVal, L.updateVal, L.finalizeVal, L.digestVal, val_viewBytes]
  rfl
include L in
theorem val_expandKey (m : Mem) (o : Obj M) (key : List Byte) (off : Nat) (c : BitVec 8) (prev : List Byte) : (expandKey t m o key off c prev).val = Milo.Hkdf.expandKey M m o key off c prev := by
  unfold expandKey Milo.Hkdf.expandKey
  simp only [val_ite, val_bind, val_pure, val_expand L, val_fail, Option.bind_some]
  rfl
include L in
theorem val_expandBuffer (m : Mem) (o : Obj M) (c : BitVec 8) (prev : List Byte) : (expandBuffer t m o c prev).val = Milo.Hkdf.expandBuffer M m o c prev := by
  unfold expandBuffer Milo.Hkdf.expandBuffer
  simp only [val_bind, val_pure, val_expand L]
  rfl
include L in
theorem val_init (o : Obj M) (m : Mem) (a : Args) : (init h t o m a).val = Milo.Hkdf.init h M o m a := by
  unfold init Milo.Hkdf.init
  simp only [val_bind, val_pure, L.initVal, L.updateVal, L.finalizeVal, L.digestVal, val_viewMake, val_read]
  rfl
theorem val_serve (o : Obj M) (key : List Byte) (n : Nat) : (serve h o key n).val = Milo.Hkdf.serve h M o key n := by
  unfold serve Milo.Hkdf.serve
  simp only [val_branch, val_bind, val_pure, val_advance, val_copy]
  rfl
include L in
theorem val_step (m : Mem) (i : Nat) (s : Loop M) : (step t m i s).val = Milo.Hkdf.step M m i s := by
  unfold step Milo.Hkdf.step
  simp only [val_bind, val_pure, val_rdN, val_expandKey L]
  rfl
include L in
theorem val_blocks (m : Mem) (o : Obj M) (key : List Byte) (off full : Nat) (prev : List Byte) : (blocks t m o key off full prev).val = Milo.Hkdf.blocks M m o key off full prev := by
  unfold blocks Milo.Hkdf.blocks
  simp only [val_bind, val_pure, val_rdN, val_expandKey L, val_expandBuffer L, val_for _ _ (val_step L m)]
  rfl
include L in
theorem val_single (m : Mem) (o : Obj M) (key : List Byte) (off : Nat) (prev : List Byte) : (single t m o key off prev).val = Milo.Hkdf.single M m o key off prev := by
  unfold single Milo.Hkdf.single
  simp only [val_bind, val_pure, val_expandBuffer L]
  rfl
theorem val_previous (o : Obj M) : (previous o).val = some (Milo.Hkdf.previous M o) := by
  unfold previous Milo.Hkdf.previous
  simp only [val_branch, val_pure]
  split <;> rfl
include L in
theorem val_generate (m : Mem) (o : Obj M) (key : List Byte) (off n : Nat) : (generate h t m o key off n).val = Milo.Hkdf.generate h M m o key off n := by
  unfold generate Milo.Hkdf.generate
  simp only [val_bind, val_pure, val_branch, val_previous, val_single L, val_blocks L, Option.bind_some]
  rw [bind_ite]
  split
  · exact obind rfl fun x => obind (val_at _ _ _ _ fun y => val_copy h (p := 1) (q := 1) y _ _) fun _ => rfl
  · exact obind rfl fun x => obind (val_at _ _ _ _ fun y => val_copy h (p := 1) (q := 1) y _ _) fun _ => rfl
include L in
theorem val_derive (o : Obj M) (m : Mem) (key : List Byte) (n : Nat) : (derive h t o m key n).val = Milo.Hkdf.derive h M o m key n := by
  unfold derive Milo.Hkdf.derive
  simp only [val_bind, val_pure, val_branch, val_serve, val_generate h L]
  rfl

/-- The shape of the object. -/
def shape : Shape (Obj M) := ⟨fun a b => L.shape.same a.hmac b.hmac ∧ Shape.same a.info b.info ∧ a.counter = b.counter ∧ a.prk.length = b.prk.length ∧
  a.buffer.length = b.buffer.length ∧ a.bufferSize = b.bufferSize⟩
def shapeLoop : Shape (Loop M) := ⟨fun a b => (shape L).same a.o b.o ∧ a.key.length = b.key.length ∧ a.counter = b.counter ∧ a.keyOff = b.keyOff ∧ a.tmpOff = b.tmpOff⟩

theorem same_expand {m m' : Mem} {o o' : Obj M} {d d' : List Byte} {c : BitVec 8} {p p' : List Byte} (e : (shape L).same o o') (ed : d.length = d'.length) (ep : p.length = p'.length) :
    letI := shape L; Same (expand t m o d c p) (expand t m' o' d' c p') := by
  letI := shape L
  letI := L.shape
  unfold expand
  refine Same.bind (L.init _ _ _ _ e.1 e.2.2.2.1) fun _ _ e1 => Same.bind (L.update _ _ _ _ e1 ep) fun _ _ e2 => Same.bind (Same.viewBytes e.2.1) fun _ _ e3 => ?_
  refine Same.bind (L.update _ _ _ _ e2 e3) fun _ _ e4 => Same.bind (L.update _ _ _ _ e4 rfl) fun _ _ e5 => Same.bind (L.finalize _ _ e5) fun _ _ e6 => ?_
  refine Same.bind (L.digest _ _ _ _ _ e6 ed) ?_
  rintro ⟨b, k⟩ ⟨b', k'⟩ e7
  exact Same.pure ⟨⟨e6, e.2⟩, e7.1⟩
theorem same_expandKey {m m' : Mem} {o o' : Obj M} {d d' : List Byte} {off : Nat} {c : BitVec 8} {p p' : List Byte} (e : (shape L).same o o') (ed : d.length = d'.length)
    (ep : p.length = p'.length) : letI := shape L; Same (expandKey t m o d off c p) (expandKey t m' o' d' off c p') := by
  letI := shape L
  unfold expandKey
  rw [ed]
  refine Same.ite Iff.rfl (fun h1 _ => ?_) fun _ _ => Same.fail
  refine Same.bind Same.tick fun _ _ _ => Same.bind (same_expand L e (by rw [List.length_drop, List.length_drop, ed]) ep) ?_
  rintro ⟨a, b⟩ ⟨a', b'⟩ e1
  exact Same.pure ⟨e1.1, by rw [same_list, List.length_append, List.length_append, List.length_take, List.length_take, ed, show b.length = b'.length from e1.2]⟩
theorem same_expandBuffer {m m' : Mem} {o o' : Obj M} {c : BitVec 8} {p p' : List Byte} (e : (shape L).same o o') (ep : p.length = p'.length) :
    letI := shape L; Same (expandBuffer t m o c p) (expandBuffer t m' o' c p') := by
  letI := shape L
  unfold expandBuffer
  refine Same.bind (same_expand L e e.2.2.2.2.1 ep) ?_
  rintro ⟨a, b⟩ ⟨a', b'⟩ ⟨e1, e2⟩
  exact Same.pure ⟨e1.1, e1.2.1, e1.2.2.1, e1.2.2.2.1, e2, e1.2.2.2.2.2⟩
theorem same_init (o o' : Obj M) (m m' : Mem) (a : Args) (e : (shape L).same o o') : letI := shape L; Same (init h t o m a) (init h t o' m' a) := by
  letI := shape L
  letI := L.shape
  unfold init
  refine Same.bind Same.viewMake fun _ _ e1 => Same.bind Same.read fun _ _ e2 => Same.bind (L.init _ _ _ _ e.1 e2) fun _ _ e3 => Same.bind Same.read fun _ _ e4 => ?_
  refine Same.bind (L.update _ _ _ _ e3 e4) fun _ _ e5 => Same.bind (L.finalize _ _ e5) fun _ _ e6 => Same.bind (L.digest _ _ _ _ _ e6 e.2.2.2.1) ?_
  rintro ⟨b, k⟩ ⟨b', k'⟩ e7
  exact Same.pure ⟨e6, e1, rfl, e7.1, e.2.2.2.2.1, rfl⟩
theorem same_serve {o o' : Obj M} {d d' : List Byte} {n : Nat} (e : (shape L).same o o') (ed : d.length = d'.length) : letI := shape L; Same (serve h o d n) (serve h o' d' n) := by
  letI := shape L
  obtain ⟨e1, e2, e3, e4, e5, e6⟩ := e
  unfold serve
  rw [e6]
  refine Same.branch Iff.rfl (fun _ _ => ?_) fun _ _ => Same.pure ⟨⟨e1, e2, e3, e4, e5, e6⟩, ed, rfl⟩
  exact Same.bind (Same.advance rfl e5) fun _ _ _ => Same.bind (Same.copy ed rfl) fun _ _ e7 => Same.pure ⟨⟨e1, e2, e3, e4, e5, rfl⟩, e7, rfl⟩
theorem same_step {m m' : Mem} (i : Nat) (s s' : Loop M) (e : (shapeLoop L).same s s') : letI := shapeLoop L; Same (step t m i s) (step t m' i s') := by
  letI := shapeLoop L
  letI := shape L
  obtain ⟨o, k, c, ko, to⟩ := s
  obtain ⟨o', k', c', ko', to'⟩ := s'
  obtain ⟨e1, e2, e3, e4, e5⟩ := e
  dsimp only at e1 e2 e3 e4 e5
  subst e3 e4 e5
  unfold step
  refine Same.bind (Same.rdN rfl rfl) fun _ _ e6 => Same.bind (same_expandKey L e1 e2 e6) ?_
  rintro ⟨a, b⟩ ⟨a', b'⟩ e7
  exact Same.pure ⟨e7.1, e7.2, rfl, rfl, rfl⟩

/-- What `single` and `blocks` return. -/
def shapeGen : Shape (Obj M × List Byte × Nat × BitVec 8) := ⟨fun a b => (shape L).same a.1 b.1 ∧ a.2.1.length = b.2.1.length ∧ a.2.2.1 = b.2.2.1 ∧ a.2.2.2 = b.2.2.2⟩

theorem same_blocks {m m' : Mem} {o o' : Obj M} {d d' : List Byte} {off full : Nat} {p p' : List Byte} (e : (shape L).same o o') (ed : d.length = d'.length) (ep : p.length = p'.length) :
    letI := shapeGen L; Same (blocks t m o d off full p) (blocks t m' o' d' off full p') := by
  letI := shapeGen L
  letI := shapeLoop L
  letI := shape L
  unfold blocks
  rw [show o'.counter = o.counter from e.2.2.1.symm]
  refine Same.bind (same_expandKey L e ed ep) ?_
  rintro ⟨a, b⟩ ⟨a', b'⟩ e1
  refine Same.bind (Same.forM' (same_step L) rfl rfl ⟨e1.1, e1.2, by rw [show a.counter = a'.counter from e1.1.2.2.1], rfl, rfl⟩) ?_
  rintro ⟨o, k, c, ko, to⟩ ⟨o', k', c', ko', to'⟩ ⟨e1, e2, e3, e4, e5⟩
  dsimp only at e1 e2 e3 e4 e5
  subst e3 e4 e5
  exact Same.bind (Same.rdN rfl rfl) fun _ _ e6 => Same.bind (same_expandBuffer L e1 e6) fun _ _ e7 => Same.pure ⟨e7, e2, rfl, rfl⟩
theorem same_single {m m' : Mem} {o o' : Obj M} {d d' : List Byte} {off : Nat} {p p' : List Byte} (e : (shape L).same o o') (ed : d.length = d'.length) (ep : p.length = p'.length) :
    letI := shapeGen L; Same (single t m o d off p) (single t m' o' d' off p') := by
  letI := shapeGen L
  letI := shape L
  unfold single
  rw [show o'.counter = o.counter from e.2.2.1.symm]
  exact Same.bind (same_expandBuffer L e ep) fun a b e7 => Same.pure ⟨e7, ed, rfl, by show a.counter + 1 = b.counter + 1; rw [show a.counter = b.counter from e7.2.2.1]⟩
theorem same_previous {o o' : Obj M} (e : (shape L).same o o') : Same (previous o) (previous o') := by
  unfold previous
  rw [show o.counter = o'.counter from e.2.2.1]
  exact Same.branch Iff.rfl (fun _ _ => Same.pure rfl) fun _ _ => Same.pure e.2.2.2.2.1
theorem same_generate {m m' : Mem} {o o' : Obj M} {d d' : List Byte} {off n : Nat} (e : (shape L).same o o') (ed : d.length = d'.length) :
    letI := shape L; Same (generate h t m o d off n) (generate h t m' o' d' off n) := by
  letI := shape L
  unfold generate
  refine Same.bind (same_previous L e) fun p p' ep => ?_
  letI := shapeGen L
  refine Same.bind (α := Obj M × List Byte × Nat × BitVec 8) (Same.branch Iff.rfl (fun _ _ => same_single L e ed ep) fun _ _ => same_blocks L e ed ep) ?_
  rintro ⟨a, b, c, f⟩ ⟨a', b', c', f'⟩ ⟨e1, e2, e3, e4⟩
  dsimp only at e1 e2 e3 e4
  subst e3 e4
  exact Same.bind (Same.at_ rfl e2 fun _ _ e => Same.copy e rfl) fun _ _ e5 => Same.pure ⟨⟨e1.1, e1.2.1, rfl, e1.2.2.2.1, e1.2.2.2.2.1, rfl⟩, e5⟩
theorem same_derive (o o' : Obj M) (m m' : Mem) (d d' : List Byte) (n : Nat) (e : (shape L).same o o') (ed : d.length = d'.length) :
    letI := shape L; Same (derive h t o m d n) (derive h t o' m' d' n) := by
  letI := shape L
  unfold derive
  refine Same.bind (same_serve h L e ed) ?_
  rintro ⟨a, b, c⟩ ⟨a', b', c'⟩ ⟨e1, e2, e3⟩
  dsimp only at e1 e2 e3
  cases e3
  refine Same.branch Iff.rfl (fun _ _ => Same.pure ⟨e1, e2, rfl⟩) fun _ _ => Same.bind (same_generate h L e1 e2) ?_
  rintro ⟨a, b⟩ ⟨a', b'⟩ e3
  exact Same.pure ⟨e3.1, e3.2, rfl⟩

end Hkdf

namespace Pbkdf2
open Milo.Pbkdf2 (Obj Args Loop uninit)

variable (h : Host) {M : MacImpl} {t : MacT M} (L : t.Law) (junk : Nat → Byte)

include L in
theorem val_iterate (m : Mem) (v : View) (i : Nat) (s : M.σ × List Byte × List Byte) : (iterate h t m v i s).val = Milo.Pbkdf2.iterate h M m v i s := by
  unfold iterate Milo.Pbkdf2.iterate
  simp only [val_bind, val_pure, L.initVal, L.updateVal, L.finalizeVal, L.digestVal, val_viewBytes, val_xor]
  rfl
include L in
theorem val_expand (m : Mem) (o : Obj M) (dst : List Byte) (c : W32) : (expand h t junk m o dst c).val = Milo.Pbkdf2.expand h M junk m o dst c := by
  unfold expand Milo.Pbkdf2.expand
  simp only [val_bind, val_pure, L.initVal, L.updateVal, L.finalizeVal, L.digestVal, val_viewBytes, val_copy, val_storBe, val_for _ _ (val_iterate h L m o.ikm)]
  rfl
theorem val_init (o : Obj M) (m : Mem) (a : Args) : (init h o m a).val = Milo.Pbkdf2.init h M o m a := by
  unfold init Milo.Pbkdf2.init
  simp only [val_bind, val_pure, val_viewMake]
  rfl
theorem val_serve (o : Obj M) (key : List Byte) (n : Nat) : (serve h o key n).val = Milo.Pbkdf2.serve h M o key n := by
  unfold serve Milo.Pbkdf2.serve
  simp only [val_branch, val_bind, val_pure, val_advance, val_copy]
  rfl
include L in
theorem val_step (m : Mem) (i : Nat) (s : Loop M) : (step h t junk m i s).val = Milo.Pbkdf2.step h M junk m i s := by
  unfold step Milo.Pbkdf2.step
  simp only [val_ite, val_bind, val_pure, val_fail, val_expand h L, Option.bind_some]
  rfl
include L in
theorem val_final (m : Mem) (s : Loop M) (last : Nat) : (final h t junk m s last).val = Milo.Pbkdf2.final h M junk m s last := by
  unfold final Milo.Pbkdf2.final
  simp only [val_branch, val_bind, val_pure, val_expand h L]
  split
  · exact obind rfl fun x => obind (val_at _ _ _ _ fun y => val_copy h (p := 1) (q := 1) y _ _) fun _ => rfl
  · rfl
include L in
theorem val_generate (m : Mem) (o : Obj M) (key : List Byte) (off n : Nat) : (generate h t junk m o key off n).val = Milo.Pbkdf2.generate h M junk m o key off n := by
  unfold generate Milo.Pbkdf2.generate
  simp only [val_bind, val_final h L, val_for _ _ (val_step h L junk m)]
  rfl
include L in
theorem val_derive (o : Obj M) (m : Mem) (key : List Byte) (n : Nat) : (derive h t junk o m key n).val = Milo.Pbkdf2.derive h M junk o m key n := by
  unfold derive Milo.Pbkdf2.derive
  simp only [val_bind, val_pure, val_branch, val_serve, val_generate h L]
  rfl

/-- The shape of the object: the number of iterations is public. -/
def shape : Shape (Obj M) := ⟨fun a b => L.shape.same a.prf b.prf ∧ Shape.same a.ikm b.ikm ∧ Shape.same a.salt b.salt ∧ a.iterations = b.iterations ∧ a.counter = b.counter ∧
  a.buffer.length = b.buffer.length ∧ a.bufferSize = b.bufferSize⟩
def shapeLoop : Shape (Loop M) := ⟨fun a b => (shape L).same a.o b.o ∧ a.key.length = b.key.length ∧ a.counter = b.counter ∧ a.keyOff = b.keyOff⟩

theorem same_iterate {m m' : Mem} {v v' : View} (ev : Shape.same v v') (i : Nat) (s s' : M.σ × List Byte × List Byte)
    (e : letI := L.shape; Shape.same s s') : letI := L.shape; Same (iterate h t m v i s) (iterate h t m' v' i s') := by
  letI := L.shape
  obtain ⟨s, b0, b1⟩ := s
  obtain ⟨s', b0', b1'⟩ := s'
  obtain ⟨e1, e2, e3⟩ := e
  unfold iterate
  refine Same.bind (Same.viewBytes ev) fun _ _ e4 => Same.bind (L.init _ _ _ _ e1 e4) fun _ _ e5 => Same.bind (L.update _ _ _ _ e5 e2) fun _ _ e6 => ?_
  refine Same.bind (L.finalize _ _ e6) fun _ _ e7 => Same.bind (L.digest _ _ _ _ _ e7 e2) ?_
  rintro ⟨b, k⟩ ⟨b', k'⟩ e8
  exact Same.bind (Same.xor e3 rfl) fun _ _ e9 => Same.pure ⟨e7, e8.1, e9⟩
theorem same_expand {m m' : Mem} {o o' : Obj M} {d d' : List Byte} {c : W32} (e : (shape L).same o o') (ed : d.length = d'.length) :
    letI := shape L; Same (expand h t junk m o d c) (expand h t junk m' o' d' c) := by
  letI := shape L
  letI := L.shape
  unfold expand
  rw [show o'.iterations = o.iterations from e.2.2.2.1.symm]
  refine Same.bind (Same.storBe rfl rfl) fun _ _ e1 => Same.bind (Same.viewBytes e.2.1) fun _ _ e2 => Same.bind (L.init _ _ _ _ e.1 e2) fun _ _ e3 => ?_
  refine Same.bind (Same.viewBytes e.2.2.1) fun _ _ e4 => Same.bind (L.update _ _ _ _ e3 e4) fun _ _ e5 => Same.bind (L.update _ _ _ _ e5 e1) fun _ _ e6 => ?_
  refine Same.bind (L.finalize _ _ e6) fun _ _ e7 => Same.bind (L.digest _ _ _ _ _ e7 rfl) ?_
  rintro ⟨b, k⟩ ⟨b', k'⟩ e8
  refine Same.bind (Same.copy rfl rfl) fun b1 b1' e9 => Same.bind (Same.forM' (same_iterate h L e.2.1) rfl rfl ⟨e7, e8.1, e9⟩) ?_
  rintro ⟨p, b0, b1⟩ ⟨p', b0', b1'⟩ e10
  exact Same.bind (Same.copy ed rfl) fun _ _ e11 => Same.pure ⟨⟨e10.1, e.2.1, e.2.2.1, rfl, e.2.2.2.2⟩, e11⟩
theorem same_init (o o' : Obj M) (m m' : Mem) (a : Args) (e : (shape L).same o o') : letI := shape L; Same (init h o m a) (init h o' m' a) := by
  letI := shape L
  unfold init
  exact Same.bind Same.viewMake fun _ _ e1 => Same.bind Same.viewMake fun _ _ e2 => Same.pure ⟨e.1, e1, e2, rfl, rfl, e.2.2.2.2.2.1, rfl⟩
theorem same_serve {o o' : Obj M} {d d' : List Byte} {n : Nat} (e : (shape L).same o o') (ed : d.length = d'.length) : letI := shape L; Same (serve h o d n) (serve h o' d' n) := by
  letI := shape L
  obtain ⟨e1, e2, e3, e4, e5, e6, e7⟩ := e
  unfold serve
  rw [e7]
  refine Same.branch Iff.rfl (fun _ _ => ?_) fun _ _ => Same.pure ⟨⟨e1, e2, e3, e4, e5, e6, e7⟩, ed, rfl⟩
  exact Same.bind (Same.advance rfl e6) fun _ _ _ => Same.bind (Same.copy ed rfl) fun _ _ e8 => Same.pure ⟨⟨e1, e2, e3, e4, e5, e6, rfl⟩, e8, rfl⟩
theorem same_step {m m' : Mem} (i : Nat) (s s' : Loop M) (e : (shapeLoop L).same s s') : letI := shapeLoop L; Same (step h t junk m i s) (step h t junk m' i s') := by
  letI := shapeLoop L
  letI := shape L
  obtain ⟨o, k, c, ko⟩ := s
  obtain ⟨o', k', c', ko'⟩ := s'
  obtain ⟨e1, e2, e3, e4⟩ := e
  dsimp only at e1 e2 e3 e4
  subst e3 e4
  unfold step
  dsimp only
  rw [e2]
  refine Same.ite Iff.rfl (fun h1 _ => ?_) fun _ _ => Same.fail
  refine Same.bind Same.tick fun _ _ _ => Same.bind (same_expand h L junk e1 (by rw [List.length_drop, List.length_drop, e2])) ?_
  rintro ⟨a, b⟩ ⟨a', b'⟩ e7
  exact Same.pure ⟨e7.1, by rw [List.length_append, List.length_append, List.length_take, List.length_take, e2, show b.length = b'.length from e7.2], rfl, rfl⟩
theorem same_final {m m' : Mem} {s s' : Loop M} {last : Nat} (e : (shapeLoop L).same s s') : letI := shape L; Same (final h t junk m s last) (final h t junk m' s' last) := by
  letI := shape L
  obtain ⟨o, k, c, ko⟩ := s
  obtain ⟨o', k', c', ko'⟩ := s'
  obtain ⟨e1, e2, e3, e4⟩ := e
  dsimp only at e1 e2 e3 e4
  subst e3 e4
  unfold final
  refine Same.branch Iff.rfl (fun _ _ => Same.bind (same_expand h L junk e1 e1.2.2.2.2.2.1) ?_) fun _ _ => Same.pure ⟨⟨e1.1, e1.2.1, e1.2.2.1, e1.2.2.2.1, rfl, e1.2.2.2.2.2.1, rfl⟩, e2⟩
  rintro ⟨a, b⟩ ⟨a', b'⟩ ⟨e5, e6⟩
  exact Same.bind (Same.at_ rfl e2 fun _ _ e => Same.copy e rfl) fun _ _ e7 => Same.pure ⟨⟨e5.1, e5.2.1, e5.2.2.1, e5.2.2.2.1, rfl, e6, rfl⟩, e7⟩
theorem same_generate {m m' : Mem} {o o' : Obj M} {d d' : List Byte} {off n : Nat} (e : (shape L).same o o') (ed : d.length = d'.length) :
    letI := shape L; Same (generate h t junk m o d off n) (generate h t junk m' o' d' off n) := by
  letI := shape L
  letI := shapeLoop L
  exact Same.bind (Same.forM' (same_step h L junk) rfl rfl ⟨e, ed, e.2.2.2.2.1, rfl⟩) fun _ _ e => same_final h L junk e
theorem same_derive (o o' : Obj M) (m m' : Mem) (d d' : List Byte) (n : Nat) (e : (shape L).same o o') (ed : d.length = d'.length) :
    letI := shape L; Same (derive h t junk o m d n) (derive h t junk o' m' d' n) := by
  letI := shape L
  unfold derive
  refine Same.bind (same_serve h L e ed) ?_
  rintro ⟨a, b, c⟩ ⟨a', b', c'⟩ ⟨e1, e2, e3⟩
  dsimp only at e1 e2 e3
  cases e3
  refine Same.branch Iff.rfl (fun _ _ => Same.pure ⟨e1, e2, rfl⟩) fun _ _ => Same.bind (same_generate h L junk e1 e2) ?_
  rintro ⟨a, b⟩ ⟨a', b'⟩ e3
  exact Same.pure ⟨e3.1, e3.2, rfl⟩

end Pbkdf2

/-- `hkdf<M>`, `pbkdf_2<M>`. -/
def hkdfLaw (h : Host) {M : MacImpl} {t : MacT M} (L : t.Law) : (hkdf h t).Law :=
  ⟨Hkdf.shape L, Hkdf.val_init h L, Hkdf.val_derive h L, ⟨L.fresh, rfl, rfl, rfl, rfl, rfl⟩, fun o o' m m' a e _ => Hkdf.same_init h L o o' m m' a e,
    fun o o' m m' d d' n e _ ed => Hkdf.same_derive h L o o' m m' d d' n e ed⟩
def pbkdf2Law (h : Host) {M : MacImpl} {t : MacT M} (L : t.Law) (junk : Nat → Byte) : (pbkdf2 h t junk).Law :=
  ⟨Pbkdf2.shape L, Pbkdf2.val_init h, Pbkdf2.val_derive h L junk, ⟨L.fresh, rfl, rfl, rfl, rfl, rfl, rfl⟩, fun o o' m m' a e _ => Pbkdf2.same_init h L o o' m m' a e,
    fun o o' m m' d d' n e _ ed => Pbkdf2.same_derive h L junk o o' m m' d d' n e ed⟩

end Milo.Timed
