import Verif.Model.Timed.Mac
import Verif.Proof.Timed.Sha
/- The mac classes: results and shapes. -/
namespace Milo.Timed

/-- The timed member functions have the results of the class, and what is observed depends on the shape. -/
structure MacT.Law {M : MacImpl} (t : MacT M) where
  shape : Shape M.σ
  initVal : ∀ o x, (t.init o x).val = M.init o x
  updateVal : ∀ o x, (t.update o x).val = M.update o x
  finalizeVal : ∀ o, (t.finalize o).val = M.finalize o
  digestVal : ∀ o d n, (t.digest o d n).val = M.digest o d n
  fresh : shape.same M.fresh M.fresh
  init : ∀ o o' (x x' : List Byte), shape.same o o' → x.length = x'.length → Same (t.init o x) (t.init o' x')
  update : ∀ o o' (x x' : List Byte), shape.same o o' → x.length = x'.length → Same (t.update o x) (t.update o' x')
  finalize : ∀ o o', shape.same o o' → Same (t.finalize o) (t.finalize o')
  digest : ∀ o o' (d d' : List Byte) n, shape.same o o' → d.length = d'.length → Same (t.digest o d n) (t.digest o' d' n)

namespace Hmac
open Milo.Hmac (Obj)

variable (h : Host) {H : HashImpl} {t : HashT H} (L : t.Law)

theorem val_pad (B i : Nat) (b : List Byte) : (padStep B i b).val = Milo.Hmac.padStep B i b := by
  unfold padStep Milo.Hmac.padStep
  simp only [val_bind, val_rd1, val_wr1]
  rfl
theorem val_shortKey (o : Obj H) (key : List Byte) : (shortKey h o key).val = Milo.Hmac.shortKey h H o key := by
  unfold shortKey Milo.Hmac.shortKey
  simp only [val_bind, val_pure, val_copy]
  exact obind rfl fun b => obind (val_at _ _ _ _ fun x => val_copy h (p := 1) (q := 1) x key _) fun _ => rfl
include L in
theorem val_longKey (o : Obj H) (key : List Byte) : (longKey h t o key).val = Milo.Hmac.longKey h H o key := by
  unfold longKey Milo.Hmac.longKey
  simp only [val_bind, val_pure, L.updateVal, L.finalizeVal, L.digestVal]
  exact obind rfl fun _ => obind rfl fun _ => obind rfl fun b => obind (val_at _ _ _ _ fun x => val_copy h (p := 1) (q := 1) x b.1 _) fun _ => rfl
include L in
theorem val_putKey (o : Obj H) (key : List Byte) : (putKey h t o key).val = Milo.Hmac.putKey h H o key := by
  unfold putKey Milo.Hmac.putKey
  simp only [val_branch, val_longKey h L, val_shortKey]
include L in
theorem val_init (o : Obj H) (key : List Byte) : (init h t o key).val = Milo.Hmac.init h H o key := by
  unfold init Milo.Hmac.init
  simp only [val_bind, val_putKey h L, val_ite, val_fail, val_pure, val_rdN, L.updateVal]
  refine obind rfl fun p => ?_
  split
  · rfl
  · exact obind (val_at _ _ _ _ fun x => val_set h (p := 1) x _ _) fun _ => obind (val_at _ _ _ _ fun x => val_set h (p := 1) x _ _) fun _ =>
      obind (val_for _ _ (val_pad _) _ _ _) fun _ => rfl
include L in
theorem val_update (o : Obj H) (x : List Byte) : (update t o x).val = Milo.Hmac.update H o x := by
  unfold update Milo.Hmac.update
  simp only [val_bind, val_pure, L.updateVal]
  rfl
include L in
theorem val_finalize (o : Obj H) : (finalize t o).val = Milo.Hmac.finalize H o := by
  unfold finalize Milo.Hmac.finalize
  simp only [val_bind, val_pure, L.updateVal, L.finalizeVal, val_rdN]
  refine obind rfl fun s => obind (val_at _ _ _ _ fun x => ?_) fun _ => rfl
  simp only [val_bind, val_pure, L.digestVal]
  rfl

/-- The shape of the object. -/
def shape : Shape (Obj H) := ⟨fun a b => L.shape.same a.hash b.hash ∧ a.buffer.length = b.buffer.length⟩

section

theorem same_pad (B i : Nat) (x y : List Byte) (e : x.length = y.length) : Same (padStep B i x) (padStep B i y) := by
  unfold padStep
  exact Same.bind (Same.rd1 rfl) fun _ _ _ => Same.bind (Same.wr1 rfl e) fun _ _ e => Same.bind (Same.rd1 rfl) fun _ _ _ => Same.wr1 rfl e

theorem same_putKey (o o' : Obj H) (key key' : List Byte) (e : (shape L).same o o') (ek : key.length = key'.length) :
    letI := shape L; Same (putKey h t o key) (putKey h t o' key') := by
  letI := shape L
  letI := L.shape
  unfold putKey
  rw [ek]
  refine Same.branch Iff.rfl (fun _ _ => ?_) fun _ _ => ?_
  · unfold longKey
    refine Same.bind (L.update _ _ _ _ (L.init _ _ e.1) ek) fun _ _ e1 => Same.bind (L.finalize _ _ e1) fun _ _ e2 => ?_
    refine Same.bind (L.digest _ _ _ _ _ e2 e.2) ?_
    rintro ⟨b, m⟩ ⟨b', m'⟩ e3
    exact Same.bind (Same.at_ rfl e3.1 fun _ _ e => Same.copy e rfl) fun _ _ e4 => Same.pure ⟨⟨e2, e4⟩, rfl⟩
  · unfold shortKey
    exact Same.bind (Same.copy e.2 ek) fun _ _ e2 => Same.bind (Same.at_ rfl e2 fun _ _ e => Same.copy e ek) fun _ _ e4 => Same.pure ⟨⟨e.1, e4⟩, ek⟩

theorem same_init (o o' : Obj H) (key key' : List Byte) (e : (shape L).same o o') (ek : key.length = key'.length) :
    letI := shape L; Same (init h t o key) (init h t o' key') := by
  letI := shape L
  letI := L.shape
  unfold init
  refine Same.bind (same_putKey h L o o' key key' e ek) ?_
  rintro ⟨o, n⟩ ⟨o', n'⟩ ⟨e1, e2⟩
  change n = n' at e2
  subst e2
  refine Same.ite Iff.rfl (fun _ _ => Same.fail) fun _ _ => ?_
  refine Same.bind (Same.at_ rfl e1.2 fun _ _ e => Same.set e rfl) fun _ _ e3 => Same.bind (Same.at_ rfl e3 fun _ _ e => Same.set e rfl) fun _ _ e4 => ?_
  refine Same.bind (Same.forM' (by intro i s t e; exact same_pad _ _ _ _ e) rfl rfl e4) fun _ _ e5 => Same.bind (Same.rdN rfl rfl) fun _ _ e6 => ?_
  exact Same.bind (L.update _ _ _ _ (L.init _ _ e1.1) e6) fun _ _ e7 => Same.pure ⟨e7, e5⟩

theorem same_update (o o' : Obj H) (x x' : List Byte) (e : (shape L).same o o') (ek : x.length = x'.length) :
    letI := shape L; Same (update t o x) (update t o' x') := by
  letI := shape L
  letI := L.shape
  exact Same.bind (L.update _ _ _ _ e.1 ek) fun _ _ e7 => Same.pure ⟨e7, e.2⟩

theorem same_finalize (o o' : Obj H) (e : (shape L).same o o') : letI := shape L; Same (finalize t o) (finalize t o') := by
  letI := shape L
  letI := L.shape
  unfold finalize
  refine Same.bind (L.finalize _ _ e.1) fun s s' e1 => Same.bind (Same.at_ rfl e.2 fun u v e2 => ?_) fun _ _ e3 => ?_
  · refine Same.bind (L.digest _ _ _ _ _ e1 e2) ?_
    rintro ⟨b, m⟩ ⟨b', m'⟩ e3
    exact Same.pure e3.1
  · exact Same.bind (Same.rdN rfl rfl) fun _ _ e4 => Same.bind (L.update _ _ _ _ (L.init _ _ e1) e4) fun _ _ e5 => Same.bind (L.finalize _ _ e5) fun _ _ e6 => Same.pure ⟨e6, e3⟩
end

end Hmac

namespace Poly1305
open Milo.Poly1305 (Obj Acc u64 u32)

instance : Shape Acc := ⟨fun _ _ => True⟩
instance : Shape Obj := ⟨fun a b => a.keyR.length = b.keyR.length ∧ a.acc.length = b.acc.length ∧ a.buffer.length = b.buffer.length ∧ a.bufferSize = b.bufferSize⟩

theorem val_mulStep (k : List W32) (a : Acc) : (mulStep k a).val = Milo.Poly1305.mulStep k a := by
  unfold mulStep Milo.Poly1305.mulStep
  simp only [val_bind, val_rd1, val_pure]
  rfl
theorem val_addStep (h : Host) (add : W32) (a : Acc) (src : List Byte) : (addStep h add a src).val = Milo.Poly1305.addStep h add a src := by
  unfold addStep Milo.Poly1305.addStep
  simp only [val_bind, val_loadLe, val_pure]
  rfl
theorem val_processLoop (h : Host) (k : List W32) (add : W32) : ∀ (n : Nat) (a : Acc) (src : List Byte), (processLoop h k add n a src).val = Milo.Poly1305.processLoop h k add n a src := by
  intro n
  induction n with
  | zero => intro a src; rfl
  | succ n ih => intro a src; simp only [processLoop, Milo.Poly1305.processLoop, val_bind, val_addStep, val_mulStep, val_advance, ih, Option.bind_some]; rfl
theorem val_process (h : Host) (k : List W32) (add : W32) (n : Nat) (acc : List W32) (src : List Byte) : (process h k add n acc src).val = Milo.Poly1305.process h k add n acc src := by
  unfold process Milo.Poly1305.process
  simp only [val_bind, val_rd1, val_wr1, val_processLoop]
  rfl
theorem five {α : Type} (l : List α) (e : l.length = 5) : ∃ a b c d f, l = [a, b, c, d, f] := by
  match l, e with
  | [a, b, c, d, f], _ => exact ⟨a, b, c, d, f, rfl⟩
theorem four {α : Type} (l : List α) (e : l.length = 4) : ∃ a b c d, l = [a, b, c, d] := by
  match l, e with
  | [a, b, c, d], _ => exact ⟨a, b, c, d, rfl⟩
theorem eight {α : Type} (l : List α) (e : l.length = 8) : ∃ a b c d f g i j, l = [a, b, c, d, f, g, i, j] := by
  match l, e with
  | [a, b, c, d, f, g, i, j], _ => exact ⟨a, b, c, d, f, g, i, j, rfl⟩
theorem val_schedule (w : List W32) : (schedule w).val = Milo.Poly1305.schedule w := by
  by_cases e : w.length = 8
  · obtain ⟨a, b, c, d, f, g, i, j, rfl⟩ := eight w e
    rfl
  · unfold schedule Milo.Poly1305.schedule
    rw [val_bind, val_quiet, if_neg e]
    split
    · exact absurd rfl e
    · rfl
theorem val_carry (x s : List W32) : (carry x s).val = Milo.Poly1305.carry x s := by
  by_cases e : x.length = 5 ∧ s.length = 4
  · obtain ⟨a, b, c, d, f, rfl⟩ := five x e.1
    obtain ⟨g, i, j, k, rfl⟩ := four s e.2
    rfl
  · unfold carry Milo.Poly1305.carry
    rw [val_bind, val_quiet, if_neg e]
    split
    · exact absurd ⟨rfl, rfl⟩ e
    · rfl
theorem val_initObj (h : Host) (o : Obj) (key : List Byte) : (initObj h o key).val = Milo.Poly1305.initObj h o key := by
  unfold initObj Milo.Poly1305.initObj
  simp only [val_bind, Timed.val_init, val_schedule, val_pure]
  rfl
theorem val_update (h : Host) (o : Obj) (x : List Byte) : (update h o x).val = Milo.Poly1305.update h o x := by
  unfold update Milo.Poly1305.update
  simp only [val_bind, val_pure, val_soak h _ _ _ (val_process h o.keyR 1#32)]
  rfl
theorem val_lastBlock (h : Host) (o : Obj) : (lastBlock h o).val = Milo.Poly1305.lastBlock h o := by
  unfold lastBlock Milo.Poly1305.lastBlock
  simp only [val_branch, val_bind, val_pure, val_wr1, val_process]
  split
  · exact obind rfl fun _ => obind (val_at _ _ _ _ fun x => val_set h (p := 1) x _ _) fun _ => rfl
  · rfl
theorem val_finalize (h : Host) (o : Obj) : (finalize h o).val = Milo.Poly1305.finalize h o := by
  unfold finalize Milo.Poly1305.finalize
  simp only [val_bind, val_pure, val_lastBlock, val_carry]
  rfl
theorem val_digest (h : Host) (ds : Nat) (o : Obj) (d : List Byte) (n : Nat) : (digest h ds o d n).val = Milo.Poly1305.digest h ds o d n := by
  unfold digest Milo.Poly1305.digest
  simp only [val_bind, val_pure, val_copyLe]
  rfl

theorem same_mulStep {k k' : List W32} {a a' : Acc} : Same (mulStep k a) (mulStep k' a') := by
  unfold mulStep
  refine Same.bind (Same.rd1 rfl) fun _ _ _ => Same.bind (Same.rd1 rfl) fun _ _ _ => Same.bind (Same.rd1 rfl) fun _ _ _ => Same.bind (Same.rd1 rfl) fun _ _ _ => ?_
  exact Same.bind (Same.rd1 rfl) fun _ _ _ => Same.bind (Same.rd1 rfl) fun _ _ _ => Same.bind (Same.rd1 rfl) fun _ _ _ => Same.bind (Same.rd1 rfl) fun _ _ _ => Same.pure trivial
theorem same_addStep {h : Host} {add : W32} {a a' : Acc} {x y : List Byte} : Same (addStep h add a x) (addStep h add a' y) := by
  unfold addStep
  exact Same.bind (Same.loadLe rfl) fun _ _ _ => Same.bind (Same.loadLe rfl) fun _ _ _ => Same.bind (Same.loadLe rfl) fun _ _ _ => Same.bind (Same.loadLe rfl) fun _ _ _ => Same.pure trivial
theorem same_processLoop {h : Host} {k k' : List W32} {add : W32} : ∀ (n : Nat) (a a' : Acc) (x y : List Byte), x.length = y.length → Same (processLoop h k add n a x) (processLoop h k' add n a' y) := by
  intro n
  induction n with
  | zero => intro a a' x y e; exact Same.of rfl trivial
  | succ n ih =>
    intro a a' x y e
    exact Same.bind Same.tick fun _ _ _ => Same.bind same_addStep fun _ _ _ => Same.bind same_mulStep fun _ _ _ => Same.bind (Same.advance rfl e) fun _ _ e => ih _ _ _ _ e
theorem same_process {h : Host} {k k' : List W32} {add : W32} (n : Nat) (s t : List W32) (x y : List Byte) (e : Shape.same s t) (ex : x.length = y.length) :
    Same (process h k add n s x) (process h k' add n t y) := by
  unfold process
  refine Same.bind (Same.rd1 rfl) fun _ _ _ => Same.bind (Same.rd1 rfl) fun _ _ _ => Same.bind (Same.rd1 rfl) fun _ _ _ => Same.bind (Same.rd1 rfl) fun _ _ _ => ?_
  refine Same.bind (Same.rd1 rfl) fun _ _ _ => Same.bind (same_processLoop _ _ _ _ _ ex) fun _ _ _ => ?_
  exact Same.bind (Same.wr1 rfl e) fun _ _ e => Same.bind (Same.wr1 rfl e) fun _ _ e => Same.bind (Same.wr1 rfl e) fun _ _ e => Same.bind (Same.wr1 rfl e) fun _ _ e => Same.wr1 rfl e

theorem same_silent {x y : Option Unit} : Same (quiet x) (quiet y) := fun _ _ _ _ => ⟨rfl, trivial⟩
theorem same_schedule {w w' : List W32} (e : w.length = w'.length) : Same (schedule w) (schedule w') := by
  unfold schedule
  refine Same.bind same_silent fun _ _ _ => ?_
  refine Same.bind (Same.rd1 rfl) fun _ _ _ => Same.bind (Same.wr1 rfl e) fun _ _ e => Same.bind (Same.rd1 rfl) fun _ _ _ => Same.bind (Same.wr1 rfl e) fun _ _ e => Same.bind (Same.rd1 rfl) fun _ _ _ => Same.bind (Same.wr1 rfl e) fun _ _ e => Same.bind (Same.rd1 rfl) fun _ _ _ => Same.bind (Same.wr1 rfl e) fun _ _ e => ?_
  refine Same.bind (Same.rd1 rfl) fun _ _ _ => Same.bind (Same.wr1 rfl rfl) fun _ _ k => Same.bind (Same.rd1 rfl) fun _ _ _ => Same.bind (Same.wr1 rfl k) fun _ _ k => Same.bind (Same.rd1 rfl) fun _ _ _ => Same.bind (Same.wr1 rfl k) fun _ _ k => Same.bind (Same.rd1 rfl) fun _ _ _ => Same.bind (Same.wr1 rfl k) fun _ _ k => ?_
  exact Same.bind (Same.rd1 rfl) fun _ _ _ => Same.bind (Same.wr1 rfl e) fun _ _ e => Same.bind (Same.rd1 rfl) fun _ _ _ => Same.bind (Same.wr1 rfl e) fun _ _ e => Same.bind (Same.rd1 rfl) fun _ _ _ => Same.bind (Same.wr1 rfl e) fun _ _ e => Same.bind (Same.rd1 rfl) fun _ _ _ => Same.bind (Same.wr1 rfl e) fun _ _ e => Same.pure ⟨e, k⟩
theorem same_carry {x y s t : List W32} (e : x.length = y.length) : Same (carry x s) (carry y t) := by
  unfold carry
  refine Same.bind same_silent fun _ _ _ => ?_
  refine Same.bind (Same.rd1 rfl) fun _ _ _ => Same.bind (Same.rd1 rfl) fun _ _ _ => Same.bind (Same.rd1 rfl) fun _ _ _ => Same.bind (Same.rd1 rfl) fun _ _ _ => Same.bind (Same.rd1 rfl) fun _ _ _ => Same.bind (Same.rd1 rfl) fun _ _ _ => Same.bind (Same.rd1 rfl) fun _ _ _ => Same.bind (Same.rd1 rfl) fun _ _ _ => Same.bind (Same.rd1 rfl) fun _ _ _ => ?_
  refine Same.bind (Same.rd1 rfl) fun _ _ _ => Same.bind (Same.rd1 rfl) fun _ _ _ => Same.bind (Same.rd1 rfl) fun _ _ _ => Same.bind (Same.rd1 rfl) fun _ _ _ => ?_
  exact Same.bind (Same.wr1 rfl e) fun _ _ e => Same.bind (Same.wr1 rfl e) fun _ _ e => Same.bind (Same.wr1 rfl e) fun _ _ e => Same.wr1 rfl e

theorem same_init (h : Host) (o o' : Obj) (x x' : List Byte) (e : Shape.same o o') (ek : x.length = x'.length) : Same (initObj h o x) (initObj h o' x') := by
  unfold initObj
  refine Same.bind (Same.init e.1 ek) fun w w' ew => Same.bind (α := List W32 × List W32) (same_schedule ew) ?_
  · rintro ⟨a, b⟩ ⟨a', b'⟩ e1
    exact Same.pure ⟨e1.1, rfl, e.2.2.1, rfl⟩
theorem same_update (h : Host) (o o' : Obj) (x x' : List Byte) (e : Shape.same o o') (ek : x.length = x'.length) : Same (update h o x) (update h o' x') := by
  unfold update
  refine Same.bind (Same.soak same_process e.2.2.1 ek e.2.1 e.2.2.2) ?_
  rintro ⟨a, b, c⟩ ⟨a', b', c'⟩ ⟨e1, e2, e3⟩
  exact Same.pure ⟨e.1, e3, e2, e1⟩
theorem same_lastBlock (h : Host) (o o' : Obj) (e : Shape.same o o') : Same (lastBlock h o) (lastBlock h o') := by
  obtain ⟨e1, e2, e3, e4⟩ := e
  unfold lastBlock
  rw [e4]
  refine Same.branch Iff.rfl (fun _ _ => ?_) fun _ _ => Same.pure ⟨e1, e2, e3, e4⟩
  refine Same.bind (Same.wr1 rfl e3) fun _ _ e => Same.bind (Same.at_ rfl e fun _ _ e => Same.set e rfl) fun _ _ e => ?_
  exact Same.bind (same_process _ _ _ _ _ e2 e) fun _ _ e5 => Same.pure ⟨e1, e5, e, rfl⟩
theorem same_finalize (h : Host) (o o' : Obj) (e : Shape.same o o') : Same (finalize h o) (finalize h o') := by
  unfold finalize
  refine Same.bind (same_lastBlock h o o' e) fun _ _ e => Same.bind (same_carry e.2.1) fun _ _ e2 => Same.pure ⟨e.1, e2, e.2.2.1, e.2.2.2⟩
theorem same_digest (h : Host) (ds : Nat) (o o' : Obj) (d d' : List Byte) (n : Nat) (e : d.length = d'.length) : Same (digest h ds o d n) (digest h ds o' d' n) :=
  Same.bind (Same.copyLe e rfl) fun _ _ e => Same.pure ⟨e, rfl⟩

end Poly1305

/-- The documented mac types. -/
def macLaw (h : Host) (ds : Nat) : (a : MacAlg) → (mac h ds a).Law
  | .poly_1305 => ⟨inferInstanceAs (Shape Milo.Poly1305.Obj), Poly1305.val_initObj h, Poly1305.val_update h, Poly1305.val_finalize h, Poly1305.val_digest h ds, ⟨rfl, rfl, rfl, rfl⟩,
      Poly1305.same_init h, Poly1305.same_update h, Poly1305.same_finalize h, fun o o' d d' n _ e => Poly1305.same_digest h ds o o' d d' n e⟩
  | .hmac a hs => ⟨Hmac.shape (shaLaw h hs a), Hmac.val_init h (shaLaw h hs a), Hmac.val_update (shaLaw h hs a), Hmac.val_finalize (shaLaw h hs a),
      fun o d n => (shaLaw h hs a).digestVal o.hash d (min n ds), ⟨(shaLaw h hs a).fresh, rfl⟩, Hmac.same_init h (shaLaw h hs a), Hmac.same_update (shaLaw h hs a),
      Hmac.same_finalize (shaLaw h hs a), fun o o' d d' n e ed => (shaLaw h hs a).digest o.hash o'.hash d d' (min n ds) e.1 ed⟩

end Milo.Timed
