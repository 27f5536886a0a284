import Verif.Model.Timed.ChaCha
import Verif.Proof.Timed.Base
/- The cipher: results and shapes. -/
namespace Milo.Timed
namespace ChaCha
open Milo.ChaCha (Obj Prod)

instance : Shape Obj := ⟨fun a b => a.state.length = b.state.length ∧ a.buffer.length = b.buffer.length ∧ a.bufferSize = b.bufferSize⟩
instance : Shape Prod := ⟨fun a b => a.fill = b.fill ∧ a.buf.length = b.buf.length ∧ a.st.length = b.st.length ∧ a.mem.length = b.mem.length⟩

/-! ### Results -/

@[simp] theorem val_add (s : List W32) (a b : Nat) : (add s a b).val = Milo.ChaCha.add s a b := by
  unfold add Milo.ChaCha.add; simp only [val_bind, val_rd1, val_wr1]; rfl
@[simp] theorem val_xrot (s : List W32) (d a n : Nat) : (xrot s d a n).val = Milo.ChaCha.xrot s d a n := by
  unfold xrot Milo.ChaCha.xrot; simp only [val_bind, val_rd1, val_wr1]; rfl
@[simp] theorem val_round (a b c d : Nat) (s : List W32) : (round a b c d s).val = Milo.ChaCha.round a b c d s := by
  unfold round Milo.ChaCha.round; simp only [val_bind, val_add, val_xrot]; rfl
@[simp] theorem val_doubleRound (j : Nat) (s : List W32) : (doubleRound j s).val = Milo.ChaCha.doubleRound j s := by
  unfold doubleRound Milo.ChaCha.doubleRound; simp only [val_bind, val_round]; rfl
@[simp] theorem val_addBase (b : List W32) (j : Nat) (s : List W32) : (addBase b j s).val = Milo.ChaCha.addBase b j s := by
  unfold addBase Milo.ChaCha.addBase; simp only [val_bind, val_rd1, val_wr1]; rfl
@[simp] theorem val_keyWords (b : List W32) : (keyWords b).val = Milo.ChaCha.keyWords b := by
  unfold keyWords Milo.ChaCha.keyWords
  simp only [val_bind, val_for _ _ val_doubleRound, val_for _ _ (val_addBase b)]
  rfl
@[simp] theorem val_transformWord (h : Host) (w : List W32) (dst src j : Nat) (mem : List Byte) : (transformWord h w dst src j mem).val = Milo.ChaCha.transformWord h w dst src j mem := by
  unfold transformWord Milo.ChaCha.transformWord
  simp only [val_bind, val_rd1, val_advance, val_loadLe]
  exact obind rfl fun _ => obind rfl fun _ => obind rfl fun _ => val_at _ _ _ _ fun x => val_storLe h (v := 4) (p := 1) x _ _
@[simp] theorem val_generateWord (h : Host) (w : List W32) (dst j : Nat) (mem : List Byte) : (generateWord h w dst j mem).val = Milo.ChaCha.generateWord h w dst j mem := by
  unfold generateWord Milo.ChaCha.generateWord
  simp only [val_bind, val_rd1]
  exact obind rfl fun _ => val_at _ _ _ _ fun x => val_storLe h (v := 4) (p := 1) x _ _
@[simp] theorem val_bump (s : List W32) (n : Nat) : (bump s n).val = Milo.ChaCha.bump s n := by
  unfold bump Milo.ChaCha.bump; simp only [val_bind, val_rd1, val_wr1]; rfl
@[simp] theorem val_transformBlock (h : Host) (dst src i : Nat) (s : List W32 × List Byte) : (transformBlock h dst src i s).val = Milo.ChaCha.transformBlock h dst src i s := by
  unfold transformBlock Milo.ChaCha.transformBlock
  simp only [val_bind, val_pure, val_keyWords, val_bump]
  exact obind rfl fun _ => obind (val_for _ _ (val_transformWord h _ _ _) _ _ _) fun _ => rfl
@[simp] theorem val_generateBlock (h : Host) (i : Nat) (s : List W32 × List Byte) : (generateBlock h i s).val = Milo.ChaCha.generateBlock h i s := by
  unfold generateBlock Milo.ChaCha.generateBlock
  simp only [val_bind, val_pure, val_keyWords, val_bump]
  exact obind rfl fun _ => obind (val_for _ _ (val_generateWord h _ _) _ _ _) fun _ => rfl
@[simp] theorem val_copyState (s : List W32) : (copyState s).val = Milo.ChaCha.copyState s := rfl

/-- A timed backend has the results of the backend, and what is observed of it depends on the shape. -/
structure Law (t : Backend) (B : Milo.ChaCha.Backend) : Prop where
  ratio : t.ratio = B.ratio
  transformVal : ∀ n st mem dst src, (t.transform n st mem dst src).val = B.transform n st mem dst src
  generateVal : ∀ n st buf, (t.generate n st buf).val = B.generate n st buf
  transform : ∀ n (st st' : List W32) (mem mem' : List Byte) dst src, st.length = st'.length → mem.length = mem'.length → Same (t.transform n st mem dst src) (t.transform n st' mem' dst src)
  generate : ∀ n (st st' : List W32) (mem mem' : List Byte), st.length = st'.length → mem.length = mem'.length → Same (t.generate n st mem) (t.generate n st' mem')

@[simp] theorem val_xorMem (h : Host) (mem : List Byte) (dst src : Nat) (key : List Byte) (n : Nat) : (xorMem h mem dst src key n).val = Milo.ChaCha.xorMem h mem dst src key n := by
  unfold xorMem Milo.ChaCha.xorMem
  refine val_for _ _ ?_ _ _ _
  intro i s
  simp only [val_bind, val_advance, val_load]
  exact obind rfl fun _ => obind rfl fun _ => obind rfl fun _ => val_at _ _ _ _ fun x => val_stor h (v := 1) (p := 1) x _ _

section
variable {t : Backend} {B : Milo.ChaCha.Backend} (L : Law t B) (h : Host)
include L

theorem val_fullBlocks (full : Nat) (st : List W32) (mem : List Byte) (dst src : Nat) : (fullBlocks t full st mem dst src).val = Milo.ChaCha.fullBlocks B full st mem dst src := by
  unfold fullBlocks Milo.ChaCha.fullBlocks
  simp only [val_branch, val_bind, val_pure, L.transformVal, val_bump]
  rfl
theorem val_lastBytes (last : Nat) (buf : List Byte) (st : List W32) (mem : List Byte) (dst src : Nat) : (lastBytes h t last buf st mem dst src).val = Milo.ChaCha.lastBytes h B last buf st mem dst src := by
  unfold lastBytes Milo.ChaCha.lastBytes
  simp only [val_branch, val_bind, val_pure, L.generateVal, val_bump, val_xorMem]
  rfl
theorem val_prodRest (buf : List Byte) (st : List W32) (mem : List Byte) (dst src n : Nat) : (prodRest h t buf st mem dst src n).val = Milo.ChaCha.prodRest h B buf st mem dst src n := by
  unfold prodRest Milo.ChaCha.prodRest
  simp only [val_bind, val_fullBlocks L, val_lastBytes L, L.ratio]
  rfl
theorem val_prodXor (buf : List Byte) (fill : Nat) (st : List W32) (mem : List Byte) (dst src n : Nat) : (prodXor h t buf fill st mem dst src n).val = Milo.ChaCha.prodXor h B buf fill st mem dst src n := by
  unfold prodXor Milo.ChaCha.prodXor
  simp only [val_branch, val_ite, val_fail, val_bind, val_pure, val_prodRest L, val_advance, val_xorMem, L.ratio]
  rfl
theorem val_encrypt (o : Obj) (mem : List Byte) (src n dst : Nat) : (encrypt h t o mem src n dst).val = Milo.ChaCha.encrypt h B o mem src n dst := by
  unfold encrypt Milo.ChaCha.encrypt
  simp only [val_bind, val_pure, val_prodXor L]
  rfl
theorem val_decrypt (o : Obj) (mem : List Byte) (src n dst : Nat) : (decrypt h t o mem src n dst).val = Milo.ChaCha.decrypt h B o mem src n dst := by
  unfold decrypt Milo.ChaCha.decrypt
  simp only [val_bind, val_pure, val_prodXor L]
  rfl
end

@[simp] theorem val_initWords (h : Host) (st : List W32) (off n : Nat) (src : List Byte) : (initWords h st off n src).val = Milo.ChaCha.initWords h st off n src := by
  unfold initWords Milo.ChaCha.initWords
  simp only [val_bind, val_rdN, val_initLe, val_wrN]
  rfl
theorem val_init (h : Host) (o : Obj) (key iv : List Byte) : (init h o key iv).val = Milo.ChaCha.init h o key iv := by
  unfold init Milo.ChaCha.init
  simp only [val_bind, val_pure, val_wr1, val_initWords]
  rfl

/-! ### Shapes -/

theorem same_add {s s' : List W32} {a b : Nat} (e : s.length = s'.length) : Same (add s a b) (add s' a b) :=
  Same.bind (Same.rd1 rfl) fun _ _ _ => Same.bind (Same.rd1 rfl) fun _ _ _ => Same.wr1 rfl e
theorem same_xrot {s s' : List W32} {d a n : Nat} (e : s.length = s'.length) : Same (xrot s d a n) (xrot s' d a n) :=
  Same.bind (Same.rd1 rfl) fun _ _ _ => Same.bind (Same.rd1 rfl) fun _ _ _ => Same.wr1 rfl e
theorem same_round {s s' : List W32} {a b c d : Nat} (e : s.length = s'.length) : Same (round a b c d s) (round a b c d s') :=
  Same.bind (same_add e) fun _ _ e => Same.bind (same_xrot e) fun _ _ e => Same.bind (same_add e) fun _ _ e => Same.bind (same_xrot e) fun _ _ e =>
    Same.bind (same_add e) fun _ _ e => Same.bind (same_xrot e) fun _ _ e => Same.bind (same_add e) fun _ _ e => same_xrot e
theorem same_doubleRound (j : Nat) (s s' : List W32) (e : s.length = s'.length) : Same (doubleRound j s) (doubleRound j s') :=
  Same.bind (same_round e) fun _ _ e => Same.bind (same_round e) fun _ _ e => Same.bind (same_round e) fun _ _ e => Same.bind (same_round e) fun _ _ e =>
    Same.bind (same_round e) fun _ _ e => Same.bind (same_round e) fun _ _ e => Same.bind (same_round e) fun _ _ e => same_round e
theorem same_addBase (b b' : List W32) (j : Nat) (s s' : List W32) (e : s.length = s'.length) : Same (addBase b j s) (addBase b' j s') :=
  Same.bind (Same.rd1 rfl) fun _ _ _ => Same.bind (Same.rd1 rfl) fun _ _ _ => Same.wr1 rfl e
theorem same_keyWords {s s' : List W32} (e : s.length = s'.length) : Same (keyWords s) (keyWords s') :=
  Same.bind (Same.forM' (by intro i s t e; exact same_doubleRound _ _ _ e) rfl rfl e) fun _ _ e => Same.forM' (by intro i s t e; exact same_addBase _ _ _ _ _ e) rfl rfl e
theorem same_transformWord (h : Host) (w w' : List W32) (dst src j : Nat) (m m' : List Byte) (e : m.length = m'.length) :
    Same (transformWord h w dst src j m) (transformWord h w' dst src j m') :=
  Same.bind (Same.rd1 rfl) fun _ _ _ => Same.bind (Same.advance rfl e) fun _ _ _ => Same.bind (Same.loadLe rfl) fun _ _ _ => Same.at_ rfl e fun _ _ e => Same.storLe rfl e
theorem same_generateWord (h : Host) (w w' : List W32) (dst j : Nat) (m m' : List Byte) (e : m.length = m'.length) :
    Same (generateWord h w dst j m) (generateWord h w' dst j m') :=
  Same.bind (Same.rd1 rfl) fun _ _ _ => Same.at_ rfl e fun _ _ e => Same.storLe rfl e
theorem same_bump {s s' : List W32} {n : Nat} (e : s.length = s'.length) : Same (bump s n) (bump s' n) :=
  Same.bind (Same.rd1 rfl) fun _ _ _ => Same.wr1 rfl e
theorem same_transformBlock (h : Host) (dst src i : Nat) (s s' : List W32 × List Byte) (e : Shape.same s s') : Same (transformBlock h dst src i s) (transformBlock h dst src i s') :=
  Same.bind (same_keyWords e.1) fun _ _ _ => Same.bind (Same.forM' (by intro i s t e; exact same_transformWord _ _ _ _ _ _ _ _ e) rfl rfl e.2) fun _ _ e2 =>
    Same.bind (same_bump e.1) fun _ _ e1 => Same.pure ⟨e1, e2⟩
theorem same_generateBlock (h : Host) (i : Nat) (s s' : List W32 × List Byte) (e : Shape.same s s') : Same (generateBlock h i s) (generateBlock h i s') :=
  Same.bind (same_keyWords e.1) fun _ _ _ => Same.bind (Same.forM' (by intro i s t e; exact same_generateWord _ _ _ _ _ _ _ e) rfl rfl e.2) fun _ _ e2 =>
    Same.bind (same_bump e.1) fun _ _ e1 => Same.pure ⟨e1, e2⟩

theorem swLaw (h : Host) : Law (sw h) (Milo.ChaCha.sw h) where
  ratio := rfl
  transformVal := by
    intro n st mem dst src
    show (T.val (_ >>= _)) = _
    simp only [val_bind, val_pure, val_copyState, val_for _ _ (val_transformBlock h dst src)]
    rfl
  generateVal := by
    intro n st buf
    show (T.val (_ >>= _)) = _
    simp only [val_bind, val_pure, val_copyState, val_for _ _ (val_generateBlock h)]
    rfl
  transform := by
    intro n st st' mem mem' dst src e1 e2
    refine Same.bind (Same.rdN rfl rfl) fun _ _ e => Same.bind (Same.forM' (same_transformBlock h dst src) rfl rfl ⟨e, e2⟩) ?_
    rintro ⟨a, b⟩ ⟨a', b'⟩ e
    exact Same.pure ⟨rfl, e.2⟩
  generate := by
    intro n st st' mem mem' e1 e2
    refine Same.bind (Same.rdN rfl rfl) fun _ _ e => Same.bind (Same.forM' (same_generateBlock h) rfl rfl ⟨e, e2⟩) ?_
    rintro ⟨a, b⟩ ⟨a', b'⟩ e
    exact Same.pure ⟨rfl, e.2⟩

/-! #### The assembly keeps the size of memory -/
open X86

/-- The memory, if there has been no wrong access, has `n` bytes. -/
def Sized (n : Nat) (s : St Vec (Option (List Byte))) : Prop := ∀ m, s.mem = some m → m.length = n

theorem get_sized {lanes n : Nat} {s : St Vec (Option (List Byte))} {b : Src Vec} {r : Vec × Option (List Byte)} (hs : Sized n s) (e : get (simd lanes) s b = some r) :
    ∀ m, r.2 = some m → m.length = n := by
  have keep : ∀ {o : Option Vec}, (o.bind fun v => some (v, s.mem)) = some r → ∀ m, r.2 = some m → m.length = n := by
    intro o ho
    cases o with
    | none => cases ho
    | some v => cases ho; exact hs
  cases b with
  | x i => exact keep e
  | temp i => exact keep e
  | base i => exact keep e
  | const v => cases e; exact hs
  | src k =>
    cases e
    intro m hm
    have hm : (loadVec lanes s.mem (s.src + k)).2 = some m := hm
    unfold loadVec at hm
    split at hm
    · exact hs m hm
    · cases hm

theorem put_sized {lanes n : Nat} {s s' : St Vec (Option (List Byte))} {v : Vec} {d : Dst} (hs : Sized n s) (e : put (simd lanes) s v d = some s') : Sized n s' := by
  cases d with
  | x i =>
    have e : (Milo.wr1 s.x i v).bind (fun y => some { s with x := y }) = some s' := e
    cases h : Milo.wr1 s.x i v with
    | none => rw [h] at e; cases e
    | some y => rw [h] at e; cases e; exact hs
  | temp i =>
    have e : (Milo.wr1 s.temp i v).bind (fun y => some { s with temp := y }) = some s' := e
    cases h : Milo.wr1 s.temp i v with
    | none => rw [h] at e; cases e
    | some y => rw [h] at e; cases e; exact hs
  | base i =>
    have e : (Milo.wr1 s.base i v).bind (fun y => some { s with base := y }) = some s' := e
    cases h : Milo.wr1 s.base i v with
    | none => rw [h] at e; cases e
    | some y => rw [h] at e; cases e; exact hs
  | dst k =>
    cases e
    intro m hm
    have hm : (s.mem.bind fun m => Milo.wrN m (s.dst + k) (vecBytes lanes v)) = some m := hm
    cases h : s.mem with
    | none => rw [h] at hm; cases hm
    | some m0 => rw [h] at hm; rw [wrN_length hm, hs m0 h]

theorem bind_some {α β : Type} {x : Option α} {f : α → Option β} {b : β} (e : (x >>= f) = some b) : ∃ a, x = some a ∧ f a = some b := by
  cases x with
  | none => cases e
  | some a => exact ⟨a, rfl, e⟩

theorem step_sized {lanes n : Nat} {s s' : St Vec (Option (List Byte))} {i : Instr Vec} (hs : Sized n s) (e : step (simd lanes) s i = some s') : Sized n s' := by
  cases i with
  | mov d b =>
    obtain ⟨⟨v, mem⟩, h1, h2⟩ := bind_some e
    exact put_sized (s := { s with mem := mem }) (get_sized hs h1) h2
  | bin o d a b =>
    obtain ⟨y, _, e⟩ := bind_some e
    obtain ⟨⟨v, mem⟩, h1, h2⟩ := bind_some e
    exact put_sized (s := { s with mem := mem }) (get_sized hs h1) h2
  | unImm o d a imm =>
    obtain ⟨y, _, e⟩ := bind_some e
    exact put_sized hs e
  | binImm o d a b imm =>
    obtain ⟨y, _, e⟩ := bind_some e
    obtain ⟨z, _, e⟩ := bind_some e
    exact put_sized hs e
  | rnds2 d b =>
    obtain ⟨y, _, e⟩ := bind_some e
    obtain ⟨z, _, e⟩ := bind_some e
    obtain ⟨w, _, e⟩ := bind_some e
    exact put_sized hs e
  | addDst k => cases e; exact hs
  | addSrc k => cases e; exact hs

theorem exec_sized {lanes n : Nat} : ∀ (p : List (Instr Vec)) {s s' : St Vec (Option (List Byte))}, Sized n s → exec (simd lanes) s p = some s' → Sized n s' := by
  intro p
  induction p with
  | nil => intro s s' hs e; cases e; exact hs
  | cons i p ih =>
    intro s s' hs e
    obtain ⟨t, h1, h2⟩ := bind_some e
    exact ih (step_sized hs h1) h2

open Milo.ChaCha.Asm in
theorem rounds_sized {lanes n : Nat} {k : Consts Vec} : ∀ (c : Nat) {s s' : St Vec (Option (List Byte))}, Sized n s → roundsLoop (simd lanes) k c s = some s' → Sized n s' := by
  intro c
  induction c with
  | zero => intro s s' hs e; cases e; exact hs
  | succ c ih =>
    intro s s' hs e
    obtain ⟨t, h1, h2⟩ := bind_some e
    exact ih (exec_sized _ hs h1) h2

open Milo.ChaCha.Asm in
theorem blocks_sized {lanes n : Nat} {k : Consts Vec} {body : List (Instr Vec)} : ∀ (c : Nat) {s s' : St Vec (Option (List Byte))}, Sized n s →
    blocksLoop (simd lanes) k body c s = some s' → Sized n s' := by
  intro c
  induction c with
  | zero =>
    intro s s' hs e
    obtain ⟨t, h1, h2⟩ := bind_some e
    exact exec_sized _ (rounds_sized _ hs h1) h2
  | succ c ih =>
    intro s s' hs e
    obtain ⟨t, h1, e⟩ := bind_some e
    obtain ⟨u, h2, e⟩ := bind_some e
    obtain ⟨w, h3, e⟩ := bind_some e
    exact ih (exec_sized _ (exec_sized _ (rounds_sized _ hs h1) h2) h3) e

open Milo.ChaCha.Asm in
theorem run_sized {lanes n : Nat} {k : Consts Vec} {q : Nat → Vec} {body : List (Instr Vec)} (c : Nat) {s s' : St Vec (Option (List Byte))} (hs : Sized n s)
    (e : run (simd lanes) k q body c s = some s') : Sized n s' := by
  cases c with
  | zero => cases e; exact hs
  | succ c =>
    obtain ⟨t, h1, e⟩ := bind_some e
    exact blocks_sized _ (exec_sized _ hs h1) e

open Milo.ChaCha.Asm in
theorem asmLaw (lanes : Nat) (k : Consts Vec) (tb gb : List (Instr Vec)) (junk : Nat → Vec) :
    Law (asm (Milo.ChaCha.Asm.backend lanes k tb gb junk)) (Milo.ChaCha.Asm.backend lanes k tb gb junk) where
  ratio := rfl
  transformVal := fun _ _ _ _ _ => rfl
  generateVal := fun _ _ _ => rfl
  transform := by
    have len : ∀ {n st mem dst src r}, (Milo.ChaCha.Asm.backend lanes k tb gb junk).transform n st mem dst src = some r → r.1 = n * lanes % 2 ^ 64 ∧ r.2.length = mem.length := by
      intro n st mem dst src r e
      obtain ⟨w, _, e⟩ := bind_some e
      obtain ⟨s, h2, e⟩ := bind_some e
      obtain ⟨m, h3, e⟩ := bind_some e
      cases e
      exact ⟨rfl, run_sized (n := mem.length) n (by intro m hm; cases hm; rfl) h2 m h3⟩
    intro n st st' mem mem' dst src e1 e2 a b ha hb
    exact ⟨rfl, (len ha).1.trans (len hb).1.symm, by rw [same_list, (len ha).2, (len hb).2, e2]⟩
  generate := by
    have len : ∀ {n st mem r}, (Milo.ChaCha.Asm.backend lanes k tb gb junk).generate n st mem = some r → r.1 = n * lanes % 2 ^ 64 ∧ r.2.length = mem.length := by
      intro n st mem r e
      obtain ⟨w, _, e⟩ := bind_some e
      obtain ⟨s, h2, e⟩ := bind_some e
      obtain ⟨m, h3, e⟩ := bind_some e
      cases e
      exact ⟨rfl, run_sized (n := mem.length) n (by intro m hm; cases hm; rfl) h2 m h3⟩
    intro n st st' mem mem' e1 e2 a b ha hb
    exact ⟨rfl, (len ha).1.trans (len hb).1.symm, by rw [same_list, (len ha).2, (len hb).2, e2]⟩

theorem backendLaw (h : Host) : ∀ b : CipherBackend, Law (backend h b) (b.impl h)
  | .portable => swLaw h
  | .ssse3 _ => asmLaw ..
  | .avx2 _ => asmLaw ..

/-! #### The class -/

theorem same_xorMem {h : Host} {m m' : List Byte} {dst src : Nat} {k k' : List Byte} {n : Nat} (e : m.length = m'.length) : Same (xorMem h m dst src k n) (xorMem h m' dst src k' n) := by
  unfold xorMem
  refine Same.forM' ?_ rfl rfl e
  intro i s t e
  exact Same.bind (Same.advance rfl e) fun _ _ _ => Same.bind (Same.load rfl) fun _ _ _ => Same.bind (Same.load rfl) fun _ _ _ => Same.at_ rfl e fun _ _ e => Same.stor rfl e

section
variable {t : Backend} {B : Milo.ChaCha.Backend} (L : Law t B) (h : Host)
include L

theorem same_fullBlocks {full : Nat} {st st' : List W32} {m m' : List Byte} {dst src : Nat} (e1 : st.length = st'.length) (e2 : m.length = m'.length) :
    Same (fullBlocks t full st m dst src) (fullBlocks t full st' m' dst src) := by
  unfold fullBlocks
  refine Same.branch Iff.rfl (fun _ _ => Same.bind (L.transform _ _ _ _ _ _ _ e1 e2) ?_) fun _ _ => Same.pure ⟨e1, e2⟩
  rintro ⟨a, b⟩ ⟨a', b'⟩ ⟨e3, e4⟩
  cases e3
  exact Same.bind (same_bump e1) fun _ _ e => Same.pure ⟨e, e4⟩
theorem same_lastBytes {last : Nat} {buf buf' : List Byte} {st st' : List W32} {m m' : List Byte} {dst src : Nat} (e0 : buf.length = buf'.length) (e1 : st.length = st'.length)
    (e2 : m.length = m'.length) : Same (lastBytes h t last buf st m dst src) (lastBytes h t last buf' st' m' dst src) := by
  unfold lastBytes
  refine Same.branch Iff.rfl (fun _ _ => Same.bind (L.generate _ _ _ _ _ e1 e0) ?_) fun _ _ => Same.pure ⟨rfl, e0, e1, e2⟩
  rintro ⟨a, b⟩ ⟨a', b'⟩ ⟨e3, e4⟩
  cases e3
  exact Same.bind (same_bump e1) fun _ _ e => Same.bind (same_xorMem e2) fun _ _ e5 => Same.pure ⟨rfl, e4, e, e5⟩
theorem same_prodRest {buf buf' : List Byte} {st st' : List W32} {m m' : List Byte} {dst src n : Nat} (e0 : buf.length = buf'.length) (e1 : st.length = st'.length)
    (e2 : m.length = m'.length) : Same (prodRest h t buf st m dst src n) (prodRest h t buf' st' m' dst src n) := by
  unfold prodRest
  refine Same.bind (same_fullBlocks L e1 e2) ?_
  rintro ⟨a, b⟩ ⟨a', b'⟩ e
  exact same_lastBytes L h e0 e.1 e.2
theorem same_prodXor {buf buf' : List Byte} {fill : Nat} {st st' : List W32} {m m' : List Byte} {dst src n : Nat} (e0 : buf.length = buf'.length) (e1 : st.length = st'.length)
    (e2 : m.length = m'.length) : Same (prodXor h t buf fill st m dst src n) (prodXor h t buf' fill st' m' dst src n) := by
  unfold prodXor
  refine Same.branch Iff.rfl (fun _ _ => Same.ite Iff.rfl (fun _ _ => Same.fail) fun _ _ => ?_) fun _ _ => same_prodRest L h e0 e1 e2
  refine Same.bind (Same.advance rfl e0) fun _ _ _ => Same.bind (same_xorMem e2) fun _ _ e3 => ?_
  exact Same.branch Iff.rfl (fun _ _ => Same.pure ⟨rfl, e0, e1, e3⟩) fun _ _ => same_prodRest L h e0 e1 e3
theorem same_encrypt (o o' : Obj) (m m' : List Byte) (src n dst : Nat) (e : Shape.same o o') (em : m.length = m'.length) : Same (encrypt h t o m src n dst) (encrypt h t o' m' src n dst) := by
  unfold encrypt
  rw [show o'.bufferSize = o.bufferSize from e.2.2.symm]
  exact Same.bind (same_prodXor L h e.2.1 e.1 em) fun _ _ e => Same.pure ⟨⟨e.2.2.1, e.2.1, e.1⟩, e.2.2.2, rfl⟩
theorem same_decrypt (o o' : Obj) (m m' : List Byte) (src n dst : Nat) (e : Shape.same o o') (em : m.length = m'.length) : Same (decrypt h t o m src n dst) (decrypt h t o' m' src n dst) := by
  unfold decrypt
  rw [show o'.bufferSize = o.bufferSize from e.2.2.symm]
  exact Same.bind (same_prodXor L h e.2.1 e.1 em) fun _ _ e => Same.pure ⟨⟨e.2.2.1, e.2.1, e.1⟩, e.2.2.2, rfl⟩
end

theorem same_initWords {h : Host} {st st' : List W32} {off n : Nat} {x x' : List Byte} (e : st.length = st'.length) (ex : x.length = x'.length) :
    Same (initWords h st off n x) (initWords h st' off n x') :=
  Same.bind (Same.rdN rfl rfl) fun _ _ e1 => Same.bind (Same.initLe e1 ex) fun _ _ e2 => Same.wrN rfl e e2
theorem same_init (h : Host) (o o' : Obj) (key key' iv iv' : List Byte) (e : Shape.same o o') (ek : key.length = key'.length) (ei : iv.length = iv'.length) :
    Same (init h o key iv) (init h o' key' iv') :=
  Same.bind (Same.wr1 rfl e.1) fun _ _ e1 => Same.bind (Same.wr1 rfl e1) fun _ _ e1 => Same.bind (Same.wr1 rfl e1) fun _ _ e1 => Same.bind (Same.wr1 rfl e1) fun _ _ e1 =>
    Same.bind (same_initWords e1 ek) fun _ _ e1 => Same.bind (same_initWords e1 ei) fun _ _ e1 => Same.pure ⟨e1, e.2.1, rfl⟩

end ChaCha
end Milo.Timed
