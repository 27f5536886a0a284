import Verif.Proof.X64Cong
/- Vector code on the machine does what it does on registers, slots and a list of bytes. -/
namespace Milo.X64
open Memory X86

def zvec : Vec := fun _ => 0

/-- Where things are while the vector code runs: slots at `F`, destination, source and state at `D`, `S`, `Q`; the list memory of the vector code has the
destination at `dOff` and the source at `sOff`; `m0` is the memory before; `val` gives the constants. -/
structure Env where
  r : Regs
  slots : Bool
  F : W64
  D : W64
  S : W64
  Q : W64
  Nd : Nat
  Ns : Nat
  Nq : Nat
  dOff : Nat
  sOff : Nat
  len : Nat
  m0 : W64 → Byte
  roB : List Byte
  val : Ref → Vec

namespace Env
def lanes (E : Env) : Nat := E.r.k.lanes
/-- Number of slots and of bytes they take. -/
def nT (E : Env) : Nat := if E.slots then 6 else 0
def nB (E : Env) : Nat := if E.slots then 16 else 0
def size (E : Env) : Nat := 4 * E.lanes * (if E.slots then 22 else 0)
end Env

structure Env.Ok (E : Env) (M : Machine) : Prop where
  kind : E.r.k ≠ .vex128
  slotsRW : ∀ a, Area E.F E.size a → M.rd a = true ∧ M.wr a = true
  dW : ∀ a, Area E.D E.Nd a → M.wr a = true
  sR : ∀ a, Area E.S E.Ns a → M.rd a = true
  qR : ∀ a, Area E.Q E.Nq a → M.rd a = true
  roR : ∀ a, Area M.ro E.roB.length a → M.rd a = true
  fd : ∀ a, Area E.F E.size a → ¬ Area E.D E.Nd a
  fs : ∀ a, Area E.F E.size a → ¬ Area E.S E.Ns a
  fq : ∀ a, Area E.F E.size a → ¬ Area E.Q E.Nq a
  fro : ∀ a, Area E.F E.size a → ¬ Area M.ro E.roB.length a
  dq : ∀ a, Area E.D E.Nd a → ¬ Area E.Q E.Nq a
  dro : ∀ a, Area E.D E.Nd a → ¬ Area M.ro E.roB.length a
  hd : E.Nd ≤ 2 ^ 64
  hs : E.Ns ≤ 2 ^ 64
  hq : E.Nq ≤ 2 ^ 32
  hro : E.roB.length ≤ 2 ^ 32
  dLen : E.dOff + E.Nd ≤ E.len
  sLen : E.sOff + E.Ns ≤ E.len
  coh : ∀ i j, i < E.Nd → j < E.Ns → (E.D + BitVec.ofNat 64 i = E.S + BitVec.ofNat 64 j ↔ E.dOff + i = E.sOff + j)
  fAl : E.slots = true → E.F.toNat % (4 * E.lanes) = 0
  roAl : M.ro.toNat % 16 = 0
  roVal : ∀ i, i < E.roB.length → E.m0 (M.ro + BitVec.ofNat 64 i) = E.roB.getD i 0
  rds : E.r.dst ≠ E.r.src
  rdq : E.r.dst ≠ E.r.st
  rsq : E.r.src ≠ E.r.st
  rdp : E.r.dst ≠ .rsp
  rsp : E.r.src ≠ .rsp
  rqp : E.r.st ≠ .rsp
  vRo : ∀ off, off + 4 * E.lanes ≤ E.roB.length → LEq E.lanes (E.val (.ro off)) (ofDb (E.roB.drop off))
  vSt : ∀ off, off + 16 ≤ E.Nq → ∀ j, j < E.lanes → E.val (.state off) j = ofDb (bytesAt E.m0 (E.Q + BitVec.ofNat 64 off) 16) (j % 4)
  vSt32 : ∀ off, off + 4 ≤ E.Nq → LEq 4 (E.val (.state32 off)) (vec4 (ofBytes .little 4 (bytesAt E.m0 (E.Q + BitVec.ofNat 64 off) 4)) 0 0 0)

/-- The vector code in state `st`, with `cd` and `cs` bytes behind the two pointers, and the machine in state `s`. -/
structure Sim (E : Env) (cd cs : Nat) (st : St Vec (Option (List Byte))) (s : State) : Prop where
  xl : st.x.length = 16
  x : ∀ i, i < 16 → LEq E.lanes (s.v i) (st.x.getD i zvec)
  tl : st.temp.length = E.nT
  t : ∀ i, i < E.nT → LEq E.lanes (ofDb (bytesAt s.mem (E.F + BitVec.ofNat 64 (4 * E.lanes * i)) (4 * E.lanes))) (st.temp.getD i zvec)
  bl : st.base.length = E.nB
  b : ∀ i, i < E.nB → LEq E.lanes (ofDb (bytesAt s.mem (E.F + BitVec.ofNat 64 (4 * E.lanes * (6 + i))) (4 * E.lanes))) (st.base.getD i zvec)
  mem : ∃ L, st.mem = some L ∧ L.length = E.len ∧ (∀ i, i < E.Nd → s.mem (E.D + BitVec.ofNat 64 i) = L.getD (E.dOff + i) 0) ∧
    (∀ i, i < E.Ns → s.mem (E.S + BitVec.ofNat 64 i) = L.getD (E.sOff + i) 0)
  dst : st.dst = E.dOff + cd
  src : st.src = E.sOff + cs
  gd : s.g E.r.dst = E.D + BitVec.ofNat 64 cd
  gs : s.g E.r.src = E.S + BitVec.ofNat 64 cs
  gq : s.g E.r.st = E.Q
  gp : s.g .rsp = E.F
  frame : ∀ a, ¬ Area E.F E.size a → ¬ Area E.D E.Nd a → s.mem a = E.m0 a

/-! ### Static checks -/

/-- A source operand in memory for an instruction that needs 16-byte alignment (`al`) or not; `Ws` bytes are left from the source pointer on. -/
def srcOk (E : Env) (al : Bool) (Ws : Nat) : Src Ref → Bool
  | .x i => i < 16
  | .temp i => i < E.nT
  | .base i => i < E.nB
  | .const (.ro off) => off + 4 * E.lanes ≤ E.roB.length && (!al || (E.lanes = 4 && off % 16 = 0))
  | .const _ => false
  | .src k => !al && k + 4 * E.lanes ≤ Ws && k < 2 ^ 32

def insOk (E : Env) (Wd Ws : Nat) : Instr Ref → Bool
  | .mov (.x d) (.const (.state off)) => d < 16 && off + 16 ≤ E.Nq
  | .mov (.x d) (.const (.state32 off)) => d < 16 && off + 4 ≤ E.Nq && E.lanes = 4
  | .mov (.x d) (.src k) => d < 16 && srcOk E false Ws (.src k)
  | .mov (.x d) b => d < 16 && srcOk E true Ws b
  | .mov (.temp i) (.x s) => i < E.nT && s < 16
  | .mov (.base i) (.x s) => i < E.nB && s < 16
  | .mov (.dst k) (.x s) => k + 4 * E.lanes ≤ Wd && k < 2 ^ 32 && s < 16
  | .mov _ _ => false
  | .bin _ d a b => d < 16 && a < 16 && srcOk E (E.r.k = .sse) Ws b
  | .unImm _ d a _ => d < 16 && a < 16
  | .binImm _ d a b _ => d < 16 && a < 16 && b < 16
  | .rnds2 d b => d < 16 && b < 16
  | .addDst n => n ≤ Wd && n < 2 ^ 32
  | .addSrc n => n ≤ Ws && n < 2 ^ 32

def useDst : Instr Ref → Nat
  | .addDst n => n
  | _ => 0
def useSrc : Instr Ref → Nat
  | .addSrc n => n
  | _ => 0

/-- Every access is within the slots, the constants, the state, or the next `Wd`, `Ws` bytes. -/
def progOk (E : Env) : Nat → Nat → List (Instr Ref) → Bool
  | _, _, [] => true
  | Wd, Ws, i :: p => encodable E.r.k i && insOk E Wd Ws i && progOk E (Wd - useDst i) (Ws - useSrc i) p

def usedDst : List (Instr Ref) → Nat
  | [] => 0
  | i :: p => useDst i + usedDst p
def usedSrc : List (Instr Ref) → Nat
  | [] => 0
  | i :: p => useSrc i + usedSrc p

/-- The vector code with its constants. -/
def mapSrc (f : Ref → Vec) : Src Ref → Src Vec
  | .x i => .x i
  | .temp i => .temp i
  | .base i => .base i
  | .const r => .const (f r)
  | .src k => .src k

def mapI (f : Ref → Vec) : Instr Ref → Instr Vec
  | .mov d b => .mov d (mapSrc f b)
  | .bin o d a b => .bin o d a (mapSrc f b)
  | .unImm o d a n => .unImm o d a n
  | .binImm o d a b n => .binImm o d a b n
  | .rnds2 d b => .rnds2 d b
  | .addDst n => .addDst n
  | .addSrc n => .addSrc n

section
variable {E : Env} {M : Machine} (ok : E.Ok M) {cd cs : Nat} {st : St Vec (Option (List Byte))} {s : State}

theorem lanes_width (ok : E.Ok M) : Width E.lanes := by
  have := ok.kind
  unfold Env.lanes Kind.lanes
  cases h : E.r.k
  · exact .inl rfl
  · exact absurd h this
  · exact .inr rfl

theorem lanes_le (ok : E.Ok M) : E.lanes ≤ 8 := by rcases lanes_width ok with h | h <;> omega
theorem lanes_ge (ok : E.Ok M) : 4 ≤ E.lanes := by rcases lanes_width ok with h | h <;> omega

theorem size_le (ok : E.Ok M) : E.size ≤ 704 := by
  unfold Env.size
  rcases lanes_width ok with h | h <;> rw [h] <;> split <;> omega

theorem aligned_off (B : W64) (c n : Nat) (hn : n = 16 ∨ n = 32) (hB : B.toNat % n = 0) (hc : c % n = 0) : (B + BitVec.ofNat 64 c).toNat % n = 0 := by
  rw [BitVec.toNat_add, BitVec.toNat_ofNat]
  rcases hn with rfl | rfl <;> omega

theorem readVec_eq {al : Bool} {lanes : Nat} {a : W64} (hal : al = true → a.toNat % (4 * lanes) = 0) (h : ∀ i, i < 4 * lanes → M.rd (a + BitVec.ofNat 64 i) = true) :
    readVec M s lanes al a = some (ofDb (bytesAt s.mem a (4 * lanes))) := by
  unfold readVec
  rw [if_neg, read_eq h]
  · rfl
  · cases al
    · simp
    · simp [hal rfl]

theorem slot_area (ok : E.Ok M) (j i : Nat) (hj : j < 22) (hS : E.slots = true) (hi : i < 4 * E.lanes) :
    Area E.F E.size (E.F + BitVec.ofNat 64 (4 * E.lanes * j) + BitVec.ofNat 64 i) := by
  rw [BitVec.add_assoc, ← BitVec.ofNat_add]
  have hw := lanes_width ok
  refine (area_off _ _ _ ?_).mpr ?_
  · rcases hw with h | h <;> rw [h] at hi ⊢ <;> omega
  · unfold Env.size
    rw [hS]
    rcases hw with h | h <;> rw [h] at hi ⊢ <;> simp <;> omega

theorem slot_read (ok : E.Ok M) (al : Bool) (j : Nat) (hj : j < 22) (hS : E.slots = true) :
    readVec M s E.lanes al (E.F + BitVec.ofNat 64 (4 * E.lanes * j)) = some (ofDb (bytesAt s.mem (E.F + BitVec.ofNat 64 (4 * E.lanes * j)) (4 * E.lanes))) := by
  refine readVec_eq (fun _ => ?_) fun i hi => (ok.slotsRW _ (slot_area ok j i hj hS hi)).1
  have hw := lanes_width ok
  have := ok.fAl hS
  exact aligned_off _ _ _ (by rcases hw with h | h <;> rw [h] <;> omega) this (Nat.mul_mod_right _ _)

theorem slots_of_T {i : Nat} (h : i < E.nT) : E.slots = true ∧ i < 6 := by
  unfold Env.nT at h
  split at h
  · exact ⟨by assumption, h⟩
  · omega
theorem slots_of_B {i : Nat} (h : i < E.nB) : E.slots = true ∧ i < 16 := by
  unfold Env.nB at h
  split at h
  · exact ⟨by assumption, h⟩
  · omega

theorem ofDb_drop (bs : List Byte) (off n j : Nat) (h : off + 4 * n ≤ bs.length) (hj : j < n) : ofDb (bs.drop off) j = ofDb ((bs.drop off).take (4 * n)) j := by
  unfold ofDb
  congr 1
  rw [List.drop_take, List.take_take, Nat.min_eq_left (by omega)]

theorem rd1_getD {α : Type} {l : List α} {i : Nat} (z : α) (h : i < l.length) : rd1 l i = some (l.getD i z) := by
  unfold rd1
  rw [List.getD_eq_getElem?_getD, List.getElem?_eq_getElem h]
  rfl

/-- A source operand that is not a register. -/
theorem get_mem (ok : E.Ok M) (sim : Sim E cd cs st s) (al : Bool) (Ws : Nat) (b : Src Ref) (hb : srcOk E al Ws b = true) (hW : cs + Ws ≤ E.Ns)
    (v : Vec) (m : Option (List Byte)) (hg : X86.get (simd E.lanes) st (mapSrc E.val b) = some (v, m)) :
    m = st.mem ∧ ∃ o, srcOpnd E.r b = some o ∧ (∀ i, b = .x i → o = .x i ∧ LEq E.lanes (s.v i) v) ∧
      (∀ a, o = .m a → ∃ v', readVec M s E.lanes al (addr M s a) = some v' ∧ LEq E.lanes v' v) := by
  have hw := lanes_width ok
  cases b with
  | x i =>
    simp only [srcOk, decide_eq_true_eq] at hb
    simp only [mapSrc, X86.get, rd1_getD zvec (sim.xl ▸ hb), Option.bind_eq_bind, Option.bind_some, Option.pure_def, Option.some.injEq, Prod.mk.injEq] at hg
    refine ⟨hg.2.symm, .x i, rfl, fun j hj => ?_, fun a ha => by simp at ha⟩
    cases hj
    exact ⟨rfl, hg.1 ▸ sim.x i hb⟩
  | temp i =>
    simp only [srcOk, decide_eq_true_eq] at hb
    simp only [mapSrc, X86.get, rd1_getD zvec (sim.tl ▸ hb), Option.bind_eq_bind, Option.bind_some, Option.pure_def, Option.some.injEq, Prod.mk.injEq] at hg
    refine ⟨hg.2.symm, _, rfl, fun j hj => by simp at hj, fun a ha => ?_⟩
    cases ha
    refine ⟨_, ?_, hg.1 ▸ sim.t i hb⟩
    have := slots_of_T hb
    simp only [addr, slot, sim.gp]
    exact slot_read ok al i (by omega) this.1
  | base i =>
    simp only [srcOk, decide_eq_true_eq] at hb
    simp only [mapSrc, X86.get, rd1_getD zvec (sim.bl ▸ hb), Option.bind_eq_bind, Option.bind_some, Option.pure_def, Option.some.injEq, Prod.mk.injEq] at hg
    refine ⟨hg.2.symm, _, rfl, fun j hj => by simp at hj, fun a ha => ?_⟩
    cases ha
    refine ⟨_, ?_, hg.1 ▸ sim.b i hb⟩
    have := slots_of_B hb
    simp only [addr, slot, sim.gp]
    exact slot_read ok al (6 + i) (by omega) this.1
  | const r =>
    cases r with
    | state off => simp [srcOk] at hb
    | state32 off => simp [srcOk] at hb
    | ro off =>
      simp only [srcOk, Bool.and_eq_true, decide_eq_true_eq, Bool.or_eq_true, Bool.not_eq_true'] at hb
      simp only [mapSrc, X86.get, Option.some.injEq, Prod.mk.injEq] at hg
      refine ⟨hg.2.symm, _, rfl, fun j hj => by simp at hj, fun a ha => ?_⟩
      cases ha
      have hin : ∀ i, i < 4 * E.lanes → Area M.ro E.roB.length (M.ro + BitVec.ofNat 64 off + BitVec.ofNat 64 i) := fun i hi => by
        rw [BitVec.add_assoc, ← BitVec.ofNat_add]
        exact (area_off _ _ _ (by have := ok.hro; omega)).mpr (by omega)
      refine ⟨_, readVec_eq (fun h => ?_) fun i hi => ok.roR _ (hin i hi), ?_⟩
      · rcases hb.2 with h' | h'
        · rw [h] at h'; simp at h'
        · simp only [addr]
          rw [h'.1]
          exact aligned_off _ _ _ (.inl rfl) ok.roAl h'.2
      · rw [← hg.1]
        refine LEq.trans ?_ (ok.vRo off hb.1).symm
        have e : bytesAt s.mem (M.ro + BitVec.ofNat 64 off) (4 * E.lanes) = (E.roB.drop off).take (4 * E.lanes) := by
          apply List.ext_getElem?
          intro i
          by_cases hi : i < 4 * E.lanes
          · rw [bytesAt_get _ _ _ _ hi, List.getElem?_take_of_lt hi, List.getElem?_drop,
              sim.frame _ (fun h => ok.fro _ h (hin i hi)) (fun h => ok.dro _ h (hin i hi)), BitVec.add_assoc, ← BitVec.ofNat_add, ok.roVal _ (by omega),
              List.getD_eq_getElem?_getD, List.getElem?_eq_getElem (by omega)]
            rfl
          · rw [List.getElem?_eq_none (by rw [bytesAt_length]; omega), List.getElem?_eq_none (by simp; omega)]
        intro j hj
        show ofDb (bytesAt s.mem (M.ro + BitVec.ofNat 64 off) (4 * E.lanes)) j = _
        rw [e, ofDb_drop _ _ _ _ hb.1 hj]
  | src k =>
    simp only [srcOk, Bool.and_eq_true, decide_eq_true_eq, Bool.not_eq_true'] at hb
    obtain ⟨L, hm, hl, -, hS⟩ := sim.mem
    have hbound : E.sOff + cs + k + 4 * E.lanes ≤ L.length := by have := ok.sLen; omega
    simp only [mapSrc, X86.get, simd, loadVec, hm, sim.src, Option.bind_some, Option.some.injEq, Prod.mk.injEq] at hg
    rw [rdN_some _ _ _ hbound] at hg
    simp only [Prod.mk.injEq] at hg
    refine ⟨by rw [hm]; exact hg.2.symm, _, rfl, fun j hj => by simp at hj, fun a ha => ?_⟩
    cases ha
    have hin : ∀ i, i < 4 * E.lanes → Area E.S E.Ns (E.S + BitVec.ofNat 64 cs + BitVec.ofNat 64 k + BitVec.ofNat 64 i) := fun i hi => by
      rw [BitVec.add_assoc, BitVec.add_assoc, ← BitVec.ofNat_add, ← BitVec.ofNat_add]
      exact (area_off _ _ _ (by have := ok.hs; omega)).mpr (by omega)
    simp only [addr, sim.gs]
    refine ⟨_, readVec_eq (fun h => by rw [h] at hb; simp at hb) fun i hi => ok.sR _ (hin i hi), ?_⟩
    have e : bytesAt s.mem (E.S + BitVec.ofNat 64 cs + BitVec.ofNat 64 k) (4 * E.lanes) = (L.drop (E.sOff + cs + k)).take (4 * E.lanes) := by
      apply List.ext_getElem?
      intro i
      by_cases hi : i < 4 * E.lanes
      · rw [bytesAt_get _ _ _ _ hi, List.getElem?_take_of_lt hi, List.getElem?_drop, BitVec.add_assoc, BitVec.add_assoc, ← BitVec.ofNat_add, ← BitVec.ofNat_add,
          hS _ (by omega), List.getD_eq_getElem?_getD, show E.sOff + (cs + (k + i)) = E.sOff + cs + k + i by omega, List.getElem?_eq_getElem (by omega)]
        rfl
      · rw [List.getElem?_eq_none (by rw [bytesAt_length]; omega), List.getElem?_eq_none (by simp; omega)]
    intro j hj
    rw [← hg.1, e]
    simp only
    rw [if_pos hj]
    rfl

end

end Milo.X64
