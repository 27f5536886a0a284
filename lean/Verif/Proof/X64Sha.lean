import Verif.Proof.X64Call
/- The SHA functions on the machine: prologue, loop, epilogue. -/
namespace Milo.X64
open Memory X86

/-- Constants and state words as the machine reads them, with zeros above the fourth lane. -/
def shaVal (roB : List Byte) (m0 : W64 → Byte) (Q : W64) : Ref → Vec
  | .ro off => fun j => if j < 4 then ofDb (roB.drop off) j else 0
  | .state off => vec4 (ofBytes .little 4 (bytesAt m0 (Q + BitVec.ofNat 64 off) 4)) (ofBytes .little 4 (bytesAt m0 (Q + BitVec.ofNat 64 (off + 4)) 4))
      (ofBytes .little 4 (bytesAt m0 (Q + BitVec.ofNat 64 (off + 8)) 4)) (ofBytes .little 4 (bytesAt m0 (Q + BitVec.ofNat 64 (off + 12)) 4))
  | .state32 off => vec4 (ofBytes .little 4 (bytesAt m0 (Q + BitVec.ofNat 64 off) 4)) 0 0 0

theorem shaVal_state (roB : List Byte) (m0 : W64 → Byte) (Q : W64) (off j : Nat) (hj : j < 4) :
    shaVal roB m0 Q (.state off) j = ofDb (bytesAt m0 (Q + BitVec.ofNat 64 off) 16) (j % 4) := by
  rw [Nat.mod_eq_of_lt hj]
  unfold ofDb
  rw [bytesAt_drop_take _ _ _ _ _ (by omega), off_add]
  obtain rfl | rfl | rfl | rfl : j = 0 ∨ j = 1 ∨ j = 2 ∨ j = 3 := by omega
  all_goals rfl

/-- The environment of a SHA function. -/
def shaEnv (abi : Abi) (F D S Q : W64) (N Nq : Nat) (m0 : W64 → Byte) (roB : List Byte) : Env where
  r := shaRegs abi
  slots := false
  F := F
  D := D
  S := S
  Q := Q
  Nd := 0
  Ns := N
  Nq := Nq
  dOff := 0
  sOff := 0
  len := N
  m0 := m0
  roB := roB
  val := shaVal roB m0 Q

/-- The vector code repeated. -/
def execN (p : List (Instr Vec)) : Nat → St Vec (Option (List Byte)) → Option (St Vec (Option (List Byte)))
  | 0, s => some s
  | n + 1, s => (exec (simd 4) s p).bind (execN p n)

structure ShaCall (abi : Abi) (M : Machine) (B : W64) (s : State) (nv : Nat) (Q S : W64) (n N Nq : Nat) (roB : List Byte) : Prop where
  hnv : nv ≤ 10
  hf : RW M B 1024
  hB : B.toNat % 16 = 8
  hP : s.g .rsp = B + BitVec.ofNat 64 1024
  hret : ∀ a, Area (s.g .rsp) 8 a → M.rd a = true
  hroA : M.ro.toNat % 16 = 0
  hro : ∀ a, Area M.ro roB.length a → M.rd a = true ∧ ¬ Area B 1024 a
  hroL : roB.length ≤ 2 ^ 32
  hroB : bytesAt s.mem M.ro roB.length = roB
  hQ : ∀ a, Area Q Nq a → M.rd a = true ∧ ¬ Area B 1024 a
  hW : ∀ a, Area Q Nq a → M.wr a = true ∧ ¬ Area B 1032 a
  hS : ∀ a, Area S N a → M.rd a = true ∧ ¬ Area B 1024 a
  hNq : Nq ≤ 32
  hn : s.g (abi.arg 0) = BitVec.ofNat 64 n
  hn' : n < 2 ^ 64
  hN : N = 64 * n
  hN' : N ≤ 2 ^ 64
  gQ : s.g (abi.arg 1) = Q
  gS : s.g (abi.arg 2) = S

/-- What the frame keeps of the state the function was entered in. -/
def ShaFramed (abi : Abi) (nv : Nat) (B : W64) (s0 : State) (m : W64 → Byte) : Prop :=
  abi = .wind → bytesAt m (B + BitVec.ofNat 64 1016) 8 = toLE 8 (s0.g .rbp).toNat ∧
    ∀ i, i < nv → bytesAt m (B + BitVec.ofNat 64 (1016 - (0 + 16 * (i + 1)))) 16 = vecBytes 4 (s0.v (6 + i))

theorem ShaFramed.congr {abi : Abi} {nv : Nat} {B : W64} {s0 : State} {m m' : W64 → Byte} (h : ShaFramed abi nv B s0 m) (hnv : nv ≤ 10)
    (he : ∀ a, Area B 1024 a → m' a = m a) : ShaFramed abi nv B s0 m' := by
  have key : ∀ u n, u + n ≤ 1024 → bytesAt m' (B + BitVec.ofNat 64 u) n = bytesAt m (B + BitVec.ofNat 64 u) n := by
    intro u n h2
    apply bytesAt_congr
    intro i hi
    apply he
    rw [off_add]
    exact (area_off _ _ _ (by omega)).mpr (by omega)
  intro hw
  obtain ⟨h1, h2⟩ := h hw
  refine ⟨?_, fun i hi => ?_⟩
  · rw [key _ _ (by omega)]; exact h1
  · rw [key _ _ (by omega)]; exact h2 i hi

section
variable {M : Machine} {B : W64} {s : State}

/-- The prologue. -/
theorem sha_head (abi : Abi) (nv : Nat) (hnv : nv ≤ 10) (hf : RW M B 1024) (hB : B.toNat % 16 = 8) (hP : s.g .rsp = B + BitVec.ofNat 64 1024) :
    ∃ t, insAll M s (shaHead abi nv) = some t ∧ t.v = s.v ∧ ShaFramed abi nv B s t.mem ∧ (∀ a, ¬ Area B 1024 a → t.mem a = s.mem a) ∧
      (abi = .wind → t.g .rbp = B + BitVec.ofNat 64 1016) ∧ (∀ q, (abi = .wind → q ∉ [Reg.rsp, .rbp]) → t.g q = s.g q) := by
  cases abi with
  | unix => exact ⟨s, rfl, rfl, fun h => by simp at h, fun _ _ => rfl, fun h => by simp at h, fun _ _ => rfl⟩
  | wind =>
    obtain ⟨u1, hu1⟩ : ∃ u, u = 1016 := ⟨_, rfl⟩
    have e1 := push_eq (s := s) hf (by omega) .rbp 1024 (by omega) (by omega) hP
    rw [show 1024 - 8 = u1 by omega] at e1
    generalize ht1 : setM (setG s .rsp (B + BitVec.ofNat 64 u1)) (putBytes s.mem (B + BitVec.ofNat 64 u1) (toLE 8 (s.g .rbp).toNat)) = t1 at e1
    have g1 : t1.g .rsp = B + BitVec.ofNat 64 u1 := by rw [← ht1, setM_g, setG_self]
    generalize ht2 : alu (setG t1 .rbp (t1.g .rsp)) .rsp ((setG t1 .rbp (t1.g .rsp)).g .rsp - BitVec.ofNat 64 (16 * nv)) = t2
    have e2 : insAll M t1 [.mov .rbp .rsp, .sub .rsp (BitVec.ofNat 64 (16 * nv))] = some t2 := by rw [← ht2]; exact insAll_cons rfl (insAll_cons rfl rfl)
    have g2 : t2.g .rbp = B + BitVec.ofNat 64 u1 := by rw [← ht2, alu_ne _ _ (by decide), setG_self, g1]
    obtain ⟨m', e3, h1, h2⟩ := saves_exec (s := t2) hf (by omega) 0 nv u1 (by omega) (by omega) g2 (by omega)
    have hv2 : t2.v = s.v := by rw [← ht2, ← ht1]; rfl
    have hm2 : t2.mem = putBytes s.mem (B + BitVec.ofNat 64 u1) (toLE 8 (s.g .rbp).toNat) := by rw [← ht2, ← ht1]; rfl
    rw [← hu1]
    refine ⟨{ t2 with mem := m' }, insAll_some (insAll_cons e1 e2) e3, hv2, fun _ => ⟨?_, fun i hi => ?_⟩, fun a ha => ?_, fun _ => g2, fun q hq => ?_⟩
    · show bytesAt m' _ _ = _
      rw [← hu1, bytesAt_congr (m' := t2.mem) fun i hi => h2 _ ?_, hm2]
      · have := bytesAt_putBytes s.mem (B + BitVec.ofNat 64 u1) (toLE 8 (s.g .rbp).toNat) (by rw [toLE_length]; omega)
        rw [toLE_length] at this
        exact this
      · rw [off_add, area_sub_off _ _ _ _ (by omega) (by omega)]
        omega
    · rw [← hu1, ← hv2]
      exact h1 i hi
    · show m' a = _
      rw [h2 a fun hc => ha (area_imp _ _ (by omega) (by omega) a hc), hm2, putBytes_out]
      intro hc
      rw [toLE_length] at hc
      exact ha (area_imp _ _ (by omega) (by omega) a hc)
    · have hq := hq rfl
      simp only [List.mem_cons, List.not_mem_nil, or_false, not_or] at hq
      show t2.g q = _
      rw [← ht2, alu_ne _ _ hq.1, setG_ne _ _ hq.2, ← ht1, setM_g, setG_ne _ _ hq.1]

/-- The epilogue, up to `ret`. -/
theorem sha_tail (abi : Abi) (nv : Nat) (hnv : nv ≤ 10) (hf : RW M B 1024) (hB : B.toNat % 16 = 8) (s0 : State)
    (hbp : abi = .wind → s.g .rbp = B + BitVec.ofNat 64 1016) (hsp : abi = .unix → s.g .rsp = B + BitVec.ofNat 64 1024 ∧ s.g .rbp = s0.g .rbp)
    (fr : ShaFramed abi nv B s0 s.mem) :
    ∃ t, insAll M s (shaTail abi nv) = some t ∧ t.g .rsp = B + BitVec.ofNat 64 1024 ∧ t.g .rbp = s0.g .rbp ∧ t.g .rax = s.g (abi.arg 0) ∧
      (∀ q, q ∉ [Reg.rsp, .rbp, .rax] → t.g q = s.g q) ∧ t.mem = s.mem ∧
      (abi = .wind → ∀ i, 6 ≤ i → LEq 4 (t.v i) (if i < 6 + nv then s0.v i else s.v i)) := by
  cases abi with
  | unix =>
    obtain ⟨p, b⟩ := hsp rfl
    refine ⟨setG s .rax (s.g .rdi), rfl, ?_, ?_, setG_self _ _ _, fun q hq => ?_, rfl, fun h => by simp at h⟩
    · rw [setG_ne _ _ (by decide), p]
    · rw [setG_ne _ _ (by decide), b]
    · simp only [List.mem_cons, List.not_mem_nil, or_false, not_or] at hq
      exact setG_ne _ _ hq.2.2
  | wind =>
    obtain ⟨f1, f2⟩ := fr rfl
    have hbp := hbp rfl
    obtain ⟨v', e1, h1, h1'⟩ : ∃ v', insAll M s (restoreVec 0 nv) = some { s with v := v' } ∧ (∀ i, i < nv → LEq 4 (v' (6 + i)) (s0.v (6 + i))) ∧
        (∀ i, 6 + nv ≤ i → v' i = s.v i) := restores_keep hf (by omega) 0 nv 1016 (by omega) (by omega) hbp (by omega) s0.v f2
    have e3 : ins M { s with v := v' } (.mov .rsp .rbp) = some (setG { s with v := v' } .rsp (B + BitVec.ofNat 64 1016)) := by rw [← hbp]; rfl
    have e5 := pop_eq (s := setG { s with v := v' } .rsp (B + BitVec.ofNat 64 1016)) hf (by omega) .rbp 1016 (by omega) (setG_self _ _ _) _ f1
    refine ⟨_, insAll_some (insAll_some e1 (insAll_cons e3 (insAll_cons e5 rfl))) (insAll_cons rfl rfl), ?_, ?_, ?_, ?_, rfl, ?_⟩
    · rw [setG_ne _ _ (by decide), setG_ne _ _ (by decide), setG_self]
    · rw [setG_ne _ _ (by decide), setG_self]
    · rw [setG_self]
      show (setG _ .rbp _).g .rcx = s.g .rcx
      rw [setG_ne _ _ (by decide), setG_ne _ _ (by decide), setG_ne _ _ (by decide)]
    · intro q hq
      simp only [List.mem_cons, List.not_mem_nil, or_false, not_or] at hq
      rw [setG_ne _ _ hq.2.2, setG_ne _ _ hq.2.1, setG_ne _ _ hq.1, setG_ne _ _ hq.1]
    · intro _ i hi
      show LEq 4 (v' i) _
      by_cases c : i < 6 + nv
      · rw [if_pos c]
        obtain ⟨d, rfl⟩ : ∃ d, i = 6 + d := ⟨i - 6, by omega⟩
        exact h1 d (by omega)
      · rw [if_neg c, h1' i (by omega)]
        exact .refl _ _

end

/-! ### Vector registers not written -/

/-- The instruction writes no vector register from `b` on. -/
def below (b : Nat) : Ins → Bool
  | .vzeroupper => false
  | .vload _ _ d _ => d < b
  | .vmov _ d _ => d < b
  | .movdLoad d _ => d < b
  | .vbroadcasti128 d _ => d < b
  | .bin _ _ d _ _ => d < b
  | .unImm _ _ d _ _ => d < b
  | .binImm _ _ d _ _ _ => d < b
  | .rnds2 d _ => d < b
  | _ => true

theorem setV_ne (s : State) {i q : Nat} (v : Vec) (h : q ≠ i) : (setV s i v).v q = s.v q := if_neg h

theorem write_v {M : Machine} {s t : State} {a : W64} {bs : List Byte} (h : M.write s a bs = some t) : t.v = s.v ∧ t.g = s.g := by
  unfold Machine.write at h
  split at h
  · cases h; exact ⟨rfl, rfl⟩
  · cases h

theorem ins_below {M : Machine} {b : Nat} {s t : State} {i : Ins} (hb : below b i = true) (h : ins M s i = some t) (q : Nat) (hq : b ≤ q) : t.v q = s.v q := by
  have bind : ∀ {α : Type} {o : Option α} {f : α → Option State}, o.bind f = some t → ∃ a, o = some a ∧ f a = some t := fun h => Option.bind_eq_some_iff.mp h
  cases i with
  | vzeroupper => simp [below] at hb
  | push r =>
    obtain ⟨u, h1, h2⟩ := bind (show (M.write _ _ _).bind _ = _ from h)
    cases h2
    exact congrFun (write_v h1).1 q
  | pop r =>
    obtain ⟨u, h1, h2⟩ := bind (show (M.read _ _ _).bind _ = _ from h)
    cases h2
    rfl
  | load r a =>
    obtain ⟨u, h1, h2⟩ := bind (show (M.read _ _ _).bind _ = _ from h)
    cases h2
    rfl
  | store32 a r => exact congrFun (write_v h).1 q
  | movdStore a r => exact congrFun (write_v h).1 q
  | vstore k al a r =>
    have h : (if _ then none else M.write _ _ _) = some t := h
    split at h
    · cases h
    · exact congrFun (write_v h).1 q
  | vload k al d a =>
    obtain ⟨u, h1, h2⟩ := bind (show (readVec _ _ _ _ _).bind _ = _ from h)
    cases h2
    simp only [below, decide_eq_true_eq] at hb
    exact setV_ne _ _ (by omega)
  | movdLoad d a =>
    obtain ⟨u, h1, h2⟩ := bind (show (M.read _ _ _).bind _ = _ from h)
    cases h2
    simp only [below, decide_eq_true_eq] at hb
    exact setV_ne _ _ (by omega)
  | vbroadcasti128 d a =>
    obtain ⟨u, h1, h2⟩ := bind (show (readVec _ _ _ _ _).bind _ = _ from h)
    cases h2
    simp only [below, decide_eq_true_eq] at hb
    exact setV_ne _ _ (by omega)
  | bin k o d a x =>
    obtain ⟨u, h1, h2⟩ := bind (show (opndVal _ _ _ _).bind _ = _ from h)
    cases h2
    simp only [below, decide_eq_true_eq] at hb
    exact setV_ne _ _ (by omega)
  | vmov k d r =>
    cases h
    simp only [below, decide_eq_true_eq] at hb
    exact setV_ne _ _ (by omega)
  | unImm k o d a n =>
    cases h
    simp only [below, decide_eq_true_eq] at hb
    exact setV_ne _ _ (by omega)
  | binImm k o d a x n =>
    cases h
    simp only [below, decide_eq_true_eq] at hb
    exact setV_ne _ _ (by omega)
  | rnds2 d x =>
    cases h
    simp only [below, decide_eq_true_eq] at hb
    exact setV_ne _ _ (by omega)
  | ud2 => cases h
  | _ => cases h; rfl

theorem insAll_below {M : Machine} {b : Nat} {s t : State} {is : List Ins} (hb : is.all (below b) = true) (h : insAll M s is = some t) (q : Nat) (hq : b ≤ q) : t.v q = s.v q := by
  induction is generalizing s with
  | nil => cases h; rfl
  | cons i is ih =>
    simp only [List.all_cons, Bool.and_eq_true] at hb
    obtain ⟨u, h1, h2⟩ := Option.bind_eq_some_iff.mp (show (ins M s i).bind _ = _ from h)
    rw [ih hb.2 h2, ins_below hb.1 h1 q hq]

/-! ### The loop -/

section
variable {E : Env} {M : Machine} {cd : List Line}

/-- The loop, entered with `n + 1` in `rax`. -/
theorem sha_loop (ok : E.Ok M) (hl : E.lanes = 4) (p : List (Instr Ref)) (b : Nat) (hb : (p.map (lower E.r)).all (below b) = true) (hp : progOk E 0 64 p = true)
    (h0 : usedDst p = 0) (h1 : usedSrc p = 64) (hbd : E.r.dst ≠ .rax) (hbs : E.r.src ≠ .rax) (hbq : E.r.st ≠ .rax) (rest : List Line)
    (ht : target .blocks_loop cd = some (code E.r p ++ (.ins (.sub .rax 1) :: .jnz .blocks_loop :: rest)))
    (n : Nat) (hn : n < 2 ^ 64 - 1) (c : Nat) (hc : c + 64 * (n + 1) ≤ E.Ns) (st st' : St Vec (Option (List Byte))) (s : State) (sim : Sim E 0 c st s)
    (hx : s.g .rax = BitVec.ofNat 64 (n + 1)) (h : execN (p.map (mapI E.val)) (n + 1) st = some st') :
    ∃ s', Reach M cd (.at (code E.r p ++ (.ins (.sub .rax 1) :: .jnz .blocks_loop :: rest)) s) (.at rest s') ∧ Sim E 0 (c + 64 * (n + 1)) st' s' ∧
      KeepsX E [.rax] s s' ∧ (∀ q, b ≤ q → s'.v q = s.v q) := by
  induction n generalizing c st s with
  | zero =>
    obtain ⟨st1, e1, e2⟩ := Option.bind_eq_some_iff.mp (show (exec _ _ _).bind _ = _ from h)
    cases e2
    rw [← hl] at e1
    obtain ⟨s1, f1, sim1, k1⟩ := run_ok ok _ sim 0 64 hp (by omega) (by omega) _ e1
    rw [h0, h1, Nat.add_zero] at sim1
    have hx1 : s1.g .rax = BitVec.ofNat 64 (0 + 1) := (k1 _ hbd.symm hbs.symm).trans hx
    refine ⟨alu s1 .rax (s1.g .rax - 1), ?_, sim_same sim1 (same_alu _ _ _) (by simpa using hbd) (by simpa using hbs) (by simpa using hbq) (by simp), ?_, ?_⟩
    · refine (reach_code f1).trans (.trans (reach_one rfl) (.step ?_ (.refl _)))
      show (if (alu s1 .rax (s1.g .rax - 1)).zf then _ else _) = _
      rw [if_pos]
      show (s1.g .rax - 1 == 0) = true
      rw [hx1, dec_val]
      rfl
    · exact (KeepsX.of k1).trans (.same (same_alu _ _ _) (by simp))
    · exact fun q hq => insAll_below hb f1 q hq
  | succ n ih =>
    obtain ⟨st1, e1, e2⟩ := Option.bind_eq_some_iff.mp (show (exec _ _ _).bind _ = _ from h)
    rw [← hl] at e1
    obtain ⟨s1, f1, sim1, k1⟩ := run_ok ok _ sim 0 64 hp (by omega) (by omega) _ e1
    rw [h0, h1, Nat.add_zero] at sim1
    have hx1 : s1.g .rax = BitVec.ofNat 64 (n + 1 + 1) := (k1 _ hbd.symm hbs.symm).trans hx
    have sim2 := sim_same sim1 (same_alu s1 .rax (s1.g .rax - 1)) (by simpa using hbd) (by simpa using hbs) (by simpa using hbq) (by simp)
    have hx2 : (alu s1 .rax (s1.g .rax - 1)).g .rax = BitVec.ofNat 64 (n + 1) := by
      rw [alu_self, hx1, dec_val]
    obtain ⟨s', r, sim', k', v'⟩ := ih (by omega) (c + 64) (by omega) st1 _ sim2 hx2 e2
    refine ⟨s', ?_, ?_, ?_, ?_⟩
    · refine (reach_code f1).trans (.trans (reach_one rfl) (.step ?_ r))
      show (if (alu s1 .rax (s1.g .rax - 1)).zf then _ else _) = _
      rw [if_neg]
      · unfold jump
        rw [ht]
        rfl
      · show ¬ (s1.g .rax - 1 == 0) = true
        rw [hx1, dec_val, ofNat_zero_iff _ (by omega)]
        simp
    · rw [show c + 64 * (n + 1 + 1) = c + 64 + 64 * (n + 1) by omega]
      exact sim'
    · exact (KeepsX.of k1).trans ((KeepsX.same (same_alu _ _ _) (by simp)).trans k')
    · intro q hq
      rw [v' q hq]
      exact insAll_below hb f1 q hq

end

/-! ### The whole function -/

/-- Static checks of the vector code of a SHA function; `b` is the first vector register it does not write. -/
structure ShaProg (abi : Abi) (load block unload : List (Instr Ref)) (b Nq : Nat) (roB : List Byte) : Prop where
  pl : ∀ F D S Q N m0, progOk (shaEnv abi F D S Q N Nq m0 roB) 0 0 load = true
  pb : ∀ F D S Q N m0, progOk (shaEnv abi F D S Q N Nq m0 roB) 0 64 block = true
  pu : ∀ F D S Q N m0, progOk (shaEnv abi F D S Q N Nq m0 roB) 0 0 unload = true
  ul : usedDst load = 0 ∧ usedSrc load = 0
  ub : usedDst block = 0 ∧ usedSrc block = 64
  uu : usedDst unload = 0 ∧ usedSrc unload = 0
  bl : (load.map (lower (shaRegs abi))).all (below b) = true
  bb : (block.map (lower (shaRegs abi))).all (below b) = true
  bu : (unload.map (lower (shaRegs abi))).all (below b) = true

section
variable {abi : Abi} {M : Machine} {B : W64} {s : State} {nv : Nat} {Q S : W64} {n N Nq : Nat} {roB : List Byte}

theorem sha_env_ok (h : ShaCall abi M B s nv Q S n N Nq roB) (F D : W64) (m : W64 → Byte) (hm : ∀ a, ¬ Area B 1024 a → m a = s.mem a) :
    (shaEnv abi F D S Q N Nq m roB).Ok M := by
  have hsz : (shaEnv abi F D S Q N Nq m roB).size = 0 := rfl
  have no : ∀ (b a : W64), ¬ Area b 0 a := fun b a h => Nat.not_lt_zero _ h
  constructor
  · show Kind.sse ≠ .vex128
    decide
  · rw [hsz]; exact fun a ha => absurd ha (no _ _)
  · exact fun a ha => absurd ha (no _ _)
  · exact fun a ha => (h.hS a ha).1
  · exact fun a ha => (h.hQ a ha).1
  · exact fun a ha => (h.hro a ha).1
  · rw [hsz]; exact fun a ha => absurd ha (no _ _)
  · rw [hsz]; exact fun a ha => absurd ha (no _ _)
  · rw [hsz]; exact fun a ha => absurd ha (no _ _)
  · rw [hsz]; exact fun a ha => absurd ha (no _ _)
  · exact fun a ha => absurd ha (no _ _)
  · exact fun a ha => absurd ha (no _ _)
  · exact Nat.zero_le _
  · exact h.hN'
  · exact Nat.le_trans h.hNq (by omega)
  · exact h.hroL
  · exact Nat.zero_le _
  · exact Nat.le_of_eq (Nat.zero_add _)
  · exact fun i j hi _ => absurd hi (Nat.not_lt_zero _)
  · exact fun hc => by cases hc
  · exact h.hroA
  · intro i hi
    have hi : i < roB.length := hi
    have hL := h.hroL
    show m (M.ro + BitVec.ofNat 64 i) = roB.getD i 0
    rw [hm _ (h.hro _ ((area_off _ _ _ (by omega)).mpr hi)).2]
    have e := congrArg (fun l => l[i]?) h.hroB
    rw [show (bytesAt s.mem M.ro roB.length)[i]? = some (s.mem (M.ro + BitVec.ofNat 64 i)) from bytesAt_get _ _ _ _ hi] at e
    rw [List.getD_eq_getElem?_getD, ← e]
    rfl
  · show Reg.r11 ≠ abi.arg 2
    cases abi <;> decide
  · show Reg.r11 ≠ abi.arg 1
    cases abi <;> decide
  · show abi.arg 2 ≠ abi.arg 1
    cases abi <;> decide
  · show Reg.r11 ≠ .rsp
    decide
  · show abi.arg 2 ≠ .rsp
    cases abi <;> decide
  · show abi.arg 1 ≠ .rsp
    cases abi <;> decide
  · intro off _ j hj
    exact if_pos hj
  · intro off _ j hj
    exact shaVal_state roB m Q off j hj
  · exact fun off _ => .refl _ _

/-- From the entry to where the state is stored. -/
theorem sha_mid (h : ShaCall abi M B s nv Q S n N Nq roB) {load block unload : List (Instr Ref)} {store : List Ins} (p : ShaProg abi load block unload (6 + nv) Nq roB)
    (st1 st2 st3 : St Vec (Option (List Byte)))
    (hl : exec (simd 4) ⟨(List.range 16).map s.v, [], [], some (bytesAt s.mem S N), 0, 0⟩ (load.map (mapI (shaVal roB s.mem Q))) = some st1)
    (hb : execN (block.map (mapI (shaVal roB s.mem Q))) n st1 = some st2) (hu : exec (simd 4) st2 (unload.map (mapI (shaVal roB s.mem Q))) = some st3)
    (hval : ∀ m, (∀ a, ¬ Area B 1024 a → m a = s.mem a) → ∀ q ∈ [load, block, unload], q.map (mapI (shaVal roB m Q)) = q.map (mapI (shaVal roB s.mem Q))) :
    ∃ s3, Reach M (shaLoop abi nv load block unload store) (.at (shaLoop abi nv load block unload store) s) (.at (store.map .ins ++ ((shaTail abi nv).map .ins ++ [.ret])) s3) ∧
      (∀ i, i < 16 → LEq 4 (s3.v i) (st3.x.getD i zvec)) ∧ (∀ a, ¬ Area B 1024 a → s3.mem a = s.mem a) ∧ ShaFramed abi nv B s s3.mem ∧
      (abi = .wind → s3.g .rbp = B + BitVec.ofNat 64 1016) ∧ (abi = .unix → s3.g .rsp = s.g .rsp ∧ s3.g .rbp = s.g .rbp) ∧
      (∀ q, q ∉ [Reg.rsp, .rbp, .rax, .r11, abi.arg 2] → s3.g q = s.g q) ∧ (∀ q, 6 + nv ≤ q → s3.v q = s.v q) := by
  obtain ⟨t, e0, v0, fr0, m0, b0, g0⟩ := sha_head (M := M) (s := s) abi nv h.hnv h.hf h.hB h.hP
  have ok := sha_env_ok h (t.g .rsp) (t.g .r11) t.mem m0
  have hv := hval t.mem m0
  have r1 : ∀ i, i < 3 → abi.arg i ∉ [Reg.rsp, .rbp] := by
    intro i hi
    obtain rfl | rfl | rfl : i = 0 ∨ i = 1 ∨ i = 2 := by omega
    all_goals cases abi <;> decide
  have hN := h.hN
  have hN' := h.hN'
  have sim0 : Sim (shaEnv abi (t.g .rsp) (t.g .r11) S Q N Nq t.mem roB) 0 0 ⟨(List.range 16).map s.v, [], [], some (bytesAt s.mem S N), 0, 0⟩ t := by
    refine ⟨by simp, fun i hi => ?_, rfl, fun i hi => absurd hi (Nat.not_lt_zero _), rfl, fun i hi => absurd hi (Nat.not_lt_zero _),
      ⟨_, rfl, bytesAt_length _ _ _, fun i hi => absurd hi (Nat.not_lt_zero _), fun i hi => ?_⟩, rfl, rfl, ?_, ?_, ?_, rfl, fun _ _ _ => rfl⟩
    · rw [v0]
      simp [hi]
      exact .refl _ _
    · have hi : i < N := hi
      show t.mem (S + _) = (bytesAt s.mem S N).getD (0 + i) 0
      rw [Nat.zero_add, bytesAt_getD _ _ _ _ hi]
      exact m0 _ (h.hS _ ((area_off _ _ _ (by omega)).mpr hi)).2
    · show t.g .r11 = t.g .r11 + 0#64
      rw [BitVec.add_zero]
    · show t.g (abi.arg 2) = S + 0#64
      rw [BitVec.add_zero, g0 _ fun _ => r1 2 (by omega), h.gS]
    · show t.g (abi.arg 1) = Q
      rw [g0 _ fun _ => r1 1 (by omega), h.gQ]
  have hl' : exec (simd (shaEnv abi (t.g .rsp) (t.g .r11) S Q N Nq t.mem roB).lanes) ⟨(List.range 16).map s.v, [], [], some (bytesAt s.mem S N), 0, 0⟩
      (load.map (mapI (shaEnv abi (t.g .rsp) (t.g .r11) S Q N Nq t.mem roB).val)) = some st1 := (congrArg _ (hv load (by simp))).trans hl
  obtain ⟨s1, e1, sim1, k1⟩ := run_ok ok _ sim0 0 0 (p.pl _ _ _ _ _ _) (Nat.zero_le _) (Nat.zero_le _) _ hl'
  rw [p.ul.1, p.ul.2, Nat.add_zero] at sim1
  have n0 : abi.arg 0 ≠ .r11 ∧ abi.arg 0 ≠ abi.arg 2 ∧ abi.arg 1 ≠ .rax ∧ abi.arg 2 ≠ .rax ∧ Reg.rbp ≠ abi.arg 2 ∧ Reg.rsp ≠ abi.arg 2 := by cases abi <;> decide
  have hx1 : s1.g (abi.arg 0) = BitVec.ofNat 64 n := by rw [k1 _ n0.1 n0.2.1, g0 _ fun _ => r1 0 (by omega), h.hn]
  have v1 : ∀ q, 6 + nv ≤ q → s1.v q = s.v q := fun q hq => by rw [insAll_below p.bl e1 q hq, v0]
  generalize hs1 : setG { s1 with zf := (s1.g (abi.arg 0) &&& s1.g (abi.arg 0)) == 0 } .rax (s1.g (abi.arg 0)) = s1'
  have e1' : insAll M s1 [.test (abi.arg 0) (abi.arg 0), .mov .rax (abi.arg 0)] = some s1' := by rw [← hs1]; exact insAll_cons rfl (insAll_cons rfl rfl)
  have same1 : Same [.rax] s1 s1' := by
    rw [← hs1]
    exact ⟨rfl, rfl, fun q hq => setG_ne _ _ (by simpa using hq)⟩
  have sim1' := sim_same sim1 same1 (by simp [shaEnv, shaRegs]) (by simpa [shaEnv, shaRegs] using n0.2.2.2.1) (by simpa [shaEnv, shaRegs] using n0.2.2.1) (by simp)
  have hz : s1'.zf = decide (n = 0) := by
    rw [← hs1]
    show ((s1.g (abi.arg 0) &&& s1.g (abi.arg 0)) == 0) = _
    rw [BitVec.and_self, hx1, ofNat_zero_iff _ h.hn']
  have hx : s1'.g .rax = BitVec.ofNat 64 n := by rw [← hs1, setG_self, hx1]
  -- the loop
  obtain ⟨s2, r2, sim2, k2, v2⟩ : ∃ s2, Reach M (shaLoop abi nv load block unload store) (.at (.jz .blocks_loop_end :: .label .blocks_loop ::
      (code (shaRegs abi) block ++ (.ins (.sub .rax 1) :: .jnz .blocks_loop :: .label .blocks_loop_end ::
      (code (shaRegs abi) unload ++ (store.map .ins ++ ((shaTail abi nv).map .ins ++ [.ret])))))) s1')
      (.at (code (shaRegs abi) unload ++ (store.map .ins ++ ((shaTail abi nv).map .ins ++ [.ret]))) s2) ∧
      Sim (shaEnv abi (t.g .rsp) (t.g .r11) S Q N Nq t.mem roB) 0 N st2 s2 ∧ KeepsX (shaEnv abi (t.g .rsp) (t.g .r11) S Q N Nq t.mem roB) [.rax] s1' s2 ∧
      (∀ q, 6 + nv ≤ q → s2.v q = s1'.v q) := by
    by_cases hn0 : n = 0
    · subst hn0
      cases hb
      have hN0 : N = 0 := by omega
      refine ⟨s1', .step ?_ (.refl _), ?_, fun _ _ _ _ => rfl, fun _ _ => rfl⟩
      · show (if s1'.zf then _ else _) = _
        rw [hz, if_pos (by simp)]
        unfold jump shaLoop
        simp only [target_ins, target_code, target]
        rfl
      · rw [hN0] at sim1' ⊢
        exact sim1'
    · obtain ⟨n, rfl⟩ : ∃ m, n = m + 1 := ⟨n - 1, by omega⟩
      have hn' := h.hn'
      have hb' : execN (block.map (mapI (shaEnv abi (t.g .rsp) (t.g .r11) S Q N Nq t.mem roB).val)) (n + 1) st1 = some st2 :=
        (congrArg (fun x => execN x (n + 1) st1) (hv block (by simp))).trans hb
      obtain ⟨s2, r2, sim2, k2, v2⟩ := sha_loop (cd := shaLoop abi nv load block unload store) ok rfl block (6 + nv) p.bb (p.pb _ _ _ _ _ _) p.ub.1 p.ub.2
        (by simp [shaEnv, shaRegs]) n0.2.2.2.1 n0.2.2.1
        (.label .blocks_loop_end :: (code (shaRegs abi) unload ++ (store.map .ins ++ ((shaTail abi nv).map .ins ++ [.ret]))))
        (by unfold shaLoop; simp only [target_ins, target_code, target]; rfl) n (by omega) 0 (by show 0 + 64 * (n + 1) ≤ N; omega) st1 st2 s1' sim1' hx hb'
      refine ⟨s2, .step (jz_no (by rw [hz]; simp)) (reach_label.trans (r2.trans reach_label)), ?_, k2, v2⟩
      rw [show N = 0 + 64 * (n + 1) by omega] at sim2 ⊢
      exact sim2
  have hu' : exec (simd (shaEnv abi (t.g .rsp) (t.g .r11) S Q N Nq t.mem roB).lanes) st2
      (unload.map (mapI (shaEnv abi (t.g .rsp) (t.g .r11) S Q N Nq t.mem roB).val)) = some st3 := (congrArg _ (hv unload (by simp))).trans hu
  obtain ⟨s3, e3, sim3, k3⟩ := run_ok ok _ sim2 0 0 (p.pu _ _ _ _ _ _) (Nat.zero_le _) (Nat.le_refl _) _ hu'
  have hmem : ∀ a, s3.mem a = t.mem a := fun a => sim3.frame a (Nat.not_lt_zero _) (Nat.not_lt_zero _)
  have hg : ∀ q, q ∉ [Reg.rax, .r11, abi.arg 2] → s3.g q = t.g q := by
    intro q hq
    simp only [List.mem_cons, List.not_mem_nil, or_false, not_or] at hq
    rw [k3 q hq.2.1 hq.2.2, k2 q (by simpa using hq.1) hq.2.1 hq.2.2, same1.g q (by simpa using hq.1), k1 q hq.2.1 hq.2.2]
  refine ⟨s3, ?_, fun i hi => sim3.x i hi, fun a ha => by rw [hmem, m0 a ha], fr0.congr h.hnv fun a _ => hmem a, fun hw => ?_, fun hx => ?_, fun q hq => ?_, fun q hq => ?_⟩
  · exact (reach_ins e0).trans ((reach_code e1).trans ((reach_ins e1').trans (r2.trans (reach_code e3))))
  · rw [hg .rbp (by simp [n0.2.2.2.2.1]), b0 hw]
  · rw [hg .rbp (by simp [n0.2.2.2.2.1]), hg .rsp (by simp [n0.2.2.2.2.2])]
    subst hx
    exact ⟨g0 _ fun hc => by simp at hc, g0 _ fun hc => by simp at hc⟩
  · simp only [List.mem_cons, List.not_mem_nil, or_false, not_or] at hq
    rw [hg q (by simp [hq.2.2.1, hq.2.2.2.1, hq.2.2.2.2]), g0 q fun _ => by simp [hq.1, hq.2.1]]
  · rw [insAll_below p.bu e3 q hq, v2 q hq, same1.v, v1 q hq]

/-- From where the state has been stored to the return. -/
theorem sha_end (h : ShaCall abi M B s nv Q S n N Nq roB) (hBe : B = s.g .rsp - 1024) {cd : List Line} {store : List Ins} {s3 s4 : State}
    (r : Reach M cd (.at cd s) (.at (store.map .ins ++ ((shaTail abi nv).map .ins ++ [.ret])) s3)) (est : insAll M s3 store = some s4) (eg : s4.g = s3.g) (ev : s4.v = s3.v)
    (em : ∀ a, ¬ Area Q Nq a → s4.mem a = s3.mem a)
    (m3 : ∀ a, ¬ Area B 1024 a → s3.mem a = s.mem a) (fr : ShaFramed abi nv B s s3.mem)
    (b3 : abi = .wind → s3.g .rbp = B + BitVec.ofNat 64 1016) (u3 : abi = .unix → s3.g .rsp = s.g .rsp ∧ s3.g .rbp = s.g .rbp)
    (g3 : ∀ q, q ∉ [Reg.rsp, .rbp, .rax, .r11, abi.arg 2] → s3.g q = s.g q) (v3 : ∀ q, 6 + nv ≤ q → s3.v q = s.v q) :
    ∃ s', Spec.Abi.Returns abi M cd s s' [(Q, Nq)] ∧ s'.g .rax = s.g (abi.arg 0) ∧ s'.mem = s4.mem := by
  have fr4 : ShaFramed abi nv B s s4.mem := fr.congr h.hnv fun a ha => em a fun hc => (h.hQ a hc).2 ha
  obtain ⟨t, e, p, hbp, hax, hg, hm, hv⟩ := sha_tail (M := M) (s := s4) abi nv h.hnv h.hf h.hB s (by rw [eg]; exact b3)
    (by rw [eg]; exact fun hu => ⟨(u3 hu).1.trans h.hP, (u3 hu).2⟩) fr4
  have hpt : t.g .rsp = s.g .rsp := p.trans h.hP.symm
  have hra : ∀ i, i < 8 → t.mem (s.g .rsp + BitVec.ofNat 64 i) = s.mem (s.g .rsp + BitVec.ofNat 64 i) := fun i hi => by
    rw [hm, h.hP, off_add, em _ fun hc => (h.hW _ hc).2 ?_]
    · refine m3 _ fun hc => ?_
      rw [area_off _ _ _ (by omega)] at hc; omega
    · exact (area_off _ _ _ (by omega)).mpr (by omega)
  have h0 : abi.arg 0 ∉ [Reg.rsp, .rbp, .rax, .r11, abi.arg 2] := by cases abi <;> decide
  refine ⟨setG t .rsp (t.g .rsp + 8), ⟨?_, ?_, ?_, ?_, ?_⟩, ?_, hm⟩
  · refine r.trans ((reach_ins est).trans ((reach_ins e).trans (.step ?_ (.refl _))))
    show (M.read t (t.g .rsp) 8).bind _ = _
    rw [hpt, read_eq fun i hi => h.hret _ ((area_off _ _ _ (by omega)).mpr hi), Option.bind_some, ofBytes_le8 _ (bytesAt_length _ _ _),
      bytesAt_congr hra]
    rfl
  · rw [setG_self, hpt]
  · intro r hr
    have : r ≠ .rsp := by cases abi <;> simp only [Spec.Abi.savedRegs, List.mem_cons, List.not_mem_nil, or_false] at hr <;> rcases hr with rfl | rfl | rfl | rfl | rfl | rfl | rfl | rfl <;> decide
    rw [setG_ne _ _ this]
    by_cases c2 : r = .rbp
    · rw [c2]; exact hbp
    have key : r ∉ [Reg.rsp, .rbp, .rax] ∧ r ∉ [Reg.rsp, .rbp, .rax, .r11, abi.arg 2] := by
      cases abi <;> simp only [Spec.Abi.savedRegs, List.mem_cons, List.not_mem_nil, or_false] at hr <;> rcases hr with rfl | rfl | rfl | rfl | rfl | rfl | rfl | rfl <;>
        first | exact absurd rfl c2 | decide
    rw [hg r key.1, eg, g3 r key.2]
  · intro i hi j hj
    cases abi with
    | unix => simp [Spec.Abi.savedVecs] at hi
    | wind =>
      have : 6 ≤ i ∧ i < 16 := by
        simp only [Spec.Abi.savedVecs, List.mem_cons, List.not_mem_nil, or_false] at hi
        omega
      show t.v i j = _
      rw [hv rfl i this.1 j hj]
      split
      · rfl
      · rw [ev, v3 i (by omega)]
  · intro a ha hd
    show t.mem a = _
    rw [hm, em a (hd (Q, Nq) (by simp))]
    refine m3 a fun hc => ha ?_
    unfold Spec.Abi.room
    rw [← hBe]
    exact hc
  · rw [setG_ne _ _ (by decide), hax, eg, g3 _ h0]

end

end Milo.X64
