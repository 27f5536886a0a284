import Verif.Proof.X64Step
/- Runs of a function: straight lines, labels, loops. -/
namespace Milo.X64
open Memory X86

/-- Some number of steps leads from one configuration to the other. -/
def Reach (M : Machine) (cd : List Line) (c c' : Config) : Prop := ∃ n, steps M cd n c = some c'

section
variable {M : Machine} {cd : List Line}

theorem Reach.refl (c : Config) : Reach M cd c c := ⟨0, rfl⟩

theorem Reach.step {c c' c'' : Config} (h : next M cd c = some c') (r : Reach M cd c' c'') : Reach M cd c c'' := by
  obtain ⟨n, hn⟩ := r
  refine ⟨n + 1, ?_⟩
  show (next M cd c).bind _ = _
  rw [h]
  exact hn

theorem Reach.trans {c c' c'' : Config} (h : Reach M cd c c') (r : Reach M cd c' c'') : Reach M cd c c'' := by
  obtain ⟨n, hn⟩ := h
  induction n generalizing c with
  | zero => cases hn; exact r
  | succ n ih =>
    obtain ⟨d, h1, h2⟩ := Option.bind_eq_some_iff.mp (show (next M cd c).bind _ = _ from hn)
    exact .step h1 (ih h2)

theorem reach_ins {is : List Ins} {rest : List Line} {s s' : State} (h : insAll M s is = some s') : Reach M cd (.at (is.map .ins ++ rest) s) (.at rest s') := by
  induction is generalizing s with
  | nil => cases h; exact .refl _
  | cons i is ih =>
    obtain ⟨t, h1, h2⟩ := Option.bind_eq_some_iff.mp (show (ins M s i).bind _ = _ from h)
    refine .step (c' := .at (is.map .ins ++ rest) t) ?_ (ih h2)
    show (ins M s i).map _ = _
    rw [h1]
    rfl

theorem reach_one {i : Ins} {rest : List Line} {s s' : State} (h : ins M s i = some s') : Reach M cd (.at (.ins i :: rest) s) (.at rest s') :=
  .step (c' := .at rest s') (by show (ins M s i).map _ = _; rw [h]; rfl) (.refl _)

theorem reach_code {r : Regs} {p : List (Instr Ref)} {rest : List Line} {s s' : State} (h : insAll M s (p.map (lower r)) = some s') :
    Reach M cd (.at (code r p ++ rest) s) (.at rest s') := by
  have : code r p = (p.map (lower r)).map .ins := by unfold code; rw [List.map_map]; rfl
  rw [this]
  exact reach_ins h

theorem reach_label {l : Label} {rest : List Line} {s : State} : Reach M cd (.at (.label l :: rest) s) (.at rest s) := .step rfl (.refl _)

theorem insAll_append (s : State) (a b : List Ins) : insAll M s (a ++ b) = (insAll M s a).bind fun s => insAll M s b := by
  induction a generalizing s with
  | nil => rfl
  | cons i a ih =>
    simp only [List.cons_append, insAll]
    cases ins M s i with
    | none => rfl
    | some t => exact ih t

theorem target_ins (l : Label) (is : List Ins) (rest : List Line) : target l (is.map .ins ++ rest) = target l rest := by
  induction is with
  | nil => rfl
  | cons i is ih => exact ih

theorem target_code (l : Label) (r : Regs) (p : List (Instr Ref)) (rest : List Line) : target l (code r p ++ rest) = target l rest := by
  have : code r p = (p.map (lower r)).map .ins := by unfold code; rw [List.map_map]; rfl
  rw [this]
  exact target_ins l _ rest

end

/-! ### What a change of other registers leaves alone -/

/-- `s'` has the vector registers, memory and, but for those in `W`, the general registers of `s`. -/
structure Same (W : List Reg) (s s' : State) : Prop where
  v : s'.v = s.v
  mem : s'.mem = s.mem
  g : ∀ q, q ∉ W → s'.g q = s.g q

theorem sim_same {E : Env} {cd cs : Nat} {st : St Vec (Option (List Byte))} {s s' : State} (sim : Sim E cd cs st s) {W : List Reg} (h : Same W s s')
    (hd : E.r.dst ∉ W) (hs : E.r.src ∉ W) (hq : E.r.st ∉ W) (hp : .rsp ∉ W) : Sim E cd cs st s' := by
  refine ⟨sim.xl, ?_, sim.tl, ?_, sim.bl, ?_, ?_, sim.dst, sim.src, ?_, ?_, ?_, ?_, ?_⟩
  · rw [h.v]; exact sim.x
  · rw [h.mem]; exact sim.t
  · rw [h.mem]; exact sim.b
  · rw [h.mem]; exact sim.mem
  · rw [h.g _ hd]; exact sim.gd
  · rw [h.g _ hs]; exact sim.gs
  · rw [h.g _ hq]; exact sim.gq
  · rw [h.g _ hp]; exact sim.gp
  · rw [h.mem]; exact sim.frame

theorem same_alu (s : State) (r : Reg) (w : W64) : Same [r] s (alu s r w) := ⟨rfl, rfl, fun q hq => if_neg (by simpa using hq)⟩
theorem same_setG (s : State) (r : Reg) (w : W64) : Same [r] s (setG s r w) := ⟨rfl, rfl, fun q hq => if_neg (by simpa using hq)⟩

theorem setG_self (s : State) (r : Reg) (w : W64) : (setG s r w).g r = w := if_pos rfl
theorem alu_self (s : State) (r : Reg) (w : W64) : (alu s r w).g r = w := if_pos rfl
theorem setG_ne (s : State) {r q : Reg} (w : W64) (h : q ≠ r) : (setG s r w).g q = s.g q := if_neg h
theorem alu_ne (s : State) {r q : Reg} (w : W64) (h : q ≠ r) : (alu s r w).g q = s.g q := if_neg h

/-- Registers other than those in `W` and the two pointers. -/
def KeepsX (E : Env) (W : List Reg) (s s' : State) : Prop := ∀ q, q ∉ W → q ≠ E.r.dst → q ≠ E.r.src → s'.g q = s.g q

theorem KeepsX.trans {E : Env} {W : List Reg} {s s' s'' : State} (h : KeepsX E W s s') (h' : KeepsX E W s' s'') : KeepsX E W s s'' :=
  fun q a b c => (h' q a b c).trans (h q a b c)
theorem KeepsX.of {E : Env} {W : List Reg} {s s' : State} (h : Keeps E s s') : KeepsX E W s s' := fun q _ b c => h q b c
theorem KeepsX.same {E : Env} {W W' : List Reg} {s s' : State} (h : Same W' s s') (hw : ∀ q ∈ W', q ∈ W) : KeepsX E W s s' :=
  fun q a _ _ => h.g q fun h => a (hw q h)

/-! ### The loop counters -/

theorem dec_val (n : Nat) : BitVec.ofNat 64 (n + 1) - (1 : W64) = BitVec.ofNat 64 n := by
  rw [BitVec.ofNat_add]
  exact BitVec.add_sub_cancel ..

theorem ofNat_zero_iff (n : Nat) (h : n < 2 ^ 64) : (BitVec.ofNat 64 n == (0 : W64)) = decide (n = 0) := by
  rw [Bool.eq_iff_iff, beq_iff_eq, decide_eq_true_eq]
  constructor
  · intro e
    have := congrArg BitVec.toNat e
    rw [BitVec.toNat_ofNat, Nat.mod_eq_of_lt h] at this
    simpa using this
  · rintro rfl; rfl

/-- The constants of ChaCha as vectors. -/
def mapConsts (f : Ref → Vec) (k : ChaCha.Asm.Consts Ref) : ChaCha.Asm.Consts Vec := ⟨f k.addInit, f k.addAdvance, f k.rol16, f k.rol8⟩

theorem map_doubleRound (f : Ref → Vec) (k : ChaCha.Asm.Consts Ref) : (ChaCha.Asm.doubleRound k).map (mapI f) = ChaCha.Asm.doubleRound (mapConsts f k) := by kernel_rfl
theorem map_reload (f : Ref → Vec) : (ChaCha.Asm.reload (V := Ref)).map (mapI f) = ChaCha.Asm.reload := by kernel_rfl
theorem map_blocksInit (f : Ref → Vec) (k : ChaCha.Asm.Consts Ref) (q : Nat → Ref) :
    (ChaCha.Asm.blocksInit k q).map (mapI f) = ChaCha.Asm.blocksInit (mapConsts f k) fun i => f (q i) := by kernel_rfl

section
variable {E : Env} {M : Machine} {cd : List Line}

/-- The rounds loop, entered with `n + 1` in `rbx`. -/
theorem rounds_run (ok : E.Ok M) (k : ChaCha.Asm.Consts Ref) (hp : progOk E 0 0 (ChaCha.Asm.doubleRound k) = true)
    (h0 : usedDst (ChaCha.Asm.doubleRound k) = 0) (h0' : usedSrc (ChaCha.Asm.doubleRound k) = 0)
    (hbd : E.r.dst ≠ .rbx) (hbs : E.r.src ≠ .rbx) (hbq : E.r.st ≠ .rbx) (rest : List Line)
    (ht : target .rounds_loop cd = some (code E.r (ChaCha.Asm.doubleRound k) ++ (.ins (.sub .rbx 1) :: .jnz .rounds_loop :: rest)))
    (n : Nat) (hn : n < 2 ^ 64 - 1) (c c' : Nat) (hc : c ≤ E.Nd) (hc' : c' ≤ E.Ns) (st st' : St Vec (Option (List Byte))) (s : State) (sim : Sim E c c' st s)
    (hb : s.g .rbx = BitVec.ofNat 64 (n + 1)) (h : ChaCha.Asm.roundsLoop (simd E.lanes) (mapConsts E.val k) (n + 1) st = some st') :
    ∃ s', Reach M cd (.at (code E.r (ChaCha.Asm.doubleRound k) ++ (.ins (.sub .rbx 1) :: .jnz .rounds_loop :: rest)) s) (.at rest s') ∧ Sim E c c' st' s' ∧
      KeepsX E [.rbx] s s' := by
  induction n generalizing st s with
  | zero =>
    obtain ⟨st1, h1, h2⟩ := Option.bind_eq_some_iff.mp (show (exec _ _ _).bind _ = _ from h)
    cases h2
    rw [← map_doubleRound] at h1
    obtain ⟨s1, e1, sim1, k1⟩ := run_ok ok _ sim 0 0 hp (by omega) (by omega) _ h1
    rw [h0, h0', Nat.add_zero, Nat.add_zero] at sim1
    have hb1 : s1.g .rbx = BitVec.ofNat 64 (0 + 1) := (k1 _ hbd.symm hbs.symm).trans hb
    refine ⟨alu s1 .rbx (s1.g .rbx - 1), ?_, sim_same sim1 (same_alu _ _ _) (by simpa using hbd) (by simpa using hbs) (by simpa using hbq) (by simp), ?_⟩
    · refine (reach_code e1).trans (.trans (reach_one rfl) (.step ?_ (.refl _)))
      show (if (alu s1 .rbx (s1.g .rbx - 1)).zf then _ else _) = _
      rw [if_pos]
      show (s1.g .rbx - 1 == 0) = true
      rw [hb1, dec_val]
      rfl
    · exact (KeepsX.of k1).trans (.same (same_alu _ _ _) (by simp))
  | succ n ih =>
    obtain ⟨st1, h1, h2⟩ := Option.bind_eq_some_iff.mp (show (exec _ _ _).bind _ = _ from h)
    rw [← map_doubleRound] at h1
    obtain ⟨s1, e1, sim1, k1⟩ := run_ok ok _ sim 0 0 hp (by omega) (by omega) _ h1
    rw [h0, h0', Nat.add_zero, Nat.add_zero] at sim1
    have hb1 : s1.g .rbx = BitVec.ofNat 64 (n + 1 + 1) := (k1 _ hbd.symm hbs.symm).trans hb
    have sim2 := sim_same sim1 (same_alu s1 .rbx (s1.g .rbx - 1)) (by simpa using hbd) (by simpa using hbs) (by simpa using hbq) (by simp)
    have hb2 : (alu s1 .rbx (s1.g .rbx - 1)).g .rbx = BitVec.ofNat 64 (n + 1) := by
      rw [alu_self, hb1, dec_val]
    obtain ⟨s', r, sim', k'⟩ := ih (by omega) st1 _ sim2 hb2 h2
    refine ⟨s', ?_, sim', ?_⟩
    · refine (reach_code e1).trans (.trans (reach_one rfl) (.step ?_ r))
      show (if (alu s1 .rbx (s1.g .rbx - 1)).zf then _ else _) = _
      rw [if_neg]
      · unfold jump
        rw [ht]
        rfl
      · show ¬ (s1.g .rbx - 1 == 0) = true
        rw [hb1, dec_val, ofNat_zero_iff _ (by omega)]
        simp
    · exact (KeepsX.of k1).trans ((KeepsX.same (same_alu _ _ _) (by simp)).trans k')

/-- The blocks loop, entered behind its first label with `n + 1` in `rax`. -/
theorem blocks_run (ok : E.Ok M) (k : ChaCha.Asm.Consts Ref) (body : List (Instr Ref)) (bodyV : List (Instr Vec)) (hbody : body.map (mapI E.val) = bodyV)
    (Ud Us : Nat) (hp : progOk E 0 0 (ChaCha.Asm.doubleRound k) = true) (hpb : progOk E Ud Us body = true) (hpr : progOk E 0 0 (ChaCha.Asm.reload (V := Ref)) = true)
    (h0 : usedDst (ChaCha.Asm.doubleRound k) = 0) (h0' : usedSrc (ChaCha.Asm.doubleRound k) = 0) (h1 : usedDst body = Ud) (h1' : usedSrc body = Us)
    (a0 : Reg) (ha : a0 ∉ [Reg.rax, .rbx, E.r.dst, E.r.src])
    (hbd : E.r.dst ∉ [Reg.rax, .rbx]) (hbs : E.r.src ∉ [Reg.rax, .rbx]) (hbq : E.r.st ∉ [Reg.rax, .rbx]) (rest : List Line)
    (ht : target .rounds_loop cd = some (code E.r (ChaCha.Asm.doubleRound k) ++ (.ins (.sub .rbx 1) :: .jnz .rounds_loop ::
      (code E.r body ++ (.ins (.sub .rax 1) :: .jnz .blocks_loop :: rest)))))
    (ht2 : target .blocks_loop cd = some (code E.r (ChaCha.Asm.reload (V := Ref)) ++ (.label .blocks_loop_first :: .ins (.mov .rbx a0) :: .label .rounds_loop ::
      (code E.r (ChaCha.Asm.doubleRound k) ++ (.ins (.sub .rbx 1) :: .jnz .rounds_loop :: (code E.r body ++ (.ins (.sub .rax 1) :: .jnz .blocks_loop :: rest)))))))
    (n : Nat) (hn : n < 2 ^ 64 - 1) (c c' : Nat) (hc : c + Ud * (n + 1) ≤ E.Nd) (hc' : c' + Us * (n + 1) ≤ E.Ns) (st st' : St Vec (Option (List Byte)))
    (s : State) (sim : Sim E c c' st s) (hrax : s.g .rax = BitVec.ofNat 64 (n + 1)) (hrnd : s.g a0 = 10)
    (h : ChaCha.Asm.blocksLoop (simd E.lanes) (mapConsts E.val k) bodyV n st = some st') :
    ∃ s', Reach M cd (.at (.ins (.mov .rbx a0) :: .label .rounds_loop :: (code E.r (ChaCha.Asm.doubleRound k) ++ (.ins (.sub .rbx 1) :: .jnz .rounds_loop ::
        (code E.r body ++ (.ins (.sub .rax 1) :: .jnz .blocks_loop :: rest))))) s) (.at rest s') ∧
      Sim E (c + Ud * (n + 1)) (c' + Us * (n + 1)) st' s' ∧ KeepsX E [.rax, .rbx] s s' := by
  simp only [List.mem_cons, List.not_mem_nil, or_false, not_or] at ha hbd hbs hbq
  -- one block, up to the test of the counter
  have one : ∀ (m : Nat) (c c' : Nat) (st st1 st2 : St Vec (Option (List Byte))) (s : State), c + Ud ≤ E.Nd → c' + Us ≤ E.Ns → Sim E c c' st s →
      s.g .rax = BitVec.ofNat 64 (m + 1) → s.g a0 = 10 →
      ChaCha.Asm.roundsLoop (simd E.lanes) (mapConsts E.val k) 10 st = some st1 → exec (simd E.lanes) st1 bodyV = some st2 →
      ∃ s', Reach M cd (.at (.ins (.mov .rbx a0) :: .label .rounds_loop :: (code E.r (ChaCha.Asm.doubleRound k) ++ (.ins (.sub .rbx 1) :: .jnz .rounds_loop ::
          (code E.r body ++ (.ins (.sub .rax 1) :: .jnz .blocks_loop :: rest))))) s) (.at (.jnz .blocks_loop :: rest) s') ∧
        Sim E (c + Ud) (c' + Us) st2 s' ∧ KeepsX E [.rax, .rbx] s s' ∧ s'.g .rax = BitVec.ofNat 64 m ∧ s'.zf = (BitVec.ofNat 64 m == (0 : W64)) := by
    intro m c c' st st1 st2 s hc hc' sim hrax hrnd e1 e2
    have simA := sim_same sim (same_setG s .rbx (s.g a0)) (by simpa using hbd.2) (by simpa using hbs.2) (by simpa using hbq.2) (by simp)
    have kA : KeepsX E [.rax, .rbx] s (setG s .rbx (s.g a0)) := .same (same_setG s .rbx (s.g a0)) (by simp)
    obtain ⟨sB, rB, simB, kB⟩ := rounds_run ok k hp h0 h0' hbd.2 hbs.2 hbq.2 _ ht 9 (by omega) c c' (by omega) (by omega) st st1 _ simA
      (by rw [setG_self, hrnd]; rfl) e1
    rw [← hbody] at e2
    obtain ⟨sC, eC, simC, kC⟩ := run_ok ok _ simB Ud Us hpb hc hc' _ e2
    rw [h1, h1'] at simC
    have kB' : KeepsX E [.rax, .rbx] (setG s .rbx (s.g a0)) sB := fun q a b c => kB q (by simp at a ⊢; exact a.2) b c
    have hraxC : sC.g .rax = BitVec.ofNat 64 (m + 1) :=
      (kC _ (Ne.symm hbd.1) (Ne.symm hbs.1)).trans ((kB _ (by simp) (Ne.symm hbd.1) (Ne.symm hbs.1)).trans ((same_setG s .rbx (s.g a0)).g _ (by simp) |>.trans hrax))
    refine ⟨alu sC .rax (sC.g .rax - 1), ?_, ?_, ?_, ?_, ?_⟩
    · exact (reach_one rfl).trans (.step rfl (rB.trans ((reach_code eC).trans (reach_one rfl))))
    · exact sim_same simC (same_alu sC .rax (sC.g .rax - 1)) (by simpa using hbd.1) (by simpa using hbs.1) (by simpa using hbq.1) (by simp)
    · exact (kA.trans kB').trans ((KeepsX.of kC).trans (.same (same_alu _ _ _) (by simp)))
    · rw [alu_self, hraxC, dec_val]
    · show (sC.g .rax - 1 == 0) = _
      rw [hraxC, dec_val]
  induction n generalizing c c' st s with
  | zero =>
    rw [Nat.zero_add, Nat.mul_one] at hc hc' ⊢
    rw [Nat.mul_one]
    obtain ⟨st1, e1, e2⟩ := Option.bind_eq_some_iff.mp (show (ChaCha.Asm.roundsLoop _ _ _ _).bind _ = _ from h)
    obtain ⟨s1, r1, sim1, k1, -, z1⟩ := one 0 c c' st st1 st' s hc hc' sim hrax hrnd e1 e2
    refine ⟨s1, r1.trans (.step ?_ (.refl _)), sim1, k1⟩
    show (if s1.zf then _ else _) = _
    rw [z1]
    rfl
  | succ n ih =>
    obtain ⟨st1, e1, e⟩ := Option.bind_eq_some_iff.mp (show (ChaCha.Asm.roundsLoop _ _ _ _).bind _ = _ from h)
    obtain ⟨st2, e2, e⟩ := Option.bind_eq_some_iff.mp (show (exec _ _ _).bind _ = _ from e)
    obtain ⟨st3, e3, e4⟩ := Option.bind_eq_some_iff.mp (show (exec _ _ _).bind _ = _ from e)
    have d1 : Ud * (n + 1 + 1) = Ud + Ud * (n + 1) := by rw [Nat.mul_succ Ud (n + 1), Nat.add_comm]
    have d2 : Us * (n + 1 + 1) = Us + Us * (n + 1) := by rw [Nat.mul_succ Us (n + 1), Nat.add_comm]
    rw [d1] at hc ⊢
    rw [d2] at hc' ⊢
    obtain ⟨s1, r1, sim1, k1, x1, z1⟩ := one (n + 1) c c' st st1 st2 s (by omega) (by omega) sim hrax hrnd e1 e2
    rw [← map_reload E.val] at e3
    obtain ⟨s2, e5, sim2, k2⟩ := run_ok ok _ sim1 0 0 hpr (by omega) (by omega) _ e3
    have hx2 : s2.g .rax = BitVec.ofNat 64 (n + 1) := (k2 _ (Ne.symm hbd.1) (Ne.symm hbs.1)).trans x1
    have hr2 : s2.g a0 = 10 := (k2 _ ha.2.2.1 ha.2.2.2).trans ((k1 _ (by simp [ha.1, ha.2.1]) ha.2.2.1 ha.2.2.2).trans hrnd)
    have u1 : usedDst (ChaCha.Asm.reload (V := Ref)) = 0 := rfl
    have u2 : usedSrc (ChaCha.Asm.reload (V := Ref)) = 0 := rfl
    rw [u1, u2, Nat.add_zero, Nat.add_zero] at sim2
    obtain ⟨s', r', sim', k'⟩ := ih (by omega) (c + Ud) (c' + Us) (by omega) (by omega) st3 s2 sim2 hx2 hr2 e4
    refine ⟨s', ?_, ?_, k1.trans ((KeepsX.of k2).trans k')⟩
    · refine r1.trans (.step ?_ ((reach_code e5).trans ((reach_label (l := .blocks_loop_first)).trans r')))
      show (if s1.zf then _ else _) = _
      rw [z1, ofNat_zero_iff _ (by omega), if_neg (by simp)]
      unfold jump
      rw [ht2]
      rfl
    · rw [← Nat.add_assoc, ← Nat.add_assoc]
      exact sim'

end

end Milo.X64
