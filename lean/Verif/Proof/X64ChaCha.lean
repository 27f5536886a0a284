import Verif.Proof.X64Head
import Verif.Proof.ChaChaAsmLawful
/- The ChaCha functions on the machine. -/
namespace Milo.X64
open Memory X86

/-- Constants and state words as the machine reads them. -/
def mkVal (roB : List Byte) (m0 : W64 → Byte) (Q : W64) : Ref → Vec
  | .ro off => ofDb (roB.drop off)
  | .state off => fun j => ofDb (bytesAt m0 (Q + BitVec.ofNat 64 off) 16) (j % 4)
  | .state32 off => vec4 (ofBytes .little 4 (bytesAt m0 (Q + BitVec.ofNat 64 off) 4)) 0 0 0

theorem good_congr {lanes : Nat} (hw : Width lanes) {k k' : ChaCha.Asm.Consts Vec} (g : ChaCha.Asm.Good lanes k) (h1 : LEq lanes k'.addInit k.addInit)
    (h2 : LEq lanes k'.addAdvance k.addAdvance) (h3 : LEq lanes k'.rol16 k.rol16) (h4 : LEq lanes k'.rol8 k.rol8) : ChaCha.Asm.Good lanes k' where
  init := fun j hj => (h1 j hj).trans (g.init j hj)
  advance := fun j hj => (h2 j hj).trans (g.advance j hj)
  rol16 := fun v j hj => (bin_congr hw .pshufb (.refl _ v) h3 j hj).trans (g.rol16 v j hj)
  rol8 := fun v j hj => (bin_congr hw .pshufb (.refl _ v) h4 j hj).trans (g.rol8 v j hj)

theorem chacha_good (k : Kind) (hk : k ≠ .vex128) (m0 : W64 → Byte) (Q : W64) : ChaCha.Asm.Good k.lanes (mapConsts (mkVal (chachaRo k) m0 Q) (chachaConsts k)) := by
  cases k with
  | vex128 => exact absurd rfl hk
  | sse =>
    refine good_congr (.inl rfl) ChaCha.Asm.ssse3_good ?_ ?_ ?_ ?_
    all_goals
      intro j hj
      have hj : j < 4 := hj
      interval_cases j <;> kernel_rfl
  | vex256 =>
    refine good_congr (.inr rfl) ChaCha.Asm.avx2_good ?_ ?_ ?_ ?_
    all_goals
      intro j hj
      have hj : j < 8 := hj
      interval_cases j <;> kernel_rfl

/-- The words of the state array. -/
def stWords (m : W64 → Byte) (Q : W64) (n : Nat) : List W32 := (List.range n).map fun i => ofBytes .little 4 (bytesAt m (Q + BitVec.ofNat 64 (4 * i)) 4)

theorem stWords_length (m : W64 → Byte) (Q : W64) (n : Nat) : (stWords m Q n).length = n := by simp [stWords]

theorem stWords_getD (m : W64 → Byte) (Q : W64) (n i : Nat) (h : i < n) : (stWords m Q n).getD i 0 = ofBytes .little 4 (bytesAt m (Q + BitVec.ofNat 64 (4 * i)) 4) := by
  simp [stWords, h]

theorem bytesAt_drop_take (m : W64 → Byte) (a : W64) (n d l : Nat) (h : d + l ≤ n) : ((bytesAt m a n).drop d).take l = bytesAt m (a + BitVec.ofNat 64 d) l := by
  apply List.ext_getElem?
  intro i
  by_cases hi : i < l
  · rw [List.getElem?_take_of_lt hi, List.getElem?_drop, bytesAt_get _ _ _ _ (by omega), bytesAt_get _ _ _ _ hi, off_add]
  · rw [List.getElem?_eq_none (by simp; omega), List.getElem?_eq_none (by rw [bytesAt_length]; omega)]

theorem quad_val (roB : List Byte) (m : W64 → Byte) (Q : W64) (i : Nat) (hi : i < 4) : mkVal roB m Q (.state (16 * i)) = ChaCha.Asm.quad (stWords m Q 16) i := by
  funext j
  have hj : j % 4 < 4 := Nat.mod_lt _ (by omega)
  unfold ChaCha.Asm.quad
  rw [stWords_getD _ _ _ _ (by omega)]
  show ofDb (bytesAt m (Q + BitVec.ofNat 64 (16 * i)) 16) (j % 4) = _
  unfold ofDb
  rw [bytesAt_drop_take _ _ _ _ _ (by omega), off_add]
  rw [show 16 * i + 4 * (j % 4) = 4 * (4 * i + j % 4) by omega]

theorem blocksInit_congr (k : ChaCha.Asm.Consts Vec) (q q' : Nat → Vec) (h : ∀ i, i < 4 → q i = q' i) : ChaCha.Asm.blocksInit k q = ChaCha.Asm.blocksInit k q' := by
  unfold ChaCha.Asm.blocksInit
  rw [h 0 (by omega), h 1 (by omega), h 2 (by omega), h 3 (by omega)]

theorem run_some {lanes : Nat} {k : ChaCha.Asm.Consts Vec} {q : Nat → Vec} {body : List (Instr Vec)} {n : Nat} {s t : St Vec (Option (List Byte))}
    (h : ChaCha.Asm.run (simd lanes) k q body (n + 1) s = some t) :
    ∃ u, exec (simd lanes) s (ChaCha.Asm.blocksInit k q) = some u ∧ ChaCha.Asm.blocksLoop (simd lanes) k body n u = some t := by
  rw [ChaCha.Asm.run] at h
  exact Option.bind_eq_some_iff.mp h

theorem jz_no {M : Machine} {cd r : List Line} {l : Label} {s : State} (h : s.zf = false) : next M cd (.at (.jz l :: r) s) = some (.at r s) := by
  show (if s.zf then _ else _) = _
  rw [h]; rfl

theorem jmp_to {M : Machine} {cd r r' : List Line} {l : Label} {s : State} (h : target l cd = some r') : next M cd (.at (.jmp l :: r) s) = some (.at r' s) := by
  show jump _ _ _ = _
  rw [jump, h]; rfl

/-! ### The programs -/

/-- The body with its constants as vectors. -/
def bodyV (k : Kind) (tr : Bool) (c : ChaCha.Asm.Consts Vec) : List (Instr Vec) :=
  match k, tr with
  | .vex256, true => ChaCha.Asm.transformBodyAvx c
  | .vex256, false => ChaCha.Asm.generateBodyAvx c
  | _, true => ChaCha.Asm.transformBody c
  | _, false => ChaCha.Asm.generateBody c

theorem map_body (f : Ref → Vec) (k : Kind) (hk : k ≠ .vex128) (tr : Bool) : (chachaBody k tr).map (mapI f) = bodyV k tr (mapConsts f (chachaConsts k)) := by
  cases k with
  | vex128 => exact absurd rfl hk
  | sse => cases tr <;> kernel_rfl
  | vex256 => cases tr <;> kernel_rfl

theorem body_used (k : Kind) (hk : k ≠ .vex128) (tr : Bool) : usedDst (chachaBody k tr) = 64 * k.lanes ∧ usedSrc (chachaBody k tr) = if tr then 64 * k.lanes else 0 := by
  cases k with
  | vex128 => exact absurd rfl hk
  | sse => cases tr <;> decide +kernel
  | vex256 => cases tr <;> decide +kernel

theorem rounds_used (k : Kind) (hk : k ≠ .vex128) : usedDst (ChaCha.Asm.doubleRound (chachaConsts k)) = 0 ∧ usedSrc (ChaCha.Asm.doubleRound (chachaConsts k)) = 0 := by
  cases k with
  | vex128 => exact absurd rfl hk
  | sse => decide +kernel
  | vex256 => decide +kernel

/-- The environment of a ChaCha function. -/
def chachaEnv (abi : Abi) (k : Kind) (F D S Q : W64) (Nd Ns dOff len : Nat) (m0 : W64 → Byte) : Env where
  r := chachaRegs abi k
  slots := true
  F := F
  D := D
  S := S
  Q := Q
  Nd := Nd
  Ns := Ns
  Nq := 64
  dOff := dOff
  sOff := 0
  len := len
  m0 := m0
  roB := chachaRo k
  val := mkVal (chachaRo k) m0 Q

theorem progs_ok (abi : Abi) (k : Kind) (hk : k ≠ .vex128) (tr : Bool) (F D S Q : W64) (Nd Ns dOff len : Nat) (m0 : W64 → Byte) :
    progOk (chachaEnv abi k F D S Q Nd Ns dOff len m0) 0 0 (ChaCha.Asm.doubleRound (chachaConsts k)) = true ∧
    progOk (chachaEnv abi k F D S Q Nd Ns dOff len m0) (64 * k.lanes) (if tr then 64 * k.lanes else 0) (chachaBody k tr) = true ∧
    progOk (chachaEnv abi k F D S Q Nd Ns dOff len m0) 0 0 (ChaCha.Asm.reload (V := Ref)) = true ∧
    progOk (chachaEnv abi k F D S Q Nd Ns dOff len m0) 0 0 (ChaCha.Asm.blocksInit (chachaConsts k) fun i => .state (16 * i)) = true := by
  cases k with
  | vex128 => exact absurd rfl hk
  | sse => cases abi <;> cases tr <;> refine ⟨?_, ?_, ?_, ?_⟩ <;> kernel_rfl
  | vex256 => cases abi <;> cases tr <;> refine ⟨?_, ?_, ?_, ?_⟩ <;> kernel_rfl

theorem init_used (k : Kind) : usedDst (ChaCha.Asm.blocksInit (chachaConsts k) fun i => .state (16 * i)) = 0 ∧
    usedSrc (ChaCha.Asm.blocksInit (chachaConsts k) fun i => .state (16 * i)) = 0 := by
  cases k <;> exact ⟨by kernel_rfl, by kernel_rfl⟩

/-- What the machine needs to be like for the function to run; `out` is what it is to leave in the destination. -/
structure ChaChaCall (abi : Abi) (k : Kind) (tr : Bool) (M : Machine) (B : W64) (s : State) (D S Q : W64) (n N Ns dOff : Nat) (L : List Byte) (out : Nat → Byte) : Prop where
  hk : k ≠ .vex128
  hf : RW M B 1024
  hB : B.toNat % 16 = 8
  hP : s.g .rsp = B + BitVec.ofNat 64 1024
  h5 : abi = .wind → tr = true → ∀ a, Area (s.g .rsp + BitVec.ofNat 64 40) 8 a → M.rd a = true
  hret : ∀ a, Area (s.g .rsp) 8 a → M.rd a = true
  hroA : M.ro.toNat % 16 = 0
  hro : ∀ a, Area M.ro (chachaRo k).length a → M.rd a = true ∧ ¬ Area B 1024 a
  hroB : bytesAt s.mem M.ro (chachaRo k).length = chachaRo k
  hD : ∀ a, Area D N a → M.wr a = true ∧ ¬ Area B 1032 a ∧ ¬ Area M.ro (chachaRo k).length a
  hS : ∀ a, Area S Ns a → M.rd a = true ∧ ¬ Area B 1024 a
  hQ : ∀ a, Area Q 64 a → M.rd a = true ∧ ¬ Area B 1024 a
  hDQ : ∀ a, Area D N a → ¬ Area Q 64 a
  hn : s.g (abi.arg 1) = BitVec.ofNat 64 n
  hn' : n < 2 ^ 64
  hN : N = 64 * k.lanes * n
  hN' : N ≤ 2 ^ 64
  hNs : Ns = if tr then N else 0
  hr : s.g (abi.arg 0) = 10
  gD : s.g (abi.arg 3) = D
  gQ : s.g (abi.arg 2) = Q
  gS : tr = true → Spec.Abi.arg abi s 4 = S
  len : L.length = dOff + N
  lenS : Ns ≤ L.length
  coh : ∀ i j, i < N → j < Ns → (D + BitVec.ofNat 64 i = S + BitVec.ofNat 64 j ↔ dOff + i = j)
  lD : ∀ i, i < N → s.mem (D + BitVec.ofNat 64 i) = L.getD (dOff + i) 0
  lS : ∀ i, i < Ns → s.mem (S + BitVec.ofNat 64 i) = L.getD i 0
  body : ∀ c : ChaCha.Asm.Consts Vec, ChaCha.Asm.BodyOk k.lanes c (bodyV k tr c) (stWords s.mem Q 16) out (if tr then 64 else 0) L dOff 0 N

section
variable {abi : Abi} {k : Kind} {tr : Bool} {M : Machine} {B : W64} {s : State} {D S Q : W64} {n N Ns dOff : Nat} {L : List Byte} {out : Nat → Byte}

theorem env_ok (h : ChaChaCall abi k tr M B s D S Q n N Ns dOff L out) (f : Nat) (hf : f + stackSize k ≤ 1000) (hfa : (B + BitVec.ofNat 64 f).toNat % (4 * k.lanes) = 0)
    (S' : W64) (hS' : tr = true → S' = S) (m : W64 → Byte) (hm : ∀ a, ¬ Area B 1024 a → m a = s.mem a) :
    (chachaEnv abi k (B + BitVec.ofNat 64 f) D S' Q N Ns dOff L.length m).Ok M := by
  have hsz : (chachaEnv abi k (B + BitVec.ofNat 64 f) D S' Q N Ns dOff L.length m).size = stackSize k := by
    show 4 * k.lanes * 22 = _
    unfold stackSize
    omega
  have hF : ∀ a, Area (B + BitVec.ofNat 64 f) (stackSize k) a → Area B 1024 a := fun a ha => area_imp _ _ (by omega) (by omega) a ha
  have h32 : ∀ a, Area B 1024 a → Area B 1032 a := fun a ha => Nat.lt_trans ha (by omega)
  have hNs0 : tr = false → Ns = 0 := fun e => by rw [h.hNs, e]; rfl
  have hSS : ∀ a, Area S' Ns a → M.rd a = true ∧ ¬ Area B 1024 a := fun a ha => by
    cases htr : tr with
    | true => rw [hS' htr] at ha; exact h.hS a ha
    | false => rw [hNs0 htr] at ha; exact absurd ha (Nat.not_lt_zero _)
  have hlr : (chachaRo k).length ≤ 256 := by cases k <;> decide +kernel
  have hro2 : ∀ i, i < (chachaRo k).length → Area M.ro (chachaRo k).length (M.ro + BitVec.ofNat 64 i) := fun i hi => (area_off _ _ _ (by omega)).mpr hi
  constructor
  · exact h.hk
  · rw [hsz]; exact fun a ha => h.hf a (hF a ha)
  · exact fun a ha => (h.hD a ha).1
  · exact fun a ha => (hSS a ha).1
  · exact fun a ha => (h.hQ a ha).1
  · exact fun a ha => (h.hro a ha).1
  · rw [hsz]; exact fun a ha hd => (h.hD a hd).2.1 (h32 a (hF a ha))
  · rw [hsz]; exact fun a ha hd => (hSS a hd).2 (hF a ha)
  · rw [hsz]; exact fun a ha hd => (h.hQ a hd).2 (hF a ha)
  · rw [hsz]; exact fun a ha hd => (h.hro a hd).2 (hF a ha)
  · exact h.hDQ
  · exact fun a ha => (h.hD a ha).2.2
  · exact h.hN'
  · show Ns ≤ 2 ^ 64
    rw [h.hNs]; split
    · exact h.hN'
    · omega
  · show 64 ≤ 2 ^ 32
    omega
  · show (chachaRo k).length ≤ 2 ^ 32
    omega
  · exact Nat.le_of_eq h.len.symm
  · show 0 + Ns ≤ L.length
    have := h.lenS
    omega
  · intro i j hi hj
    show _ ↔ dOff + i = 0 + j
    rw [Nat.zero_add, ← h.coh i j hi hj]
    cases htr : tr with
    | true => rw [← hS' htr]; rfl
    | false =>
      have hj : j < Ns := hj
      rw [hNs0 htr] at hj; omega
  · exact fun _ => hfa
  · exact h.hroA
  · intro i hi
    have hi : i < (chachaRo k).length := hi
    show m (M.ro + BitVec.ofNat 64 i) = (chachaRo k).getD i 0
    rw [hm _ (h.hro _ (hro2 i hi)).2]
    have e := congrArg (fun l => l[i]?) h.hroB
    rw [show (bytesAt s.mem M.ro (chachaRo k).length)[i]? = some (s.mem (M.ro + BitVec.ofNat 64 i)) from bytesAt_get _ _ _ _ hi] at e
    rw [List.getD_eq_getElem?_getD, ← e]
    rfl
  · show abi.arg 3 ≠ abi.arg 4
    cases abi <;> decide
  · show abi.arg 3 ≠ abi.arg 2
    cases abi <;> decide
  · show abi.arg 4 ≠ abi.arg 2
    cases abi <;> decide
  · show abi.arg 3 ≠ .rsp
    cases abi <;> decide
  · show abi.arg 4 ≠ .rsp
    cases abi <;> decide
  · show abi.arg 2 ≠ .rsp
    cases abi <;> decide
  · exact fun off _ => .refl _ _
  · exact fun off _ j _ => rfl
  · exact fun off _ => .refl _ _

/-- From the entry to the epilogue. -/
theorem chacha_mid (h : ChaChaCall abi k tr M B s D S Q n N Ns dOff L out) :
    ∃ s2, Reach M (chacha abi k tr) (.at (chacha abi k tr) s) (.at ((chachaTail abi k).map .ins ++ [.ret]) s2) ∧ s2.g .rbp = B + BitVec.ofNat 64 1008 ∧
      Framed abi B s s2.mem ∧ (∀ a, ¬ Area B 1024 a → ¬ Area D N a → s2.mem a = s.mem a) ∧ (∀ i, i < N → s2.mem (D + BitVec.ofNat 64 i) = out i) ∧
      (∀ q, q ∉ [Reg.rsp, .rbp, .rax, .r10, .rbx, abi.arg 3, abi.arg 4] → s2.g q = s.g q) := by
  obtain ⟨t, f, e0, p0, hf0, al0, b0, v0, fr0, o0, z0, x0, g0, a0⟩ := head_exec (s := s) abi k h.hk tr h.hf h.hB h.hP h.h5
  have hhead : Reach M (chacha abi k tr) (.at (chacha abi k tr) s) (.at (.jz .blocks_loop_end :: _) t) := reach_ins e0
  have hzn : t.zf = decide (n = 0) := by rw [z0, h.hn, ofNat_zero_iff _ h.hn']
  have hg : ∀ q, q ∉ [Reg.rsp, .rbp, .rax, .r10, .rbx, abi.arg 3, abi.arg 4] → t.g q = s.g q := fun q hq => g0 q fun hc => hq (by
    simp only [List.mem_cons, List.not_mem_nil, or_false] at hc ⊢
    rcases hc with rfl | rfl | rfl | rfl <;> simp)
  have r1 : ∀ i, i < 4 → abi.arg i ∉ [Reg.rsp, .rbp, .rax, .r10] := by
    intro i hi
    interval_cases i <;> cases abi <;> decide
  by_cases hn0 : n = 0
  · -- no blocks
    have hN0 : N = 0 := by rw [h.hN, hn0, Nat.mul_zero]
    refine ⟨t, hhead.trans (.step ?_ (.refl _)), b0, fr0, fun a ha _ => o0 a ha, fun i hi => by omega, hg⟩
    show (if t.zf then _ else _) = _
    rw [hzn, if_pos (by simpa using hn0)]
    unfold jump chacha
    simp only [target_ins, target_code, target]
    rfl
  · obtain ⟨n, rfl⟩ : ∃ m, n = m + 1 := ⟨n - 1, by omega⟩
    have hvr : vecRoom abi ≤ 160 := by cases abi <;> decide
    have hS' : tr = true → t.g (abi.arg 4) = S := fun e => (a0 e).trans (h.gS e)
    have ok := env_ok h f (by omega) al0 _ hS' t.mem o0
    obtain ⟨pr, pb, prl, pi⟩ := progs_ok abi k h.hk tr (B + BitVec.ofNat 64 f) D (t.g (abi.arg 4)) Q N Ns dOff L.length t.mem
    obtain ⟨hu1, hu2⟩ := body_used k h.hk tr
    obtain ⟨hr1, hr2⟩ := rounds_used k h.hk
    have hQ : stWords t.mem Q 16 = stWords s.mem Q 16 := by
      unfold stWords
      refine List.map_congr_left fun i hi => ?_
      rw [bytesAt_congr fun b hb => o0 _ (h.hQ _ ?_).2]
      rw [off_add]
      have := List.mem_range.mp hi
      exact (area_off _ _ _ (by omega)).mpr (by omega)
    have hl8 : k.lanes ≤ 8 := by cases k <;> decide
    have hout := h.body (mapConsts (mkVal (chachaRo k) t.mem Q) (chachaConsts k))
    rw [← hQ] at hout
    have hMN : 64 * (k.lanes * (n + 1)) = N := by rw [h.hN, Nat.mul_assoc]
    obtain ⟨st', m', er, hm', upd⟩ := ChaCha.Asm.run_eq (chacha_good k h.hk t.mem Q) hl8 (stWords_length _ _ _) hout
      (fun i => if i < 16 then t.v i else ofDb (bytesAt t.mem (B + BitVec.ofNat 64 f + BitVec.ofNat 64 (4 * k.lanes * (i - 16))) (4 * k.lanes))) (n + 1) (Nat.le_of_eq hMN)
    obtain ⟨st1, ei, eb⟩ := run_some er
    rw [← blocksInit_congr _ _ _ (fun i hi => quad_val (chachaRo k) t.mem Q i hi), ← map_blocksInit] at ei
    have kd : t.g (abi.arg 3) = D := (g0 _ (r1 3 (by omega))).trans h.gD
    have kq : t.g (abi.arg 2) = Q := (g0 _ (r1 2 (by omega))).trans h.gQ
    have hw := lanes_width ok
    have sim0 : Sim (chachaEnv abi k (B + BitVec.ofNat 64 f) D (t.g (abi.arg 4)) Q N Ns dOff L.length t.mem) 0 0 (ChaCha.Asm.entry
        (fun i => if i < 16 then t.v i else ofDb (bytesAt t.mem (B + BitVec.ofNat 64 f + BitVec.ofNat 64 (4 * k.lanes * (i - 16))) (4 * k.lanes))) L dOff 0) t := by
      refine ⟨by simp [ChaCha.Asm.entry], fun i hi => ?_, by simp [ChaCha.Asm.entry]; rfl, fun i hi => ?_, by simp [ChaCha.Asm.entry]; rfl, fun i hi => ?_,
        ⟨L, rfl, rfl, fun i hi => ?_, fun i hi => ?_⟩, rfl, rfl, ?_, ?_, kq, p0, fun a _ _ => rfl⟩
      · simp [ChaCha.Asm.entry, hi]
        exact .refl _ _
      · have hi : i < 6 := hi
        simp [ChaCha.Asm.entry, hi]
        exact .refl _ _
      · have hi : i < 16 := hi
        simp [ChaCha.Asm.entry, hi]
        rw [if_neg (by omega), show 22 + i - 16 = 6 + i by omega]
        exact .refl _ _
      · have hi : i < N := hi
        show t.mem (D + _) = L.getD (dOff + i) 0
        rw [← h.lD i hi]
        refine o0 _ fun hc => (h.hD _ ((area_off _ _ _ (by have := h.hN'; omega)).mpr hi)).2.1 (Nat.lt_trans hc (by omega))
      · have hi : i < Ns := hi
        show t.mem (t.g (abi.arg 4) + _) = L.getD (0 + i) 0
        cases htr : tr with
        | true =>
          have hle : Ns ≤ 2 ^ 64 := ok.hs
          rw [hS' htr, Nat.zero_add, ← h.lS i hi]
          exact o0 _ (h.hS _ ((area_off _ _ _ (by omega)).mpr hi)).2
        | false =>
          rw [h.hNs, htr] at hi
          exact absurd hi (Nat.not_lt_zero _)
      · show t.g (abi.arg 3) = D + 0#64
        rw [BitVec.add_zero]; exact kd
      · show t.g (abi.arg 4) = t.g (abi.arg 4) + 0#64
        rw [BitVec.add_zero]
    obtain ⟨s1, e1, sim1, k1⟩ := run_ok ok _ sim0 0 0 pi (Nat.zero_le _) (Nat.zero_le _) _ ei
    rw [(init_used k).1, (init_used k).2, Nat.add_zero] at sim1
    have hd3 : abi.arg 3 ∉ [Reg.rax, .rbx] := by cases abi <;> decide
    have hd4 : abi.arg 4 ∉ [Reg.rax, .rbx] := by cases abi <;> decide
    have hd2 : abi.arg 2 ∉ [Reg.rax, .rbx] := by cases abi <;> decide
    have hd0 : abi.arg 0 ∉ [Reg.rax, .rbx, abi.arg 3, abi.arg 4] := by cases abi <;> decide
    have na : ∀ i, i < 5 → Reg.rax ≠ abi.arg i ∧ Reg.rbp ≠ abi.arg i := by
      intro i hi
      interval_cases i <;> cases abi <;> decide
    have n03 : abi.arg 0 ≠ abi.arg 3 ∧ abi.arg 0 ≠ abi.arg 4 := by cases abi <;> decide
    have hax : s1.g .rax = BitVec.ofNat 64 (n + 1) := by
      rw [k1 .rax (na 3 (by omega)).1 (na 4 (by omega)).1, x0, h.hn]
    have ha0 : s1.g (abi.arg 0) = 10 := by
      rw [k1 (abi.arg 0) n03.1 n03.2, g0 _ (r1 0 (by omega)), h.hr]
    have hUd : 0 + 64 * k.lanes * (n + 1) = N := by rw [h.hN, Nat.zero_add]
    have hUs : 0 + (if tr then 64 * k.lanes else 0) * (n + 1) = Ns := by
      rw [h.hNs, Nat.zero_add]
      cases tr
      · simp
      · simp [h.hN]
    have hnn := h.hn'
    obtain ⟨s2, r2, sim2, k2⟩ := blocks_run (cd := chacha abi k tr) ok (chachaConsts k) (chachaBody k tr) _ (map_body _ k h.hk tr) (64 * k.lanes) (if tr then 64 * k.lanes else 0)
      pr pb prl hr1 hr2 hu1 hu2 (abi.arg 0) hd0 hd3 hd4 hd2 (.label .blocks_loop_end :: ((chachaTail abi k).map .ins ++ [.ret]))
      (by unfold chacha; simp only [target_ins, target_code, target]; rfl) (by unfold chacha; simp only [target_ins, target_code, target]; rfl)
      n (by omega) 0 0 (Nat.le_of_eq hUd) (Nat.le_of_eq hUs) st1 st' s1 sim1 hax ha0 eb
    rw [hUd, hUs] at sim2
    have hsz : (chachaEnv abi k (B + BitVec.ofNat 64 f) D (t.g (abi.arg 4)) Q N Ns dOff L.length t.mem).size = stackSize k := by
      show 4 * k.lanes * 22 = _
      unfold stackSize
      omega
    have hframe : ∀ a, ¬ Area (B + BitVec.ofNat 64 f) (stackSize k) a → ¬ Area D N a → s2.mem a = t.mem a := by
      have := sim2.frame
      rw [hsz] at this
      exact this
    refine ⟨s2, ?_, ?_, ?_, ?_, ?_, ?_⟩
    · refine hhead.trans (.step (jz_no (by rw [hzn]; simp)) ((reach_code e1).trans (.step (jmp_to ?_) (r2.trans reach_label))))
      unfold chacha
      simp only [target_ins, target_code, target]
      rfl
    · rw [k2 .rbp (by decide) (na 3 (by omega)).2 (na 4 (by omega)).2, k1 .rbp (na 3 (by omega)).2 (na 4 (by omega)).2]
      exact b0
    · refine fr0.congr fun a ha => hframe a (fun hc => ?_) (fun hc => ?_)
      · obtain ⟨u, hu, hu', rfl⟩ := hc.off
        rw [off_add, area_sub_off _ _ _ _ (by omega) (by omega)] at ha
        omega
      · refine (h.hD a hc).2.1 (Nat.lt_trans ?_ (show 1024 < 1032 by omega))
        exact area_imp _ _ (by omega) (by omega) a ha
    · intro a ha hda
      rw [hframe a (fun hc => ha (area_imp _ _ (by omega) (by omega) a hc)) hda, o0 a ha]
    · intro i hi
      obtain ⟨L', hL1, hL2, hL3, -⟩ := sim2.mem
      rw [hm'] at hL1
      cases hL1
      have e3 := hL3 i hi
      refine e3.trans ?_
      show m'.getD (dOff + i) 0 = _
      have hl := h.len
      have := (upd.2 (dOff + i)).1 (by omega) (by rw [hMN]; omega) (by omega)
      rw [List.getD_eq_getElem?_getD, this, Nat.add_sub_cancel_left]
      rfl
    · intro q hq
      simp only [List.mem_cons, List.not_mem_nil, or_false, not_or] at hq
      rw [k2 q (by simp [hq.2.2.1, hq.2.2.2.2.1]) hq.2.2.2.2.2.1 hq.2.2.2.2.2.2, k1 q hq.2.2.2.2.2.1 hq.2.2.2.2.2.2, g0 q (by simp [hq.1, hq.2.1, hq.2.2.1, hq.2.2.2.1])]

/-- The whole function. -/
theorem chacha_run (h : ChaChaCall abi k tr M B s D S Q n N Ns dOff L out) (hBe : B = s.g .rsp - 1024) :
    ∃ s', Spec.Abi.Returns abi M (chacha abi k tr) s s' [(D, N)] ∧ s'.g .rax = s.g (abi.arg 1) <<< (if k = .vex256 then 3 else 2) ∧
      ∀ i, i < N → s'.mem (D + BitVec.ofNat 64 i) = out i := by
  obtain ⟨s2, r2, b2, fr2, o2, m2, g2⟩ := chacha_mid h
  obtain ⟨t, e, p, hbp, hbx, hax, hg, hm, hv⟩ := tail_exec abi k h.hf h.hB s b2 fr2
  have hpt : t.g .rsp = s.g .rsp := p.trans h.hP.symm
  have hra : ∀ i, i < 8 → t.mem (s.g .rsp + BitVec.ofNat 64 i) = s.mem (s.g .rsp + BitVec.ofNat 64 i) := fun i hi => by
    rw [hm, h.hP, off_add]
    refine o2 _ (fun hc => ?_) (fun hc => (h.hD _ hc).2.1 ?_)
    · rw [area_off _ _ _ (by omega)] at hc; omega
    · exact (area_off _ _ _ (by omega)).mpr (by omega)
  have h1 : abi.arg 1 ∉ [Reg.rsp, .rbp, .rax, .r10, .rbx, abi.arg 3, abi.arg 4] := by cases abi <;> decide
  refine ⟨setG t .rsp (t.g .rsp + 8), ⟨?_, ?_, ?_, ?_, ?_⟩, ?_, ?_⟩
  · refine r2.trans ((reach_ins e).trans (.step ?_ (.refl _)))
    show (M.read t (t.g .rsp) 8).bind _ = _
    rw [hpt, read_eq fun i hi => h.hret _ ((area_off _ _ _ (by omega)).mpr hi), Option.bind_some, ofBytes_le8 _ (bytesAt_length _ _ _),
      bytesAt_congr hra]
    rfl
  · rw [setG_self, hpt]
  · intro r hr
    have : r ≠ .rsp := by cases abi <;> simp only [Spec.Abi.savedRegs, List.mem_cons, List.not_mem_nil, or_false] at hr <;> rcases hr with rfl | rfl | rfl | rfl | rfl | rfl | rfl | rfl <;> decide
    rw [setG_ne _ _ this]
    by_cases c1 : r = .rbx
    · rw [c1]; exact hbx
    by_cases c2 : r = .rbp
    · rw [c2]; exact hbp
    have key : r ∉ [Reg.rsp, .rbp, .rbx, .rax] ∧ r ∉ [Reg.rsp, .rbp, .rax, .r10, .rbx, abi.arg 3, abi.arg 4] := by
      cases abi <;> simp only [Spec.Abi.savedRegs, List.mem_cons, List.not_mem_nil, or_false] at hr <;> rcases hr with rfl | rfl | rfl | rfl | rfl | rfl | rfl | rfl <;>
        first | exact absurd rfl c1 | exact absurd rfl c2 | decide
    rw [hg r key.1, g2 r key.2]
  · intro i hi j hj
    cases abi with
    | unix => simp [Spec.Abi.savedVecs] at hi
    | wind =>
      have : 6 ≤ i ∧ i < 16 := by
        simp only [Spec.Abi.savedVecs, List.mem_cons, List.not_mem_nil, or_false] at hi
        omega
      obtain ⟨d, rfl⟩ : ∃ d, i = 6 + d := ⟨i - 6, by omega⟩
      exact hv rfl d (by omega) j hj
  · intro a ha hd
    show t.mem a = _
    rw [hm]
    refine o2 a (fun hc => ha ?_) (hd (D, N) (by simp))
    unfold Spec.Abi.room
    rw [← hBe]
    exact hc
  · rw [setG_ne _ _ (by decide), hax, g2 _ h1]
  · intro i hi
    show t.mem _ = _
    rw [hm]
    exact m2 i hi

end

end Milo.X64
