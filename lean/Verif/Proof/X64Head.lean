import Verif.Proof.X64Frame
/- Prologue and epilogue of the ChaCha functions. -/
namespace Milo.X64
open Memory X86

theorem insAll_some {M : Machine} {s t u : State} {a b : List Ins} (h1 : insAll M s a = some t) (h2 : insAll M t b = some u) : insAll M s (a ++ b) = some u := by
  rw [insAll_append, h1]; exact h2

theorem insAll_one {M : Machine} {s t : State} {i : Ins} (h : ins M s i = some t) : insAll M s [i] = some t := by
  show (ins M s i).bind _ = _
  rw [h]; rfl

theorem insAll_cons {M : Machine} {s t u : State} {i : Ins} {is : List Ins} (h : ins M s i = some t) (h2 : insAll M t is = some u) : insAll M s (i :: is) = some u := by
  show (ins M s i).bind _ = _
  rw [h]; exact h2

/-- Room the Windows version takes for the vector registers. -/
def vecRoom : Abi → Nat
  | .unix => 0
  | .wind => 160

/-- What the frame keeps of the state `s0` the function was entered in. -/
structure Framed (abi : Abi) (B : W64) (s0 : State) (m : W64 → Byte) : Prop where
  bp : bytesAt m (B + BitVec.ofNat 64 1016) 8 = toLE 8 (s0.g .rbp).toNat
  bx : bytesAt m (B + BitVec.ofNat 64 1008) 8 = toLE 8 (s0.g .rbx).toNat
  vec : abi = .wind → ∀ i, i < 10 → bytesAt m (B + BitVec.ofNat 64 (1008 - (8 + 16 * (i + 1)))) 16 = vecBytes 4 (s0.v (6 + i))

theorem Framed.congr {abi : Abi} {B : W64} {s0 : State} {m m' : W64 → Byte} (h : Framed abi B s0 m)
    (he : ∀ a, Area (B + BitVec.ofNat 64 (1000 - vecRoom abi)) (24 + vecRoom abi) a → m' a = m a) : Framed abi B s0 m' := by
  have key : ∀ u n, 1000 - vecRoom abi ≤ u → u + n ≤ 1024 → bytesAt m' (B + BitVec.ofNat 64 u) n = bytesAt m (B + BitVec.ofNat 64 u) n := by
    intro u n h1 h2
    apply bytesAt_congr
    intro i hi
    apply he
    rw [off_add]
    have : vecRoom abi ≤ 160 := by cases abi <;> decide
    exact (area_sub_off _ _ _ _ (by omega) (by omega)).mpr (by omega)
  have hv : vecRoom abi ≤ 160 := by cases abi <;> decide
  refine ⟨?_, ?_, fun hw i hi => ?_⟩
  · rw [key 1016 8 (by omega) (by omega)]; exact h.bp
  · rw [key 1008 8 (by omega) (by omega)]; exact h.bx
  · rw [key _ 16 (by subst hw; simp only [vecRoom]; omega) (by omega)]; exact h.vec hw i hi

section
variable {M : Machine} {B : W64} {s : State}

theorem head_push (hf : RW M B 1024) (hP : s.g .rsp = B + BitVec.ofNat 64 1024) :
    ∃ t, insAll M s [.push .rbp, .push .rbx, .mov .rbp .rsp] = some t ∧ t.g .rsp = B + BitVec.ofNat 64 1008 ∧ t.g .rbp = B + BitVec.ofNat 64 1008 ∧ t.v = s.v ∧
      bytesAt t.mem (B + BitVec.ofNat 64 1016) 8 = toLE 8 (s.g .rbp).toNat ∧ bytesAt t.mem (B + BitVec.ofNat 64 1008) 8 = toLE 8 (s.g .rbx).toNat ∧
      (∀ a, ¬ Area B 1024 a → t.mem a = s.mem a) ∧ (∀ q, q ∉ [Reg.rsp, .rbp] → t.g q = s.g q) := by
  obtain ⟨u1, hu1⟩ : ∃ u, u = 1016 := ⟨_, rfl⟩
  obtain ⟨u2, hu2⟩ : ∃ u, u = 1008 := ⟨_, rfl⟩
  have e1 := push_eq (s := s) hf (by omega) .rbp 1024 (by omega) (by omega) hP
  rw [show 1024 - 8 = u1 by omega] at e1
  have e2 := push_eq (s := setM (setG s .rsp (B + BitVec.ofNat 64 u1)) (putBytes s.mem (B + BitVec.ofNat 64 u1) (toLE 8 (s.g .rbp).toNat)))
    hf (by omega) .rbx u1 (by omega) (by omega) (by rw [setM_g, setG_self])
  rw [show u1 - 8 = u2 by omega] at e2
  rw [← hu1, ← hu2]
  refine ⟨_, insAll_cons e1 (insAll_cons e2 (insAll_cons rfl rfl)), ?_, ?_, rfl, ?_, ?_, ?_, ?_⟩
  · rw [setG_ne _ _ (by decide), setM_g, setG_self]
  · rw [setG_self, setM_g, setG_self]
  · show bytesAt (putBytes (putBytes s.mem _ _) _ _) _ _ = _
    rw [bytesAt_putBytes_ne _ _ _ _ _ _ (by omega) (by rw [toLE_length]; omega) (by rw [toLE_length]; omega)]
    have := bytesAt_putBytes s.mem (B + BitVec.ofNat 64 u1) (toLE 8 (s.g .rbp).toNat) (by rw [toLE_length]; omega)
    rw [toLE_length] at this
    exact this
  · show bytesAt (putBytes (putBytes s.mem _ _) _ _) _ _ = _
    have := bytesAt_putBytes (putBytes s.mem (B + BitVec.ofNat 64 u1) (toLE 8 (s.g .rbp).toNat)) (B + BitVec.ofNat 64 u2) (toLE 8 (s.g .rbx).toNat)
      (by rw [toLE_length]; omega)
    rw [toLE_length] at this
    exact this
  · intro a ha
    show putBytes (putBytes s.mem _ _) _ _ a = _
    rw [putBytes_out, putBytes_out]
    · intro h; exact ha (area_imp _ _ (by rw [toLE_length]; omega) (by omega) a h)
    · intro h; exact ha (area_imp _ _ (by rw [toLE_length]; omega) (by omega) a h)
  · intro q hq
    simp only [List.mem_cons, List.not_mem_nil, or_false, not_or] at hq
    rw [setG_ne _ _ hq.2, setM_g, setG_ne _ _ hq.1, setM_g, setG_ne _ _ hq.1]

theorem stackSize_eq (k : Kind) (hk : k ≠ .vex128) : (k = .sse ∧ stackSize k = 352) ∨ (k = .vex256 ∧ stackSize k = 704) := by
  cases k
  · exact .inl ⟨rfl, rfl⟩
  · exact absurd rfl hk
  · exact .inr ⟨rfl, rfl⟩

/-- Allocating the frame and saving the vector registers. -/
theorem head_alloc (abi : Abi) (k : Kind) (hk : k ≠ .vex128) (hf : RW M B 1024) (hB : B.toNat % 16 = 8) (hp : s.g .rsp = B + BitVec.ofNat 64 1008)
    (hbp : s.g .rbp = B + BitVec.ofNat 64 1008) :
    ∃ t, insAll M s (match abi with
        | .unix => [.sub .rsp (BitVec.ofNat 64 (stackSize k + 8))]
        | .wind => [.sub .rsp (BitVec.ofNat 64 (stackSize k + 8 + 16 * 10))] ++ saveVec 8 10) = some t ∧
      t.g .rsp = B + BitVec.ofNat 64 (1000 - vecRoom abi - stackSize k) ∧ (∀ q, q ≠ .rsp → t.g q = s.g q) ∧ t.v = s.v ∧
      (abi = .wind → ∀ i, i < 10 → bytesAt t.mem (B + BitVec.ofNat 64 (1008 - (8 + 16 * (i + 1)))) 16 = vecBytes 4 (s.v (6 + i))) ∧
      (∀ a, ¬ Area (B + BitVec.ofNat 64 (1000 - vecRoom abi)) (vecRoom abi) a → t.mem a = s.mem a) := by
  have hs := stackSize_eq k hk
  cases abi with
  | unix =>
    refine ⟨_, insAll_one rfl, ?_, fun q hq => alu_ne _ _ hq, rfl, fun h => by simp at h, fun a _ => rfl⟩
    rw [alu_self, hp, off_sub _ _ _ (by omega)]
    refine congrArg (fun u => B + BitVec.ofNat 64 u) ?_
    simp only [vecRoom]; omega
  | wind =>
    have e0 : insAll M s [.sub .rsp (BitVec.ofNat 64 (stackSize k + 8 + 16 * 10))] = some (alu s .rsp (s.g .rsp - BitVec.ofNat 64 (stackSize k + 8 + 16 * 10))) := insAll_one rfl
    obtain ⟨m', e1, h1, h2⟩ := saves_exec (s := alu s .rsp (s.g .rsp - BitVec.ofNat 64 (stackSize k + 8 + 16 * 10))) hf (by omega) 8 10 1008 (by omega) (by omega)
      ((alu_ne _ _ (by decide)).trans hbp) (by omega)
    refine ⟨_, insAll_some e0 e1, ?_, fun q hq => alu_ne _ _ hq, rfl, fun _ => h1, fun a ha => h2 a ha⟩
    show (alu s .rsp _).g .rsp = _
    rw [alu_self, hp, off_sub _ _ _ (by omega)]
    refine congrArg (fun u => B + BitVec.ofNat 64 u) ?_
    simp only [vecRoom]; omega

theorem head_align (k : Kind) (hk : k ≠ .vex128) (hB : B.toNat % 16 = 8) (v : Nat) (hv : 31 ≤ v) (hv' : v < 2 ^ 32) (hva : v % 16 = 8) (hp : s.g .rsp = B + BitVec.ofNat 64 v) :
    ∃ t f, insAll M s (if k = .vex256 then [.and .rsp 0xffffffffffffffe0] else []) = some t ∧ t.g .rsp = B + BitVec.ofNat 64 f ∧ f ≤ v ∧
      (B + BitVec.ofNat 64 f).toNat % (4 * k.lanes) = 0 ∧ (∀ q, q ≠ .rsp → t.g q = s.g q) ∧ t.v = s.v ∧ t.mem = s.mem := by
  by_cases c : k = .vex256
  · subst c
    rw [if_pos rfl]
    obtain ⟨e1, e2⟩ := and_align (B + BitVec.ofNat 64 v)
    have hlt : (B + BitVec.ofNat 64 v).toNat % 32 < 32 := Nat.mod_lt _ (by omega)
    rw [off_sub _ _ _ (by omega)] at e1
    refine ⟨_, v - (B + BitVec.ofNat 64 v).toNat % 32, insAll_one rfl, ?_, Nat.sub_le _ _, ?_, fun q hq => alu_ne _ _ hq, rfl, rfl⟩
    · rw [alu_self, hp]
      exact e1
    · rw [← e1]
      exact e2
  · rw [if_neg c]
    refine ⟨s, v, rfl, hp, Nat.le_refl _, ?_, fun _ _ => rfl, rfl, rfl⟩
    have : k = .sse := by cases k <;> simp_all
    subst this
    show _ % 16 = 0
    rw [BitVec.toNat_add, BitVec.toNat_ofNat]
    omega

theorem ofBytes_le8 (bs : List Byte) (h : bs.length = 8) : (ofBytes .little 8 bs : W64) = BitVec.ofNat 64 (Spec.leNat bs) := by
  apply BitVec.eq_of_toNat_eq
  rw [ofBytes_toNat .little 8 _ h, BitVec.toNat_ofNat, Nat.mod_eq_of_lt]
  · have := (ofBytes .little 8 bs : W64).isLt
    rw [ofBytes_toNat .little 8 _ h] at this
    exact this

theorem ofBytes_le4 (bs : List Byte) (h : bs.length = 4) : (ofBytes .little 4 bs : W32) = BitVec.ofNat 32 (Spec.leNat bs) := by
  apply BitVec.eq_of_toNat_eq
  rw [ofBytes_toNat .little 4 _ h, BitVec.toNat_ofNat, Nat.mod_eq_of_lt]
  · have := (ofBytes .little 4 bs : W32).isLt
    rw [ofBytes_toNat .little 4 _ h] at this
    exact this

/-- The argument passed on the stack. -/
theorem head_arg (abi : Abi) (tr : Bool) (s0 : State) (hbp : s.g .rbp = B + BitVec.ofNat 64 1008) (h0 : s0.g .rsp = B + BitVec.ofNat 64 1024)
    (hm : ∀ a, ¬ Area B 1024 a → s.mem a = s0.mem a) (hg : s.g .r8 = s0.g .r8)
    (h5 : abi = .wind → tr = true → ∀ a, Area (s0.g .rsp + BitVec.ofNat 64 40) 8 a → M.rd a = true) :
    ∃ t, insAll M s (if tr ∧ abi = .wind then [.load (abi.arg 4) (.reg .rbp (24 + 32))] else []) = some t ∧ (∀ q, q ≠ .r10 → t.g q = s.g q) ∧ t.v = s.v ∧ t.mem = s.mem ∧
      (tr = true → t.g (abi.arg 4) = Spec.Abi.arg abi s0 4) := by
  by_cases c : tr = true ∧ abi = .wind
  · rw [if_pos c]
    obtain ⟨rfl, rfl⟩ := c
    have ea : addr M s (.reg .rbp (24 + 32)) = B + BitVec.ofNat 64 1064 := by
      simp only [addr, hbp]
      exact off_add B 1008 56
    have e40 : s0.g .rsp + BitVec.ofNat 64 40 = B + BitVec.ofNat 64 1064 := by rw [h0]; exact off_add B 1024 40
    have er : M.read s (addr M s (.reg .rbp (24 + 32))) 8 = some (bytesAt s.mem (B + BitVec.ofNat 64 1064) 8) := by
      rw [ea]
      refine read_eq fun i hi => h5 rfl rfl _ ?_
      rw [e40]
      exact (area_off _ _ _ (by omega)).mpr hi
    refine ⟨setG s .r10 (ofBytes .little 8 (bytesAt s.mem (B + BitVec.ofNat 64 1064) 8)), insAll_one ?_, fun q hq => setG_ne _ _ hq, rfl, rfl, fun _ => ?_⟩
    · show (M.read s _ 8).bind _ = _
      rw [er]
      rfl
    · refine (setG_self _ _ _).trans ?_
      rw [ofBytes_le8 _ (bytesAt_length _ _ _)]
      show _ = Spec.Abi.qword s0 (s0.g .rsp + BitVec.ofNat 64 (8 + 8 * 4))
      unfold Spec.Abi.qword
      rw [show s0.g .rsp + BitVec.ofNat 64 (8 + 8 * 4) = B + BitVec.ofNat 64 1064 from e40]
      rw [show bytesAt s.mem (B + BitVec.ofNat 64 1064) 8 = bytesAt s0.mem (B + BitVec.ofNat 64 1064) 8 from bytesAt_congr fun i hi => hm _ (by
        rw [off_add, area_off _ _ _ (by omega)]; omega)]
  · rw [if_neg c]
    refine ⟨s, rfl, fun _ _ => rfl, rfl, rfl, fun h => ?_⟩
    cases abi with
    | unix => exact hg
    | wind => exact absurd ⟨h, rfl⟩ c

/-- The prologue. -/
theorem head_exec (abi : Abi) (k : Kind) (hk : k ≠ .vex128) (tr : Bool) (hf : RW M B 1024) (hB : B.toNat % 16 = 8) (hP : s.g .rsp = B + BitVec.ofNat 64 1024)
    (h5 : abi = .wind → tr = true → ∀ a, Area (s.g .rsp + BitVec.ofNat 64 40) 8 a → M.rd a = true) :
    ∃ t f, insAll M s (chachaHead abi k tr) = some t ∧ t.g .rsp = B + BitVec.ofNat 64 f ∧ f + stackSize k ≤ 1000 - vecRoom abi ∧
      (B + BitVec.ofNat 64 f).toNat % (4 * k.lanes) = 0 ∧ t.g .rbp = B + BitVec.ofNat 64 1008 ∧ t.v = s.v ∧ Framed abi B s t.mem ∧
      (∀ a, ¬ Area B 1024 a → t.mem a = s.mem a) ∧ t.zf = (s.g (abi.arg 1) == 0) ∧ t.g .rax = s.g (abi.arg 1) ∧
      (∀ q, q ∉ [Reg.rsp, .rbp, .rax, .r10] → t.g q = s.g q) ∧ (tr = true → t.g (abi.arg 4) = Spec.Abi.arg abi s 4) := by
  have hs := stackSize_eq k hk
  have hv : vecRoom abi = 0 ∨ vecRoom abi = 160 := by cases abi; exact .inl rfl; exact .inr rfl
  obtain ⟨t1, e1, p1, b1, v1, m1, m1', o1, g1⟩ := head_push hf hP
  obtain ⟨t2, e2, p2, g2, v2, m2, o2⟩ := head_alloc abi k hk hf hB p1 b1
  obtain ⟨t3, f, e3, p3, hle, al3, g3, v3, m3⟩ := head_align (M := M) k hk hB _ (by omega) (by omega) (by omega) p2
  have b3 : t3.g .rbp = B + BitVec.ofNat 64 1008 := (g3 _ (by decide)).trans ((g2 _ (by decide)).trans b1)
  have o3 : ∀ a, ¬ Area B 1024 a → t3.mem a = s.mem a := fun a ha => by
    rw [m3, o2 a, o1 a ha]
    exact fun h => ha (area_imp _ _ (by omega) (by omega) a h)
  obtain ⟨t4, e4, g4, v4, m4, a4⟩ := head_arg (M := M) (s := t3) abi tr s b3 hP o3 ((g3 _ (by decide)).trans ((g2 _ (by decide)).trans (g1 _ (by decide)))) h5
  have ha1 : ∀ q, q ∉ [Reg.rsp, .rbp, .r10] → t4.g q = s.g q := fun q hq => by
    simp only [List.mem_cons, List.not_mem_nil, or_false, not_or] at hq
    exact (g4 _ hq.2.2).trans ((g3 _ hq.1).trans ((g2 _ hq.1).trans (g1 _ (by simp [hq.1, hq.2.1]))))
  have hx : abi.arg 1 ∉ [Reg.rsp, .rbp, .r10] := by cases abi <;> decide
  have hx' : abi.arg 4 ≠ .rax := by cases abi <;> decide
  refine ⟨setG { t4 with zf := (t4.g (abi.arg 1) &&& t4.g (abi.arg 1)) == 0 } .rax (t4.g (abi.arg 1)), f,
    insAll_some (insAll_some (insAll_some (insAll_some e1 e2) e3) e4) (insAll_cons rfl (insAll_cons rfl rfl)), ?_, by omega, al3, ?_, ?_, ?_, ?_, ?_, ?_, ?_, ?_⟩
  · rw [setG_ne _ _ (by decide)]
    exact (g4 _ (by decide)).trans p3
  · rw [setG_ne _ _ (by decide)]
    exact (g4 _ (by decide)).trans b3
  · exact v4.trans (v3.trans (v2.trans v1))
  · show Framed abi B s t4.mem
    rw [m4, m3]
    have k2 : ∀ u n, 1000 ≤ u → u + n ≤ 1024 → bytesAt t2.mem (B + BitVec.ofNat 64 u) n = bytesAt t1.mem (B + BitVec.ofNat 64 u) n := fun u n h1 h2 => by
      apply bytesAt_congr
      intro i hi
      apply o2
      rw [off_add, area_sub_off _ _ _ _ (by omega) (by omega)]
      omega
    refine ⟨?_, ?_, fun hw i hi => ?_⟩
    · rw [k2 _ _ (by omega) (by omega)]; exact m1
    · rw [k2 _ _ (by omega) (by omega)]; exact m1'
    · rw [m2 hw i hi, v1]
  · intro a ha
    show t4.mem a = _
    rw [m4, o3 a ha]
  · show ((t4.g (abi.arg 1) &&& t4.g (abi.arg 1)) == 0) = _
    rw [BitVec.and_self, ha1 _ hx]
  · rw [setG_self, ha1 _ hx]
  · intro q hq
    simp only [List.mem_cons, List.not_mem_nil, or_false, not_or] at hq
    rw [setG_ne _ _ hq.2.2.1]
    exact ha1 q (by simp [hq.1, hq.2.1, hq.2.2.2])
  · intro h
    rw [setG_ne _ _ hx']
    exact a4 h

/-- The epilogue, up to `ret`. -/
theorem tail_exec (abi : Abi) (k : Kind) (hf : RW M B 1024) (hB : B.toNat % 16 = 8) (s0 : State) (hbp : s.g .rbp = B + BitVec.ofNat 64 1008)
    (fr : Framed abi B s0 s.mem) :
    ∃ t, insAll M s (chachaTail abi k) = some t ∧ t.g .rsp = B + BitVec.ofNat 64 1024 ∧ t.g .rbp = s0.g .rbp ∧ t.g .rbx = s0.g .rbx ∧
      t.g .rax = s.g (abi.arg 1) <<< (if k = .vex256 then 3 else 2) ∧ (∀ q, q ∉ [Reg.rsp, .rbp, .rbx, .rax] → t.g q = s.g q) ∧ t.mem = s.mem ∧
      (abi = .wind → ∀ i, i < 10 → LEq 4 (t.v (6 + i)) (s0.v (6 + i))) := by
  obtain ⟨v1, e1, h1⟩ : ∃ v1, insAll M s (match abi with
      | .unix => []
      | .wind => restoreVec 8 10) = some { s with v := v1 } ∧ (abi = .wind → ∀ i, i < 10 → LEq 4 (v1 (6 + i)) (s0.v (6 + i))) := by
    cases abi with
    | unix => exact ⟨s.v, rfl, fun h => by simp at h⟩
    | wind =>
      obtain ⟨v', e, h⟩ := restores_exec hf (by omega) 8 10 1008 (by omega) (by omega) hbp (by omega) s0.v (fr.vec rfl)
      exact ⟨v', e, fun _ => h⟩
  obtain ⟨v2, e2, h2⟩ : ∃ v2, insAll M { s with v := v1 } (if k = .vex256 then [.vzeroupper] else []) = some { s with v := v2 } ∧
      (∀ i, LEq 4 (v2 i) (v1 i)) := by
    by_cases c : k = .vex256
    · rw [if_pos c]
      refine ⟨_, insAll_one rfl, fun i j hj => ?_⟩
      exact if_neg (by omega)
    · rw [if_neg c]
      exact ⟨v1, rfl, fun i => .refl _ _⟩
  have e3 : ins M { s with v := v2 } (.mov .rsp .rbp) = some (setG { s with v := v2 } .rsp (B + BitVec.ofNat 64 1008)) := by rw [← hbp]; rfl
  have e4 := pop_eq (s := setG { s with v := v2 } .rsp (B + BitVec.ofNat 64 1008)) hf (by omega) .rbx 1008 (by omega) (setG_self _ _ _) _ fr.bx
  have e5 := pop_eq (s := setG (setG (setG { s with v := v2 } .rsp (B + BitVec.ofNat 64 1008)) .rsp (B + BitVec.ofNat 64 (1008 + 8))) .rbx (s0.g .rbx)) hf (by omega) .rbp 1016
    (by omega) ((setG_ne _ _ (by decide)).trans (setG_self _ _ _)) _ fr.bp
  have hx : abi.arg 1 ∉ [Reg.rsp, .rbp, .rbx, .rax] := by cases abi <;> decide
  simp only [List.mem_cons, List.not_mem_nil, or_false, not_or] at hx
  refine ⟨_, insAll_some (insAll_some e1 e2) (insAll_cons e3 (insAll_cons e4 (insAll_cons e5 (insAll_cons rfl (insAll_cons rfl rfl))))), ?_, ?_, ?_, ?_, ?_, rfl, ?_⟩
  · rw [alu_ne _ _ (by decide), setG_ne _ _ (by decide), setG_ne _ _ (by decide), setG_self]
  · rw [alu_ne _ _ (by decide), setG_ne _ _ (by decide), setG_self]
  · rw [alu_ne _ _ (by decide), setG_ne _ _ (by decide), setG_ne _ _ (by decide), setG_ne _ _ (by decide), setG_self]
  · rw [alu_self, setG_self, setG_ne _ _ hx.2.1, setG_ne _ _ hx.1, setG_ne _ _ hx.2.2.1, setG_ne _ _ hx.1, setG_ne _ _ hx.1]
  · intro q hq
    simp only [List.mem_cons, List.not_mem_nil, or_false, not_or] at hq
    rw [alu_ne _ _ hq.2.2.2, setG_ne _ _ hq.2.2.2, setG_ne _ _ hq.2.1, setG_ne _ _ hq.1, setG_ne _ _ hq.2.2.1, setG_ne _ _ hq.1, setG_ne _ _ hq.1]
  · intro hw i hi
    exact (h2 (6 + i)).trans (h1 hw i hi)

end

end Milo.X64
