import Verif.Proof.X64Run
/- The stack frame: pushes, pops, saved vector registers. -/
namespace Milo.X64
open Memory X86

theorem off_add (B : W64) (u k : Nat) : B + BitVec.ofNat 64 u + BitVec.ofNat 64 k = B + BitVec.ofNat 64 (u + k) := by
  rw [BitVec.add_assoc, ← BitVec.ofNat_add]

theorem off_sub (B : W64) (u k : Nat) (h : k ≤ u) : B + BitVec.ofNat 64 u - BitVec.ofNat 64 k = B + BitVec.ofNat 64 (u - k) := by
  obtain ⟨d, rfl⟩ : ∃ d, u = d + k := ⟨u - k, by omega⟩
  rw [Nat.add_sub_cancel, BitVec.ofNat_add, ← BitVec.add_assoc, BitVec.add_sub_cancel]

theorem off_neg (B : W64) (u k : Nat) (h : k ≤ u) : B + BitVec.ofNat 64 u + - BitVec.ofNat 64 k = B + BitVec.ofNat 64 (u - k) := by
  rw [← BitVec.sub_eq_add_neg, off_sub B u k h]

/-- `n` bytes from `B` on may be read and written. -/
def RW (M : Machine) (B : W64) (n : Nat) : Prop := ∀ a, Area B n a → M.rd a = true ∧ M.wr a = true

theorem RW.off {M : Machine} {B : W64} {n : Nat} (h : RW M B n) (hn : n ≤ 2 ^ 64) (u i : Nat) (hu : u + i < n) :
    M.rd (B + BitVec.ofNat 64 u + BitVec.ofNat 64 i) = true ∧ M.wr (B + BitVec.ofNat 64 u + BitVec.ofNat 64 i) = true := by
  rw [off_add]
  exact h _ ((area_off _ _ _ (by omega)).mpr hu)

theorem toLE_length (n v : Nat) : (toLE n v).length = n := Memory.toLE_length n v

/-- Another memory. -/
def setM (s : State) (m : W64 → Byte) : State := ⟨s.g, s.v, s.zf, m⟩
theorem setM_g (s : State) (m : W64 → Byte) : (setM s m).g = s.g := rfl

section
variable {M : Machine} {B : W64} {N : Nat} {s : State}

theorem push_eq (hf : RW M B N) (hN : N ≤ 2 ^ 64) (r : Reg) (u : Nat) (hu : 8 ≤ u) (hu' : u ≤ N) (hp : s.g .rsp = B + BitVec.ofNat 64 u) :
    ins M s (.push r) = some (setM (setG s .rsp (B + BitVec.ofNat 64 (u - 8))) (putBytes s.mem (B + BitVec.ofNat 64 (u - 8)) (toLE 8 (s.g r).toNat))) := by
  have e : s.g .rsp - 8 = B + BitVec.ofNat 64 (u - 8) := by rw [hp]; exact off_sub B u 8 hu
  show (M.write s (s.g .rsp - 8) _).bind _ = _
  rw [e, write_eq fun i hi => (hf.off hN (u - 8) i (by rw [toLE_length] at hi; omega)).2]
  rfl

theorem pop_eq (hf : RW M B N) (hN : N ≤ 2 ^ 64) (r : Reg) (u : Nat) (hu' : u + 8 ≤ N) (hp : s.g .rsp = B + BitVec.ofNat 64 u) (w : W64)
    (hw : bytesAt s.mem (B + BitVec.ofNat 64 u) 8 = toLE 8 w.toNat) :
    ins M s (.pop r) = some (setG (setG s .rsp (B + BitVec.ofNat 64 (u + 8))) r w) := by
  show (M.read s (s.g .rsp) 8).bind _ = _
  rw [hp, read_eq fun i hi => (hf.off hN u i (by omega)).1, Option.bind_some, hw, le8]
  rw [show B + BitVec.ofNat 64 u + 8 = B + BitVec.ofNat 64 (u + 8) from off_add B u 8]
  rfl

theorem area_imp (u n : Nat) (hn : u + n ≤ N) (hN : N ≤ 2 ^ 64) (a : W64) (h : Area (B + BitVec.ofNat 64 u) n a) : Area B N a := h.sub hn hN

/-- Saving the vector registers. -/
theorem saves_exec (hf : RW M B N) (hN : N ≤ 2 ^ 64) (c n u : Nat) (hu : c + 16 * n ≤ u) (hu' : u ≤ N) (hbp : s.g .rbp = B + BitVec.ofNat 64 u)
    (hal : (B.toNat + (u - c)) % 16 = 0) :
    ∃ m', insAll M s (saveVec c n) = some { s with mem := m' } ∧
      (∀ i, i < n → bytesAt m' (B + BitVec.ofNat 64 (u - (c + 16 * (i + 1)))) 16 = vecBytes 4 (s.v (6 + i))) ∧
      (∀ a, ¬ Area (B + BitVec.ofNat 64 (u - (c + 16 * n))) (16 * n) a → m' a = s.mem a) := by
  induction n with
  | zero => exact ⟨s.mem, rfl, fun i hi => by omega, fun a _ => rfl⟩
  | succ n ih =>
    obtain ⟨m', e, h1, h2⟩ := ih (by omega)
    have hlen : (vecBytes 4 (s.v (6 + n))).length = 16 := ChaCha.Asm.vecBytes_length _
    refine ⟨putBytes m' (B + BitVec.ofNat 64 (u - (c + 16 * (n + 1)))) (vecBytes 4 (s.v (6 + n))), ?_, ?_, ?_⟩
    · unfold saveVec at e ⊢
      rw [List.range_succ, List.map_append, insAll_append, e, Option.bind_some]
      simp only [List.map_cons, List.map_nil, insAll]
      show (if _ then none else M.write { s with mem := m' } _ (vecBytes 4 (s.v (6 + n)))).bind _ = _
      have ea : addr M { s with mem := m' } (.reg .rbp (- BitVec.ofNat 64 (c + 16 * (n + 1)))) = B + BitVec.ofNat 64 (u - (c + 16 * (n + 1))) := by
        simp only [addr, hbp]
        exact off_neg B u _ hu
      rw [ea, if_neg]
      · rw [show M.write { s with mem := m' } (B + BitVec.ofNat 64 (u - (c + 16 * (n + 1)))) (vecBytes 4 (s.v (6 + n))) = some _ from
          write_eq fun i hi => (hf.off hN (u - (c + 16 * (n + 1))) i (by rw [hlen] at hi; omega)).2]
        rfl
      · have : (B + BitVec.ofNat 64 (u - (c + 16 * (n + 1)))).toNat % (4 * Kind.sse.lanes) = 0 := by
          show _ % 16 = 0
          rw [BitVec.toNat_add, BitVec.toNat_ofNat]
          omega
        exact not_misaligned this
    · intro i hi
      by_cases c' : i = n
      · subst c'
        have := bytesAt_putBytes m' (B + BitVec.ofNat 64 (u - (c + 16 * (i + 1)))) (vecBytes 4 (s.v (6 + i))) (by rw [hlen]; omega)
        rw [hlen] at this
        exact this
      · rw [bytesAt_putBytes_ne _ _ _ _ _ _ (by omega) (by rw [hlen]; omega) (by rw [hlen]; omega)]
        exact h1 i (by omega)
    · intro a ha
      rw [putBytes_out, h2 a]
      · intro h
        apply ha
        obtain ⟨w, hw, hw', rfl⟩ := h.off
        rw [off_add]
        exact (area_sub_off _ _ _ _ (by omega) (by omega)).mpr (by omega)
      · intro h
        apply ha
        rw [hlen] at h
        obtain ⟨w, hw, hw', rfl⟩ := h.off
        rw [off_add]
        exact (area_sub_off _ _ _ _ (by omega) (by omega)).mpr (by omega)

/-- Restoring them. -/
theorem restores_keep (hf : RW M B N) (hN : N ≤ 2 ^ 64) (c n u : Nat) (hu : c + 16 * n ≤ u) (hu' : u ≤ N) (hbp : s.g .rbp = B + BitVec.ofNat 64 u)
    (hal : (B.toNat + (u - c)) % 16 = 0) (v0 : Nat → Vec)
    (hm : ∀ i, i < n → bytesAt s.mem (B + BitVec.ofNat 64 (u - (c + 16 * (i + 1)))) 16 = vecBytes 4 (v0 (6 + i))) :
    ∃ v', insAll M s (restoreVec c n) = some { s with v := v' } ∧ (∀ i, i < n → LEq 4 (v' (6 + i)) (v0 (6 + i))) ∧
      (∀ i, 6 + n ≤ i → v' i = s.v i) := by
  induction n with
  | zero => exact ⟨s.v, rfl, fun i hi => by omega, fun _ _ => rfl⟩
  | succ n ih =>
    obtain ⟨v', e, h1, h1'⟩ := ih (by omega) fun i hi => hm i (by omega)
    refine ⟨fun q => if q = 6 + n then Kind.sse.merge (v' (6 + n)) (ofDb (vecBytes 4 (v0 (6 + n)))) else v' q, ?_, ?_, ?_⟩
    · unfold restoreVec at e ⊢
      rw [List.range_succ, List.map_append, insAll_append, e, Option.bind_some]
      simp only [List.map_cons, List.map_nil, insAll]
      have ea : addr M { s with v := v' } (.reg .rbp (- BitVec.ofNat 64 (c + 16 * (n + 1)))) = B + BitVec.ofNat 64 (u - (c + 16 * (n + 1))) := by
        simp only [addr, hbp]
        exact off_neg B u _ hu
      show (Option.bind (readVec M _ 4 true (addr M { s with v := v' } _)) _).bind _ = _
      rw [ea, readVec_eq (lanes := 4) (fun _ => ?_) (fun i hi => (hf.off hN (u - (c + 16 * (n + 1))) i (by omega)).1)]
      · show some _ = _
        rw [show bytesAt s.mem (B + BitVec.ofNat 64 (u - (c + 16 * (n + 1)))) (4 * 4) = vecBytes 4 (v0 (6 + n)) from hm n (by omega)]
        rfl
      · show _ % 16 = 0
        rw [BitVec.toNat_add, BitVec.toNat_ofNat]
        omega
    · intro i hi
      show LEq 4 (if 6 + i = 6 + n then _ else _) _
      by_cases c' : i = n
      · subst c'
        rw [if_pos rfl]
        exact (merge_lanes .sse _ _).trans fun j hj => ofDb_vecBytes _ j hj
      · rw [if_neg (by omega)]
        exact h1 i (by omega)
    · intro i hi
      show (if i = 6 + n then _ else _) = _
      rw [if_neg (by omega)]
      exact h1' i (by omega)

theorem restores_exec (hf : RW M B N) (hN : N ≤ 2 ^ 64) (c n u : Nat) (hu : c + 16 * n ≤ u) (hu' : u ≤ N) (hbp : s.g .rbp = B + BitVec.ofNat 64 u)
    (hal : (B.toNat + (u - c)) % 16 = 0) (v0 : Nat → Vec)
    (hm : ∀ i, i < n → bytesAt s.mem (B + BitVec.ofNat 64 (u - (c + 16 * (i + 1)))) 16 = vecBytes 4 (v0 (6 + i))) :
    ∃ v', insAll M s (restoreVec c n) = some { s with v := v' } ∧ (∀ i, i < n → LEq 4 (v' (6 + i)) (v0 (6 + i))) := by
  obtain ⟨v', e, h, _⟩ := restores_keep hf hN c n u hu hu' hbp hal v0 hm
  exact ⟨v', e, h⟩

end

/-- `and rsp, -32` -/
theorem and_align (X : W64) : X &&& (0xffffffffffffffe0 : W64) = X - BitVec.ofNat 64 (X.toNat % 32) ∧ (X &&& (0xffffffffffffffe0 : W64)).toNat % 32 = 0 := by
  have hm : ∀ i : Fin 64, (0xffffffffffffffe0 : W64).getLsbD i.val = decide (5 ≤ i.val) := by decide
  have e : X &&& (0xffffffffffffffe0 : W64) = (X >>> 5) <<< 5 := by
    apply BitVec.eq_of_getLsbD_eq
    intro i hi
    rw [BitVec.getLsbD_and, hm ⟨i, hi⟩, BitVec.getLsbD_shiftLeft, BitVec.getLsbD_ushiftRight]
    by_cases h : 5 ≤ i
    · rw [show 5 + (i - 5) = i by omega]
      simp [h, hi]
    · simp [h]
  have e2 : (X &&& (0xffffffffffffffe0 : W64)).toNat = X.toNat / 32 * 32 := by
    rw [e, BitVec.toNat_shiftLeft, BitVec.toNat_ushiftRight, Nat.shiftRight_eq_div_pow, Nat.shiftLeft_eq]
    have := X.isLt
    omega
  refine ⟨?_, by omega⟩
  apply BitVec.eq_of_toNat_eq
  rw [e2, BitVec.toNat_sub, BitVec.toNat_ofNat]
  have := X.isLt
  omega

end Milo.X64
