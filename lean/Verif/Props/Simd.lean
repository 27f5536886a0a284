import Verif.Proof.Cipher
/-
C44: the assembly backends against the portable ones.
-/
namespace Milo.Props
open Milo.ChaCha

/-- The two assembly backends of ChaCha, with the number of 64-byte blocks each does at a time. -/
def asmBackends (junk : Nat → X86.Vec) : List (Nat × CipherBackend) := [(4, .ssse3 junk), (8, .avx2 junk)]

/-- C44, `transform`: for every state, memory, source and destination (equal or disjoint) and number of blocks, the assembly leaves exactly the memory the
portable code leaves when it is asked for the same blocks, and the counter word of the object advances to the same value. -/
theorem C44_transform (h : Host) (junk : Nat → X86.Vec) (ratio : Nat) (b : CipherBackend) (hb : (ratio, b) ∈ asmBackends junk) (n : Nat) (st : List W32)
    (hst : st.length = 16) (mem : List Byte) (dst src : Nat) (ho : dst = src ∨ src + 64 * (ratio * n) ≤ dst ∨ dst + 64 * (ratio * n) ≤ src)
    (hs : src + 64 * (ratio * n) ≤ mem.length) (hd : dst + 64 * (ratio * n) ≤ mem.length) :
    ∃ d d' mem', (b.impl h).transform n st mem dst src = some (d, mem') ∧ (CipherBackend.portable.impl h).transform (ratio * n) st mem dst src = some (d', mem') ∧
      bump st d = bump st d' ∧ (ratio * n < 2 ^ 64 → d = ratio * n ∧ d' = ratio * n) := by
  have hr : (b.impl h).ratio = ratio ∧ ∀ d m, (b.impl h).transform n st mem dst src = some (d, m) → d = n * ratio % 2 ^ 64 := by
    have fin : ∀ (o : Option (X86.St X86.Vec (Option (List Byte)))) (r d : Nat) (m : List Byte), (do
        let s ← o
        let mem ← s.mem
        pure (r, mem) : Option (Nat × List Byte)) = some (d, m) → d = r := by
      intro o r d m e
      cases o with
      | none => simp at e
      | some s =>
        cases hm : s.mem with
        | none => simp [hm] at e
        | some x => simp [hm] at e; exact e.1.symm
    simp only [asmBackends, List.mem_cons, Prod.mk.injEq, List.not_mem_nil, or_false] at hb
    rcases hb with ⟨rfl, rfl⟩ | ⟨rfl, rfl⟩
    all_goals
      refine ⟨rfl, fun d m e => ?_⟩
      change (copyState st).bind _ = _ at e
      rw [Asm.copyState_eq st hst, Option.bind_some] at e
      exact fin _ _ _ _ e
  have ho' : NoOverlap dst src (64 * (ratio * n)) := ho
  have e0 : 64 * (b.impl h).ratio * n = 64 * (ratio * n) := by rw [hr.1, Nat.mul_assoc]
  obtain ⟨d, e, hd'⟩ := (backendLawful h b).transform n st mem dst src hst (by rw [e0]; exact ho') (by rw [e0]; exact hs) (by rw [e0]; exact hd)
  have e2 := sw_transform h st hst mem dst src (ratio * n) ho' hs hd
  rw [e0] at e
  refine ⟨d, ratio * n, _, e, e2, ?_, fun hlt => ⟨?_, rfl⟩⟩
  · rw [bump_eq st d (by omega), bump_eq st _ (by omega)]
    unfold ctr
    rw [hd', hr.1]
  · rw [hr.2 d _ e, Nat.mul_comm n, Nat.mod_eq_of_lt hlt]

/-- C44, `generate`, which writes the key stream itself. -/
theorem C44_generate (h : Host) (junk : Nat → X86.Vec) (ratio : Nat) (b : CipherBackend) (hb : (ratio, b) ∈ asmBackends junk) (n : Nat) (st : List W32)
    (hst : st.length = 16) (buf : List Byte) (hl : 64 * (ratio * n) ≤ buf.length) :
    ∃ d d' buf', (b.impl h).generate n st buf = some (d, buf') ∧ (CipherBackend.portable.impl h).generate (ratio * n) st buf = some (d', buf') ∧
      bump st d = bump st d' := by
  have hr : (b.impl h).ratio = ratio := by
    simp only [asmBackends, List.mem_cons, Prod.mk.injEq, List.not_mem_nil, or_false] at hb
    rcases hb with ⟨rfl, rfl⟩ | ⟨rfl, rfl⟩ <;> rfl
  have e0 : 64 * (b.impl h).ratio * n = 64 * (ratio * n) := by rw [hr, Nat.mul_assoc]
  obtain ⟨d, e, hd'⟩ := (backendLawful h b).generate n st buf hst (by rw [e0]; exact hl)
  have e2 := sw_generate h st hst buf (ratio * n) hl
  rw [e0] at e
  refine ⟨d, ratio * n, _, e, e2, ?_⟩
  rw [bump_eq st d (by omega), bump_eq st _ (by omega)]
  unfold ctr
  rw [hd', hr]

/-- What registers and stack slots hold when the assembly is entered has no influence on what it leaves in memory. -/
theorem C44_junk_irrelevant (h : Host) (junk junk' : Nat → X86.Vec) (ratio : Nat) (b b' : CipherBackend) (i : Nat)
    (hb : (asmBackends junk)[i]? = some (ratio, b)) (hb' : (asmBackends junk')[i]? = some (ratio, b')) (n : Nat) (st : List W32)
    (hst : st.length = 16) (mem : List Byte) (dst src : Nat) (ho : dst = src ∨ src + 64 * (ratio * n) ≤ dst ∨ dst + 64 * (ratio * n) ≤ src)
    (hs : src + 64 * (ratio * n) ≤ mem.length) (hd : dst + 64 * (ratio * n) ≤ mem.length) :
    ((b.impl h).transform n st mem dst src).map (·.2) = ((b'.impl h).transform n st mem dst src).map (·.2) := by
  obtain ⟨_, _, m1, e1, e2, -⟩ := C44_transform h junk ratio b (List.mem_of_getElem? hb) n st hst mem dst src ho hs hd
  obtain ⟨_, _, m2, e3, e4, -⟩ := C44_transform h junk' ratio b' (List.mem_of_getElem? hb') n st hst mem dst src ho hs hd
  rw [e2] at e4
  rw [e1, e3]
  simp only [Option.map_some]
  exact congrArg some (Prod.mk.inj (Option.some.inj e4)).2

/-- Hypotheses of C44 met: three AVX2 units in place, with a counter that wraps and bytes before and after. -/
example : ∃ d d' mem', (CipherBackend.impl ⟨.little, false, none⟩ (.avx2 fun _ _ => 5)).transform 3 (List.replicate 16 0xfffffff0) (List.replicate 1600 7) 10 10 = some (d, mem') ∧
    (CipherBackend.impl ⟨.little, false, none⟩ .portable).transform (8 * 3) (List.replicate 16 0xfffffff0) (List.replicate 1600 7) 10 10 = some (d', mem') ∧
    bump (List.replicate 16 0xfffffff0) d = bump (List.replicate 16 0xfffffff0) d' ∧ (8 * 3 < 2 ^ 64 → d = 8 * 3 ∧ d' = 8 * 3) :=
  C44_transform ⟨.little, false, none⟩ (fun _ _ => 5) 8 _ (by simp [asmBackends]) 3 _ (by simp) _ 10 10 (.inl rfl) (by rw [List.length_replicate]; omega) (by rw [List.length_replicate]; omega)

/-- Hypotheses of C44 met: two SSSE3 units. -/
example : ∃ d d' buf', (CipherBackend.impl ⟨.little, false, none⟩ (.ssse3 fun _ _ => 5)).generate 2 (List.replicate 16 1) (List.replicate 512 7) = some (d, buf') ∧
    (CipherBackend.impl ⟨.little, false, none⟩ .portable).generate (4 * 2) (List.replicate 16 1) (List.replicate 512 7) = some (d', buf') ∧
    bump (List.replicate 16 1) d = bump (List.replicate 16 1) d' :=
  C44_generate ⟨.little, false, none⟩ (fun _ _ => 5) 4 _ (by simp [asmBackends]) 2 _ (by simp) _ (by rw [List.length_replicate])

end Milo.Props
