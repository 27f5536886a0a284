import Verif.Proof.X64Call
/- `cpuid` as C++ code calls it. -/
namespace Milo.X64
open Memory X86

theorem store32_eq {M : Machine} {s : State} {r q : Reg} {d : W64} {a : W64} {w : W32} (ha : s.g r + d = a) (hq : s.g q = zext w) (hw : ∀ i, i < 4 → M.wr (a + BitVec.ofNat 64 i) = true) :
    ins M s (.store32 (.reg r d) q) = some (setM s (putBytes s.mem a (toLE 4 w.toNat))) := by
  subst ha
  have e : (s.g q).toNat % 2 ^ 32 = w.toNat := by
    rw [hq]
    unfold zext
    rw [BitVec.toNat_setWidth]
    have := w.isLt
    omega
  show M.write s (s.g r + d) (toLE 4 ((s.g q).toNat % 2 ^ 32)) = _
  rw [e]
  exact write_eq fun i hi => hw i (by rw [toLE_length] at hi; exact hi)

theorem cpuid_eq (M : Machine) (t : State) : ins M t .cpuid =
    (match M.cpuid ((t.g .rax).setWidth 32) ((t.g .rcx).setWidth 32) with
      | (a, b, c, d) => some (setG (setG (setG (setG t .rax (zext a)) .rbx (zext b)) .rcx (zext c)) .rdx (zext d))) := rfl

/-- Four words one after the other. -/
def put4 (m : W64 → Byte) (A : W64) (a b c d : W32) : W64 → Byte :=
  putBytes (putBytes (putBytes (putBytes m A (toLE 4 a.toNat)) (A + BitVec.ofNat 64 4) (toLE 4 b.toNat)) (A + BitVec.ofNat 64 8) (toLE 4 c.toNat))
    (A + BitVec.ofNat 64 12) (toLE 4 d.toNat)

theorem put_word (m : W64 → Byte) (A : W64) (u : Nat) (w : W32) :
    (ofBytes .little 4 (bytesAt (putBytes m (A + BitVec.ofNat 64 u) (toLE 4 w.toNat)) (A + BitVec.ofNat 64 u) 4) : W32) = w := by
  have := bytesAt_putBytes m (A + BitVec.ofNat 64 u) (toLE 4 w.toNat) (by rw [toLE_length]; omega)
  rw [toLE_length] at this
  rw [this, le4]

theorem put_other (m : W64 → Byte) (A : W64) (u v : Nat) (w : W32) (h : u + 4 ≤ v ∨ v + 4 ≤ u) (hu : u < 2 ^ 32) (hv : v < 2 ^ 32) :
    bytesAt (putBytes m (A + BitVec.ofNat 64 v) (toLE 4 w.toNat)) (A + BitVec.ofNat 64 u) 4 = bytesAt m (A + BitVec.ofNat 64 u) 4 :=
  bytesAt_putBytes_ne _ _ _ _ _ _ (by omega) (by rw [toLE_length]; omega) (by rw [toLE_length]; omega)

theorem put4_words (m : W64 → Byte) (A : W64) (a b c d : W32) : stWords (put4 m A a b c d) A 4 = [a, b, c, d] := by
  have h0 : A = A + BitVec.ofNat 64 0 := (BitVec.add_zero _).symm
  unfold stWords put4
  simp only [List.range_succ, List.range_zero, List.map_append, List.map_cons, List.map_nil, List.nil_append, List.cons_append]
  rw [show 4 * 0 = 0 from rfl, show 4 * 1 = 4 from rfl, show 4 * 2 = 8 from rfl, show 4 * 3 = 12 from rfl]
  rw [put_word, put_other _ _ 8 12 _ (by omega) (by omega) (by omega), put_word, put_other _ _ 4 12 _ (by omega) (by omega) (by omega),
    put_other _ _ 4 8 _ (by omega) (by omega) (by omega), put_word, put_other _ _ 0 12 _ (by omega) (by omega) (by omega), put_other _ _ 0 8 _ (by omega) (by omega) (by omega),
    put_other _ _ 0 4 _ (by omega) (by omega) (by omega)]
  have := put_word m A 0 a
  rw [← h0] at this ⊢
  rw [this]

theorem put4_out (m : W64 → Byte) (A : W64) (a b c d : W32) (x : W64) (h : ¬ Area A 16 x) : put4 m A a b c d x = m x := by
  have key : ∀ (m : W64 → Byte) (u : Nat) (w : W32), u + 4 ≤ 16 → putBytes m (A + BitVec.ofNat 64 u) (toLE 4 w.toNat) x = m x := fun m u w hu => by
    apply putBytes_out
    rw [toLE_length]
    exact fun hc => h (area_imp _ _ (by omega) (by omega) x hc)
  unfold put4
  rw [key _ _ _ (by omega), key _ _ _ (by omega), key _ _ _ (by omega)]
  apply putBytes_out
  rw [toLE_length]
  exact fun hc => h (Nat.lt_trans hc (by omega))

theorem cpuid_run {abi : Abi} {M : Machine} {s : State} {A : W64} (e : Spec.Abi.Entered M s [] [] [(A, 16)]) (gA : Spec.Abi.arg abi s 0 = A) :
    ∃ s', Spec.Abi.Returns abi M (cpuidFn abi) s s' [(A, 16)] ∧
      (let (a, b, c, d) := M.cpuid ((Spec.Abi.arg abi s 1).setWidth 32) ((Spec.Abi.arg abi s 2).setWidth 32)
       Spec.Abi.words s' A 4 = [a, b, c, d]) := by
  rw [arg_lt abi s 0 (by omega)] at gA
  rw [arg_lt abi s 1 (by omega), arg_lt abi s 2 (by omega)]
  -- up to `cpuid`
  obtain ⟨t1, e1, m1, v1, p1, r9, r10, rax, rcx, o1⟩ : ∃ t, insAll M s [.xchg .rbx .r10, .mov .r9 (abi.arg 0), .mov .rax (abi.arg 1), .mov .rcx (abi.arg 2)] = some t ∧
      t.mem = s.mem ∧ t.v = s.v ∧ t.g .rsp = s.g .rsp ∧ t.g .r9 = A ∧ t.g .r10 = s.g .rbx ∧ t.g .rax = s.g (abi.arg 1) ∧ t.g .rcx = s.g (abi.arg 2) ∧
      (∀ r, r ∉ [Reg.rax, .rbx, .rcx, .r9, .r10] → t.g r = s.g r) := by
    rw [← gA]
    cases abi
    all_goals
      refine ⟨_, insAll_cons rfl (insAll_cons rfl (insAll_cons rfl (insAll_cons rfl rfl))), rfl, rfl, rfl, rfl, rfl, rfl, rfl, fun r hr => ?_⟩
      cases r <;> first | rfl | simp at hr
  obtain ⟨a, b, c, d, hc⟩ : ∃ a b c d, M.cpuid ((s.g (abi.arg 1)).setWidth 32) ((s.g (abi.arg 2)).setWidth 32) = (a, b, c, d) := ⟨_, _, _, _, rfl⟩
  rw [hc]
  obtain ⟨t2, e2, m2, v2, p2, r9, r10, rax, rbx, rcx, rdx, o2⟩ : ∃ t, ins M t1 .cpuid = some t ∧ t.mem = s.mem ∧ t.v = s.v ∧ t.g .rsp = s.g .rsp ∧ t.g .r9 = A ∧ t.g .r10 = s.g .rbx ∧
      t.g .rax = zext a ∧ t.g .rbx = zext b ∧ t.g .rcx = zext c ∧ t.g .rdx = zext d ∧ (∀ r, r ∉ [Reg.rax, .rbx, .rcx, .rdx, .r9, .r10] → t.g r = s.g r) := by
    refine ⟨setG (setG (setG (setG t1 .rax (zext a)) .rbx (zext b)) .rcx (zext c)) .rdx (zext d), ?_, m1, v1, p1, r9, r10, rfl, rfl, rfl, rfl, fun r hr => ?_⟩
    · rw [cpuid_eq, rax, rcx, hc]
    · rw [← o1 r (by simp at hr ⊢; simp [hr])]
      cases r <;> first | rfl | simp at hr
  have hw : ∀ u, u + 4 ≤ 16 → ∀ i, i < 4 → M.wr (A + BitVec.ofNat 64 u + BitVec.ofNat 64 i) = true := fun u hu i hi => by
    rw [off_add]
    exact (e.write (A, 16) (by simp) _ ((area_off _ _ _ (by omega)).mpr (by omega))).1
  have h0 : A + BitVec.ofNat 64 0 = A := BitVec.add_zero _
  have e3 := store32_eq (M := M) (s := t2) (r := .r9) (q := .rax) (d := 0) (a := A) (by rw [r9]; exact h0) rax (by have := hw 0 (by omega); rwa [h0] at this)
  have e4 := store32_eq (M := M) (s := setM t2 (putBytes t2.mem A (toLE 4 a.toNat))) (r := .r9) (q := .rbx) (d := 4) (a := A + BitVec.ofNat 64 4) (by rw [setM_g, r9]; rfl) rbx (hw 4 (by omega))
  have e5 := store32_eq (M := M) (s := setM t2 (putBytes (putBytes t2.mem A (toLE 4 a.toNat)) (A + BitVec.ofNat 64 4) (toLE 4 b.toNat))) (r := .r9) (q := .rcx) (d := 8)
    (a := A + BitVec.ofNat 64 8) (by rw [setM_g, r9]; rfl) rcx (hw 8 (by omega))
  have e6 := store32_eq (M := M) (s := setM t2 (putBytes (putBytes (putBytes t2.mem A (toLE 4 a.toNat)) (A + BitVec.ofNat 64 4) (toLE 4 b.toNat)) (A + BitVec.ofNat 64 8) (toLE 4 c.toNat)))
    (r := .r9) (q := .rdx) (d := 12) (a := A + BitVec.ofNat 64 12) (by rw [setM_g, r9]; rfl) rdx (hw 12 (by omega))
  generalize ht3 : setG (setG (setM t2 (put4 t2.mem A a b c d)) .rbx (t2.g .r10)) .r10 (t2.g .rbx) = t3
  have e7 : insAll M t2 [.store32 (.reg .r9 0) .rax, .store32 (.reg .r9 4) .rbx, .store32 (.reg .r9 8) .rcx, .store32 (.reg .r9 12) .rdx, .xchg .rbx .r10] = some t3 := by
    rw [← ht3]
    exact insAll_cons e3 (insAll_cons e4 (insAll_cons e5 (insAll_cons e6 (insAll_cons rfl rfl))))
  have m3 : t3.mem = put4 s.mem A a b c d := by rw [← ht3, ← m2]; rfl
  have p3 : t3.g .rsp = s.g .rsp := by rw [← ht3, ← p2]; rfl
  have v3 : t3.v = s.v := by rw [← ht3, ← v2]; rfl
  have b3 : t3.g .rbx = s.g .rbx := by rw [← ht3, ← r10]; rfl
  have o3 : ∀ r, r ∉ [Reg.rax, .rbx, .rcx, .rdx, .r9, .r10] → t3.g r = s.g r := fun r hr => by
    rw [← o2 r hr, ← ht3]
    cases r <;> first | rfl | simp at hr
  have eP := rsp_eq (s.g .rsp)
  have hra : ∀ i, i < 8 → t3.mem (s.g .rsp + BitVec.ofNat 64 i) = s.mem (s.g .rsp + BitVec.ofNat 64 i) := fun i hi => by
    rw [m3]
    refine put4_out _ _ _ _ _ _ _ fun hc => (e.write (A, 16) (by simp) _ hc).2.1 ?_
    unfold Spec.Abi.frame
    rw [show s.g .rsp + BitVec.ofNat 64 i = s.g .rsp - 1024 + BitVec.ofNat 64 (1024 + i) by rw [← off_add, ← eP]]
    exact (area_off _ _ _ (by omega)).mpr (by omega)
  refine ⟨setG t3 .rsp (t3.g .rsp + 8), ⟨?_, ?_, ?_, ?_, ?_⟩, ?_⟩
  · have : cpuidFn abi = ([.xchg .rbx .r10, .mov .r9 (abi.arg 0), .mov .rax (abi.arg 1), .mov .rcx (abi.arg 2)] ++ (.cpuid ::
        [.store32 (.reg .r9 0) .rax, .store32 (.reg .r9 4) .rbx, .store32 (.reg .r9 8) .rcx, .store32 (.reg .r9 12) .rdx, .xchg .rbx .r10]) : List Ins).map .ins ++ [.ret] := rfl
    refine Reach.trans (c' := .at [.ret] t3) ?_ (.step ?_ (.refl _))
    · show Reach M (cpuidFn abi) (.at (cpuidFn abi) s) _
      have r := reach_ins (M := M) (cd := cpuidFn abi) (rest := [.ret]) (insAll_some e1 (insAll_cons e2 e7))
      rw [← this] at r
      exact r
    · show (M.read t3 (t3.g .rsp) 8).bind _ = _
      rw [p3, read_eq fun i hi => e.ret _ ((area_off _ _ _ (by omega)).mpr hi), Option.bind_some, ofBytes_le8 _ (bytesAt_length _ _ _), bytesAt_congr hra]
      rfl
  · rw [setG_self, p3]
  · intro r hr
    have : r ≠ .rsp := by cases abi <;> simp only [Spec.Abi.savedRegs, List.mem_cons, List.not_mem_nil, or_false] at hr <;> rcases hr with rfl | rfl | rfl | rfl | rfl | rfl | rfl | rfl <;> decide
    rw [setG_ne _ _ this]
    by_cases c1 : r = .rbx
    · rw [c1]; exact b3
    · refine o3 r ?_
      cases abi <;> simp only [Spec.Abi.savedRegs, List.mem_cons, List.not_mem_nil, or_false] at hr <;> rcases hr with rfl | rfl | rfl | rfl | rfl | rfl | rfl | rfl <;>
        first | exact absurd rfl c1 | decide
  · intro i _ j _
    show t3.v i j = _
    rw [v3]
  · intro x _ hd
    show t3.mem x = _
    rw [m3]
    exact put4_out _ _ _ _ _ _ _ (hd (A, 16) (by simp))
  · show Spec.Abi.words _ A 4 = _
    rw [← stWords_eq]
    show stWords t3.mem A 4 = _
    rw [m3, put4_words]

end Milo.X64
