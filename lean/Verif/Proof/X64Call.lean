import Verif.Proof.X64ChaCha
/- The ChaCha functions as C++ code calls them. -/
namespace Milo.X64
open Memory X86

theorem rsp_eq (P : W64) : P = P - 1024 + BitVec.ofNat 64 1024 := by
  rw [show BitVec.ofNat 64 1024 = (1024 : W64) from rfl, BitVec.sub_add_cancel]

theorem rsp_al (P : W64) (h : P.toNat % 16 = 8) : (P - 1024).toNat % 16 = 8 := by
  rw [BitVec.toNat_sub]
  have : (1024 : W64).toNat = 1024 := rfl
  rw [this]
  omega

theorem area_self (B : W64) (n : Nat) (h : 0 < n) : Area B n B := by
  unfold Area
  rw [BitVec.sub_self]
  exact h

theorem area_size {D B : W64} {N n : Nat} (hn : 0 < n) (h : ∀ a, Area D N a → ¬ Area B n a) : N ≤ 2 ^ 64 := by
  refine Nat.le_of_not_lt fun hc => h B (Nat.lt_trans (BitVec.isLt _) hc) (area_self B n hn)

theorem stWords_eq (s : State) (Q : W64) (n : Nat) : stWords s.mem Q n = Spec.Abi.words s Q n := by
  unfold stWords Spec.Abi.words
  exact List.map_congr_left fun i _ => ofBytes_le4 _ (bytesAt_length _ _ _)

theorem stream_eq (st : List W32) : ChaCha.stream st = Spec.Abi.keyByte st := rfl

theorem arg_lt (abi : Abi) (s : State) (i : Nat) (h : i < 4) : Spec.Abi.arg abi s i = s.g (abi.arg i) := by
  obtain rfl | rfl | rfl | rfl : i = 0 ∨ i = 1 ∨ i = 2 ∨ i = 3 := by omega
  all_goals cases abi <;> rfl

theorem bytesAt_getD (m : W64 → Byte) (a : W64) (n i : Nat) (h : i < n) : (bytesAt m a n).getD i 0 = m (a + BitVec.ofNat 64 i) := by
  rw [List.getD_eq_getElem?_getD, bytesAt_get _ _ _ _ h]; rfl

theorem transform_ok (k : Kind) (hk : k ≠ .vex128) (st : List W32) (hs : st.length = 16) (mem0 : List Byte) (dst N : Nat) (ho : NoOverlap dst 0 N)
    (hsl : N ≤ mem0.length) (hdl : dst + N ≤ mem0.length) (c : ChaCha.Asm.Consts Vec) :
    ChaCha.Asm.BodyOk k.lanes c (bodyV k true c) st (fun j => mem0.getD j 0 ^^^ ChaCha.stream st j) 64 mem0 dst 0 N := by
  have hsl : 0 + N ≤ mem0.length := by omega
  have e : (fun j => mem0.getD j 0 ^^^ ChaCha.stream st j) = fun j => mem0.getD (0 + j) 0 ^^^ ChaCha.stream st j := by simp only [Nat.zero_add]
  rw [e]
  cases k with
  | vex128 => exact absurd rfl hk
  | sse => exact ChaCha.Asm.ssse3_transform_ok st hs mem0 dst 0 N ho hsl hdl c
  | vex256 => exact ChaCha.Asm.avx2_transform_ok st hs mem0 dst 0 N ho hsl hdl c

theorem generate_ok (k : Kind) (hk : k ≠ .vex128) (st : List W32) (hs : st.length = 16) (mem0 : List Byte) (dst N : Nat)
    (hdl : dst + N ≤ mem0.length) (c : ChaCha.Asm.Consts Vec) : ChaCha.Asm.BodyOk k.lanes c (bodyV k false c) st (ChaCha.stream st) 0 mem0 dst 0 N := by
  cases k with
  | vex128 => exact absurd rfl hk
  | sse => exact ChaCha.Asm.ssse3_generate_ok st hs mem0 dst 0 N hdl c
  | vex256 => exact ChaCha.Asm.avx2_generate_ok st hs mem0 dst 0 N hdl c

theorem shl_blocks (k : Kind) (hk : k ≠ .vex128) (w : W64) : w <<< (if k = .vex256 then 3 else 2) = BitVec.ofNat 64 (k.lanes * w.toNat) := by
  apply BitVec.eq_of_toNat_eq
  rw [BitVec.toNat_shiftLeft, BitVec.toNat_ofNat, Nat.shiftLeft_eq, Nat.mul_comm]
  cases k with
  | vex128 => exact absurd rfl hk
  | sse => rfl
  | vex256 => rfl

/-- What `Entered` gives. -/
theorem chacha_call {abi : Abi} {k : Kind} (hk : k ≠ .vex128) {tr : Bool} {M : Machine} {s : State} {D S Q : W64} {N dOff : Nat} {L : List Byte} {out : Nat → Byte}
    (hN : N = 64 * k.lanes * (Spec.Abi.arg abi s 1).toNat)
    (e : Spec.Abi.Entered M s (chachaRo k) ((if tr then (S, N) :: Spec.Abi.stackArgs abi s 5 else []) ++ [(Q, 64)]) [(D, N)])
    (hr : Spec.Abi.arg abi s 0 = 10) (gQ : Spec.Abi.arg abi s 2 = Q) (gD : Spec.Abi.arg abi s 3 = D) (gS : tr = true → Spec.Abi.arg abi s 4 = S)
    (hDQ : Apart (Area D N) (Area Q 64))
    (len : L.length = dOff + N) (lenS : (if tr then N else 0) ≤ L.length)
    (coh : tr = true → ∀ i j, i < N → j < N → (D + BitVec.ofNat 64 i = S + BitVec.ofNat 64 j ↔ dOff + i = j))
    (lD : ∀ i, i < N → s.mem (D + BitVec.ofNat 64 i) = L.getD (dOff + i) 0)
    (lS : tr = true → ∀ i, i < N → s.mem (S + BitVec.ofNat 64 i) = L.getD i 0)
    (body : ∀ c : ChaCha.Asm.Consts Vec, ChaCha.Asm.BodyOk k.lanes c (bodyV k tr c) (stWords s.mem Q 16) out (if tr then 64 else 0) L dOff 0 N) :
    ChaChaCall abi k tr M (s.g .rsp - 1024) s D S Q (Spec.Abi.arg abi s 1).toNat N (if tr then N else 0) dOff L out where
  hk := hk
  hf := e.stack
  hB := rsp_al _ e.aligned
  hP := rsp_eq _
  h5 := fun ha ht a h => by
    subst ha ht
    exact (e.read (s.g .rsp + 40, 8) (by simp [Spec.Abi.stackArgs]) a h).1
  hret := e.ret
  hroA := e.roAligned
  hro := fun a h => ⟨(e.roRead a h).1, fun hc => (e.roRead a h).2 (Nat.lt_trans hc (by omega))⟩
  hroB := e.roBytes
  hD := fun a h => e.write (D, N) (by simp) a h
  hS := fun a h => by
    cases tr with
    | false => exact absurd h (Nat.not_lt_zero _)
    | true => exact e.read (S, N) (by simp) a h
  hQ := fun a h => e.read (Q, 64) (by simp) a h
  hDQ := hDQ
  hn := by rw [← arg_lt abi s 1 (by omega), BitVec.ofNat_toNat, BitVec.setWidth_eq]
  hn' := BitVec.isLt _
  hN := hN
  hN' := area_size (B := s.g .rsp - 1024) (n := 1032) (by omega) fun a h => (e.write (D, N) (by simp) a h).2.1
  hNs := rfl
  hr := by rw [← arg_lt abi s 0 (by omega), hr]
  gD := by rw [← arg_lt abi s 3 (by omega), gD]
  gQ := by rw [← arg_lt abi s 2 (by omega), gQ]
  gS := gS
  len := len
  lenS := lenS
  coh := fun i j hi hj => by
    cases tr with
    | false => exact absurd hj (Nat.not_lt_zero _)
    | true => exact coh rfl i j hi hj
  lD := lD
  lS := fun i hi => by
    cases tr with
    | false => exact absurd hi (Nat.not_lt_zero _)
    | true => exact lS rfl i hi
  body := body

theorem off_inj (D : W64) (i j : Nat) (hi : i < 2 ^ 64) (hj : j < 2 ^ 64) : D + BitVec.ofNat 64 i = D + BitVec.ofNat 64 j ↔ i = j := by
  refine ⟨fun h => ?_, fun h => by rw [h]⟩
  have := congrArg BitVec.toNat (congrArg (fun x => x - D) h)
  simp only [BitVec.add_comm D, BitVec.add_sub_cancel] at this
  rwa [BitVec.toNat_ofNat, BitVec.toNat_ofNat, Nat.mod_eq_of_lt hi, Nat.mod_eq_of_lt hj] at this

theorem chacha_transform_run {abi : Abi} {k : Kind} (hk : k ≠ .vex128) {M : Machine} {s : State} {D S Q : W64} {N : Nat}
    (hN : N = 64 * k.lanes * (Spec.Abi.arg abi s 1).toNat)
    (e : Spec.Abi.Entered M s (chachaRo k) ((S, N) :: Spec.Abi.stackArgs abi s 5 ++ [(Q, 64)]) [(D, N)])
    (hr : Spec.Abi.arg abi s 0 = 10) (gQ : Spec.Abi.arg abi s 2 = Q) (gD : Spec.Abi.arg abi s 3 = D) (gS : Spec.Abi.arg abi s 4 = S)
    (hDQ : Apart (Area D N) (Area Q 64)) (hDS : D = S ∨ Apart (Area D N) (Area S N)) :
    ∃ s', Spec.Abi.Returns abi M (chacha abi k true) s s' [(D, N)] ∧ s'.g .rax = BitVec.ofNat 64 (k.lanes * (Spec.Abi.arg abi s 1).toNat) ∧
      ∀ i, i < N → s'.mem (D + BitVec.ofNat 64 i) = s.mem (S + BitVec.ofNat 64 i) ^^^ Spec.Abi.keyByte (Spec.Abi.words s Q 16) i := by
  have hN' : N ≤ 2 ^ 64 := area_size (B := s.g .rsp - 1024) (n := 1032) (by omega) fun a h => (e.write (D, N) (by simp) a h).2.1
  have main : ∀ (dOff : Nat) (L : List Byte), L.length = dOff + N → (∀ i j, i < N → j < N → (D + BitVec.ofNat 64 i = S + BitVec.ofNat 64 j ↔ dOff + i = j)) →
      (∀ i, i < N → s.mem (D + BitVec.ofNat 64 i) = L.getD (dOff + i) 0) → (∀ i, i < N → s.mem (S + BitVec.ofNat 64 i) = L.getD i 0) → NoOverlap dOff 0 N →
      ∃ s', Spec.Abi.Returns abi M (chacha abi k true) s s' [(D, N)] ∧ s'.g .rax = BitVec.ofNat 64 (k.lanes * (Spec.Abi.arg abi s 1).toNat) ∧
        ∀ i, i < N → s'.mem (D + BitVec.ofNat 64 i) = s.mem (S + BitVec.ofNat 64 i) ^^^ Spec.Abi.keyByte (Spec.Abi.words s Q 16) i := by
    intro dOff L hL coh lD lS ho
    have c := chacha_call (tr := true) (dOff := dOff) (L := L) (out := fun j => L.getD j 0 ^^^ ChaCha.stream (stWords s.mem Q 16) j) hk hN e hr gQ gD (fun _ => gS) hDQ hL
      (by rw [if_pos rfl]; omega) (fun _ => coh) lD (fun _ => lS) (transform_ok k hk _ (stWords_length _ _ _) L dOff N ho (by omega) (by omega))
    obtain ⟨s', r, x, m⟩ := chacha_run c rfl
    refine ⟨s', r, ?_, fun i hi => ?_⟩
    · rw [x, ← arg_lt abi s 1 (by omega), shl_blocks k hk]
    · rw [m i hi, lS i hi, stWords_eq]
      rfl
  rcases hDS with rfl | hDS
  · refine main 0 (bytesAt s.mem D N) (by rw [bytesAt_length]; omega) (fun i j hi hj => ?_) (fun i hi => ?_) (fun i hi => ?_) (.inl rfl)
    · rw [off_inj _ _ _ (by omega) (by omega), Nat.zero_add]
    · rw [Nat.zero_add, bytesAt_getD _ _ _ _ hi]
    · rw [bytesAt_getD _ _ _ _ hi]
  · refine main N (bytesAt s.mem S N ++ bytesAt s.mem D N) (by rw [List.length_append, bytesAt_length, bytesAt_length]) (fun i j hi hj => ?_) (fun i hi => ?_)
      (fun i hi => ?_) (.inr (.inl (by omega)))
    · refine ⟨fun h => absurd ((area_off S j N (by omega)).mpr hj) ?_, fun h => by omega⟩
      rw [← h]
      exact hDS _ ((area_off D i N (by omega)).mpr hi)
    · rw [List.getD_eq_getElem?_getD, List.getElem?_append_right (by rw [bytesAt_length]; omega), bytesAt_length, Nat.add_sub_cancel_left, bytesAt_get _ _ _ _ hi]
      rfl
    · rw [List.getD_eq_getElem?_getD, List.getElem?_append_left (by rw [bytesAt_length]; omega), bytesAt_get _ _ _ _ hi]
      rfl

theorem chacha_generate_run {abi : Abi} {k : Kind} (hk : k ≠ .vex128) {M : Machine} {s : State} {D Q : W64} {N : Nat}
    (hN : N = 64 * k.lanes * (Spec.Abi.arg abi s 1).toNat)
    (e : Spec.Abi.Entered M s (chachaRo k) [(Q, 64)] [(D, N)])
    (hr : Spec.Abi.arg abi s 0 = 10) (gQ : Spec.Abi.arg abi s 2 = Q) (gD : Spec.Abi.arg abi s 3 = D)
    (hDQ : Apart (Area D N) (Area Q 64)) :
    ∃ s', Spec.Abi.Returns abi M (chacha abi k false) s s' [(D, N)] ∧ s'.g .rax = BitVec.ofNat 64 (k.lanes * (Spec.Abi.arg abi s 1).toNat) ∧
      ∀ i, i < N → s'.mem (D + BitVec.ofNat 64 i) = Spec.Abi.keyByte (Spec.Abi.words s Q 16) i := by
  have c := chacha_call (tr := false) (S := 0) (dOff := 0) (L := bytesAt s.mem D N) (out := ChaCha.stream (stWords s.mem Q 16)) hk hN e hr gQ gD (by simp) hDQ
    (by rw [bytesAt_length]; omega) (by simp) (by simp) (fun i hi => by rw [Nat.zero_add, bytesAt_getD _ _ _ _ hi]) (by simp)
    (generate_ok k hk _ (stWords_length _ _ _) _ 0 N (by rw [bytesAt_length]; omega))
  obtain ⟨s', r, x, m⟩ := chacha_run c rfl
  refine ⟨s', r, ?_, fun i hi => ?_⟩
  · rw [x, ← arg_lt abi s 1 (by omega), shl_blocks k hk]
  · rw [m i hi, stWords_eq]
    rfl

end Milo.X64
