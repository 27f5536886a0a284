import Verif.Proof.X64Sha
import Verif.Proof.Sha1Asm
import Verif.Proof.Sha256Asm
/- SHA-1 and SHA-256 as C++ code calls them. -/
namespace Milo.X64
open Memory X86

theorem word_ofDb (m : W64 → Byte) (a : W64) (j : Nat) (hj : j < 4) : ofBytes .little 4 (bytesAt m (a + BitVec.ofNat 64 (4 * j)) 4) = ofDb (bytesAt m a 16) j := by
  unfold ofDb
  rw [bytesAt_drop_take _ _ _ _ _ (by omega)]

theorem vec_bytes_length (v : Vec) : (vecBytes 4 v).length = 16 := ChaCha.Asm.vecBytes_length _

/-- The words of a stored vector. -/
theorem stored_word (m : W64 → Byte) (a : W64) (v : Vec) (j : Nat) (hj : j < 4) :
    ofBytes .little 4 (bytesAt (putBytes m a (vecBytes 4 v)) (a + BitVec.ofNat 64 (4 * j)) 4) = v j := by
  rw [word_ofDb _ _ _ hj]
  have := bytesAt_putBytes m a (vecBytes 4 v) (by rw [vec_bytes_length]; omega)
  rw [vec_bytes_length] at this
  rw [this, ofDb_vecBytes _ _ hj]

theorem vstore_eq {M : Machine} {s : State} {r : Reg} {d : W64} {x : Nat} {a : W64} (ha : s.g r + d = a) (hw : ∀ i, i < 16 → M.wr (a + BitVec.ofNat 64 i) = true) :
    ins M s (.vstore .sse false (.reg r d) x) = some (setM s (putBytes s.mem a (vecBytes 4 (s.v x)))) := by
  subst ha
  show (if (false && (s.g r + d).toNat % (4 * Kind.sse.lanes) != 0) = true then none else M.write s (s.g r + d) (vecBytes 4 (s.v x))) = _
  rw [if_neg (by simp)]
  exact write_eq fun i hi => hw i (by rw [vec_bytes_length] at hi; exact hi)

theorem movdStore_eq {M : Machine} {s : State} {r : Reg} {d : W64} {x : Nat} {a : W64} (ha : s.g r + d = a) (hw : ∀ i, i < 4 → M.wr (a + BitVec.ofNat 64 i) = true) :
    ins M s (.movdStore (.reg r d) x) = some (setM s (putBytes s.mem a (toLE 4 (s.v x 0).toNat))) := by
  subst ha
  exact write_eq fun i hi => hw i (by rw [toLE_length] at hi; exact hi)

/-- What `Entered` gives. -/
theorem sha_call {abi : Abi} {M : Machine} {s : State} {Q S : W64} {N Nq nv : Nat} {roB : List Byte} (hnv : nv ≤ 10) (hNq : Nq ≤ 32) (hroL : roB.length ≤ 2 ^ 32)
    (hN : N = 64 * (Spec.Abi.arg abi s 0).toNat) (e : Spec.Abi.Entered M s roB [(Q, Nq), (S, N)] [(Q, Nq)])
    (gQ : Spec.Abi.arg abi s 1 = Q) (gS : Spec.Abi.arg abi s 2 = S) :
    ShaCall abi M (s.g .rsp - 1024) s nv Q S (Spec.Abi.arg abi s 0).toNat N Nq roB where
  hnv := hnv
  hf := e.stack
  hB := rsp_al _ e.aligned
  hP := rsp_eq _
  hret := e.ret
  hroA := e.roAligned
  hro := fun a h => ⟨(e.roRead a h).1, fun hc => (e.roRead a h).2 (Nat.lt_trans hc (by omega))⟩
  hroL := hroL
  hroB := e.roBytes
  hQ := fun a h => e.read (Q, Nq) (by simp) a h
  hW := fun a h => ⟨(e.write (Q, Nq) (by simp) a h).1, (e.write (Q, Nq) (by simp) a h).2.1⟩
  hS := fun a h => e.read (S, N) (by simp) a h
  hNq := hNq
  hn := by rw [← arg_lt abi s 0 (by omega), BitVec.ofNat_toNat, BitVec.setWidth_eq]
  hn' := BitVec.isLt _
  hN := hN
  hN' := area_size (B := s.g .rsp - 1024) (n := 1024) (by omega) fun a h => (e.read (S, N) (by simp) a h).2
  gQ := by rw [← arg_lt abi s 1 (by omega), gQ]
  gS := by rw [← arg_lt abi s 2 (by omega), gS]

theorem bytesAt_state {m m' : W64 → Byte} {B Q : W64} {Nq : Nat} (hQ : ∀ a, Area Q Nq a → ¬ Area B 1024 a) (hm : ∀ a, ¬ Area B 1024 a → m a = m' a) (hNq : Nq ≤ 32)
    (off n : Nat) (h : off + n ≤ Nq) : bytesAt m (Q + BitVec.ofNat 64 off) n = bytesAt m' (Q + BitVec.ofNat 64 off) n := by
  apply bytesAt_congr
  intro i hi
  apply hm
  apply hQ
  rw [off_add]
  exact (area_off _ _ _ (by omega)).mpr (by omega)

/-! ### SHA-1 -/

theorem sha1_prog (abi : Abi) : ShaProg abi (Sha1.Asm.load (.state 0) (.state32 16) (.ro 0)) Sha1.Asm.block Sha1.Asm.unload (6 + 4) 20 sha1Ro := by
  cases abi
  all_goals
    constructor
    · intros; kernel_rfl
    · intros; kernel_rfl
    · intros; kernel_rfl
    · exact ⟨by kernel_rfl, by kernel_rfl⟩
    · exact ⟨by kernel_rfl, by kernel_rfl⟩
    · exact ⟨by kernel_rfl, by kernel_rfl⟩
    · kernel_rfl
    · kernel_rfl
    · kernel_rfl

theorem sha1_map (f : Ref → Vec) :
    (Sha1.Asm.load (.state 0) (.state32 16) (.ro 0)).map (mapI f) = Sha1.Asm.load (f (.state 0)) (f (.state32 16)) (f (.ro 0)) ∧
    (Sha1.Asm.block (V := Ref)).map (mapI f) = Sha1.Asm.block ∧ (Sha1.Asm.unload (V := Ref)).map (mapI f) = Sha1.Asm.unload :=
  ⟨by kernel_rfl, by kernel_rfl, by kernel_rfl⟩

theorem sha1_execN (n : Nat) (s : St Vec (Option (List Byte))) : execN Sha1.Asm.block n s = Sha1.Asm.loop (simd 4) n s := by
  induction n generalizing s with
  | zero => rfl
  | succ n ih =>
    rw [Sha1.Asm.loop_succ, execN]
    exact congrArg _ (funext ih)

theorem sha1_mask (m : W64 → Byte) (Q : W64) : shaVal sha1Ro m Q (.ro 0) = Sha1.Asm.maskConst := by
  funext j
  by_cases hj : j < 4
  · show (if j < 4 then _ else _) = _
    rw [if_pos hj]
    rfl
  · show (if j < 4 then _ else _) = _
    rw [if_neg hj]
    unfold Sha1.Asm.maskConst ofDb
    rw [List.drop_eq_nil_of_le (by simp; omega)]
    rfl

theorem sha1_run {abi : Abi} {M : Machine} {s : State} {Q S : W64} {N : Nat} (hN : N = 64 * (Spec.Abi.arg abi s 0).toNat)
    (e : Spec.Abi.Entered M s sha1Ro [(Q, 20), (S, N)] [(Q, 20)]) (gQ : Spec.Abi.arg abi s 1 = Q) (gS : Spec.Abi.arg abi s 2 = S) :
    ∃ s', Spec.Abi.Returns abi M (sha1 abi) s s' [(Q, 20)] ∧ s'.g .rax = Spec.Abi.arg abi s 0 ∧
      Spec.Abi.words s' Q 5 = Spec.Abi.hashed Spec.Sha.Sha1.compress (Spec.Abi.words s Q 5) (bytesAt s.mem S N) := by
  have c := sha_call (nv := 4) (by omega) (by omega) (by decide) hN e gQ gS
  generalize hn : (Spec.Abi.arg abi s 0).toNat = n at c hN
  have hB := (Sha1.Asm.blocks_ok s.v).eq n (stWords s.mem Q 5) (bytesAt s.mem S N) (stWords_length _ _ _) (by rw [bytesAt_length]; omega)
  rw [show (bytesAt s.mem S N).take (n * 64) = bytesAt s.mem S N from List.take_of_length_le (by rw [bytesAt_length]; omega)] at hB
  have hst : stWords s.mem Q 5 = [ofBytes .little 4 (bytesAt s.mem (Q + BitVec.ofNat 64 0) 4), ofBytes .little 4 (bytesAt s.mem (Q + BitVec.ofNat 64 4) 4),
      ofBytes .little 4 (bytesAt s.mem (Q + BitVec.ofNat 64 8) 4), ofBytes .little 4 (bytesAt s.mem (Q + BitVec.ofNat 64 12) 4),
      ofBytes .little 4 (bytesAt s.mem (Q + BitVec.ofNat 64 16) 4)] := rfl
  have hB' : ((exec (simd 4) ⟨(List.range 16).map s.v, [], [], some (bytesAt s.mem S N), 0, 0⟩
      (Sha1.Asm.load (shaVal sha1Ro s.mem Q (.state 0)) (shaVal sha1Ro s.mem Q (.state32 16)) Sha1.Asm.maskConst)).bind fun s' => (Sha1.Asm.loop (simd 4) n s').bind fun s' =>
      (exec (simd 4) s' Sha1.Asm.unload).bind fun s' => Sha1.Asm.finish (stWords s.mem Q 5) s')
      = some ((Spec.chunks 64 (bytesAt s.mem S N)).foldl Spec.Sha.Sha1.compress (stWords s.mem Q 5)) := by
    rw [← hB, hst]
    kernel_rfl
  obtain ⟨st1, h1, hB'⟩ := Option.bind_eq_some_iff.mp hB'
  obtain ⟨st2, h2, hB'⟩ := Option.bind_eq_some_iff.mp hB'
  obtain ⟨st3, h3, h4⟩ := Option.bind_eq_some_iff.mp hB'
  have hQr : ∀ a, Area Q 20 a → ¬ Area (s.g .rsp - 1024) 1024 a := fun a ha => (c.hQ a ha).2
  have hval : ∀ m, (∀ a, ¬ Area (s.g .rsp - 1024) 1024 a → m a = s.mem a) → ∀ q ∈ [Sha1.Asm.load (.state 0) (.state32 16) (.ro 0), Sha1.Asm.block, Sha1.Asm.unload],
      q.map (mapI (shaVal sha1Ro m Q)) = q.map (mapI (shaVal sha1Ro s.mem Q)) := by
    intro m hm q hq
    simp only [List.mem_cons, List.not_mem_nil, or_false] at hq
    rcases hq with rfl | rfl | rfl
    · rw [(sha1_map _).1, (sha1_map _).1, sha1_mask, sha1_mask]
      have b := bytesAt_state hQr hm (by omega)
      have e1 : shaVal sha1Ro m Q (.state 0) = shaVal sha1Ro s.mem Q (.state 0) := by
        simp only [shaVal]
        rw [b 0 4 (by omega), b (0 + 4) 4 (by omega), b (0 + 8) 4 (by omega), b (0 + 12) 4 (by omega)]
      have e2 : shaVal sha1Ro m Q (.state32 16) = shaVal sha1Ro s.mem Q (.state32 16) := by
        simp only [shaVal]
        rw [b 16 4 (by omega)]
      rw [e1, e2]
    · rw [(sha1_map _).2.1, (sha1_map _).2.1]
    · rw [(sha1_map _).2.2, (sha1_map _).2.2]
  obtain ⟨s3, r3, x3, m3, fr3, b3, u3, g3, v3⟩ := sha_mid (store := [.vstore .sse false (.reg (abi.arg 1) 0) (Sha1.Asm.state 0), .movdStore (.reg (abi.arg 1) 16) (Sha1.Asm.state 1)])
    c (sha1_prog abi) st1 st2 st3 (by rw [(sha1_map _).1, sha1_mask]; exact h1) (by rw [(sha1_map _).2.1, sha1_execN]; exact h2) (by rw [(sha1_map _).2.2]; exact h3) hval
  have hq : s3.g (abi.arg 1) = Q := by rw [g3 _ (by cases abi <;> decide), c.gQ]
  have hw : ∀ u i, u + i < 20 → M.wr (Q + BitVec.ofNat 64 u + BitVec.ofNat 64 i) = true := fun u i h => by
    rw [off_add]
    exact (c.hW _ ((area_off _ _ _ (by omega)).mpr (by omega))).1
  have est1 := vstore_eq (M := M) (s := s3) (r := abi.arg 1) (d := 0) (x := 0) (a := Q) (by rw [hq]; exact BitVec.add_zero _) (fun i hi => by
    have := hw 0 i (by omega)
    rwa [show Q + BitVec.ofNat 64 0 = Q from BitVec.add_zero _] at this)
  generalize hs4 : setM s3 (putBytes s3.mem Q (vecBytes 4 (s3.v 0))) = s4 at est1
  have est2 := movdStore_eq (M := M) (s := s4) (r := abi.arg 1) (d := 16) (x := 1) (a := Q + BitVec.ofNat 64 16) (by rw [← hs4, setM_g, hq]; rfl) (fun i hi => hw 16 i (by omega))
  have em : ∀ a, ¬ Area Q 20 a → (setM s4 (putBytes s4.mem (Q + BitVec.ofNat 64 16) (toLE 4 (s4.v 1 0).toNat))).mem a = s3.mem a := by
    intro a ha
    show putBytes s4.mem _ _ a = _
    rw [putBytes_out, ← hs4]
    · show putBytes s3.mem _ _ a = _
      rw [putBytes_out]
      rw [vec_bytes_length]
      exact fun hc => ha (Nat.lt_trans hc (by omega))
    · rw [toLE_length]
      exact fun hc => ha (area_imp _ _ (by omega) (by omega) a hc)
  obtain ⟨s', ret, ax, hm⟩ := sha_end c rfl (cd := sha1 abi) r3 (insAll_cons est1 (insAll_cons est2 rfl)) (by rw [setM_g, ← hs4, setM_g]) (by rw [← hs4]; rfl) em m3 fr3 b3 u3 g3 v3
  refine ⟨s', ret, by rw [ax, ← arg_lt abi s 0 (by omega)], ?_⟩
  rw [← stWords_eq, ← stWords_eq, hm]
  show stWords (putBytes s4.mem _ _) Q 5 = (Spec.chunks 64 _).foldl _ _
  have hfin : ∃ q r, st3.x[0]? = some q ∧ st3.x[1]? = some r ∧
      (Spec.chunks 64 (bytesAt s.mem S N)).foldl Spec.Sha.Sha1.compress (stWords s.mem Q 5) = [q 0, q 1, q 2, q 3, r 0] := by
    rw [hst] at h4
    unfold Sha1.Asm.finish at h4
    obtain ⟨_, _, h4⟩ := Option.bind_eq_some_iff.mp h4
    obtain ⟨q, hq, h4⟩ := Option.bind_eq_some_iff.mp h4
    obtain ⟨r, hr, h4⟩ := Option.bind_eq_some_iff.mp h4
    refine ⟨q, r, hq, hr, ?_⟩
    rw [hst]
    exact (Option.some.inj h4).symm
  obtain ⟨q, r, hq0, hr0, hres⟩ := hfin
  rw [hres]
  have xq := x3 0 (by omega)
  have xr := x3 1 (by omega)
  rw [List.getD_eq_getElem?_getD, hq0] at xq
  rw [List.getD_eq_getElem?_getD, hr0] at xr
  have w0 : ∀ j, j < 4 → ofBytes .little 4 (bytesAt (putBytes s4.mem (Q + BitVec.ofNat 64 16) (toLE 4 (s4.v 1 0).toNat)) (Q + BitVec.ofNat 64 (4 * j)) 4) = q j := by
    intro j hj
    rw [bytesAt_putBytes_ne _ _ _ _ _ _ (by omega) (by rw [toLE_length]; omega) (by omega), ← hs4]
    show ofBytes .little 4 (bytesAt (putBytes s3.mem Q _) _ 4) = _
    rw [stored_word _ _ _ _ hj]
    exact xq j hj
  have w4 : ofBytes .little 4 (bytesAt (putBytes s4.mem (Q + BitVec.ofNat 64 16) (toLE 4 (s4.v 1 0).toNat)) (Q + BitVec.ofNat 64 (4 * 4)) 4) = r 0 := by
    have := bytesAt_putBytes s4.mem (Q + BitVec.ofNat 64 16) (toLE 4 (s4.v 1 0).toNat) (by rw [toLE_length]; omega)
    rw [toLE_length] at this
    rw [show 4 * 4 = 16 from rfl, this, le4, ← hs4]
    exact xr 0 (by omega)
  unfold stWords
  simp only [List.range_succ, List.range_zero, List.map_append, List.map_cons, List.map_nil, List.nil_append, List.cons_append]
  rw [w0 0 (by omega), w0 1 (by omega), w0 2 (by omega), w0 3 (by omega), w4]

/-! ### SHA-256 -/

theorem sha256_prog (abi : Abi) : ShaProg abi (Sha256.Asm.load (.state (16 * 0)) (.state (16 * 1)) (.ro 0)) (Sha256.Asm.block fun i => .ro (16 + 16 * i)) Sha256.Asm.unload
    (6 + 5) 32 sha256Ro := by
  cases abi
  all_goals
    constructor
    · intros; kernel_rfl
    · intros; kernel_rfl
    · intros; kernel_rfl
    · exact ⟨by kernel_rfl, by kernel_rfl⟩
    · exact ⟨by kernel_rfl, by kernel_rfl⟩
    · exact ⟨by kernel_rfl, by kernel_rfl⟩
    · kernel_rfl
    · kernel_rfl
    · kernel_rfl

theorem sha256_map (f : Ref → Vec) :
    (Sha256.Asm.load (.state (16 * 0)) (.state (16 * 1)) (.ro 0)).map (mapI f) = Sha256.Asm.load (f (.state (16 * 0))) (f (.state (16 * 1))) (f (.ro 0)) ∧
    (Sha256.Asm.block (V := Ref) fun i => .ro (16 + 16 * i)).map (mapI f) = Sha256.Asm.block (fun i => f (.ro (16 + 16 * i))) ∧
    (Sha256.Asm.unload (V := Ref)).map (mapI f) = Sha256.Asm.unload :=
  ⟨by kernel_rfl, by kernel_rfl, by kernel_rfl⟩

theorem sha256_execN (k : Nat → Vec) (n : Nat) (s : St Vec (Option (List Byte))) : execN (Sha256.Asm.block k) n s = Sha256.Asm.loop (simd 4) k n s := by
  induction n generalizing s with
  | zero => rfl
  | succ n ih =>
    rw [Sha256.Asm.loop_succ, execN]
    exact congrArg _ (funext ih)

theorem sha256_mask (m : W64 → Byte) (Q : W64) : shaVal sha256Ro m Q (.ro 0) = Sha256.Asm.maskConst := by
  funext j
  by_cases hj : j < 4
  · show (if j < 4 then _ else _) = _
    rw [if_pos hj]
    obtain rfl | rfl | rfl | rfl : j = 0 ∨ j = 1 ∨ j = 2 ∨ j = 3 := by omega
    all_goals kernel_rfl
  · show (if j < 4 then _ else _) = _
    rw [if_neg hj]
    unfold Sha256.Asm.maskConst ofDb
    rw [List.drop_eq_nil_of_le (by simp; omega)]
    rfl

theorem sha256_k (m : W64 → Byte) (Q : W64) (i : Nat) (hi : i < 16) : shaVal sha256Ro m Q (.ro (16 + 16 * i)) = Sha256.Asm.kVec i := by
  funext j
  by_cases hj : j < 4
  · show (if j < 4 then _ else _) = _
    rw [if_pos hj]
    have key : ∀ i : Fin 16, ∀ j : Fin 4, ofDb (sha256Ro.drop (16 + 16 * i.val)) j.val = Sha256.Asm.kVec i.val j.val := by decide +kernel
    exact key ⟨i, hi⟩ ⟨j, hj⟩
  · show (if j < 4 then _ else _) = _
    rw [if_neg hj]
    obtain ⟨d, rfl⟩ : ∃ d, j = d + 4 := ⟨j - 4, by omega⟩
    rfl

theorem sha256_block_congr (k k' : Nat → Vec) (h : ∀ i, i < 16 → k i = k' i) : Sha256.Asm.block k = Sha256.Asm.block k' := by
  unfold Sha256.Asm.block Sha256.Asm.rounds00 Sha256.Asm.rounds04 Sha256.Asm.rounds08 Sha256.Asm.rounds12 Sha256.Asm.rounds52 Sha256.Asm.rounds56 Sha256.Asm.rounds60
  rw [h 0 (by omega), h 1 (by omega), h 2 (by omega), h 3 (by omega), h 4 (by omega), h 5 (by omega), h 6 (by omega), h 7 (by omega), h 8 (by omega), h 9 (by omega),
    h 10 (by omega), h 11 (by omega), h 12 (by omega), h 13 (by omega), h 14 (by omega), h 15 (by omega)]

theorem sha256Ro_length : sha256Ro.length = 272 := by decide +kernel

theorem sha256_block_map (m : W64 → Byte) (Q : W64) : (Sha256.Asm.block (V := Ref) fun i => .ro (16 + 16 * i)).map (mapI (shaVal sha256Ro m Q)) = Sha256.Asm.block Sha256.Asm.kVec := by
  rw [(sha256_map _).2.1]
  exact sha256_block_congr _ _ fun i hi => sha256_k m Q i hi

theorem sha256_run {abi : Abi} {M : Machine} {s : State} {Q S : W64} {N : Nat} (hN : N = 64 * (Spec.Abi.arg abi s 0).toNat)
    (e : Spec.Abi.Entered M s sha256Ro [(Q, 32), (S, N)] [(Q, 32)]) (gQ : Spec.Abi.arg abi s 1 = Q) (gS : Spec.Abi.arg abi s 2 = S) :
    ∃ s', Spec.Abi.Returns abi M (sha256 abi) s s' [(Q, 32)] ∧ s'.g .rax = Spec.Abi.arg abi s 0 ∧
      Spec.Abi.words s' Q 8 = Spec.Abi.hashed Sha256.compress (Spec.Abi.words s Q 8) (bytesAt s.mem S N) := by
  have c := sha_call (nv := 5) (by omega) (by omega) (by rw [sha256Ro_length]; omega) hN e gQ gS
  generalize hn : (Spec.Abi.arg abi s 0).toNat = n at c hN
  have hB := (Sha256.Asm.blocks_ok s.v).eq n (stWords s.mem Q 8) (bytesAt s.mem S N) (stWords_length _ _ _) (by rw [bytesAt_length]; omega)
  rw [show (bytesAt s.mem S N).take (n * 64) = bytesAt s.mem S N from List.take_of_length_le (by rw [bytesAt_length]; omega)] at hB
  have hst : stWords s.mem Q 8 = [ofBytes .little 4 (bytesAt s.mem (Q + BitVec.ofNat 64 0) 4), ofBytes .little 4 (bytesAt s.mem (Q + BitVec.ofNat 64 4) 4),
      ofBytes .little 4 (bytesAt s.mem (Q + BitVec.ofNat 64 8) 4), ofBytes .little 4 (bytesAt s.mem (Q + BitVec.ofNat 64 12) 4),
      ofBytes .little 4 (bytesAt s.mem (Q + BitVec.ofNat 64 16) 4), ofBytes .little 4 (bytesAt s.mem (Q + BitVec.ofNat 64 20) 4),
      ofBytes .little 4 (bytesAt s.mem (Q + BitVec.ofNat 64 24) 4), ofBytes .little 4 (bytesAt s.mem (Q + BitVec.ofNat 64 28) 4)] := rfl
  have hB' : ((exec (simd 4) ⟨(List.range 16).map s.v, [], [], some (bytesAt s.mem S N), 0, 0⟩
      (Sha256.Asm.load (shaVal sha256Ro s.mem Q (.state (16 * 0))) (shaVal sha256Ro s.mem Q (.state (16 * 1))) Sha256.Asm.maskConst)).bind fun s' => (Sha256.Asm.loop (simd 4) Sha256.Asm.kVec n s').bind fun s' =>
      (exec (simd 4) s' Sha256.Asm.unload).bind fun s' => Sha256.Asm.finish (stWords s.mem Q 8) s')
      = some ((Spec.chunks 64 (bytesAt s.mem S N)).foldl Sha256.compress (stWords s.mem Q 8)) := by
    rw [← hB, hst]
    kernel_rfl
  obtain ⟨st1, h1, hB'⟩ := Option.bind_eq_some_iff.mp hB'
  obtain ⟨st2, h2, hB'⟩ := Option.bind_eq_some_iff.mp hB'
  obtain ⟨st3, h3, h4⟩ := Option.bind_eq_some_iff.mp hB'
  have hQr : ∀ a, Area Q 32 a → ¬ Area (s.g .rsp - 1024) 1024 a := fun a ha => (c.hQ a ha).2
  have hval : ∀ m, (∀ a, ¬ Area (s.g .rsp - 1024) 1024 a → m a = s.mem a) → ∀ q ∈ [Sha256.Asm.load (.state (16 * 0)) (.state (16 * 1)) (.ro 0), (Sha256.Asm.block fun i => .ro (16 + 16 * i)), Sha256.Asm.unload],
      q.map (mapI (shaVal sha256Ro m Q)) = q.map (mapI (shaVal sha256Ro s.mem Q)) := by
    intro m hm q hq
    simp only [List.mem_cons, List.not_mem_nil, or_false] at hq
    rcases hq with rfl | rfl | rfl
    · rw [(sha256_map _).1, (sha256_map _).1, sha256_mask, sha256_mask]
      have b := bytesAt_state hQr hm (by omega)
      have e1 : ∀ off, off + 16 ≤ 32 → shaVal sha256Ro m Q (.state off) = shaVal sha256Ro s.mem Q (.state off) := fun off ho => by
        simp only [shaVal]
        rw [b off 4 (by omega), b (off + 4) 4 (by omega), b (off + 8) 4 (by omega), b (off + 12) 4 (by omega)]
      rw [e1 (16 * 0) (by omega), e1 (16 * 1) (by omega)]
    · rw [sha256_block_map, sha256_block_map]
    · rw [(sha256_map _).2.2, (sha256_map _).2.2]
  obtain ⟨s3, r3, x3, m3, fr3, b3, u3, g3, v3⟩ := sha_mid (store := [.vstore .sse false (.reg (abi.arg 1) (16 * 0)) (Sha256.Asm.save 0), .vstore .sse false (.reg (abi.arg 1) (16 * 1)) (Sha256.Asm.save 1)])
    c (sha256_prog abi) st1 st2 st3 (by rw [(sha256_map _).1, sha256_mask]; exact h1) (by rw [sha256_block_map, sha256_execN]; exact h2) (by rw [(sha256_map _).2.2]; exact h3) hval
  have hq : s3.g (abi.arg 1) = Q := by rw [g3 _ (by cases abi <;> decide), c.gQ]
  have hw : ∀ u i, u + i < 32 → M.wr (Q + BitVec.ofNat 64 u + BitVec.ofNat 64 i) = true := fun u i h => by
    rw [off_add]
    exact (c.hW _ ((area_off _ _ _ (by omega)).mpr (by omega))).1
  have est1 := vstore_eq (M := M) (s := s3) (r := abi.arg 1) (d := 16 * 0) (x := 9) (a := Q) (by rw [hq]; exact BitVec.add_zero _) (fun i hi => by
    have := hw 0 i (by omega)
    rwa [show Q + BitVec.ofNat 64 0 = Q from BitVec.add_zero _] at this)
  generalize hs4 : setM s3 (putBytes s3.mem Q (vecBytes 4 (s3.v 9))) = s4 at est1
  have est2 := vstore_eq (M := M) (s := s4) (r := abi.arg 1) (d := 16 * 1) (x := 10) (a := Q + BitVec.ofNat 64 16) (by rw [← hs4, setM_g, hq]; rfl) (fun i hi => hw 16 i (by omega))
  have em : ∀ a, ¬ Area Q 32 a → (setM s4 (putBytes s4.mem (Q + BitVec.ofNat 64 16) (vecBytes 4 (s4.v 10)))).mem a = s3.mem a := by
    intro a ha
    show putBytes s4.mem _ _ a = _
    rw [putBytes_out, ← hs4]
    · show putBytes s3.mem _ _ a = _
      rw [putBytes_out]
      rw [vec_bytes_length]
      exact fun hc => ha (Nat.lt_trans hc (by omega))
    · rw [vec_bytes_length]
      exact fun hc => ha (area_imp _ _ (by omega) (by omega) a hc)
  obtain ⟨s', ret, ax, hm⟩ := sha_end c rfl (cd := sha256 abi) r3 (insAll_cons est1 (insAll_cons est2 rfl)) (by rw [setM_g, ← hs4, setM_g]) (by rw [← hs4]; rfl) em m3 fr3 b3 u3 g3 v3
  refine ⟨s', ret, by rw [ax, ← arg_lt abi s 0 (by omega)], ?_⟩
  rw [← stWords_eq, ← stWords_eq, hm]
  show stWords (putBytes s4.mem _ _) Q 8 = (Spec.chunks 64 _).foldl _ _
  have hfin : ∃ q r, st3.x[9]? = some q ∧ st3.x[10]? = some r ∧
      (Spec.chunks 64 (bytesAt s.mem S N)).foldl Sha256.compress (stWords s.mem Q 8) = [q 0, q 1, q 2, q 3, r 0, r 1, r 2, r 3] := by
    rw [hst] at h4
    unfold Sha256.Asm.finish at h4
    obtain ⟨_, _, h4⟩ := Option.bind_eq_some_iff.mp h4
    obtain ⟨q, hq, h4⟩ := Option.bind_eq_some_iff.mp h4
    obtain ⟨r, hr, h4⟩ := Option.bind_eq_some_iff.mp h4
    refine ⟨q, r, hq, hr, ?_⟩
    rw [hst]
    exact (Option.some.inj h4).symm
  obtain ⟨q, r, hq0, hr0, hres⟩ := hfin
  rw [hres]
  have xq := x3 9 (by omega)
  have xr := x3 10 (by omega)
  rw [List.getD_eq_getElem?_getD, hq0] at xq
  rw [List.getD_eq_getElem?_getD, hr0] at xr
  have w0 : ∀ j, j < 4 → ofBytes .little 4 (bytesAt (putBytes s4.mem (Q + BitVec.ofNat 64 16) (vecBytes 4 (s4.v 10))) (Q + BitVec.ofNat 64 (4 * j)) 4) = q j := by
    intro j hj
    rw [bytesAt_putBytes_ne _ _ _ _ _ _ (by omega) (by rw [vec_bytes_length]; omega) (by omega), ← hs4]
    show ofBytes .little 4 (bytesAt (putBytes s3.mem Q _) _ 4) = _
    rw [stored_word _ _ _ _ hj]
    exact xq j hj
  have w4 : ∀ j, j < 4 → ofBytes .little 4 (bytesAt (putBytes s4.mem (Q + BitVec.ofNat 64 16) (vecBytes 4 (s4.v 10))) (Q + BitVec.ofNat 64 (4 * (4 + j))) 4) = r j := by
    intro j hj
    rw [show 4 * (4 + j) = 16 + 4 * j by omega, ← off_add, stored_word _ _ _ _ hj, ← hs4]
    exact xr j hj
  unfold stWords
  simp only [List.range_succ, List.range_zero, List.map_append, List.map_cons, List.map_nil, List.nil_append, List.cons_append]
  rw [w0 0 (by omega), w0 1 (by omega), w0 2 (by omega), w0 3 (by omega), w4 0 (by omega), w4 1 (by omega), w4 2 (by omega), w4 3 (by omega)]

end Milo.X64
