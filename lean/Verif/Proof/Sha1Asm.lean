import Verif.Proof.Sha1AsmRun
import Verif.Proof.ShaAsm
import Verif.Proof.Sha1
/- The SHA-NI backend of SHA-1 computes the compression function of FIPS 180-4. -/
namespace Milo.Sha1.Asm
open Memory X86

/-- Working variables after `t` rounds. -/
def vars (W : List W32) (v : Spec.Sha.Sha1.Vars) (t : Nat) : Spec.Sha.Sha1.Vars :=
  (List.range t).foldl (fun v t => Spec.Sha.Sha1.round v t (W.getD t 0)) v

theorem vars_succ (W : List W32) (v : Spec.Sha.Sha1.Vars) (t : Nat) :
    vars W v (t + 1) = Spec.Sha.Sha1.round (vars W v t) t (W.getD t 0) := foldl_range_succ _ _ _

def quad (v : Spec.Sha.Sha1.Vars) : Vec := vec4 v.d v.c v.b v.a
def X (W : List W32) (v : Spec.Sha.Sha1.Vars) (t : Nat) : Vec := quad (vars W v (4 * t))
def Wv (W : List W32) (t : Nat) : Vec := vec4 (W.getD (4 * t + 3) 0) (W.getD (4 * t + 2) 0) (W.getD (4 * t + 1) 0) (W.getD (4 * t) 0)
def N (W : List W32) (v : Spec.Sha.Sha1.Vars) (t : Nat) : Vec :=
  vec4 (W.getD (4 * t + 3) 0) (W.getD (4 * t + 2) 0) (W.getD (4 * t + 1) 0) (W.getD (4 * t) 0 + (vars W v (4 * t)).e)

/-- One round of `sha1rnds4`, the fifth variable being added to the word or apart. -/
theorem sha1round_eq (imm t : Nat) (hf : ∀ x y z, sha1f imm x y z = Spec.Sha.Sha1.f t x y z) (hk : sha1k imm = Spec.Sha.Sha1.K t)
    (v : Spec.Sha.Sha1.Vars) (w w' e' : W32) (hw : w' + e' = w + v.e) :
    sha1round imm w' (v.a, v.b, v.c, v.d, e') =
      ((Spec.Sha.Sha1.round v t w).a, (Spec.Sha.Sha1.round v t w).b, (Spec.Sha.Sha1.round v t w).c, (Spec.Sha.Sha1.round v t w).d,
        (Spec.Sha.Sha1.round v t w).e) := by
  unfold sha1round Spec.Sha.Sha1.round
  simp only
  rw [hf, hk, rol_eq _ _ (by omega), rol_eq _ _ (by omega)]
  congr 1
  rw [BitVec.add_assoc _ w' e', hw]
  generalize Spec.Sha.Sha1.f t v.b v.c v.d = f
  generalize v.a.rotateLeft 5 = a
  ac_rfl

theorem sha1rnds4_eq (imm t : Nat) (hf : ∀ i, i < 4 → ∀ x y z, sha1f imm x y z = Spec.Sha.Sha1.f (t + i) x y z)
    (hk : ∀ i, i < 4 → sha1k imm = Spec.Sha.Sha1.K (t + i)) (v : Spec.Sha.Sha1.Vars) (w0 w1 w2 w3 : W32) :
    sha1rnds4 (quad v) (vec4 w3 w2 w1 (w0 + v.e)) imm =
      quad (Spec.Sha.Sha1.round (Spec.Sha.Sha1.round (Spec.Sha.Sha1.round (Spec.Sha.Sha1.round v t w0) (t + 1) w1) (t + 2) w2) (t + 3) w3) := by
  unfold sha1rnds4
  have e0 := sha1round_eq imm t (hf 0 (by omega)) (hk 0 (by omega)) v w0 (w0 + v.e) 0 (BitVec.add_zero _)
  simp only [show quad v 3 = v.a from rfl, show quad v 2 = v.b from rfl, show quad v 1 = v.c from rfl, show quad v 0 = v.d from rfl,
    show vec4 w3 w2 w1 (w0 + v.e) 3 = w0 + v.e from rfl, show vec4 w3 w2 w1 (w0 + v.e) 2 = w1 from rfl,
    show vec4 w3 w2 w1 (w0 + v.e) 1 = w2 from rfl, show vec4 w3 w2 w1 (w0 + v.e) 0 = w3 from rfl, e0]
  rw [sha1round_eq imm (t + 1) (hf 1 (by omega)) (hk 1 (by omega)) _ w1 w1 _ rfl, sha1round_eq imm (t + 2) (hf 2 (by omega)) (hk 2 (by omega)) _ w2 w2 _ rfl,
    sha1round_eq imm (t + 3) (hf 3 (by omega)) (hk 3 (by omega)) _ w3 w3 _ rfl]
  rfl

theorem phase (t i : Nat) (ht : t < 20) (hi : i < 4) :
    (∀ x y z, sha1f (t / 5) x y z = Spec.Sha.Sha1.f (4 * t + i) x y z) ∧ sha1k (t / 5) = Spec.Sha.Sha1.K (4 * t + i) := by
  have : t / 5 = 0 ∧ 4 * t + i < 20 ∨ t / 5 = 1 ∧ 20 ≤ 4 * t + i ∧ 4 * t + i < 40 ∨ t / 5 = 2 ∧ 40 ≤ 4 * t + i ∧ 4 * t + i < 60 ∨
    t / 5 = 3 ∧ 60 ≤ 4 * t + i := by omega
  generalize t / 5 = q at *
  generalize 4 * t + i = j at *
  rcases this with ⟨rfl, h⟩ | ⟨rfl, h1, h⟩ | ⟨rfl, h1, h⟩ | ⟨rfl, h⟩
  · exact ⟨fun x y z => by simp only [Spec.Sha.Sha1.f, h, if_true]; rfl, by simp only [Spec.Sha.Sha1.K, h, if_true]; rfl⟩
  · have h0 : ¬ j < 20 := by omega
    exact ⟨fun x y z => by simp only [Spec.Sha.Sha1.f, h, h0, if_true, if_false]; rfl, by simp only [Spec.Sha.Sha1.K, h, h0, if_true, if_false]; rfl⟩
  · have h0 : ¬ j < 20 := by omega
    have h2 : ¬ j < 40 := by omega
    exact ⟨fun x y z => by simp only [Spec.Sha.Sha1.f, h, h0, h2, if_true, if_false]; rfl, by simp only [Spec.Sha.Sha1.K, h, h0, h2, if_true, if_false]; rfl⟩
  · have h0 : ¬ j < 20 := by omega
    have h2 : ¬ j < 40 := by omega
    have h3 : ¬ j < 60 := by omega
    exact ⟨fun x y z => by simp only [Spec.Sha.Sha1.f, h0, h2, h3, if_false]; rfl, by simp only [Spec.Sha.Sha1.K, h0, h2, h3, if_false]; rfl⟩

theorem X_round (W : List W32) (v : Spec.Sha.Sha1.Vars) (t : Nat) (ht : t < 20) : sha1rnds4 (X W v t) (N W v t) (t / 5) = X W v (t + 1) := by
  unfold X N
  rw [sha1rnds4_eq (t / 5) (4 * t) (fun i hi => (phase t i ht hi).1) (fun i hi => (phase t i ht hi).2)]
  rw [show 4 * (t + 1) = 4 * t + 3 + 1 by omega, vars_succ, vars_succ, vars_succ, vars_succ]

theorem e_of_a (W : List W32) (v : Spec.Sha.Sha1.Vars) (t : Nat) : (vars W v (t + 4)).e = (vars W v t).a.rotateLeft 30 := by
  rw [vars_succ, vars_succ, vars_succ, vars_succ]; rfl

theorem X_next (W : List W32) (v : Spec.Sha.Sha1.Vars) (t : Nat) : bin .sha1nexte (X W v t) (Wv W (t + 1)) = N W v (t + 1) := by
  show vec4 _ _ _ (Wv W (t + 1) 3 + rol (X W v t 3) 30) = _
  rw [rol_eq _ _ (by omega), show X W v t 3 = (vars W v (4 * t)).a from rfl, ← e_of_a]
  rfl

/-- Four words of the schedule. -/
theorem W_sched (W : List W32) (hW : ∀ i, i + 16 < 80 →
      W.getD (i + 16) 0 = (W.getD (i + 13) 0 ^^^ W.getD (i + 8) 0 ^^^ W.getD (i + 2) 0 ^^^ W.getD i 0).rotateLeft 1) (t : Nat) (ht : t + 4 < 20) :
    bin .sha1msg2 (bin .pxor (bin .sha1msg1 (Wv W t) (Wv W (t + 1))) (Wv W (t + 2))) (Wv W (t + 3)) = Wv W (t + 4) := by
  have h0 := hW (4 * t) (by omega)
  have h1 := hW (4 * t + 1) (by omega)
  have h2 := hW (4 * t + 2) (by omega)
  have h3 := hW (4 * t + 3) (by omega)
  unfold Wv
  simp only [Nat.mul_add, Nat.add_assoc, Nat.reduceAdd, Nat.reduceMul] at *
  show bin .sha1msg2 (bin .pxor (vec4 _ _ _ _) (vec4 _ _ _ _)) _ = _
  rw [pxor_vec4, h3, h2, h1, h0]
  show vec4 _ _ _ _ = _
  simp only [vec4]
  simp only [rol_eq _ 1 (by omega)]
  generalize W.getD (4 * t) 0 = w0
  generalize W.getD (4 * t + 1) 0 = w1
  generalize W.getD (4 * t + 2) 0 = w2
  generalize W.getD (4 * t + 3) 0 = w3
  generalize W.getD (4 * t + 4) 0 = w4
  generalize W.getD (4 * t + 5) 0 = w5
  generalize W.getD (4 * t + 8) 0 = w8
  generalize W.getD (4 * t + 9) 0 = w9
  generalize W.getD (4 * t + 10) 0 = w10
  generalize W.getD (4 * t + 11) 0 = w11
  generalize W.getD (4 * t + 13) 0 = w13
  generalize W.getD (4 * t + 14) 0 = w14
  generalize W.getD (4 * t + 15) 0 = w15
  have e0 : w2 ^^^ w0 ^^^ w8 ^^^ w13 = w13 ^^^ w8 ^^^ w2 ^^^ w0 := by ac_rfl
  have e1 : w3 ^^^ w1 ^^^ w9 ^^^ w14 = w14 ^^^ w9 ^^^ w3 ^^^ w1 := by ac_rfl
  have e2 : w4 ^^^ w2 ^^^ w10 ^^^ w15 = w15 ^^^ w10 ^^^ w4 ^^^ w2 := by ac_rfl
  rw [e0, e1, e2]
  generalize (w13 ^^^ w8 ^^^ w2 ^^^ w0).rotateLeft 1 = w16
  have e3 : w5 ^^^ w3 ^^^ w11 ^^^ w16 = w16 ^^^ w11 ^^^ w5 ^^^ w3 := by ac_rfl
  rw [e3]

theorem schedule_step (b : List Byte) (hb : b.length = 64) (i : Nat) (hi : i + 16 < 80) :
    (Spec.Sha.Sha1.schedule b).getD (i + 16) 0 = ((Spec.Sha.Sha1.schedule b).getD (i + 13) 0 ^^^ (Spec.Sha.Sha1.schedule b).getD (i + 8) 0 ^^^
      (Spec.Sha.Sha1.schedule b).getD (i + 2) 0 ^^^ (Spec.Sha.Sha1.schedule b).getD i 0).rotateLeft 1 := by
  obtain ⟨h1, _, h3⟩ := grow Spec.Sha.Sha1.next (Spec.Sha.words 4 b) 64
  have hwl : (Spec.Sha.words 4 b).length = 16 := spec_words_length 4 (by omega) _ 16 (by omega)
  rw [hwl] at h1 h3
  have h4 := h3 i (by omega)
  change (Spec.Sha.Sha1.schedule b)[16 + i]? = some (Spec.Sha.Sha1.next ((Spec.Sha.Sha1.schedule b).take (16 + i))) at h4
  change (Spec.Sha.Sha1.schedule b).length = _ at h1
  rw [Nat.add_comm 16 i] at h4
  rw [List.getD_eq_getElem?_getD, h4, Option.getD_some]
  unfold Spec.Sha.Sha1.next
  generalize Spec.Sha.Sha1.schedule b = W at *
  have hl : (W.take (i + 16)).length = i + 16 := by simp; omega
  have hg : ∀ k, k < i + 16 → (W.take (i + 16)).getD k 0 = W.getD k 0 := by
    intro k hk
    rw [List.getD_eq_getElem?_getD, List.getD_eq_getElem?_getD, List.getElem?_take_of_lt hk]
  simp only [hl]
  rw [hg _ (by omega), hg _ (by omega), hg _ (by omega), hg _ (by omega)]
  rfl

theorem schedule_first (b : List Byte) (hb : b.length = 64) (i : Nat) (hi : i < 16) :
    (Spec.Sha.Sha1.schedule b).getD i 0 = (Spec.Sha.words 4 b).getD i 0 := by
  obtain ⟨_, h2, _⟩ := grow Spec.Sha.Sha1.next (Spec.Sha.words 4 b) 64
  have hwl : (Spec.Sha.words 4 b).length = 16 := spec_words_length 4 (by omega) _ 16 (by omega)
  rw [hwl] at h2
  change (Spec.Sha.Sha1.schedule b).take 16 = _ at h2
  rw [← h2, List.getD_eq_getElem?_getD, List.getD_eq_getElem?_getD, List.getElem?_take_of_lt hi]

/-- The shuffle puts the big-endian words of sixteen bytes in reverse order. -/
theorem pshufb_words (c0 c1 c2 c3 : List Byte) (h0 : c0.length = 4) (h1 : c1.length = 4) (h2 : c2.length = 4) (h3 : c3.length = 4) :
    bin .pshufb (vec4 (ofBytes .little 4 c0) (ofBytes .little 4 c1) (ofBytes .little 4 c2) (ofBytes .little 4 c3)) maskConst
      = vec4 (BitVec.ofNat 32 (Spec.beNat c3)) (BitVec.ofNat 32 (Spec.beNat c2)) (BitVec.ofNat 32 (Spec.beNat c1)) (BitVec.ofNat 32 (Spec.beNat c0)) :=
  ext4 _ _ _ _ _ (by rw [← swap_word c3 h3]; rfl) (by rw [← swap_word c2 h2]; rfl) (by rw [← swap_word c1 h1]; rfl) (by rw [← swap_word c0 h0]; rfl)
    fun _ => pshufb_zero _ _ _ _ _ _

/-- The registers loaded with sixteen bytes. -/
def Lv (src : List Byte) (off i : Nat) : Vec :=
  vec4 (ofBytes .little 4 ((src.drop (off + 16 * i)).take 4)) (ofBytes .little 4 ((src.drop (off + 16 * i + 4)).take 4))
    (ofBytes .little 4 ((src.drop (off + 16 * i + 8)).take 4)) (ofBytes .little 4 ((src.drop (off + 16 * i + 12)).take 4))

theorem groups (src : List Byte) (off : Nat) (h : off + 64 ≤ src.length) (v : Spec.Sha.Sha1.Vars) :
    Groups (simd 4) (X (Spec.Sha.Sha1.schedule ((src.drop off).take 64)) v) (Wv (Spec.Sha.Sha1.schedule ((src.drop off).take 64)))
      (N (Spec.Sha.Sha1.schedule ((src.drop off).take 64)) v) (vec4 0 0 0 v.e) maskConst (Lv src off) := by
  have hb : ((src.drop off).take 64).length = 64 := by simp; omega
  refine ⟨?_, ?_, fun t => X_next _ _ _, ?_, fun t ht => W_sched _ (schedule_step _ hb) t ht⟩
  · intro i hi
    show bin .pshufb (Lv src off i) maskConst = _
    unfold Lv Wv
    rw [pshufb_words _ _ _ _ (by simp; omega) (by simp; omega) (by simp; omega) (by simp; omega)]
    rw [schedule_first _ hb _ (by omega), schedule_first _ hb _ (by omega), schedule_first _ hb _ (by omega), schedule_first _ hb _ (by omega),
      words_get _ _ _ (by omega) h, words_get _ _ _ (by omega) h, words_get _ _ _ (by omega) h, words_get _ _ _ (by omega) h]
    rw [show off + 4 * (4 * i + 3) = off + 16 * i + 12 by omega, show off + 4 * (4 * i + 2) = off + 16 * i + 8 by omega,
      show off + 4 * (4 * i + 1) = off + 16 * i + 4 by omega, show off + 4 * (4 * i) = off + 16 * i by omega]
  · show bin .paddd (vec4 0 0 0 v.e) (Wv _ 0) = _
    unfold Wv N
    have z : ∀ x : W32, (0 : W32) + x = x := BitVec.zero_add
    rw [paddd_vec4, z, z, z, BitVec.add_comm]
    rfl
  · intro t ht
    show sha1rnds4 _ _ (t / 5 % 4) = _
    rw [show t / 5 % 4 = t / 5 by omega]
    exact X_round _ _ _ ht

theorem block_eq (src : List Byte) (off : Nat) (h : off + 64 ≤ src.length) (a b c d e g2 g3 g4 g5 g6 g8 g9) (r t u : List Vec) (dst : Nat) :
    ∃ a' b' c' d' e', [a', b', c', d', e'] = Spec.Sha.Sha1.compress [a, b, c, d, e] ((src.drop off).take 64) ∧ ∃ k2 k3 k4 k5 k6 k8 k9,
    exec (simd 4) ⟨vec4 d c b a :: vec4 0 0 0 e :: g2 :: g3 :: g4 :: g5 :: g6 :: maskConst :: g8 :: g9 :: r, t, u, some src, dst, off⟩ block
      = some ⟨vec4 d' c' b' a' :: vec4 0 0 0 e' :: k2 :: k3 :: k4 :: k5 :: k6 :: maskConst :: k8 :: k9 :: r, t, u, some src, dst, off + 64⟩ := by
  have hr := block_run (groups src off h ⟨a, b, c, d, e⟩) r t u (some src) dst off g2 g3 g4 g5 g6 g8 g9 (fun i hi => loadVec_eq src (off + 16 * i) (by omega))
  generalize hW : Spec.Sha.Sha1.schedule ((src.drop off).take 64) = W at hr
  refine ⟨(vars W ⟨a, b, c, d, e⟩ 80).a + a, (vars W ⟨a, b, c, d, e⟩ 80).b + b, (vars W ⟨a, b, c, d, e⟩ 80).c + c, (vars W ⟨a, b, c, d, e⟩ 80).d + d,
    (vars W ⟨a, b, c, d, e⟩ 80).e + e, by rw [← hW]; rfl, N W ⟨a, b, c, d, e⟩ 19, Wv W 16, Wv W 17, Wv W 18, Wv W 19, X W ⟨a, b, c, d, e⟩ 0, vec4 0 0 0 e, hr.trans ?_⟩
  have e1 : (simd 4).bin .paddd (X W ⟨a, b, c, d, e⟩ 20) (X W ⟨a, b, c, d, e⟩ 0) = vec4 ((vars W ⟨a, b, c, d, e⟩ 80).d + d)
      ((vars W ⟨a, b, c, d, e⟩ 80).c + c) ((vars W ⟨a, b, c, d, e⟩ 80).b + b) ((vars W ⟨a, b, c, d, e⟩ 80).a + a) := paddd_vec4 _ _ _ _ _ _ _ _
  have e2 : (simd 4).bin .sha1nexte (X W ⟨a, b, c, d, e⟩ 19) (vec4 0 0 0 e) = vec4 0 0 0 ((vars W ⟨a, b, c, d, e⟩ 80).e + e) := by
    show vec4 0 0 0 (e + rol (vars W ⟨a, b, c, d, e⟩ 76).a 30) = _
    rw [rol_eq _ _ (by omega), ← e_of_a, BitVec.add_comm]
  rw [e1, e2]

theorem loop_succ {V M : Type} (A : Alg V M) (n : Nat) (s : St V M) : loop A (n + 1) s = (exec A s block).bind (loop A n) := rfl

theorem loop_eq (src : List Byte) (n off : Nat) (h : off + n * 64 ≤ src.length) (a b c d e g2 g3 g4 g5 g6 g8 g9) (r t u : List Vec) (dst : Nat) :
    ∃ a' b' c' d' e', [a', b', c', d', e'] = (Spec.chunks 64 ((src.drop off).take (n * 64))).foldl Spec.Sha.Sha1.compress [a, b, c, d, e] ∧
      ∃ k2 k3 k4 k5 k6 k8 k9,
    loop (simd 4) n ⟨vec4 d c b a :: vec4 0 0 0 e :: g2 :: g3 :: g4 :: g5 :: g6 :: maskConst :: g8 :: g9 :: r, t, u, some src, dst, off⟩
      = some ⟨vec4 d' c' b' a' :: vec4 0 0 0 e' :: k2 :: k3 :: k4 :: k5 :: k6 :: maskConst :: k8 :: k9 :: r, t, u, some src, dst, off + n * 64⟩ := by
  induction n generalizing off a b c d e g2 g3 g4 g5 g6 g8 g9 with
  | zero =>
    refine ⟨a, b, c, d, e, ?_, g2, g3, g4, g5, g6, g8, g9, ?_⟩
    · simp [chunks_nil]
    · rw [Nat.zero_mul]; rfl
  | succ n ih =>
    rw [Nat.succ_mul] at h
    obtain ⟨a1, b1, c1, d1, e1, h1, k2, k3, k4, k5, k6, k8, k9, hx⟩ := block_eq src off (by omega) a b c d e g2 g3 g4 g5 g6 g8 g9 r t u dst
    obtain ⟨a2, b2, c2, d2, e2, h2, l2, l3, l4, l5, l6, l8, l9, hy⟩ := ih (off + 64) (by omega) a1 b1 c1 d1 e1 k2 k3 k4 k5 k6 k8 k9
    refine ⟨a2, b2, c2, d2, e2, ?_, l2, l3, l4, l5, l6, l8, l9, ?_⟩
    · rw [h2, h1]
      have : (src.drop off).take ((n + 1) * 64) = (src.drop off).take 64 ++ (src.drop (off + 64)).take (n * 64) := by
        rw [Nat.succ_mul, Nat.add_comm, List.take_add, List.drop_drop]
      rw [this, chunks_cons 64 (by omega) _ _ (by simp; omega), List.foldl_cons]
    · rw [loop_succ, hx, Option.bind_some, hy, Nat.succ_mul, Nat.add_assoc, Nat.add_comm 64]

theorem blocks_ok (junk : Nat → Vec) : BlocksOk 64 (fun st : List W32 => st.length = 5) Spec.Sha.Sha1.compress (blocks junk) where
  pos := by omega
  wf := fun st b _ _ => rfl
  eq := by
    intro n st src hst hl
    obtain ⟨a, b, c, d, e, rfl⟩ := list5 st hst
    have hload : exec (simd 4) ⟨(List.range 16).map junk, [], [], some src, 0, 0⟩ (load (vec4 a b c d) (vec4 e 0 0 0) maskConst)
        = some ⟨vec4 d c b a :: vec4 0 0 0 e :: junk 2 :: junk 3 :: junk 4 :: junk 5 :: junk 6 :: maskConst :: junk 8 :: junk 9 ::
          [junk 10, junk 11, junk 12, junk 13, junk 14, junk 15], [], [], some src, 0, 0⟩ := by
      have e1 : (simd 4).unImm .pshufd (vec4 a b c d) 0b00011011 = vec4 d c b a := pshufd_vec4 _ _ _ _ _ _ _ _ _ rfl rfl rfl rfl
      have e2 : (simd 4).unImm .pslldq (vec4 e 0 0 0) 12 = vec4 0 0 0 e := pslldq12 _ _ _ _
      rw [← e1, ← e2]; kernel_rfl
    obtain ⟨a', b', c', d', e', hf, k2, k3, k4, k5, k6, k8, k9, hx⟩ := loop_eq src n 0 (by omega) a b c d e (junk 2) (junk 3) (junk 4) (junk 5) (junk 6)
      (junk 8) (junk 9) [junk 10, junk 11, junk 12, junk 13, junk 14, junk 15] [] [] 0
    have hu : exec (simd 4) ⟨vec4 d' c' b' a' :: vec4 0 0 0 e' :: k2 :: k3 :: k4 :: k5 :: k6 :: maskConst :: k8 :: k9 ::
          [junk 10, junk 11, junk 12, junk 13, junk 14, junk 15], [], [], some src, 0, 0 + n * 64⟩ unload
        = some ⟨vec4 a' b' c' d' :: vec4 e' 0 0 0 :: k2 :: k3 :: k4 :: k5 :: k6 :: maskConst :: k8 :: k9 ::
          [junk 10, junk 11, junk 12, junk 13, junk 14, junk 15], [], [], some src, 0, 0 + n * 64⟩ := by
      have e1 : (simd 4).unImm .pshufd (vec4 d' c' b' a') 0b00011011 = vec4 a' b' c' d' := pshufd_vec4 _ _ _ _ _ _ _ _ _ rfl rfl rfl rfl
      have e2 : (simd 4).unImm .psrldq (vec4 0 0 0 e') 12 = vec4 e' 0 0 0 := psrldq12 _ _ _ _
      rw [← e1, ← e2]; kernel_rfl
    rw [List.drop_zero] at hf
    rw [← hf]
    refine Eq.trans (b := (exec (simd 4) ⟨(List.range 16).map junk, [], [], some src, 0, 0⟩ (load (vec4 a b c d) (vec4 e 0 0 0) maskConst)).bind fun s => (loop (simd 4) n s).bind fun s =>
      (exec (simd 4) s unload).bind fun s => finish [a, b, c, d, e] s) (by kernel_rfl) ?_
    rw [hload, Option.bind_some, hx, Option.bind_some, hu]
    kernel_rfl

end Milo.Sha1.Asm
