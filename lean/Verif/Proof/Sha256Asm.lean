import Verif.Proof.Sha256AsmRun
import Verif.Proof.ShaAsm
import Verif.Proof.Sha256
/- The SHA-NI backend of SHA-256 computes the compression function of FIPS 180-4. -/
namespace Milo.Sha256.Asm
open Memory X86 Spec.Sha

/-- Working variables after `t` rounds. -/
def vars (W : List W32) (v : Sha2.Vars 32) (t : Nat) : Sha2.Vars 32 :=
  (List.range t).foldl (fun v t => Round v (Sha256.K t) (W.getD t 0)) v

theorem vars_succ (W : List W32) (v : Sha2.Vars 32) (t : Nat) :
    vars W v (t + 1) = Round (vars W v t) (Sha256.K t) (W.getD t 0) := foldl_range_succ _ _ _

def abef (v : Sha2.Vars 32) : Vec := vec4 v.f v.e v.b v.a
def cdgh (v : Sha2.Vars 32) : Vec := vec4 v.h v.g v.d v.c
def E (W : List W32) (v : Sha2.Vars 32) (t : Nat) : Vec := abef (vars W v (4 * t))
def P (W : List W32) (v : Sha2.Vars 32) (t : Nat) : Vec := cdgh (vars W v (4 * t))
def Wv (W : List W32) (t : Nat) : Vec := vec4 (W.getD (4 * t) 0) (W.getD (4 * t + 1) 0) (W.getD (4 * t + 2) 0) (W.getD (4 * t + 3) 0)

theorem s0_eq (x : W32) : sha256s0 x = Sha2.sigma (7, 18, 3) x := by
  unfold sha256s0; rw [ror_eq _ _ (by omega), ror_eq _ _ (by omega)]; rfl
theorem s1_eq (x : W32) : sha256s1 x = Sha2.sigma (17, 19, 10) x := by
  unfold sha256s1; rw [ror_eq _ _ (by omega), ror_eq _ _ (by omega)]; rfl

theorem sha256round_eq (k w : W32) (v : Sha2.Vars 32) :
    sha256round (w + k) (v.a, v.b, v.c, v.d, v.e, v.f, v.g, v.h) =
      ((Round v k w).a, (Round v k w).b, (Round v k w).c, (Round v k w).d, (Round v k w).e, (Round v k w).f, (Round v k w).g, (Round v k w).h) := by
  rw [Round_def]
  unfold sha256round
  simp only
  have e1 : ror v.e 6 ^^^ ror v.e 11 ^^^ ror v.e 25 = Sha2.Sigma (6, 11, 25) v.e := by
    rw [ror_eq _ _ (by omega), ror_eq _ _ (by omega), ror_eq _ _ (by omega)]; rfl
  have e2 : ror v.a 2 ^^^ ror v.a 13 ^^^ ror v.a 22 = Sha2.Sigma (2, 13, 22) v.a := by
    rw [ror_eq _ _ (by omega), ror_eq _ _ (by omega), ror_eq _ _ (by omega)]; rfl
  have e3 : (v.e &&& v.f) ^^^ (~~~ v.e &&& v.g) = ch v.e v.f v.g := rfl
  have e4 : (v.a &&& v.b) ^^^ (v.a &&& v.c) ^^^ (v.b &&& v.c) = maj v.a v.b v.c := rfl
  rw [e1, e2, e3, e4]
  generalize Sha2.Sigma (6, 11, 25) v.e = s1
  generalize Sha2.Sigma (2, 13, 22) v.a = s0
  generalize ch v.e v.f v.g = c
  generalize maj v.a v.b v.c = m
  have a1 : c + s1 + (w + k) + v.h + m + s0 = v.h + s1 + c + k + w + (s0 + m) := by ac_rfl
  have a2 : c + s1 + (w + k) + v.h + v.d = v.d + (v.h + s1 + c + k + w) := by ac_rfl
  rw [a1, a2]

/-- `sha256rnds2`: two rounds, from both halves of the variables to the first half. -/
theorem rnds2_eq (v : Sha2.Vars 32) (k0 k1 w0 w1 x y : W32) :
    sha256rnds2 (cdgh v) (abef v) (vec4 (w0 + k0) (w1 + k1) x y) = abef (Round (Round v k0 w0) k1 w1) := by
  unfold sha256rnds2
  have e0 := sha256round_eq k0 w0 v
  have e1 := sha256round_eq k1 w1 (Round v k0 w0)
  simp only [show cdgh v 3 = v.c from rfl, show cdgh v 2 = v.d from rfl, show cdgh v 1 = v.g from rfl, show cdgh v 0 = v.h from rfl,
    show abef v 3 = v.a from rfl, show abef v 2 = v.b from rfl, show abef v 1 = v.e from rfl, show abef v 0 = v.f from rfl,
    show vec4 (w0 + k0) (w1 + k1) x y 0 = w0 + k0 from rfl, show vec4 (w0 + k0) (w1 + k1) x y 1 = w1 + k1 from rfl, e0, e1]
  rfl

/-- Two rounds on, the second half is what the first was. -/
theorem cdgh_round (v : Sha2.Vars 32) (k0 k1 w0 w1 : W32) : cdgh (Round (Round v k0 w0) k1 w1) = abef v := by
  rw [Round_def, Round_def]; rfl

theorem kVec_eq : ∀ t, t < 16 → kVec t = vec4 (Sha256.K (4 * t)) (Sha256.K (4 * t + 1)) (Sha256.K (4 * t + 2)) (Sha256.K (4 * t + 3)) := by
  have h : (List.range 16).all (fun t => decide ((kTable.getD (2 * t) 0).setWidth 32 = k.getD (4 * t) 0 ∧
    (kTable.getD (2 * t) 0 >>> 32).setWidth 32 = k.getD (4 * t + 1) 0 ∧ (kTable.getD (2 * t + 1) 0).setWidth 32 = k.getD (4 * t + 2) 0 ∧
    (kTable.getD (2 * t + 1) 0 >>> 32).setWidth 32 = k.getD (4 * t + 3) 0)) = true := by decide +kernel
  intro t ht
  obtain ⟨h0, h1, h2, h3⟩ := of_decide_eq_true (List.all_eq_true.mp h t (List.mem_range.mpr ht))
  have hk : ∀ j, j < 64 → k.getD j 0 = Sha256.K j := fun j hj => by rw [List.getD_eq_getElem?_getD, k_eq j hj]; rfl
  unfold kVec
  rw [h0, h1, h2, h3, hk _ (by omega), hk _ (by omega), hk _ (by omega), hk _ (by omega)]

theorem kw_eq (W : List W32) (t : Nat) (ht : t < 16) : bin .paddd (Wv W t) (kVec t) = vec4 (W.getD (4 * t) 0 + Sha256.K (4 * t))
    (W.getD (4 * t + 1) 0 + Sha256.K (4 * t + 1)) (W.getD (4 * t + 2) 0 + Sha256.K (4 * t + 2)) (W.getD (4 * t + 3) 0 + Sha256.K (4 * t + 3)) := by
  unfold Wv
  rw [kVec_eq t ht, paddd_vec4]

theorem half (W : List W32) (v : Sha2.Vars 32) (t : Nat) (ht : t < 16) :
    sha256rnds2 (P W v t) (E W v t) (bin .paddd (Wv W t) (kVec t)) = abef (vars W v (4 * t + 2)) := by
  rw [kw_eq W t ht]
  unfold P E
  rw [rnds2_eq, vars_succ, vars_succ]

theorem P_round (W : List W32) (v : Sha2.Vars 32) (t : Nat) (ht : t < 16) :
    sha256rnds2 (P W v t) (E W v t) (bin .paddd (Wv W t) (kVec t)) = P W v (t + 1) := by
  rw [half W v t ht]
  unfold P
  rw [show 4 * (t + 1) = 4 * t + 2 + 1 + 1 by omega, vars_succ W v (4 * t + 2 + 1), vars_succ W v (4 * t + 2), cdgh_round]

theorem E_round (W : List W32) (v : Sha2.Vars 32) (t : Nat) (ht : t < 16) :
    sha256rnds2 (E W v t) (P W v (t + 1)) (unImm .pshufd (bin .paddd (Wv W t) (kVec t)) 0b00001110) = E W v (t + 1) := by
  have hP : P W v (t + 1) = abef (vars W v (4 * t + 2)) := by rw [← P_round W v t ht, half W v t ht]
  have hE : E W v t = cdgh (vars W v (4 * t + 2)) := by
    unfold E
    rw [vars_succ W v (4 * t + 1), vars_succ W v (4 * t), cdgh_round]
  rw [hP, hE, kw_eq W t ht, pshufd_vec4 _ _ _ _ 0b00001110 _ _ _ _ rfl rfl rfl rfl]
  show sha256rnds2 _ _ (vec4 (W.getD (4 * t + 2) 0 + Sha256.K (4 * t + 2)) (W.getD (4 * t + 3) 0 + Sha256.K (4 * t + 3)) _ _) = _
  rw [rnds2_eq]
  unfold E
  rw [show 4 * (t + 1) = 4 * t + 2 + 1 + 1 by omega, vars_succ W v (4 * t + 2 + 1), vars_succ W v (4 * t + 2)]

/-- Four words of the schedule. -/
theorem W_sched (W : List W32) (hW : ∀ i, i + 16 < 64 →
      W.getD (i + 16) 0 = Sha2.sigma (17, 19, 10) (W.getD (i + 14) 0) + W.getD (i + 9) 0 + Sha2.sigma (7, 18, 3) (W.getD (i + 1) 0) + W.getD i 0)
    (t : Nat) (ht : t + 4 < 16) :
    bin .sha256msg2 (bin .paddd (bin .sha256msg1 (Wv W t) (Wv W (t + 1))) (binImm .palignr (Wv W (t + 3)) (Wv W (t + 2)) 4)) (Wv W (t + 3)) = Wv W (t + 4) := by
  have h0 := hW (4 * t) (by omega)
  have h1 := hW (4 * t + 1) (by omega)
  have h2 := hW (4 * t + 2) (by omega)
  have h3 := hW (4 * t + 3) (by omega)
  unfold Wv
  simp only [Nat.mul_add, Nat.add_assoc, Nat.reduceAdd, Nat.reduceMul] at *
  rw [palignr4]
  show bin .sha256msg2 (bin .paddd (vec4 _ _ _ _) (vec4 _ _ _ _)) _ = _
  rw [paddd_vec4]
  show vec4 _ _ _ _ = _
  simp only [vec4, s0_eq, s1_eq]
  generalize W.getD (4 * t) 0 = w0 at *
  generalize W.getD (4 * t + 1) 0 = w1 at *
  generalize W.getD (4 * t + 2) 0 = w2 at *
  generalize W.getD (4 * t + 3) 0 = w3 at *
  generalize W.getD (4 * t + 4) 0 = w4 at *
  generalize W.getD (4 * t + 9) 0 = w9 at *
  generalize W.getD (4 * t + 10) 0 = w10 at *
  generalize W.getD (4 * t + 11) 0 = w11 at *
  generalize W.getD (4 * t + 12) 0 = w12 at *
  generalize W.getD (4 * t + 14) 0 = w14 at *
  generalize W.getD (4 * t + 15) 0 = w15 at *
  generalize W.getD (4 * t + 16) 0 = w16 at *
  generalize W.getD (4 * t + 17) 0 = w17 at *
  have e0 : w0 + Sha2.sigma (7, 18, 3) w1 + w9 + Sha2.sigma (17, 19, 10) w14 = w16 := by rw [h0]; ac_rfl
  have e1 : w1 + Sha2.sigma (7, 18, 3) w2 + w10 + Sha2.sigma (17, 19, 10) w15 = w17 := by rw [h1]; ac_rfl
  rw [e0, e1]
  have e2 : w2 + Sha2.sigma (7, 18, 3) w3 + w11 + Sha2.sigma (17, 19, 10) w16 = W.getD (4 * t + 18) 0 := by rw [h2]; ac_rfl
  have e3 : w3 + Sha2.sigma (7, 18, 3) w4 + w12 + Sha2.sigma (17, 19, 10) w17 = W.getD (4 * t + 19) 0 := by rw [h3]; ac_rfl
  rw [e2, e3]

theorem schedule_step (b : List Byte) (hb : b.length = 64) (i : Nat) (hi : i + 16 < 64) :
    (schedule b).getD (i + 16) 0 = Sha2.sigma (17, 19, 10) ((schedule b).getD (i + 14) 0) + (schedule b).getD (i + 9) 0 +
      Sha2.sigma (7, 18, 3) ((schedule b).getD (i + 1) 0) + (schedule b).getD i 0 := by
  obtain ⟨h1, _, h3⟩ := grow next (words 4 b) 48
  have hwl : (words 4 b).length = 16 := spec_words_length 4 (by omega) _ 16 (by omega)
  rw [hwl] at h1 h3
  have h4 := h3 i (by omega)
  change (schedule b)[16 + i]? = some (next ((schedule b).take (16 + i))) at h4
  change (schedule b).length = _ at h1
  rw [Nat.add_comm 16 i] at h4
  rw [List.getD_eq_getElem?_getD, h4, Option.getD_some, next_def]
  generalize schedule b = W at *
  have hl : (W.take (i + 16)).length = i + 16 := by simp; omega
  have hg : ∀ k, k < i + 16 → (W.take (i + 16)).getD k 0 = W.getD k 0 := by
    intro k hk
    rw [List.getD_eq_getElem?_getD, List.getD_eq_getElem?_getD, List.getElem?_take_of_lt hk]
  simp only [hl]
  rw [hg _ (by omega), hg _ (by omega), hg _ (by omega), hg _ (by omega)]
  rfl

theorem schedule_first (b : List Byte) (hb : b.length = 64) (i : Nat) (hi : i < 16) : (schedule b).getD i 0 = (words 4 b).getD i 0 := by
  obtain ⟨_, h2, _⟩ := grow next (words 4 b) 48
  have hwl : (words 4 b).length = 16 := spec_words_length 4 (by omega) _ 16 (by omega)
  rw [hwl] at h2
  change (schedule b).take 16 = _ at h2
  rw [← h2, List.getD_eq_getElem?_getD, List.getD_eq_getElem?_getD, List.getElem?_take_of_lt hi]

/-- The shuffle turns little-endian into big-endian words. -/
theorem pshufb_words (c0 c1 c2 c3 : List Byte) (h0 : c0.length = 4) (h1 : c1.length = 4) (h2 : c2.length = 4) (h3 : c3.length = 4) :
    bin .pshufb (vec4 (ofBytes .little 4 c0) (ofBytes .little 4 c1) (ofBytes .little 4 c2) (ofBytes .little 4 c3)) maskConst
      = vec4 (BitVec.ofNat 32 (Spec.beNat c0)) (BitVec.ofNat 32 (Spec.beNat c1)) (BitVec.ofNat 32 (Spec.beNat c2)) (BitVec.ofNat 32 (Spec.beNat c3)) :=
  ext4 _ _ _ _ _ (by rw [← swap_word c0 h0]; rfl) (by rw [← swap_word c1 h1]; rfl) (by rw [← swap_word c2 h2]; rfl) (by rw [← swap_word c3 h3]; rfl)
    fun _ => pshufb_zero _ _ _ _ _ _

/-- The registers loaded with sixteen bytes. -/
def Lv (src : List Byte) (off i : Nat) : Vec :=
  vec4 (ofBytes .little 4 ((src.drop (off + 16 * i)).take 4)) (ofBytes .little 4 ((src.drop (off + 16 * i + 4)).take 4))
    (ofBytes .little 4 ((src.drop (off + 16 * i + 8)).take 4)) (ofBytes .little 4 ((src.drop (off + 16 * i + 12)).take 4))

theorem groups (src : List Byte) (off : Nat) (h : off + 64 ≤ src.length) (v : Sha2.Vars 32) :
    Groups (simd 4) (E (schedule ((src.drop off).take 64)) v) (P (schedule ((src.drop off).take 64)) v) (Wv (schedule ((src.drop off).take 64)))
      kVec maskConst (Lv src off) := by
  have hb : ((src.drop off).take 64).length = 64 := by simp; omega
  refine ⟨?_, fun t ht => P_round _ _ _ ht, ?_, fun t ht => W_sched _ (schedule_step _ hb) t ht⟩
  · intro i hi
    show bin .pshufb (Lv src off i) maskConst = _
    unfold Lv Wv
    rw [pshufb_words _ _ _ _ (by simp; omega) (by simp; omega) (by simp; omega) (by simp; omega)]
    rw [schedule_first _ hb _ (by omega), schedule_first _ hb _ (by omega), schedule_first _ hb _ (by omega), schedule_first _ hb _ (by omega),
      words_get _ _ _ (by omega) h, words_get _ _ _ (by omega) h, words_get _ _ _ (by omega) h, words_get _ _ _ (by omega) h]
    rw [show off + 4 * (4 * i + 3) = off + 16 * i + 12 by omega, show off + 4 * (4 * i + 2) = off + 16 * i + 8 by omega,
      show off + 4 * (4 * i + 1) = off + 16 * i + 4 by omega, show off + 4 * (4 * i) = off + 16 * i by omega]
  · intro t ht
    show sha256rnds2 (E _ v t) (sha256rnds2 (P _ v t) (E _ v t) (bin .paddd (Wv _ t) (kVec t))) (unImm .pshufd (bin .paddd (Wv _ t) (kVec t)) 0b00001110) = _
    rw [P_round _ _ _ ht, E_round _ _ _ ht]

theorem block_eq (src : List Byte) (off : Nat) (hl : off + 64 ≤ src.length) (a b c d e f g h g0 g3 g4 g5 g6 g7 g9 g10) (r t u : List Vec) (dst : Nat) :
    ∃ a' b' c' d' e' f' g' h', [a', b', c', d', e', f', g', h'] = compress [a, b, c, d, e, f, g, h] ((src.drop off).take 64) ∧ ∃ k0 k3 k4 k5 k6 k7 k9 k10,
    exec (simd 4) ⟨g0 :: vec4 f e b a :: vec4 h g d c :: g3 :: g4 :: g5 :: g6 :: g7 :: maskConst :: g9 :: g10 :: r, t, u, some src, dst, off⟩ (block kVec)
      = some ⟨k0 :: vec4 f' e' b' a' :: vec4 h' g' d' c' :: k3 :: k4 :: k5 :: k6 :: k7 :: maskConst :: k9 :: k10 :: r, t, u, some src, dst, off + 64⟩ := by
  have hr := block_run (groups src off hl ⟨a, b, c, d, e, f, g, h⟩) r t u (some src) dst off g0 g3 g4 g5 g6 g7 g9 g10
    (fun i hi => loadVec_eq src (off + 16 * i) (by omega))
  rw [compress_def]
  generalize hW : schedule ((src.drop off).take 64) = W at hr
  generalize hv : (⟨a, b, c, d, e, f, g, h⟩ : Sha2.Vars 32) = v0 at hr
  have e1 : (simd 4).bin .paddd (E W v0 16) (E W v0 0) = vec4 ((vars W v0 64).f + f) ((vars W v0 64).e + e) ((vars W v0 64).b + b) ((vars W v0 64).a + a) := by
    subst hv; exact paddd_vec4 _ _ _ _ _ _ _ _
  have e2 : (simd 4).bin .paddd (P W v0 16) (P W v0 0) = vec4 ((vars W v0 64).h + h) ((vars W v0 64).g + g) ((vars W v0 64).d + d) ((vars W v0 64).c + c) := by
    subst hv; exact paddd_vec4 _ _ _ _ _ _ _ _
  rw [e1, e2] at hr
  refine ⟨(vars W v0 64).a + a, (vars W v0 64).b + b, (vars W v0 64).c + c, (vars W v0 64).d + d,
    (vars W v0 64).e + e, (vars W v0 64).f + f, (vars W v0 64).g + g, (vars W v0 64).h + h, by subst hv; rfl,
    H (simd 4) (Wv W) kVec 15, Wv W 12, Wv W 13, Wv W 14, Wv W 15, al (simd 4) (Wv W 14) (Wv W 13), E W v0 0, P W v0 0, ?_⟩
  subst hv
  exact hr

theorem loop_succ {V M : Type} (A : Alg V M) (k : Nat → V) (n : Nat) (s : St V M) : loop A k (n + 1) s = (exec A s (block k)).bind (loop A k n) := rfl

theorem loop_eq (src : List Byte) (n off : Nat) (hl : off + n * 64 ≤ src.length) (a b c d e f g h g0 g3 g4 g5 g6 g7 g9 g10) (r t u : List Vec) (dst : Nat) :
    ∃ a' b' c' d' e' f' g' h', [a', b', c', d', e', f', g', h'] =
      (Spec.chunks 64 ((src.drop off).take (n * 64))).foldl compress [a, b, c, d, e, f, g, h] ∧ ∃ k0 k3 k4 k5 k6 k7 k9 k10,
    loop (simd 4) kVec n ⟨g0 :: vec4 f e b a :: vec4 h g d c :: g3 :: g4 :: g5 :: g6 :: g7 :: maskConst :: g9 :: g10 :: r, t, u, some src, dst, off⟩
      = some ⟨k0 :: vec4 f' e' b' a' :: vec4 h' g' d' c' :: k3 :: k4 :: k5 :: k6 :: k7 :: maskConst :: k9 :: k10 :: r, t, u, some src, dst, off + n * 64⟩ := by
  induction n generalizing off a b c d e f g h g0 g3 g4 g5 g6 g7 g9 g10 with
  | zero =>
    refine ⟨a, b, c, d, e, f, g, h, ?_, g0, g3, g4, g5, g6, g7, g9, g10, ?_⟩
    · simp [chunks_nil]
    · rw [Nat.zero_mul]; rfl
  | succ n ih =>
    rw [Nat.succ_mul] at hl
    obtain ⟨a1, b1, c1, d1, e1, f1, g1, h1, hc1, k0, k3, k4, k5, k6, k7, k9, k10, hx⟩ :=
      block_eq src off (by omega) a b c d e f g h g0 g3 g4 g5 g6 g7 g9 g10 r t u dst
    obtain ⟨a2, b2, c2, d2, e2, f2, g2, h2, hc2, l0, l3, l4, l5, l6, l7, l9, l10, hy⟩ :=
      ih (off + 64) (by omega) a1 b1 c1 d1 e1 f1 g1 h1 k0 k3 k4 k5 k6 k7 k9 k10
    refine ⟨a2, b2, c2, d2, e2, f2, g2, h2, ?_, l0, l3, l4, l5, l6, l7, l9, l10, ?_⟩
    · rw [hc2, hc1]
      have : (src.drop off).take ((n + 1) * 64) = (src.drop off).take 64 ++ (src.drop (off + 64)).take (n * 64) := by
        rw [Nat.succ_mul, Nat.add_comm, List.take_add, List.drop_drop]
      rw [this, chunks_cons 64 (by omega) _ _ (by simp; omega), List.foldl_cons]
    · rw [loop_succ, hx, Option.bind_some, hy, Nat.succ_mul, Nat.add_assoc, Nat.add_comm 64]

theorem blocks_ok (junk : Nat → Vec) : BlocksOk 64 (fun st : List W32 => st.length = 8) compress (blocks junk) where
  pos := by omega
  wf := fun st b _ _ => rfl
  eq := by
    intro n st src hst hl
    obtain ⟨a, b, c, d, e, f, g, h, rfl⟩ := list8 st hst
    have hload : exec (simd 4) ⟨(List.range 16).map junk, [], [], some src, 0, 0⟩ (load (vec4 a b c d) (vec4 e f g h) maskConst)
        = some ⟨junk 0 :: vec4 f e b a :: vec4 h g d c :: junk 3 :: junk 4 :: junk 5 :: junk 6 :: junk 7 :: maskConst :: vec4 b a d c :: vec4 f e h g ::
          [junk 11, junk 12, junk 13, junk 14, junk 15], [], [], some src, 0, 0⟩ := by
      have e1 : (simd 4).unImm .pshufd (vec4 a b c d) 0b10110001 = vec4 b a d c := pshufd_vec4 _ _ _ _ _ _ _ _ _ rfl rfl rfl rfl
      have e2 : (simd 4).unImm .pshufd (vec4 e f g h) 0b10110001 = vec4 f e h g := pshufd_vec4 _ _ _ _ _ _ _ _ _ rfl rfl rfl rfl
      have e3 : (simd 4).bin .punpcklqdq (vec4 f e h g) (vec4 b a d c) = vec4 f e b a := punpcklqdq_vec4 _ _ _ _ _ _ _ _
      have e4 : (simd 4).bin .punpckhqdq (vec4 f e h g) (vec4 b a d c) = vec4 h g d c := punpckhqdq_vec4 _ _ _ _ _ _ _ _
      rw [← e3, ← e4, ← e1, ← e2]; kernel_rfl
    obtain ⟨a', b', c', d', e', f', g', h', hf, k0, k3, k4, k5, k6, k7, k9, k10, hx⟩ := loop_eq src n 0 (by omega) a b c d e f g h (junk 0) (junk 3) (junk 4)
      (junk 5) (junk 6) (junk 7) (vec4 b a d c) (vec4 f e h g) [junk 11, junk 12, junk 13, junk 14, junk 15] [] [] 0
    have hu : exec (simd 4) ⟨k0 :: vec4 f' e' b' a' :: vec4 h' g' d' c' :: k3 :: k4 :: k5 :: k6 :: k7 :: maskConst :: k9 :: k10 ::
          [junk 11, junk 12, junk 13, junk 14, junk 15], [], [], some src, 0, 0 + n * 64⟩ unload
        = some ⟨k0 :: vec4 f' e' b' a' :: vec4 h' g' d' c' :: k3 :: k4 :: k5 :: k6 :: k7 :: maskConst :: vec4 a' b' c' d' :: vec4 e' f' g' h' ::
          [junk 11, junk 12, junk 13, junk 14, junk 15], [], [], some src, 0, 0 + n * 64⟩ := by
      have e1 : (simd 4).unImm .pshufd (vec4 b' a' d' c') 0b10110001 = vec4 a' b' c' d' := pshufd_vec4 _ _ _ _ _ _ _ _ _ rfl rfl rfl rfl
      have e2 : (simd 4).unImm .pshufd (vec4 f' e' h' g') 0b10110001 = vec4 e' f' g' h' := pshufd_vec4 _ _ _ _ _ _ _ _ _ rfl rfl rfl rfl
      have e3 : (simd 4).bin .punpckhqdq (vec4 f' e' b' a') (vec4 h' g' d' c') = vec4 b' a' d' c' := punpckhqdq_vec4 _ _ _ _ _ _ _ _
      have e4 : (simd 4).bin .punpcklqdq (vec4 f' e' b' a') (vec4 h' g' d' c') = vec4 f' e' h' g' := punpcklqdq_vec4 _ _ _ _ _ _ _ _
      rw [← e1, ← e2, ← e3, ← e4]; kernel_rfl
    rw [List.drop_zero] at hf
    rw [← hf]
    refine Eq.trans (b := (exec (simd 4) ⟨(List.range 16).map junk, [], [], some src, 0, 0⟩ (load (vec4 a b c d) (vec4 e f g h) maskConst)).bind fun s =>
      (loop (simd 4) kVec n s).bind fun s => (exec (simd 4) s unload).bind fun s => finish [a, b, c, d, e, f, g, h] s) (by kernel_rfl) ?_
    rw [hload, Option.bind_some, hx, Option.bind_some, hu]
    kernel_rfl

end Milo.Sha256.Asm
