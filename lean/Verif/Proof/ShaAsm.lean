import Verif.Model.X86
import Verif.Proof.X86
import Verif.Proof.Sched
import Mathlib.Tactic.IntervalCases
import Mathlib.Tactic.NormNum
/- Lemmas shared by the SHA-NI backends: message words, registers of four lanes. -/
namespace Milo.X86
open Memory

theorem word_toNat (a b c d : Byte) : (word a b c d).toNat = a.toNat + 256 * (b.toNat + 256 * (c.toNat + 256 * d.toNat)) := by
  have e : ∀ {w : Nat} (x : BitVec w) (y : Byte), (x ++ y).toNat = x.toNat * 256 + y.toNat := by
    intro w x y
    rw [BitVec.toNat_append, ← Nat.shiftLeft_add_eq_or_of_lt y.isLt, Nat.shiftLeft_eq]
  unfold word
  rw [e, e, e]; omega

theorem byte_toNat (x : W32) (k : Nat) : ((x >>> (8 * k)).setWidth 8).toNat = x.toNat / 2 ^ (8 * k) % 256 := by
  simp [BitVec.toNat_setWidth, BitVec.toNat_ushiftRight, Nat.shiftRight_eq_div_pow]

theorem word_id (x : W32) :
    word ((x >>> (8 * 0)).setWidth 8) ((x >>> (8 * 1)).setWidth 8) ((x >>> (8 * 2)).setWidth 8) ((x >>> (8 * 3)).setWidth 8) = x := by
  apply BitVec.eq_of_toNat_eq
  rw [word_toNat, byte_toNat, byte_toNat, byte_toNat, byte_toNat]
  have : x.toNat < 4294967296 := x.isLt
  norm_num
  omega

/-- Reversing the bytes of a little-endian word. -/
theorem swap_word (c : List Byte) (hc : c.length = 4) :
    word ((ofBytes .little 4 c >>> (8 * 3)).setWidth 8) ((ofBytes .little 4 c >>> (8 * 2)).setWidth 8) ((ofBytes .little 4 c >>> (8 * 1)).setWidth 8)
      ((ofBytes .little 4 c >>> (8 * 0)).setWidth 8) = BitVec.ofNat 32 (Spec.beNat c) := by
  match c, hc with
  | [p, q, r, s], hc =>
    apply BitVec.eq_of_toNat_eq
    have hb : Spec.beNat [p, q, r, s] = s.toNat + 256 * (r.toNat + 256 * (q.toNat + 256 * p.toNat)) := by
      simp [Spec.beNat]; omega
    have hx : (ofBytes .little 4 [p, q, r, s] : W32).toNat = p.toNat + 256 * (q.toNat + 256 * (r.toNat + 256 * s.toNat)) := by
      rw [ofBytes_toNat .little 4 _ hc]; simp [Spec.leNat]
    rw [word_toNat, byte_toNat, byte_toNat, byte_toNat, byte_toNat, hx, BitVec.toNat_ofNat, hb]
    have hp : p.toNat < 256 := p.isLt
    have hq : q.toNat < 256 := q.isLt
    have hr : r.toNat < 256 := r.isLt
    have hs : s.toNat < 256 := s.isLt
    generalize p.toNat = p at *
    generalize q.toNat = q at *
    generalize r.toNat = r at *
    generalize s.toNat = s at *
    clear hb hx
    norm_num
    rw [show (p + 256 * (q + 256 * (r + 256 * s))) / 16777216 % 256 = s by omega,
      show (p + 256 * (q + 256 * (r + 256 * s))) / 65536 % 256 = r by omega,
      show (p + 256 * (q + 256 * (r + 256 * s))) / 256 % 256 = q by omega]
    omega

/-- The register holding four words from `off` on. -/
theorem loadVec_eq (src : List Byte) (off : Nat) (h : off + 16 ≤ src.length) :
    loadVec 4 (some src) off = (vec4 (ofBytes .little 4 ((src.drop off).take 4)) (ofBytes .little 4 ((src.drop (off + 4)).take 4))
      (ofBytes .little 4 ((src.drop (off + 8)).take 4)) (ofBytes .little 4 ((src.drop (off + 12)).take 4)), some src) := by
  unfold loadVec
  rw [Option.bind_some, rdN_some _ _ _ (by omega)]
  refine congrArg (·, some src) ?_
  funext j
  match j with
  | 0 => simp [vec4, List.take_take]
  | 1 => simp [vec4, List.take_take, List.drop_take, List.drop_drop]
  | 2 => simp [vec4, List.take_take, List.drop_take, List.drop_drop]
  | 3 => simp [vec4, List.take_take, List.drop_take, List.drop_drop]
  | j + 4 =>
    show (if j + 4 < 4 then _ else _) = _
    rw [if_neg (by omega)]; rfl

theorem ext4 (f : Vec) (a b c d : W32) (h0 : f 0 = a) (h1 : f 1 = b) (h2 : f 2 = c) (h3 : f 3 = d) (h : ∀ j, f (j + 4) = 0) : f = vec4 a b c d := by
  funext j
  match j with
  | 0 => exact h0
  | 1 => exact h1
  | 2 => exact h2
  | 3 => exact h3
  | j + 4 => exact h j

theorem paddd_vec4 (a b c d a' b' c' d' : W32) : bin .paddd (vec4 a b c d) (vec4 a' b' c' d') = vec4 (a + a') (b + b') (c + c') (d + d') :=
  ext4 _ _ _ _ _ rfl rfl rfl rfl fun _ => by show (0 : W32) + 0 = 0; decide

theorem pxor_vec4 (a b c d a' b' c' d' : W32) : bin .pxor (vec4 a b c d) (vec4 a' b' c' d') = vec4 (a ^^^ a') (b ^^^ b') (c ^^^ c') (d ^^^ d') :=
  ext4 _ _ _ _ _ rfl rfl rfl rfl fun _ => by show (0 : W32) ^^^ 0 = 0; decide

theorem vec4_ge (a b c d : W32) (j : Nat) (h : 4 ≤ j) : vec4 a b c d j = 0 := by
  obtain ⟨k, rfl⟩ : ∃ k, j = k + 4 := ⟨j - 4, by omega⟩
  rfl

theorem byteAt_zero (a b c d : W32) (h k : Nat) (hh : 4 ≤ h) : byteAt (vec4 a b c d) h k = 0 := by
  unfold byteAt
  rw [vec4_ge _ _ _ _ _ (by omega)]; simp

theorem shufByte_zero (a b c d : W32) (m : Vec) (h k : Nat) (hh : 4 ≤ h) : shufByte (vec4 a b c d) m h k = 0 := by
  unfold shufByte
  simp only [byteAt_zero a b c d _ _ hh, ite_self]

theorem pshufb_zero (a b c d : W32) (m : Vec) (j : Nat) : bin .pshufb (vec4 a b c d) m (j + 4) = 0 := by
  show word (shufByte _ _ _ _) (shufByte _ _ _ _) (shufByte _ _ _ _) (shufByte _ _ _ _) = 0
  have hh : 4 ≤ (j + 4) / 4 * 4 := by omega
  rw [shufByte_zero _ _ _ _ _ _ _ hh, shufByte_zero _ _ _ _ _ _ _ hh, shufByte_zero _ _ _ _ _ _ _ hh, shufByte_zero _ _ _ _ _ _ _ hh]
  rfl

theorem selByte_zero (a b c d : W32) (h : Nat) (o : Option Nat) (hh : 4 ≤ h) : selByte (vec4 a b c d) h o = 0 := by
  cases o with
  | none => rfl
  | some i => exact byteAt_zero _ _ _ _ _ _ hh

theorem shiftBytes_zero (a b c d : W32) (h j : Nat) (f : Nat → Option Nat) (hh : 4 ≤ h) : shiftBytes (vec4 a b c d) h j f = 0 := by
  unfold shiftBytes
  rw [selByte_zero _ _ _ _ _ _ hh, selByte_zero _ _ _ _ _ _ hh, selByte_zero _ _ _ _ _ _ hh, selByte_zero _ _ _ _ _ _ hh]
  rfl

theorem pslldq_lane (v : Vec) (n j : Nat) :
    unImm .pslldq v n j = shiftBytes v (j / 4 * 4) (j % 4) fun k => if n ≤ k then some (k - n) else none := by kernel_rfl
theorem psrldq_lane (v : Vec) (n j : Nat) :
    unImm .psrldq v n j = shiftBytes v (j / 4 * 4) (j % 4) fun k => if k + n < 16 then some (k + n) else none := by kernel_rfl

theorem pslldq12 (a b c d : W32) : unImm .pslldq (vec4 a b c d) 12 = vec4 0 0 0 a := by
  refine ext4 _ _ _ _ _ (by kernel_rfl) (by kernel_rfl) (by kernel_rfl) ?_ fun j => ?_
  · conv => rhs; rw [← word_id a]
    kernel_rfl
  · rw [pslldq_lane, shiftBytes_zero a b c d ((j + 4) / 4 * 4) ((j + 4) % 4) _ (by omega)]

theorem psrldq12 (a b c d : W32) : unImm .psrldq (vec4 a b c d) 12 = vec4 d 0 0 0 := by
  refine ext4 _ _ _ _ _ ?_ (by kernel_rfl) (by kernel_rfl) (by kernel_rfl) fun j => ?_
  · conv => rhs; rw [← word_id d]
    kernel_rfl
  · rw [psrldq_lane, shiftBytes_zero a b c d ((j + 4) / 4 * 4) ((j + 4) % 4) _ (by omega)]

theorem palignr_lane (a b : Vec) (n j : Nat) : binImm .palignr a b n j = word (alignByte a b (j / 4 * 4) n (4 * (j % 4)))
    (alignByte a b (j / 4 * 4) n (4 * (j % 4) + 1)) (alignByte a b (j / 4 * 4) n (4 * (j % 4) + 2)) (alignByte a b (j / 4 * 4) n (4 * (j % 4) + 3)) := by kernel_rfl

theorem alignByte_zero (a b c d a' b' c' d' : W32) (h n k : Nat) (hh : 4 ≤ h) : alignByte (vec4 a b c d) (vec4 a' b' c' d') h n k = 0 := by
  unfold alignByte
  simp only [byteAt_zero _ _ _ _ _ _ hh, ite_self]

theorem palignr4 (a b c d a' b' c' d' : W32) : binImm .palignr (vec4 a b c d) (vec4 a' b' c' d') 4 = vec4 b' c' d' a := by
  refine ext4 _ _ _ _ _ ?_ ?_ ?_ ?_ fun j => ?_
  · conv => rhs; rw [← word_id b']
    kernel_rfl
  · conv => rhs; rw [← word_id c']
    kernel_rfl
  · conv => rhs; rw [← word_id d']
    kernel_rfl
  · conv => rhs; rw [← word_id a]
    kernel_rfl
  · rw [palignr_lane, alignByte_zero _ _ _ _ _ _ _ _ _ _ _ (by omega), alignByte_zero _ _ _ _ _ _ _ _ _ _ _ (by omega),
      alignByte_zero _ _ _ _ _ _ _ _ _ _ _ (by omega), alignByte_zero _ _ _ _ _ _ _ _ _ _ _ (by omega)]
    rfl

theorem punpcklqdq_vec4 (a b c d a' b' c' d' : W32) : bin .punpcklqdq (vec4 a b c d) (vec4 a' b' c' d') = vec4 a b a' b' := by
  refine ext4 _ _ _ _ _ rfl rfl rfl rfl fun j => ?_
  show (if _ then vec4 a b c d _ else vec4 a' b' c' d' _) = _
  rw [vec4_ge _ _ _ _ _ (by omega), vec4_ge _ _ _ _ _ (by omega), ite_self]

theorem punpckhqdq_vec4 (a b c d a' b' c' d' : W32) : bin .punpckhqdq (vec4 a b c d) (vec4 a' b' c' d') = vec4 c d c' d' := by
  refine ext4 _ _ _ _ _ rfl rfl rfl rfl fun j => ?_
  show (if _ then vec4 a b c d _ else vec4 a' b' c' d' _) = _
  rw [vec4_ge _ _ _ _ _ (by omega), vec4_ge _ _ _ _ _ (by omega), ite_self]

theorem pshufd_vec4 (a b c d : W32) (n : Nat) (v0 v1 v2 v3 : W32) (h0 : vec4 a b c d (n % 4) = v0) (h1 : vec4 a b c d (n / 4 % 4) = v1)
    (h2 : vec4 a b c d (n / 16 % 4) = v2) (h3 : vec4 a b c d (n / 64 % 4) = v3) : unImm .pshufd (vec4 a b c d) n = vec4 v0 v1 v2 v3 := by
  refine ext4 _ _ _ _ _ ?_ ?_ ?_ ?_ fun j => ?_
  · show vec4 a b c d (0 + n / 1 % 4) = _; rw [Nat.zero_add, Nat.div_one]; exact h0
  · show vec4 a b c d (0 + n / 4 % 4) = _; rw [Nat.zero_add]; exact h1
  · show vec4 a b c d (0 + n / 16 % 4) = _; rw [Nat.zero_add]; exact h2
  · show vec4 a b c d (0 + n / 64 % 4) = _; rw [Nat.zero_add]; exact h3
  · show vec4 a b c d _ = _; rw [vec4_ge _ _ _ _ _ (by omega)]

theorem rol_eq (x : W32) (n : Nat) (h : n < 32) : rol x n = x.rotateLeft n := by
  unfold rol
  simp [BitVec.rotateLeft, BitVec.rotateLeftAux, Nat.mod_eq_of_lt h]

theorem ror_eq (x : W32) (n : Nat) (h : n < 32) : ror x n = x.rotateRight n := by
  unfold ror
  simp [BitVec.rotateRight, BitVec.rotateRightAux, Nat.mod_eq_of_lt h]

/-- The `i`-th big-endian word of a block. -/
theorem words_get (src : List Byte) (off i : Nat) (hi : i < 16) (h : off + 64 ≤ src.length) :
    (Spec.Sha.words 4 ((src.drop off).take 64)).getD i 0 = BitVec.ofNat 32 (Spec.beNat ((src.drop (off + 4 * i)).take 4)) := by
  unfold Spec.Sha.words
  rw [List.getD_eq_getElem?_getD, List.getElem?_map, chunks_getElem? 4 (by omega) _ _ (by simp; omega)]
  simp only [Option.map_some, Option.getD_some]
  rw [List.drop_take, List.take_take, List.drop_drop, Nat.min_eq_left (by omega), Nat.mul_comm 4 i]

end Milo.X86
