import Verif.Proof.Soak
import Verif.Spec.Sha
/- Shared lemmas for the portable compression functions. -/
namespace Milo
open Memory

/-- A counted loop whose state at `j` is known. -/
theorem forM'_inv {σ : Type} (f : Nat → σ → Option σ) (S : Nat → σ) (n i : Nat)
    (h : ∀ j, i ≤ j → j < i + n → f j (S j) = some (S (j + 1))) : forM' f n i (S i) = some (S (i + n)) := by
  induction n generalizing i with
  | zero => rfl
  | succ n ih =>
    simp only [forM']
    rw [h i (Nat.le_refl _) (by omega)]
    simp only [Option.bind_eq_bind, Option.bind_some]
    rw [ih (i + 1) (fun j h1 h2 => h j (by omega) (by omega))]
    congr 2; omega

/-- A list grown by appending a function of itself. -/
theorem grow {α : Type} (next : List α → α) (w : List α) (n : Nat) :
    let W := (List.range n).foldl (fun w _ => w ++ [next w]) w
    W.length = w.length + n ∧ W.take w.length = w ∧
      ∀ j, j < n → W[w.length + j]? = some (next (W.take (w.length + j))) := by
  induction n with
  | zero => simp
  | succ n ih =>
    obtain ⟨h1, h2, h3⟩ := ih
    simp only [List.range_succ, List.foldl_append, List.foldl_cons, List.foldl_nil]
    generalize (List.range n).foldl (fun w _ => w ++ [next w]) w = W at h1 h2 h3
    refine ⟨by simp; omega, ?_, ?_⟩
    · rw [List.take_append_of_le_length (by omega), h2]
    · intro j hj
      rw [List.take_append_of_le_length (by omega)]
      by_cases hjn : j < n
      · rw [List.getElem?_append_left (by omega), h3 j hjn]
      · have : j = n := by omega
        subst this
        rw [← h1, List.getElem?_concat_length, List.take_length]

theorem chunks_getElem? {α} (n : Nat) (hn : 0 < n) (l : List α) (j : Nat) (hj : (j + 1) * n ≤ l.length) :
    (Spec.chunks n l)[j]? = some ((l.drop (j * n)).take n) := by
  induction j generalizing l with
  | zero =>
    have hs : l = l.take n ++ l.drop n := by simp
    rw [hs, chunks_cons n hn _ _ (by simp; omega)]
    simp
  | succ j ih =>
    rw [Nat.succ_mul] at hj
    have hs : l = l.take n ++ l.drop n := by simp
    have hl : (l.take n).length = n := by simp; have := Nat.le_mul_of_pos_left n (show 0 < j + 1 by omega); omega
    conv => lhs; rw [hs, chunks_cons n hn _ _ hl]
    simp only [List.getElem?_cons_succ]
    rw [ih (l.drop n) (by simp; omega), List.drop_drop]
    congr 3; rw [Nat.succ_mul]; omega

theorem chunks_length {α} (n : Nat) (hn : 0 < n) (l : List α) (k : Nat) (hk : l.length = k * n) : (Spec.chunks n l).length = k := by
  induction k generalizing l with
  | zero =>
    have : l = [] := List.length_eq_zero_iff.mp (by simpa using hk)
    subst this; simp [chunks_nil]
  | succ k ih =>
    rw [Nat.succ_mul] at hk
    have hs : l = l.take n ++ l.drop n := by simp
    rw [hs, chunks_cons n hn _ _ (by simp; omega), List.length_cons, ih (l.drop n) (by simp; omega)]

theorem spec_words_length (n : Nat) (hn : 0 < n) (b : List Byte) (k : Nat) (hb : b.length = k * n) : (Spec.Sha.words n b).length = k := by
  unfold Spec.Sha.words
  rw [List.length_map, chunks_length n hn _ _ hb]

/-- Loading the `j`-th big-endian word of a block. -/
theorem loadBe_words (h : Host) (n : Nat) (hn : n = 4 ∨ n = 8) (src : List Byte) (j : Nat) (hb : 16 * n ≤ src.length) (hj : j < 16) :
    loadBe h false n (p := 1) src j = (Spec.Sha.words n (src.take (16 * n)))[j]? := by
  have hn0 : 0 < n := by omega
  have hjn : (j + 1) * n ≤ 16 * n := Nat.mul_le_mul_right n (by omega)
  have hjn' : (j + 1) * n = j * n + n := Nat.succ_mul ..
  have hl : (src.take (16 * n)).length = 16 * n := by simp; omega
  rw [loadBe_eq h false ⟨hn0, by omega, .inl ⟨n, by omega⟩⟩ (by rcases hn with rfl | rfl <;> simp [Swappable]), image_bytes',
    rdN_some _ _ _ (by omega)]
  unfold Spec.Sha.words
  rw [List.getElem?_map, chunks_getElem? n hn0 _ _ (by omega)]
  simp only [Option.map_some]
  congr 1
  have e1 : (src.take (16 * n)).drop (j * n) = (src.drop (j * n)).take (16 * n - j * n) := by
    rw [List.drop_take]
  rw [e1, List.take_take, Nat.min_eq_left (by omega)]
  apply BitVec.eq_of_toNat_eq
  rw [ofBytes_toNat _ _ _ (by simp; omega)]
  simp only [BitVec.toNat_ofNat]
  have hlt : Spec.beNat ((src.drop (j * n)).take n) < 2 ^ (8 * n) := by
    rw [spec_beNat]
    have := leNat_lt ((src.drop (j * n)).take n).reverse
    rw [← pow256]
    refine Nat.lt_of_lt_of_le this (Nat.pow_le_pow_right (by omega) (by simp; omega))
  rw [Nat.mod_eq_of_lt hlt]

/-- Folding a loop over `n` consecutive blocks. -/
theorem blocksLoop_eq {R : Type} (B : Nat) (hB : 0 < B) (loop : Nat → R → List Byte → Option R) (step : R → List Byte → R)
    (h0 : ∀ r src, loop 0 r src = some r)
    (hs : ∀ n r src, B ≤ src.length → loop (n + 1) r src = loop n (step r (src.take B)) (src.drop B))
    (n : Nat) (r : R) (src : List Byte) (hl : n * B ≤ src.length) :
    loop n r src = some ((Spec.chunks B (src.take (n * B))).foldl step r) := by
  induction n generalizing r src with
  | zero => rw [h0]; simp [chunks_nil]
  | succ n ih =>
    rw [Nat.succ_mul] at hl
    rw [hs _ _ _ (by omega), ih _ _ (by simp; omega)]
    have : src.take ((n + 1) * B) = src.take B ++ (src.drop B).take (n * B) := by
      rw [Nat.succ_mul, Nat.add_comm, List.take_add]
    rw [this, chunks_cons B hB _ _ (by simp; omega), List.foldl_cons]

theorem ch_eq {w : Nat} (x y z : BitVec w) : z ^^^ (x &&& (y ^^^ z)) = Spec.Sha.ch x y z := by
  apply BitVec.eq_of_getLsbD_eq
  intro i hi
  simp only [Spec.Sha.ch, BitVec.getLsbD_xor, BitVec.getLsbD_and, BitVec.getLsbD_not, hi, decide_true, Bool.true_and]
  cases x.getLsbD i <;> cases y.getLsbD i <;> cases z.getLsbD i <;> rfl

theorem maj_eq {w : Nat} (x y z : BitVec w) : (x &&& y) ^^^ (z &&& (x ^^^ y)) = Spec.Sha.maj x y z := by
  apply BitVec.eq_of_getLsbD_eq
  intro i hi
  simp only [Spec.Sha.maj, BitVec.getLsbD_xor, BitVec.getLsbD_and]
  cases x.getLsbD i <;> cases y.getLsbD i <;> cases z.getLsbD i <;> rfl

theorem foldl_range_succ {α : Type} (f : α → Nat → α) (a : α) (n : Nat) :
    (List.range (n + 1)).foldl f a = f ((List.range n).foldl f a) n := by
  simp [List.range_succ]

/-- Eight-element lists. -/
theorem list8 {α : Type} (l : List α) (h : l.length = 8) : ∃ a b c d e f g i, l = [a, b, c, d, e, f, g, i] := by
  match l, h with
  | [a, b, c, d, e, f, g, i], _ => exact ⟨a, b, c, d, e, f, g, i, rfl⟩

theorem list5 {α : Type} (l : List α) (h : l.length = 5) : ∃ a b c d e, l = [a, b, c, d, e] := by
  match l, h with
  | [a, b, c, d, e], _ => exact ⟨a, b, c, d, e, rfl⟩

end Milo
