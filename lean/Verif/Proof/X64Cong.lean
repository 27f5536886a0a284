import Verif.Proof.X64Mem
import Mathlib.Tactic.IntervalCases
/- Lanes of a result depend on the same lanes of the operands only. -/
namespace Milo.X64
open Memory X86

/-- Equal in the first `n` lanes. -/
def LEq (n : Nat) (u v : Vec) : Prop := ∀ j, j < n → u j = v j

theorem LEq.refl (n : Nat) (u : Vec) : LEq n u u := fun _ _ => rfl
theorem LEq.trans {n : Nat} {u v w : Vec} (h : LEq n u v) (g : LEq n v w) : LEq n u w := fun j hj => (h j hj).trans (g j hj)
theorem LEq.symm {n : Nat} {u v : Vec} (h : LEq n u v) : LEq n v u := fun j hj => (h j hj).symm

def Width (n : Nat) : Prop := n = 4 ∨ n = 8

theorem byteAt_congr {n : Nat} (hn : Width n) {u v : Vec} (h : LEq n u v) (j k : Nat) (hj : j < n) (hk : k < 16) :
    byteAt u (j / 4 * 4) k = byteAt v (j / 4 * 4) k := by
  unfold byteAt
  rw [h]
  rcases hn with rfl | rfl <;> omega

theorem shufByte_congr {n : Nat} (hn : Width n) {u v m m' : Vec} (h : LEq n u v) (hm : LEq n m m') (j k : Nat) (hj : j < n) (hk : k < 16) :
    shufByte u m (j / 4 * 4) k = shufByte v m' (j / 4 * 4) k := by
  unfold shufByte
  rw [byteAt_congr hn hm j k hj hk]
  simp only
  split
  · rfl
  · exact byteAt_congr hn h j _ hj (Nat.mod_lt _ (by omega))

theorem bin_congr {n : Nat} (hn : Width n) (o : Bin) {a a' b b' : Vec} (ha : LEq n a a') (hb : LEq n b b') : LEq n (X86.bin o a b) (X86.bin o a' b') := by
  have a0 := ha 0 (by rcases hn with rfl | rfl <;> omega)
  have a1 := ha 1 (by rcases hn with rfl | rfl <;> omega)
  have a2 := ha 2 (by rcases hn with rfl | rfl <;> omega)
  have a3 := ha 3 (by rcases hn with rfl | rfl <;> omega)
  have b0 := hb 0 (by rcases hn with rfl | rfl <;> omega)
  have b1 := hb 1 (by rcases hn with rfl | rfl <;> omega)
  have b2 := hb 2 (by rcases hn with rfl | rfl <;> omega)
  have b3 := hb 3 (by rcases hn with rfl | rfl <;> omega)
  intro j hj
  have hj4 : ∀ c, c < 4 → j / 4 * 4 + c < n := by rcases hn with rfl | rfl <;> omega
  cases o <;> simp only [X86.bin]
  case paddd => rw [ha j hj, hb j hj]
  case pxor => rw [ha j hj, hb j hj]
  case pshufb =>
    rw [shufByte_congr hn ha hb j _ hj (by omega), shufByte_congr hn ha hb j _ hj (by omega), shufByte_congr hn ha hb j _ hj (by omega),
      shufByte_congr hn ha hb j _ hj (by omega)]
  case punpckhdq => rw [Nat.add_assoc, ha _ (hj4 _ (by omega)), hb _ (hj4 _ (by omega))]
  case punpckldq => rw [ha _ (hj4 _ (by omega)), hb _ (hj4 _ (by omega))]
  case punpckhqdq => rw [Nat.add_assoc, ha _ (hj4 _ (by omega)), hb _ (hj4 _ (by omega))]
  case punpcklqdq => rw [ha _ (hj4 _ (by omega)), hb _ (hj4 _ (by omega))]
  all_goals simp only [a0, a1, a2, a3, b0, b1, b2, b3]

theorem shiftBytes_congr {n : Nat} (hn : Width n) {u v : Vec} (h : LEq n u v) (j : Nat) (hj : j < n) (f : Nat → Option Nat) (hf : ∀ k c, k < 16 → f k = some c → c < 16) :
    shiftBytes u (j / 4 * 4) (j % 4) f = shiftBytes v (j / 4 * 4) (j % 4) f := by
  have e : ∀ k, k < 16 → selByte u (j / 4 * 4) (f k) = selByte v (j / 4 * 4) (f k) := by
    intro k hk
    cases hc : f k with
    | none => rfl
    | some c => exact byteAt_congr hn h j c hj (hf k c hk hc)
  unfold shiftBytes
  rw [e _ (by omega), e _ (by omega), e _ (by omega), e _ (by omega)]

theorem unImm_congr {n : Nat} (hn : Width n) (o : UnImm) {a a' : Vec} (ha : LEq n a a') (i : Nat) : LEq n (X86.unImm o a i) (X86.unImm o a' i) := by
  intro j hj
  have hj4 : ∀ c, c < 4 → j / 4 * 4 + c < n := by rcases hn with rfl | rfl <;> omega
  cases o <;> simp only [X86.unImm]
  case pslld => rw [ha j hj]
  case psrld => rw [ha j hj]
  case pshufd => rw [ha _ (hj4 _ (Nat.mod_lt _ (by omega)))]
  case pslldq =>
    refine shiftBytes_congr hn ha j hj _ fun k c hk e => ?_
    split at e <;> simp at e; omega
  case psrldq =>
    refine shiftBytes_congr hn ha j hj _ fun k c hk e => ?_
    split at e <;> simp at e; omega

theorem binImm_congr {n : Nat} (hn : Width n) (o : BinImm) (ho : o = .vperm2i128 → n = 8) {a a' b b' : Vec} (ha : LEq n a a') (hb : LEq n b b') (i : Nat) :
    LEq n (X86.binImm o a b i) (X86.binImm o a' b' i) := by
  intro j hj
  cases o <;> simp only [X86.binImm]
  case vperm2i128 =>
    have h8 := ho rfl
    subst h8
    have e : ∀ s c, c < 4 → sel128 a b s c = sel128 a' b' s c := by
      intro s c hc
      unfold sel128
      rw [ha c (by omega), ha (4 + c) (by omega), hb c (by omega), hb (4 + c) (by omega)]
    split
    · exact e _ _ (by omega)
    · exact e _ _ (by omega)
  case palignr =>
    have e : ∀ k, k < 16 → alignByte a b (j / 4 * 4) i k = alignByte a' b' (j / 4 * 4) i k := by
      intro k hk
      unfold alignByte
      split
      · exact byteAt_congr hn hb j _ hj (by omega)
      · split
        · exact byteAt_congr hn ha j _ hj (by omega)
        · rfl
    rw [e _ (by omega), e _ (by omega), e _ (by omega), e _ (by omega)]
  case sha1rnds4 =>
    have a0 := ha 0 (by rcases hn with rfl | rfl <;> omega)
    have a1 := ha 1 (by rcases hn with rfl | rfl <;> omega)
    have a2 := ha 2 (by rcases hn with rfl | rfl <;> omega)
    have a3 := ha 3 (by rcases hn with rfl | rfl <;> omega)
    have b0 := hb 0 (by rcases hn with rfl | rfl <;> omega)
    have b1 := hb 1 (by rcases hn with rfl | rfl <;> omega)
    have b2 := hb 2 (by rcases hn with rfl | rfl <;> omega)
    have b3 := hb 3 (by rcases hn with rfl | rfl <;> omega)
    simp only [sha1rnds4, a0, a1, a2, a3, b0, b1, b2, b3]

theorem rnds2_congr {a a' b b' k k' : Vec} (ha : LEq 4 a a') (hb : LEq 4 b b') (hk : LEq 4 k k') : LEq 4 (sha256rnds2 a b k) (sha256rnds2 a' b' k') := by
  intro j _
  simp only [sha256rnds2, ha 0 (by omega), ha 1 (by omega), ha 2 (by omega), ha 3 (by omega), hb 0 (by omega), hb 1 (by omega), hb 2 (by omega), hb 3 (by omega),
    hk 0 (by omega), hk 1 (by omega)]

theorem merge_lanes (k : Kind) (old new : Vec) : LEq k.lanes (k.merge old new) new := by
  intro j hj
  cases k
  · exact if_pos hj
  · exact if_pos hj
  · rfl

end Milo.X64
