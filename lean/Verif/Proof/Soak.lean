import Verif.Model.Update
import Verif.Proof.SpecBytes
/- `update_block_soak` absorbs a message block by block. -/
namespace Milo
open Memory

/-- A backend computes the fold of a compression function over its input blocks, for states satisfying `Wf`. -/
structure BlocksOk {σ : Type} (block : Nat) (Wf : σ → Prop) (compress : σ → List Byte → σ)
    (blocks : Nat → σ → List Byte → Option σ) : Prop where
  pos : 0 < block
  wf : ∀ st b, Wf st → b.length = block → Wf (compress st b)
  eq : ∀ n st src, Wf st → n * block ≤ src.length →
    blocks n st src = some ((Spec.chunks block (src.take (n * block))).foldl compress st)

theorem chunks_append {α} (B : Nat) (hB : 0 < B) (a b : List α) (ha : a.length % B = 0) :
    Spec.chunks B (a ++ b) = Spec.chunks B a ++ Spec.chunks B b := by
  generalize hn : a.length / B = n
  induction n generalizing a with
  | zero =>
    have : a.length = 0 := by
      have := Nat.div_add_mod a.length B
      rw [hn, ha] at this; simpa using this.symm
    have : a = [] := List.length_eq_zero_iff.mp this
    subst this; simp [chunks_nil]
  | succ n ih =>
    have hdm := Nat.div_add_mod a.length B
    rw [hn, ha, Nat.mul_succ] at hdm
    have hle : B ≤ a.length := by omega
    have hsplit : a = a.take B ++ a.drop B := by simp
    have hl : (a.take B).length = B := by simp; omega
    have hd : (a.drop B).length = B * n := by simp; omega
    rw [hsplit, List.append_assoc, chunks_cons _ hB _ _ hl, chunks_cons _ hB _ _ hl, ih (a.drop B)]
    · simp
    · rw [hd]; exact Nat.mul_mod_right ..
    · rw [hd]; exact Nat.mul_div_cancel_left _ hB

theorem chunks_all_length {α} (B : Nat) (hB : 0 < B) (a : List α) (ha : a.length % B = 0) : ∀ c ∈ Spec.chunks B a, c.length = B := by
  generalize hn : a.length / B = n
  induction n generalizing a with
  | zero =>
    have : a.length = 0 := by
      have := Nat.div_add_mod a.length B
      rw [hn, ha] at this; simpa using this.symm
    have : a = [] := List.length_eq_zero_iff.mp this
    subst this; simp [chunks_nil]
  | succ n ih =>
    have hdm := Nat.div_add_mod a.length B
    rw [hn, ha, Nat.mul_succ] at hdm
    have hsplit : a = a.take B ++ a.drop B := by simp
    have hl : (a.take B).length = B := by simp; omega
    have hd : (a.drop B).length = B * n := by simp; omega
    rw [hsplit, chunks_cons _ hB _ _ hl]
    intro c hc
    rcases List.mem_cons.mp hc with rfl | hc
    · exact hl
    · exact ih (a.drop B) (by rw [hd]; exact Nat.mul_mod_right ..) (by rw [hd]; exact Nat.mul_div_cancel_left _ hB) c hc

theorem foldl_wf {σ : Type} {Wf : σ → Prop} {B : Nat} {compress : σ → List Byte → σ}
    (wf : ∀ st b, Wf st → b.length = B → Wf (compress st b)) (cs : List (List Byte)) (hcs : ∀ c ∈ cs, c.length = B)
    (st : σ) (hst : Wf st) : Wf (cs.foldl compress st) := by
  induction cs generalizing st with
  | nil => exact hst
  | cons c cs ih =>
    simp only [List.foldl_cons]
    exact ih (fun c hc => hcs c (List.mem_cons_of_mem _ hc)) _ (wf _ _ hst (hcs c List.mem_cons_self))

/-- The state after the whole blocks of `m`. -/
def absorbed {σ : Type} (B : Nat) (compress : σ → List Byte → σ) (iv : σ) (m : List Byte) : σ :=
  (Spec.chunks B (m.take (m.length / B * B))).foldl compress iv

/-- The bytes of `m` after its whole blocks. -/
def tail (B : Nat) (m : List Byte) : List Byte := m.drop (m.length / B * B)

theorem tail_length (B : Nat) (m : List Byte) : (tail B m).length = m.length % B := by
  have := Nat.div_add_mod m.length B
  have hc : m.length / B * B = B * (m.length / B) := Nat.mul_comm _ _
  simp [tail]; omega

theorem split_tail (B : Nat) (m : List Byte) : m = m.take (m.length / B * B) ++ tail B m := by simp [tail]

theorem absorbed_wf {σ : Type} {Wf : σ → Prop} {B : Nat} {compress : σ → List Byte → σ}
    (hB : 0 < B) (wf : ∀ st b, Wf st → b.length = B → Wf (compress st b)) (iv : σ) (hiv : Wf iv) (m : List Byte) :
    Wf (absorbed B compress iv m) := by
  apply foldl_wf wf
  · apply chunks_all_length _ hB
    have := Nat.div_mul_le_self m.length B
    simp [Nat.min_eq_left this]
  · exact hiv

/-- Whole blocks in front can be absorbed first. -/
theorem absorbed_append {σ : Type} (B : Nat) (hB : 0 < B) (compress : σ → List Byte → σ) (iv : σ) (a b : List Byte)
    (ha : a.length % B = 0) :
    absorbed B compress iv (a ++ b) = absorbed B compress (absorbed B compress iv a) b ∧ tail B (a ++ b) = tail B b := by
  obtain ⟨k, hk⟩ := Nat.dvd_of_mod_eq_zero ha
  have h1 : (a ++ b).length / B * B = a.length + b.length / B * B := by
    rw [List.length_append, hk, Nat.mul_add_div hB, Nat.add_mul, Nat.mul_comm k]
  have h2 : a.length / B * B = a.length := Nat.div_mul_cancel ⟨k, hk⟩
  constructor
  · unfold absorbed
    rw [h1, h2, List.take_length_add_append, chunks_append B hB _ _ ha, List.foldl_append, List.take_length]
  · unfold tail
    rw [h1]; simp

theorem absorbed_short {σ : Type} (B : Nat) (compress : σ → List Byte → σ) (iv : σ) (m : List Byte) (h : m.length < B) :
    absorbed B compress iv m = iv ∧ tail B m = m := by
  unfold absorbed tail
  rw [Nat.div_eq_of_lt h]
  simp [chunks_nil]

/-- The streaming invariant: `st` has absorbed the whole blocks of `m`, the buffer starts with the rest. -/
structure SoakRep {σ : Type} (B : Nat) (compress : σ → List Byte → σ) (iv : σ) (st : σ) (buf : List Byte) (bufSize : Nat)
    (m : List Byte) : Prop where
  state : st = absorbed B compress iv m
  size : bufSize = m.length % B
  data : buf.take bufSize = tail B m

theorem at_eq {α : Type} (buf : List α) (off : Nat) (f : List α → Option (List α)) (h : off ≤ buf.length) :
    at_ buf off f = (f (buf.drop off)).map (buf.take off ++ ·) := by
  unfold at_
  simp only [h, if_true]
  cases f (buf.drop off) <;> rfl

theorem advance_eq {α : Type} (src : List α) (n : Nat) (h : n ≤ src.length) : advance src n = some (src.drop n) := by
  simp [advance, h]

/-- The part of `soak` after the buffered bytes were dealt with. -/
def soakRest (h : Host) {σ : Type} (block : Nat) (blocks : Nat → σ → List Byte → Option σ)
    (buf : List Byte) (src : List Byte) (st : σ) : Option (Nat × List Byte × σ) := do
  let full := src.length / block
  let last := src.length % block
  let (src, st) ← if full ≠ 0 then do
      let st ← blocks full st src
      let src ← advance src (full * block)
      pure (src, st)
    else pure (src, st)
  let buf ← if last ≠ 0 then Memory.copy h (p := 1) (q := 1) buf src last else pure buf
  pure (last, buf, st)

theorem soakRest_eq (h : Host) {σ : Type} {B : Nat} {Wf : σ → Prop} {compress : σ → List Byte → σ}
    {blocks : Nat → σ → List Byte → Option σ} (hb : BlocksOk B Wf compress blocks) (buf src : List Byte) (st : σ) (hst : Wf st)
    (hbuf : B ≤ buf.length) :
    soakRest h B blocks buf src st
      = some (src.length % B, tail B src ++ buf.drop (src.length % B), absorbed B compress st src) := by
  have hdm := Nat.div_add_mod src.length B
  have hc : src.length / B * B = B * (src.length / B) := Nat.mul_comm _ _
  have hmod : src.length % B < B := Nat.mod_lt _ hb.pos
  have htl := tail_length B src
  have hl : (if src.length % B ≠ 0 then Memory.copy h (p := 1) (q := 1) buf (tail B src) (src.length % B) else some buf)
      = some (tail B src ++ buf.drop (src.length % B)) := by
    by_cases hz : src.length % B = 0
    · have ht : tail B src = [] := List.length_eq_zero_iff.mp (by omega)
      simp [hz, ht]
    · simp only [ne_eq, hz, not_false_eq_true, if_true]
      rw [copy_bytes _ _ _ _ (by omega) (by omega), List.take_of_length_le (by omega)]
  have hl' : ∀ st' : σ, (if src.length % B ≠ 0 then
        (Memory.copy h (p := 1) (q := 1) buf (tail B src) (src.length % B)).bind fun buf => some (src.length % B, buf, st')
      else some (src.length % B, buf, st')) = some (src.length % B, tail B src ++ buf.drop (src.length % B), st') := by
    intro st'
    by_cases hz : src.length % B = 0
    · simp only [ne_eq, hz, not_true_eq_false, if_false] at hl ⊢
      exact congrArg (fun b => b.map fun b => (0, b, st')) hl
    · simp only [ne_eq, hz, not_false_eq_true, if_true] at hl ⊢
      rw [hl]; rfl
  unfold soakRest
  by_cases hz : src.length / B = 0
  · have hlt : src.length < B := by rw [hz] at hdm; omega
    obtain ⟨e1, e2⟩ := absorbed_short B compress st src hlt
    have := hl' st
    rw [e2] at this
    simp only [hz, ne_eq, not_true_eq_false, if_false, e1, e2, Option.bind_eq_bind, Option.pure_def, Option.bind_some] at this ⊢
    exact this
  · simp only [ne_eq, hz, not_false_eq_true, if_true]
    rw [hb.eq _ _ _ hst (by omega), advance_eq _ _ (by omega)]
    have := hl' (absorbed B compress st src)
    simp only [ne_eq, Option.bind_eq_bind, Option.pure_def, Option.bind_some] at this ⊢
    exact this

/-- `update_block_soak` preserves the streaming invariant, never leaves the buffers, holds back at most one block. -/
theorem soak_rep (h : Host) {σ : Type} {B : Nat} {Wf : σ → Prop} {compress : σ → List Byte → σ}
    {blocks : Nat → σ → List Byte → Option σ} (hb : BlocksOk B Wf compress blocks) (iv : σ) (hiv : Wf iv)
    (buf : List Byte) (bufSize : Nat) (src : List Byte) (st : σ) (m : List Byte) (hbuf : B ≤ buf.length)
    (hrep : SoakRep B compress iv st buf bufSize m) :
    ∃ n buf' st', soak h B blocks buf bufSize src st = some (n, buf', st') ∧ buf'.length = buf.length ∧
      SoakRep B compress iv st' buf' n (m ++ src) := by
  have hB := hb.pos
  have hst : Wf st := by rw [hrep.state]; exact absorbed_wf hB hb.wf _ hiv _
  have hmod : m.length % B < B := Nat.mod_lt _ hB
  have htl := tail_length B m
  have hsz := hrep.size
  -- the whole blocks of `m`
  have hfl : (m.take (m.length / B * B)).length % B = 0 := by
    have := Nat.div_mul_le_self m.length B
    simp [Nat.min_eq_left this]
  have hab : ∀ x, absorbed B compress iv (m ++ x) = absorbed B compress st (tail B m ++ x) ∧
      tail B (m ++ x) = tail B (tail B m ++ x) := by
    intro x
    have hm : m ++ x = m.take (m.length / B * B) ++ (tail B m ++ x) := by
      rw [← List.append_assoc, ← split_tail]
    rw [hm]
    obtain ⟨e1, e2⟩ := absorbed_append B hB compress iv (m.take (m.length / B * B)) (tail B m ++ x) hfl
    refine ⟨?_, e2⟩
    rw [e1, hrep.state]
    have : absorbed B compress iv (m.take (m.length / B * B)) = absorbed B compress iv m := by
      unfold absorbed
      rw [List.length_take, Nat.min_eq_left (Nat.div_mul_le_self ..), List.take_take, Nat.mul_div_cancel _ hB,
        Nat.min_self]
    rw [this]
  have hlen : ∀ x, (m ++ x).length % B = (tail B m ++ x).length % B := by
    intro x
    rw [← tail_length, ← tail_length, (hab x).2]
  unfold soak
  show ∃ n buf' st', (if bufSize > 0 then if bufSize > B then none else
      (at_ buf bufSize fun p => Memory.copy h (p := 1) (q := 1) p src (min (B - bufSize) src.length)).bind fun buf =>
        if min (B - bufSize) src.length < B - bufSize then some (bufSize + min (B - bufSize) src.length, buf, st)
        else (blocks 1 st buf).bind fun st => (advance src (min (B - bufSize) src.length)).bind fun src =>
          soakRest h B blocks buf src st
    else soakRest h B blocks buf src st) = some (n, buf', st') ∧ _
  by_cases hz : bufSize > 0
  · rw [if_pos hz, if_neg (by omega)]
    rw [at_eq _ _ _ (by omega), copy_bytes _ _ _ _ (by omega) (by simp; omega)]
    simp only [Option.map_some, Option.bind_some]
    by_cases hlt : min (B - bufSize) src.length < B - bufSize
    · rw [if_pos hlt]
      have hsl : src.length < B - bufSize := by omega
      have hmin : min (B - bufSize) src.length = src.length := by omega
      rw [hmin]
      refine ⟨_, _, _, rfl, by simp; omega, ?_, ?_, ?_⟩
      · rw [(hab src).1]
        rw [(absorbed_short B compress st (tail B m ++ src) (by simp; omega)).1]
      · rw [hlen, Nat.mod_eq_of_lt (by simp; omega)]; simp; omega
      · rw [(hab src).2, (absorbed_short B compress st (tail B m ++ src) (by simp; omega)).2, ← hrep.data]
        rw [← List.append_assoc, List.take_left' (by simp; omega)]
        simp
    · rw [if_neg hlt]
      have hmin : min (B - bufSize) src.length = B - bufSize := by omega
      rw [hmin]
      have hblk : (buf.take bufSize ++ src.take (B - bufSize)).length = B := by simp; omega
      have hblkm : (buf.take bufSize ++ src.take (B - bufSize)).length % B = 0 := by rw [hblk]; exact Nat.mod_self B
      have hall : buf.take bufSize ++ src = (buf.take bufSize ++ src.take (B - bufSize)) ++ src.drop (B - bufSize) := by
        simp
      rw [hb.eq _ _ _ hst (by simp; omega), advance_eq _ _ (by omega)]
      simp only [Option.bind_some, Nat.one_mul]
      rw [← List.append_assoc, List.take_left' hblk]
      have hcomp : (Spec.chunks B (buf.take bufSize ++ src.take (B - bufSize))).foldl compress st
          = absorbed B compress st (buf.take bufSize ++ src.take (B - bufSize)) := by
        unfold absorbed
        rw [hblk, Nat.div_self hB, Nat.one_mul, List.take_of_length_le (Nat.le_of_eq hblk)]
      rw [hcomp, soakRest_eq h hb _ _ _ (absorbed_wf hB hb.wf _ hst _) (by simp; omega)]
      refine ⟨_, _, _, rfl, ?_, ?_, ?_, ?_⟩
      · have := tail_length B (src.drop (B - bufSize))
        have := Nat.mod_lt (src.drop (B - bufSize)).length hB
        simp at *; omega
      · rw [(hab src).1, ← hrep.data, hall, (absorbed_append B hB compress st _ _ hblkm).1]
      · rw [hlen, ← hrep.data, hall, List.length_append, hblk, Nat.add_mod_left]
      · rw [(hab src).2, ← hrep.data, hall, (absorbed_append B hB compress st _ _ hblkm).2]
        rw [List.take_left' (tail_length _ _)]
  · rw [if_neg hz]
    have h0 : bufSize = 0 := by omega
    have ht : tail B m = [] := List.length_eq_zero_iff.mp (by omega)
    rw [soakRest_eq h hb _ _ _ hst hbuf]
    refine ⟨_, _, _, rfl, ?_, ?_, ?_, ?_⟩
    · have := tail_length B src
      have := Nat.mod_lt src.length hB
      simp at *; omega
    · rw [(hab src).1, ht, List.nil_append]
    · rw [hlen, ht, List.nil_append]
    · rw [(hab src).2, ht, List.nil_append, List.take_left' (tail_length _ _)]

end Milo
