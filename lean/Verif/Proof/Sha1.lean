import Verif.Proof.Sched
import Verif.Model.Sha1
/- The portable SHA-1 compression function is the one of FIPS 180-4. -/
namespace Milo.Sha1
open Memory Spec.Sha

theorem rotl_eq (x : W32) (n : Nat) (h : n < 32) : bitRotl x n = x.rotateLeft n := by
  simp [BitVec.rotateLeft, BitVec.rotateLeftAux, Nat.mod_eq_of_lt h]

theorem rotr2_eq (x : W32) : bitRotr x 2 = x.rotateLeft 30 := by
  have : x.rotateLeft 30 = x <<< 30 ||| x >>> 2 := rfl
  rw [this, BitVec.or_comm]

def vars (r : Regs) : Spec.Sha.Sha1.Vars := ⟨r.a, r.b, r.c, r.d, r.e⟩
def regs (v : Spec.Sha.Sha1.Vars) : Regs := ⟨v.a, v.b, v.c, v.d, v.e⟩
def toList (r : Regs) : List W32 := [r.a, r.b, r.c, r.d, r.e]
def ofList (l : List W32) : Regs := ⟨l.getD 0 0, l.getD 1 0, l.getD 2 0, l.getD 3 0, l.getD 4 0⟩

theorem vars_regs (v : Spec.Sha.Sha1.Vars) : vars (regs v) = v := rfl

theorem round_eq (f : W32 → W32 → W32 → W32) (ki j : Nat) (sched : List W32) (w : W32) (hw : sched[j]? = some w)
    (hk : k[ki]? = some (Spec.Sha.Sha1.K j)) (hf : ∀ x y z, f x y z = Spec.Sha.Sha1.f j x y z) (r : Regs) :
    round f ki j sched r = some (regs (Spec.Sha.Sha1.round (vars r) j w)) := by
  unfold round rd1
  rw [hk, hw]
  show some (Regs.mk _ _ _ _ _) = _
  rw [rotl_eq _ _ (by omega), rotr2_eq, hf]
  rfl

/-- The state of the loops after `j` rounds. -/
def S (W : List W32) (r : Regs) (j : Nat) : List W32 × Regs :=
  (W.take j, regs ((List.range j).foldl (fun v t => Spec.Sha.Sha1.round v t (W.getD t 0)) (vars r)))

theorem S_succ (W : List W32) (r : Regs) (f : W32 → W32 → W32 → W32) (ki j : Nat) (w : W32) (hw : W[j]? = some w)
    (hk : k[ki]? = some (Spec.Sha.Sha1.K j)) (hf : ∀ x y z, f x y z = Spec.Sha.Sha1.f j x y z) :
    (do let r ← round f ki j (W.take (j + 1)) (S W r j).2
        pure (W.take (j + 1), r)) = some (S W r (j + 1)) := by
  rw [round_eq f ki j _ w (by rw [List.getElem?_take_of_lt (by omega)]; exact hw) hk hf]
  simp only [S, vars_regs]
  rw [foldl_range_succ]
  have : W.getD j 0 = w := by simp [List.getD_eq_getElem?_getD, hw]
  rw [this]; rfl

theorem phase0 (j : Nat) (h : j < 20) : k[0]? = some (Spec.Sha.Sha1.K j) ∧ ∀ x y z, CH x y z = Spec.Sha.Sha1.f j x y z := by
  constructor
  · simp [k, Spec.Sha.Sha1.K, h]
  · intro x y z; simp only [Spec.Sha.Sha1.f, h, if_true, CH, ch_eq]

theorem phase1 (j : Nat) (h0 : 20 ≤ j) (h : j < 40) :
    k[1]? = some (Spec.Sha.Sha1.K j) ∧ ∀ x y z, PARITY x y z = Spec.Sha.Sha1.f j x y z := by
  have : ¬ j < 20 := by omega
  constructor
  · simp [k, Spec.Sha.Sha1.K, h, this]
  · intro x y z; simp only [Spec.Sha.Sha1.f, h, this, if_true, if_false]; rfl

theorem phase2 (j : Nat) (h0 : 40 ≤ j) (h : j < 60) :
    k[2]? = some (Spec.Sha.Sha1.K j) ∧ ∀ x y z, MAJ x y z = Spec.Sha.Sha1.f j x y z := by
  have h1 : ¬ j < 20 := by omega
  have h2 : ¬ j < 40 := by omega
  constructor
  · simp [k, Spec.Sha.Sha1.K, h, h1, h2]
  · intro x y z; simp only [Spec.Sha.Sha1.f, h, h1, h2, if_true, if_false, MAJ, maj_eq]

theorem phase3 (j : Nat) (h0 : 60 ≤ j) :
    k[3]? = some (Spec.Sha.Sha1.K j) ∧ ∀ x y z, PARITY x y z = Spec.Sha.Sha1.f j x y z := by
  have h1 : ¬ j < 20 := by omega
  have h2 : ¬ j < 40 := by omega
  have h3 : ¬ j < 60 := by omega
  constructor
  · simp [k, Spec.Sha.Sha1.K, h1, h2, h3]
  · intro x y z; simp only [Spec.Sha.Sha1.f, h1, h2, h3, if_false]; rfl

theorem block_eq (h : Host) (r : Regs) (src : List Byte) (hs : 64 ≤ src.length) :
    block h r src = some (ofList (Spec.Sha.Sha1.compress (toList r) (src.take 64))) := by
  obtain ⟨h1, h2, h3⟩ := grow Spec.Sha.Sha1.next (words 4 (src.take 64)) 64
  have hwl : (words 4 (src.take 64)).length = 16 := spec_words_length 4 (by omega) _ 16 (by simp; omega)
  have hW : (List.range 64).foldl (fun w _ => w ++ [Spec.Sha.Sha1.next w]) (words 4 (src.take 64))
    = Spec.Sha.Sha1.schedule (src.take 64) := rfl
  rw [hW] at h1 h2 h3
  generalize hWd : Spec.Sha.Sha1.schedule (src.take 64) = W at h1 h2 h3
  rw [hwl] at h1 h2 h3
  have hlen : W.length = 80 := by omega
  have hg : ∀ j, (hj : j < 80) → W[j]? = some W[j] := fun j hj => List.getElem?_eq_getElem (by omega)
  have hs0 : ∀ j, (hj : j < 16) → schedule00 h src j (S W r j).1 = some (W.take (j + 1)) := by
    intro j hj
    have hload : loadBe h false 4 (p := 1) src j = some (W[j]) := by
      rw [loadBe_words h 4 (.inl rfl) src j (by omega) (by omega), ← hg j (by omega), ← h2, List.getElem?_take_of_lt (by omega)]
    unfold schedule00
    rw [hload]
    show some (W.take j ++ [W[j]]) = _
    rw [List.take_append_getElem]
  have hs16 : ∀ j, 16 ≤ j → j < 80 → schedule16 j (S W r j).1 = some (W.take (j + 1)) := by
    intro j hj1 hj2
    have hn := h3 (j - 16) (by omega)
    rw [show 16 + (j - 16) = j by omega, hg j hj2] at hn
    have hr : ∀ i, 0 < i → i ≤ 16 → rd1 (W.take j) (j - i) = some ((W.take j).getD (j - i) 0) := by
      intro i h0 hi
      unfold rd1
      rw [List.getD_eq_getElem?_getD, List.getElem?_eq_getElem (by simp; omega)]; rfl
    unfold schedule16
    simp only [S]
    rw [hr 3 (by omega) (by omega), hr 8 (by omega) (by omega), hr 14 (by omega) (by omega), hr 16 (by omega) (by omega)]
    simp only [Option.bind_eq_bind, Option.bind_some, Option.pure_def, ← List.take_append_getElem (show j < W.length by omega)]
    have hl : (W.take j).length = j := by simp; omega
    have hnx := Option.some.inj hn
    rw [hnx]
    refine congrArg (fun x => some (W.take j ++ [x])) ?_
    rw [rotl_eq _ _ (by omega)]
    simp only [Spec.Sha.Sha1.next, hl]
  have l0 := forM'_inv (fun j (s : List W32 × Regs) => do
    let sched ← schedule00 h src j s.1
    let r ← round CH 0 j sched s.2
    pure (sched, r)) (S W r) 16 0 (by
      intro j _ hj
      rw [hs0 j (by omega)]
      exact S_succ W r CH 0 j _ (hg j (by omega)) (phase0 j (by omega)).1 (phase0 j (by omega)).2)
  have l1 := forM'_inv (fun j (s : List W32 × Regs) => do
    let sched ← schedule16 j s.1
    let r ← round CH 0 j sched s.2
    pure (sched, r)) (S W r) 4 16 (by
      intro j _ hj
      rw [hs16 j (by omega) (by omega)]
      exact S_succ W r CH 0 j _ (hg j (by omega)) (phase0 j (by omega)).1 (phase0 j (by omega)).2)
  have l2 := forM'_inv (fun j (s : List W32 × Regs) => do
    let sched ← schedule16 j s.1
    let r ← round PARITY 1 j sched s.2
    pure (sched, r)) (S W r) 20 20 (by
      intro j _ hj
      rw [hs16 j (by omega) (by omega)]
      exact S_succ W r PARITY 1 j _ (hg j (by omega)) (phase1 j (by omega) (by omega)).1 (phase1 j (by omega) (by omega)).2)
  have l3 := forM'_inv (fun j (s : List W32 × Regs) => do
    let sched ← schedule16 j s.1
    let r ← round MAJ 2 j sched s.2
    pure (sched, r)) (S W r) 20 40 (by
      intro j _ hj
      rw [hs16 j (by omega) (by omega)]
      exact S_succ W r MAJ 2 j _ (hg j (by omega)) (phase2 j (by omega) (by omega)).1 (phase2 j (by omega) (by omega)).2)
  have l4 := forM'_inv (fun j (s : List W32 × Regs) => do
    let sched ← schedule16 j s.1
    let r ← round PARITY 3 j sched s.2
    pure (sched, r)) (S W r) 20 60 (by
      intro j _ hj
      rw [hs16 j (by omega) (by omega)]
      exact S_succ W r PARITY 3 j _ (hg j (by omega)) (phase3 j (by omega)).1 (phase3 j (by omega)).2)
  have hS0 : S W r 0 = ([], r) := rfl
  unfold block
  rw [hS0] at l0
  rw [l0]
  show Option.bind (forM' _ 4 16 (S W r 16)) _ = _
  rw [l1]
  show Option.bind (forM' _ 20 20 (S W r 20)) _ = _
  rw [l2]
  show Option.bind (forM' _ 20 40 (S W r 40)) _ = _
  rw [l3]
  show Option.bind (forM' _ 20 60 (S W r 60)) _ = _
  rw [l4]
  show some _ = _
  unfold Spec.Sha.Sha1.compress
  rw [hWd]
  have hv : (⟨(toList r).getD 0 0, (toList r).getD 1 0, (toList r).getD 2 0, (toList r).getD 3 0, (toList r).getD 4 0⟩ :
    Spec.Sha.Sha1.Vars) = vars r := rfl
  simp only [S, Nat.reduceAdd]
  rw [hv]
  generalize (List.range 80).foldl (fun v t => Spec.Sha.Sha1.round v t (W.getD t 0)) (vars r) = v
  rfl

theorem blocksSw_ok (h : Host) :
    BlocksOk 64 (fun st : List W32 => st.length = 5) Spec.Sha.Sha1.compress (blocksSw h) where
  pos := by omega
  wf := fun st b _ _ => rfl
  eq := by
    intro n st src hst hl
    obtain ⟨a, b, c, d, e, rfl⟩ := list5 st hst
    have hloop := blocksLoop_eq 64 (by omega) (blocksLoop h) (fun r b => ofList (Spec.Sha.Sha1.compress (toList r) b))
      (fun r src => rfl) (by
        intro n r src hs
        show (block h r src).bind _ = _
        rw [block_eq h r src hs]
        show (advance src 64).bind _ = _
        rw [advance_eq _ _ hs]; rfl) n ⟨a, b, c, d, e⟩ src hl
    show (blocksLoop h n ⟨a, b, c, d, e⟩ src).bind _ = _
    rw [hloop]
    show some (toList _) = _
    congr 1
    generalize Spec.chunks 64 (src.take (n * 64)) = cs
    have : ∀ (cs : List (List Byte)) (r : Regs),
        toList (cs.foldl (fun r b => ofList (Spec.Sha.Sha1.compress (toList r) b)) r)
          = cs.foldl Spec.Sha.Sha1.compress (toList r) := by
      intro cs
      induction cs with
      | nil => intro r; rfl
      | cons c cs ih => intro r; simp only [List.foldl_cons]; rw [ih]; rfl
    exact this cs _

end Milo.Sha1
