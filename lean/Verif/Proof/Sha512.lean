import Verif.Proof.Sched
import Verif.Model.Sha512
/- The portable SHA-512 compression function is the one of FIPS 180-4. -/
namespace Milo.Sha512
open Memory Spec.Sha

/-! The standard's functions at the concrete word type (`8 * p64.n` unfolds to 64). -/
def K (j : Nat) : W64 := p64.K j
def next (w : List W64) : W64 := Sha2.next p64 w
def Round (v : Sha2.Vars 64) (kv w : W64) : Sha2.Vars 64 := Sha2.round p64 v kv w
def compress (H : List W64) (b : List Byte) : List W64 := Sha2.compress p64 H b
def schedule (b : List Byte) : List W64 := (List.range 64).foldl (fun w _ => w ++ [next w]) (words 8 b)

theorem next_def (w : List W64) : next w =
    Sha2.sigma (19, 61, 6) (w.getD (w.length - 2) 0) + w.getD (w.length - 7) 0 + Sha2.sigma (1, 8, 7) (w.getD (w.length - 15) 0) + w.getD (w.length - 16) 0 := rfl

theorem Round_def (v : Sha2.Vars 64) (kv w : W64) : Round v kv w =
    ⟨v.h + Sha2.Sigma (14, 18, 41) v.e + ch v.e v.f v.g + kv + w + (Sha2.Sigma (28, 34, 39) v.a + maj v.a v.b v.c), v.a, v.b, v.c,
      v.d + (v.h + Sha2.Sigma (14, 18, 41) v.e + ch v.e v.f v.g + kv + w), v.e, v.f, v.g⟩ := rfl

theorem compress_def (H : List W64) (b : List Byte) : compress H b =
    let v := (List.range 80).foldl (fun v t => Round v (K t) ((schedule b).getD t 0))
      ⟨H.getD 0 0, H.getD 1 0, H.getD 2 0, H.getD 3 0, H.getD 4 0, H.getD 5 0, H.getD 6 0, H.getD 7 0⟩
    [v.a + H.getD 0 0, v.b + H.getD 1 0, v.c + H.getD 2 0, v.d + H.getD 3 0,
     v.e + H.getD 4 0, v.f + H.getD 5 0, v.g + H.getD 6 0, v.h + H.getD 7 0] := rfl

theorem k_eq : ∀ j, j < 80 → k[j]? = some (K j) := by
  have h : (List.range 80).all (fun j => decide (k[j]? = some (K j))) = true := by decide +kernel
  intro j hj
  exact of_decide_eq_true (List.all_eq_true.mp h j (List.mem_range.mpr hj))

attribute [irreducible] K

theorem rotr_eq (x : W64) (n : Nat) (h : n < 64) : bitRotr x n = x.rotateRight n := by
  simp [BitVec.rotateRight, BitVec.rotateRightAux, Nat.mod_eq_of_lt h]

theorem sigmaLower0_eq (x : W64) : sigmaLower0 x = Sha2.sigma (1, 8, 7) x := by
  unfold sigmaLower0; rw [rotr_eq _ _ (by omega), rotr_eq _ _ (by omega)]; rfl
theorem sigmaLower1_eq (x : W64) : sigmaLower1 x = Sha2.sigma (19, 61, 6) x := by
  unfold sigmaLower1; rw [rotr_eq _ _ (by omega), rotr_eq _ _ (by omega)]; rfl
theorem sigmaUpper0_eq (x : W64) : sigmaUpper0 x = Sha2.Sigma (28, 34, 39) x := by
  unfold sigmaUpper0; rw [rotr_eq _ _ (by omega), rotr_eq _ _ (by omega), rotr_eq _ _ (by omega)]; rfl
theorem sigmaUpper1_eq (x : W64) : sigmaUpper1 x = Sha2.Sigma (14, 18, 41) x := by
  unfold sigmaUpper1; rw [rotr_eq _ _ (by omega), rotr_eq _ _ (by omega), rotr_eq _ _ (by omega)]; rfl

/-- Working variables as the standard names them. -/
def vars (r : Regs) : Sha2.Vars 64 := ⟨r.a, r.b, r.c, r.d, r.e, r.f, r.g, r.h⟩
def regs (v : Sha2.Vars 64) : Regs := ⟨v.a, v.b, v.c, v.d, v.e, v.f, v.g, v.h⟩
def toList (r : Regs) : List W64 := [r.a, r.b, r.c, r.d, r.e, r.f, r.g, r.h]
def ofList (l : List W64) : Regs :=
  ⟨l.getD 0 0, l.getD 1 0, l.getD 2 0, l.getD 3 0, l.getD 4 0, l.getD 5 0, l.getD 6 0, l.getD 7 0⟩

theorem regs_vars (r : Regs) : regs (vars r) = r := rfl
theorem vars_regs (v : Sha2.Vars 64) : vars (regs v) = v := rfl

theorem round_eq (j : Nat) (sched : List W64) (w : W64) (hw : sched[j]? = some w) (hj : j < 80) (r : Regs) :
    round j sched r = some (regs (Round (vars r) (K j) w)) := by
  unfold round rd1
  rw [k_eq j hj, hw]
  have e : sigmaUpper1 r.e + CH r.e r.f r.g + r.h + K j + w = r.h + Sha2.Sigma (14, 18, 41) r.e + ch r.e r.f r.g + K j + w := by
    rw [sigmaUpper1_eq, CH, ch_eq]
    generalize K j = x; ac_rfl
  show some (Regs.mk _ _ _ _ _ _ _ _) = _
  rw [e, sigmaUpper0_eq, MAJ, maj_eq, Round_def]
  rfl

/-- The state of both loops after `j` rounds. -/
def S (W : List W64) (r : Regs) (j : Nat) : List W64 × Regs :=
  (W.take j, regs ((List.range j).foldl (fun v t => Round v (K t) (W.getD t 0)) (vars r)))

theorem S_succ (W : List W64) (r : Regs) (j : Nat) (hj : j < 80) (w : W64) (hw : W[j]? = some w) :
    (do let r ← round j (W.take (j + 1)) (S W r j).2
        pure (W.take (j + 1), r)) = some (S W r (j + 1)) := by
  rw [round_eq j _ w (by rw [List.getElem?_take_of_lt (by omega)]; exact hw) hj]
  simp only [S, vars_regs]
  rw [foldl_range_succ]
  have : W.getD j 0 = w := by simp [List.getD_eq_getElem?_getD, hw]
  rw [this]; rfl

theorem block_eq (h : Host) (r : Regs) (src : List Byte) (hs : 128 ≤ src.length) :
    block h r src = some (ofList (compress (toList r) (src.take 128))) := by
  obtain ⟨h1, h2, h3⟩ := grow (next) (words 8 (src.take 128)) 64
  have hwl : (words 8 (src.take 128)).length = 16 := spec_words_length 8 (by omega) _ 16 (by simp; omega)
  have hW : (List.range 64).foldl (fun w _ => w ++ [next w]) (words 8 (src.take 128)) = schedule (src.take 128) := rfl
  rw [hW] at h1 h2 h3
  generalize hWd : schedule (src.take 128) = W at h1 h2 h3
  rw [hwl] at h1 h2 h3
  have hlen : W.length = 80 := by omega
  unfold block
  have l1 := forM'_inv (fun j (s : List W64 × Regs) => do
    let sched ← schedule00 h src j s.1
    let r ← round j sched s.2
    pure (sched, r)) (S W r) 16 0 (by
      intro j _ hj
      have hg : W[j]? = some W[j] := List.getElem?_eq_getElem (by omega)
      have hload : loadBe h false 8 (p := 1) src j = some (W[j]) := by
        rw [loadBe_words h 8 (.inr rfl) src j (by omega) (by omega), ← hg, ← h2, List.getElem?_take_of_lt (by omega)]
      have hsch : schedule00 h src j (S W r j).1 = some (W.take (j + 1)) := by
        unfold schedule00
        rw [hload]
        show some (W.take j ++ [W[j]]) = _
        rw [List.take_append_getElem]
      rw [hsch]
      exact S_succ W r j (by omega) _ hg)
  have l2 := forM'_inv (fun j (s : List W64 × Regs) => do
    let sched ← schedule16 j s.1
    let r ← round j sched s.2
    pure (sched, r)) (S W r) 64 16 (by
      intro j hj1 hj2
      have hg : W[j]? = some W[j] := List.getElem?_eq_getElem (by omega)
      have hn := h3 (j - 16) (by omega)
      rw [show 16 + (j - 16) = j by omega, hg] at hn
      have hr : ∀ i, 0 < i → i ≤ 16 → rd1 (W.take j) (j - i) = some ((W.take j).getD (j - i) 0) := by
        intro i h0 hi
        unfold rd1
        rw [List.getD_eq_getElem?_getD, List.getElem?_eq_getElem (by simp; omega)]; rfl
      have hsch : schedule16 j (S W r j).1 = some (W.take (j + 1)) := by
        unfold schedule16
        simp only [S]
        rw [hr 7 (by omega) (by omega), hr 16 (by omega) (by omega), hr 2 (by omega) (by omega), hr 15 (by omega) (by omega)]
        simp only [Option.bind_eq_bind, Option.bind_some, Option.pure_def, ← List.take_append_getElem (show j < W.length by omega)]
        have hl : (W.take j).length = j := by simp; omega
        have hnx := Option.some.inj hn
        rw [hnx]
        refine congrArg (fun x => some (W.take j ++ [x])) ?_
        rw [next_def]
        simp only [hl, sigmaLower0_eq, sigmaLower1_eq]
        generalize (W.take j).getD (j - 7) 0 = x7
        generalize (W.take j).getD (j - 16) 0 = x16
        generalize Sha2.sigma (19, 61, 6) ((W.take j).getD (j - 2) 0) = x2
        generalize Sha2.sigma (1, 8, 7) ((W.take j).getD (j - 15) 0) = x15
        ac_rfl
      rw [hsch]
      exact S_succ W r j (by omega) _ hg)
  have hS0 : S W r 0 = ([], r) := by simp [S, regs_vars]
  rw [hS0] at l1
  rw [l1]
  show Option.bind (forM' _ 64 16 (S W r 16)) _ = _
  rw [l2]
  show some _ = _
  rw [compress_def, hWd]
  have hv : (⟨(toList r).getD 0 0, (toList r).getD 1 0, (toList r).getD 2 0, (toList r).getD 3 0, (toList r).getD 4 0,
    (toList r).getD 5 0, (toList r).getD 6 0, (toList r).getD 7 0⟩ : Sha2.Vars 64) = vars r := rfl
  rw [hv]
  simp only [S, Nat.reduceAdd]
  generalize (List.range 80).foldl (fun v t => Round v (K t) (W.getD t 0)) (vars r) = v
  rfl

theorem blocksSw_ok (h : Host) :
    BlocksOk 128 (fun st : List W64 => st.length = 8) (compress) (blocksSw h) where
  pos := by omega
  wf := fun st b _ _ => rfl
  eq := by
    intro n st src hst hl
    obtain ⟨a, b, c, d, e, f, g, i, rfl⟩ := list8 st hst
    have hloop := blocksLoop_eq 128 (by omega) (blocksLoop h) (fun r b => ofList (compress (toList r) b))
      (fun r src => rfl) (by
        intro n r src hs
        show (block h r src).bind _ = _
        rw [block_eq h r src hs]
        show (advance src 128).bind _ = _
        rw [advance_eq _ _ hs]; rfl) n ⟨a, b, c, d, e, f, g, i⟩ src hl
    show (blocksLoop h n ⟨a, b, c, d, e, f, g, i⟩ src).bind _ = _
    rw [hloop]
    show some (toList _) = _
    congr 1
    generalize Spec.chunks 128 (src.take (n * 128)) = cs
    have : ∀ (cs : List (List Byte)) (r : Regs),
        toList (cs.foldl (fun r b => ofList (compress (toList r) b)) r) = cs.foldl (compress) (toList r) := by
      intro cs
      induction cs with
      | nil => intro r; rfl
      | cons c cs ih => intro r; simp only [List.foldl_cons]; rw [ih]; rfl
    exact this cs _

end Milo.Sha512
