import Verif.Proof.KdfLawful
import Verif.Proof.MacLawful
import Verif.Proof.Soak
import Verif.Model.Hkdf
/- HKDF over a lawful mac is lawful. -/
namespace Milo.Hkdf
open Memory

variable (h : Host) {M : MacImpl} {F : List Byte → List Byte → List Byte} (L : LawfulMac M F)

/-- Every object. -/
def Wf (L : LawfulMac M F) (sizes : Nat → Nat) (o : Obj M) : Prop :=
  L.Wf o.hmac ∧ o.info.Fits sizes ∧ o.prk.length = M.digestSize ∧ o.buffer.length = M.digestSize ∧ o.bufferSize ≤ M.digestSize

/-- A digest of everything that was asked for, into a buffer that holds it. -/
theorem digest_all (s : M.σ) (k m dst : List Byte) (hf : L.Fin s k m) (hd : M.digestSize ≤ dst.length) :
    M.digest s dst M.digestSize = some (F k m ++ dst.drop M.digestSize, M.digestSize) := by
  rw [L.digest s k m dst _ hf (by omega), Nat.min_self, List.take_of_length_le (by rw [L.length]; exact Nat.le_refl _)]

/-- One block: `T(i)` from the previous one. -/
def blk (F : List Byte → List Byte → List Byte) (prk info prev : List Byte) (c : BitVec 8) : List Byte := F prk (prev ++ info ++ [c])

theorem expand_eq (hL : M.digestSize < 2 ^ 64) (m : Mem) (o : Obj M) (dst : List Byte) (c : BitVec 8) (prev info : List Byte)
    (ho : L.Wf o.hmac) (hp : o.prk.length = M.digestSize) (hi : o.info.bytes m = some info) (hil : info.length < 2 ^ 64)
    (hpl : prev.length < 2 ^ 64) (hd : M.digestSize ≤ dst.length) :
    ∃ s, expand M m o dst c prev = some ({ o with hmac := s }, blk F o.prk info prev c ++ dst.drop M.digestSize) ∧ L.Wf s := by
  obtain ⟨s1, e1, r1⟩ := L.init o.hmac o.prk ho (by omega)
  obtain ⟨s2, e2, r2⟩ := L.update s1 _ _ prev r1 hpl
  obtain ⟨s3, e3, r3⟩ := L.update s2 _ _ info r2 hil
  obtain ⟨s4, e4, r4⟩ := L.update s3 _ _ [c] r3 (by simp)
  obtain ⟨s5, e5, f5⟩ := L.finalize s4 _ _ r4
  have e6 := digest_all L s5 _ _ dst f5 hd
  refine ⟨s5, ?_, L.fin_wf _ _ _ f5⟩
  simp only [expand, e1, e2, e3, e4, e5, e6, hi, Option.bind_eq_bind, Option.bind_some, Option.pure_def, blk, List.nil_append]

theorem one_add_ofNat {w : Nat} (n : Nat) : (1 : BitVec w) + BitVec.ofNat w n = BitVec.ofNat w (n + 1) := by
  rw [BitVec.add_comm, BitVec.ofNat_add]; rfl

/-- The blocks the code computes, starting with counter `c` after `prev`. -/
def chain (F : List Byte → List Byte → List Byte) (prk info : List Byte) : Nat → List Byte → BitVec 8 → List (List Byte)
  | 0, _, _ => []
  | n + 1, prev, c => blk F prk info prev c :: chain F prk info n (blk F prk info prev c) (c + 1)

/-- The last of these blocks. -/
def lastBlk (F : List Byte → List Byte → List Byte) (prk info : List Byte) : Nat → List Byte → BitVec 8 → List Byte
  | 0, prev, _ => prev
  | n + 1, prev, c => lastBlk F prk info n (blk F prk info prev c) (c + 1)

theorem chain_length (prk info : List Byte) (n : Nat) (prev : List Byte) (c : BitVec 8) : (chain F prk info n prev c).length = n := by
  induction n generalizing prev c with
  | zero => rfl
  | succ n ih => simp [chain, ih]

theorem chain_snoc (prk info : List Byte) (n : Nat) (prev : List Byte) (c : BitVec 8) :
    chain F prk info (n + 1) prev c = chain F prk info n prev c ++ [blk F prk info (lastBlk F prk info n prev c) (c + BitVec.ofNat 8 n)] := by
  induction n generalizing prev c with
  | zero => simp [chain, lastBlk]
  | succ n ih =>
    rw [chain, ih]
    simp only [chain, lastBlk, List.cons_append]
    congr 4
    rw [BitVec.add_assoc, one_add_ofNat]

theorem lastBlk_succ (prk info : List Byte) (n : Nat) (prev : List Byte) (c : BitVec 8) :
    lastBlk F prk info (n + 1) prev c = blk F prk info (lastBlk F prk info n prev c) (c + BitVec.ofNat 8 n) := by
  induction n generalizing prev c with
  | zero => simp [lastBlk]
  | succ n ih =>
    rw [lastBlk, ih]
    simp only [lastBlk]
    congr 1
    rw [BitVec.add_assoc, one_add_ofNat]

include L in
theorem blk_length (prk info prev : List Byte) (c : BitVec 8) : (blk F prk info prev c).length = M.digestSize := L.length _ _

include L in
theorem chain_flatten_length (prk info : List Byte) (n : Nat) (prev : List Byte) (c : BitVec 8) :
    (chain F prk info n prev c).flatten.length = n * M.digestSize := by
  induction n generalizing prev c with
  | zero => simp [chain]
  | succ n ih => simp [chain, ih, blk_length L, Nat.succ_mul, Nat.add_comm]

include L in
theorem lastBlk_length (prk info : List Byte) (n : Nat) (prev : List Byte) (c : BitVec 8) (hn : 0 < n ∨ prev.length = M.digestSize) :
    (lastBlk F prk info n prev c).length = M.digestSize := by
  cases n with
  | zero => simpa [lastBlk] using hn
  | succ n => rw [lastBlk_succ]; exact blk_length L _ _ _ _

/-- The block loop. `p` is the key up to `key_ptr`, ending with the previous block. -/
theorem loop_eq (hL : M.digestSize < 2 ^ 64) (m : Mem) (info : List Byte) (hil : info.length < 2 ^ 64) (n i : Nat) (o : Obj M) (p prev rest : List Byte)
    (c : BitVec 8) (ho : L.Wf o.hmac) (hp : o.prk.length = M.digestSize) (hi : o.info.bytes m = some info) (hprev : prev.length = M.digestSize)
    (hn : n * M.digestSize ≤ rest.length) :
    ∃ s, forM' (step M m) n i ⟨o, p ++ prev ++ rest, c, p.length + M.digestSize, p.length⟩
      = some ⟨{ o with hmac := s }, p ++ prev ++ (chain F o.prk info n prev c).flatten ++ rest.drop (n * M.digestSize), c + BitVec.ofNat 8 n,
          p.length + M.digestSize + n * M.digestSize, p.length + n * M.digestSize⟩ ∧ L.Wf s ∧
      rdN (p ++ prev ++ (chain F o.prk info n prev c).flatten ++ rest.drop (n * M.digestSize)) (p.length + n * M.digestSize) M.digestSize
        = some (lastBlk F o.prk info n prev c) := by
  induction n generalizing i o p prev rest c with
  | zero =>
    refine ⟨o.hmac, by simp [forM', chain], ho, ?_⟩
    simp only [chain, lastBlk, Nat.zero_mul, Nat.add_zero, List.flatten_nil, List.append_nil, List.drop_zero]
    rw [rdN_some _ _ _ (by simp; omega), List.append_assoc, List.drop_left' rfl, List.take_left' hprev]
  | succ n ih =>
    rw [Nat.succ_mul] at hn
    have hpl : p.length + M.digestSize ≤ (p ++ prev ++ rest).length := by simp; omega
    obtain ⟨s1, e1, w1⟩ := expand_eq L hL m o ((p ++ prev ++ rest).drop (p.length + M.digestSize)) c prev info ho hp hi hil (by omega)
      (by simp; omega)
    have ek : expandKey M m o (p ++ prev ++ rest) (p.length + M.digestSize) c prev
        = some ({ o with hmac := s1 }, p ++ prev ++ (blk F o.prk info prev c ++ rest.drop M.digestSize)) := by
      unfold expandKey
      rw [if_pos hpl, e1]
      simp only [Option.bind_eq_bind, Option.bind_some, Option.pure_def]
      rw [List.take_left' (by simp [hprev]), List.drop_left' (by simp [hprev])]
    have es : step M m i ⟨o, p ++ prev ++ rest, c, p.length + M.digestSize, p.length⟩
        = some ⟨{ o with hmac := s1 }, (p ++ prev) ++ blk F o.prk info prev c ++ rest.drop M.digestSize, c + 1,
            (p ++ prev).length + M.digestSize, (p ++ prev).length⟩ := by
      unfold step
      simp only
      rw [rdN_some _ _ _ (by simp; omega), List.append_assoc, List.drop_left' rfl, List.take_left' hprev]
      simp only [Option.bind_eq_bind, Option.bind_some]
      rw [← List.append_assoc, ek]
      simp only [Option.bind_some, Option.pure_def, List.length_append, hprev]
      simp [List.append_assoc]
    obtain ⟨s2, e2, w2, r2⟩ := ih (i + 1) { o with hmac := s1 } (p ++ prev) (blk F o.prk info prev c) (rest.drop M.digestSize) (c + 1)
      w1 hp hi (blk_length L _ _ _ _) (by simp; omega)
    have ec : c + 1 + BitVec.ofNat 8 n = c + BitVec.ofNat 8 (n + 1) := by
      rw [BitVec.add_assoc, one_add_ofNat]
    have ed : (rest.drop M.digestSize).drop (n * M.digestSize) = rest.drop ((n + 1) * M.digestSize) := by
      rw [List.drop_drop]; congr 1; rw [Nat.succ_mul]; omega
    have ea : ∀ x : List Byte, p ++ prev ++ blk F o.prk info prev c ++ (chain F o.prk info n (blk F o.prk info prev c) (c + 1)).flatten ++ x
        = p ++ prev ++ (chain F o.prk info (n + 1) prev c).flatten ++ x := by intro x; simp [chain]
    have e3 : (p ++ prev).length + M.digestSize + n * M.digestSize = p.length + M.digestSize + (n + 1) * M.digestSize := by
      simp [hprev, Nat.succ_mul]; omega
    have e4 : (p ++ prev).length + n * M.digestSize = p.length + (n + 1) * M.digestSize := by
      simp [hprev, Nat.succ_mul]; omega
    refine ⟨s2, ?_, w2, ?_⟩
    · simp only [forM', Option.bind_eq_bind]
      rw [es, Option.bind_some, e2]
      simp only [ec, ed, ea, e3, e4]
    · simp only [ed, ea, e4] at r2
      exact r2

/-- `generate`: the blocks, the last of them kept in the buffer. -/
theorem generate_eq (hL : M.digestSize < 2 ^ 64) (hpos : 0 < M.digestSize) (m : Mem) (info : List Byte) (hil : info.length < 2 ^ 64) (o : Obj M)
    (p rest : List Byte) (n : Nat) (ho : L.Wf o.hmac) (hp : o.prk.length = M.digestSize) (hb : o.buffer.length = M.digestSize)
    (hi : o.info.bytes m = some info) (hn : n ≤ rest.length) :
    ∃ s, generate h M m o (p ++ rest) p.length n
      = some ({ o with
          hmac := s, bufferSize := M.digestSize - n % M.digestSize, counter := o.counter + BitVec.ofNat 8 (n / M.digestSize + 1)
          buffer := lastBlk F o.prk info (n / M.digestSize + 1) (previous M o) o.counter },
        p ++ ((chain F o.prk info (n / M.digestSize + 1) (previous M o) o.counter).flatten.take n ++ rest.drop n)) ∧ L.Wf s := by
  have hpv : (previous M o).length < 2 ^ 64 := by
    unfold previous; split
    · simp
    · omega
  have hdm := Nat.div_add_mod n M.digestSize
  have hml := Nat.mod_lt n hpos
  generalize hq : n / M.digestSize = full at hdm
  generalize hr : n % M.digestSize = last at hdm hml
  unfold generate
  simp only [hq, hr]
  by_cases hf : full = 0
  · rw [if_pos hf]
    subst hf
    obtain ⟨s, e, w⟩ := expand_eq L hL m o o.buffer o.counter (previous M o) info ho hp hi hil hpv (by omega)
    refine ⟨s, ?_, w⟩
    have hnl : last = n := by simpa using hdm
    subst hnl
    have hbl := blk_length L o.prk info (previous M o) o.counter
    simp only [single, expandBuffer, e, Option.bind_eq_bind, Option.bind_some, Option.pure_def]
    rw [List.drop_of_length_le (by omega), List.append_nil, at_eq _ _ _ (by simp), List.drop_left' rfl, List.take_left' rfl,
      copy_bytes h _ _ _ (by omega) (by omega)]
    simp [chain, lastBlk]
  · rw [if_neg hf]
    obtain ⟨f, rfl⟩ : ∃ f, full = f + 1 := ⟨full - 1, by omega⟩
    rw [Nat.mul_add, Nat.mul_one, Nat.mul_comm M.digestSize f] at hdm
    obtain ⟨s1, e1, w1⟩ := expand_eq L hL m o ((p ++ rest).drop p.length) o.counter (previous M o) info ho hp hi hil hpv (by simp; omega)
    have ek : expandKey M m o (p ++ rest) p.length o.counter (previous M o)
        = some ({ o with hmac := s1 }, p ++ blk F o.prk info (previous M o) o.counter ++ rest.drop M.digestSize) := by
      unfold expandKey
      rw [if_pos (by simp), e1]
      simp only [Option.bind_eq_bind, Option.bind_some, Option.pure_def]
      rw [List.take_left' rfl, List.drop_left' rfl, List.append_assoc]
    have hbl := blk_length L o.prk info (previous M o) o.counter
    obtain ⟨s2, e2, w2, r2⟩ := loop_eq L hL m info hil f 1 { o with hmac := s1 } p (blk F o.prk info (previous M o) o.counter)
      (rest.drop M.digestSize) (o.counter + 1) w1 hp hi hbl (by simp; omega)
    simp only at e2 r2
    have hlb : (lastBlk F o.prk info f (blk F o.prk info (previous M o) o.counter) (o.counter + 1)).length = M.digestSize :=
      lastBlk_length L _ _ _ _ _ (.inr hbl)
    obtain ⟨s3, e3, w3⟩ := expand_eq L hL m { o with hmac := s2 } o.buffer (o.counter + 1 + BitVec.ofNat 8 f)
      (lastBlk F o.prk info f (blk F o.prk info (previous M o) o.counter) (o.counter + 1)) info w2 hp hi hil (by omega) (by simp [hb])
    refine ⟨s3, ?_, w3⟩
    have eb : blocks M m o (p ++ rest) p.length (f + 1) (previous M o)
        = some ({ o with hmac := s3, buffer := lastBlk F o.prk info (f + 1 + 1) (previous M o) o.counter },
            p ++ (chain F o.prk info (f + 1) (previous M o) o.counter).flatten ++ rest.drop (M.digestSize + f * M.digestSize),
            p.length + M.digestSize + f * M.digestSize, o.counter + BitVec.ofNat 8 (f + 1 + 1)) := by
      unfold blocks
      simp only [ek, Option.bind_eq_bind, Option.bind_some, Nat.add_sub_cancel]
      rw [e2]
      simp only [Option.bind_some]
      rw [r2]
      simp only [Option.bind_some, expandBuffer, Option.bind_eq_bind]
      rw [e3]
      simp only [Option.bind_some, Option.pure_def, List.drop_drop]
      have ec : o.counter + 1 + BitVec.ofNat 8 f + 1 = o.counter + BitVec.ofNat 8 (f + 1 + 1) := by
        rw [BitVec.add_assoc, BitVec.add_assoc]; congr 1
        rw [show f + 1 + 1 = 1 + (f + 1) by omega, BitVec.ofNat_add, BitVec.ofNat_add]; rfl
      rw [ec, List.drop_of_length_le (Nat.le_of_eq hb), List.append_nil]
      have el : blk F o.prk info (lastBlk F o.prk info f (blk F o.prk info (previous M o) o.counter) (o.counter + 1)) (o.counter + 1 + BitVec.ofNat 8 f)
          = lastBlk F o.prk info (f + 1 + 1) (previous M o) o.counter := by
        rw [lastBlk, lastBlk_succ]
      rw [el]
      simp [chain]
    rw [eb]
    simp only [Option.bind_eq_bind, Option.bind_some]
    have hcl := chain_flatten_length L o.prk info (f + 1) (previous M o) o.counter
    rw [Nat.succ_mul] at hcl
    have hll := lastBlk_length L o.prk info (f + 1 + 1) (previous M o) o.counter (.inl (by omega))
    rw [at_eq _ _ _ (by simp [hcl]; omega), copy_bytes h _ _ _ (by omega) (by simp [hcl]; omega)]
    simp only [Option.map_some, Option.bind_some, Option.pure_def]
    rw [List.take_left' (by simp [hcl]; omega), List.drop_left' (by simp [hcl]; omega), List.drop_drop]
    congr 2
    have ec : (chain F o.prk info (f + 1 + 1) (previous M o) o.counter).flatten.take n
        = (chain F o.prk info (f + 1) (previous M o) o.counter).flatten ++ (lastBlk F o.prk info (f + 1 + 1) (previous M o) o.counter).take last := by
      rw [chain_snoc, ← lastBlk_succ, List.flatten_append, List.take_append, List.take_of_length_le (by omega), hcl,
        show n - (f * M.digestSize + M.digestSize) = last by omega]
      simp
    rw [ec, show M.digestSize + f * M.digestSize + last = n by omega]
    simp [List.append_assoc]

/-- What `derive` does to any object. -/
def served (o : Obj M) (n : Nat) : Nat := min n o.bufferSize

theorem serve_eq (o : Obj M) (hb : o.buffer.length = M.digestSize) (hs : o.bufferSize ≤ M.digestSize) (key : List Byte) (n : Nat) (hn : n ≤ key.length) :
    serve h M o key n = some ({ o with bufferSize := o.bufferSize - served o n },
      (o.buffer.drop (M.digestSize - o.bufferSize)).take (served o n) ++ key.drop (served o n), n - served o n) := by
  unfold serve served
  by_cases hc : o.bufferSize > 0
  · rw [if_pos hc, advance_eq _ _ (by omega)]
    simp only [Option.bind_eq_bind, Option.bind_some]
    rw [copy_bytes h _ _ _ (by simp; omega) (by omega)]
    simp
  · have : o.bufferSize = 0 := by omega
    rw [if_neg hc]
    simp only [this, Nat.min_zero, Nat.sub_zero, List.take_zero, List.nil_append, List.drop_zero, Option.pure_def]
    rw [← this]

theorem derive_done (o : Obj M) (hb : o.buffer.length = M.digestSize) (hs : o.bufferSize ≤ M.digestSize) (m : Mem) (key : List Byte) (n : Nat)
    (hn : n ≤ key.length) (hr : n ≤ o.bufferSize) :
    derive h M o m key n = some ({ o with bufferSize := o.bufferSize - n },
      (o.buffer.drop (M.digestSize - o.bufferSize)).take n ++ key.drop n, n) := by
  unfold derive
  rw [serve_eq h o hb hs key n hn]
  simp [served, Nat.min_eq_left hr]

theorem derive_more (hL : M.digestSize < 2 ^ 64) (hpos : 0 < M.digestSize) (m : Mem) (info : List Byte) (hil : info.length < 2 ^ 64) (o : Obj M)
    (key : List Byte) (n : Nat) (ho : L.Wf o.hmac) (hp : o.prk.length = M.digestSize) (hb : o.buffer.length = M.digestSize)
    (hs : o.bufferSize ≤ M.digestSize) (hi : o.info.bytes m = some info) (hn : n ≤ key.length) (hr : o.bufferSize < n) :
    ∃ s, derive h M o m key n
      = some ({ o with
          hmac := s, bufferSize := M.digestSize - (n - o.bufferSize) % M.digestSize
          counter := o.counter + BitVec.ofNat 8 ((n - o.bufferSize) / M.digestSize + 1)
          buffer := lastBlk F o.prk info ((n - o.bufferSize) / M.digestSize + 1) (previous M o) o.counter },
        o.buffer.drop (M.digestSize - o.bufferSize) ++
          (chain F o.prk info ((n - o.bufferSize) / M.digestSize + 1) (previous M o) o.counter).flatten.take (n - o.bufferSize) ++ key.drop n, n) ∧
      L.Wf s := by
  have hsv : served o n = o.bufferSize := by unfold served; omega
  have hd : (o.buffer.drop (M.digestSize - o.bufferSize)).length = o.bufferSize := by simp; omega
  obtain ⟨s, e, w⟩ := generate_eq h L hL hpos m info hil { o with bufferSize := o.bufferSize - o.bufferSize }
    (o.buffer.drop (M.digestSize - o.bufferSize)) (key.drop o.bufferSize) (n - o.bufferSize) ho hp hb hi (by simp; omega)
  rw [hd] at e
  refine ⟨s, ?_, w⟩
  unfold derive
  rw [serve_eq h o hb hs key n hn, hsv, List.take_of_length_le (by omega)]
  simp only [Option.bind_eq_bind, Option.bind_some]
  rw [if_neg (by omega), show n - (n - o.bufferSize) = o.bufferSize by omega, e]
  simp only [Option.bind_some, Option.pure_def, List.drop_drop]
  rw [show o.bufferSize + (n - o.bufferSize) = n by omega]
  simp [previous, List.append_assoc]

/-- The bytes a view stands for at `initialize`. -/
def val (m : Mem) (s : Span) : List Byte := (m s.buf).take s.size

/-- The stream of RFC 5869. -/
def stream (F : List Byte → List Byte → List Byte) (m : Mem) (a : Args) : List Byte := Spec.hkdf F (val m a.ikm) (val m a.salt) (val m a.info)

/-- `T(k+1) | … | T(k+n)`. -/
def blocksFrom (F : List Byte → List Byte → List Byte) (prk info : List Byte) (k n : Nat) : List Byte :=
  ((List.range n).map fun i => Spec.hkdfT F prk info (k + i + 1)).flatten

include L in
theorem hkdfT_length (prk info : List Byte) (k : Nat) : (Spec.hkdfT F prk info (k + 1)).length = M.digestSize := L.length _ _

theorem blocksFrom_succ (prk info : List Byte) (k n : Nat) :
    blocksFrom F prk info k (n + 1) = Spec.hkdfT F prk info (k + 1) ++ blocksFrom F prk info (k + 1) n := by
  unfold blocksFrom
  rw [List.range_succ_eq_map]
  simp only [List.map_cons, List.map_map, List.flatten_cons, Nat.add_zero]
  congr 2
  apply List.map_congr_left
  intro i _
  simp only [Function.comp]
  congr 1; omega

include L in
theorem blocksFrom_length (prk info : List Byte) (k n : Nat) : (blocksFrom F prk info k n).length = n * M.digestSize := by
  induction n generalizing k with
  | zero => simp [blocksFrom]
  | succ n ih => rw [blocksFrom_succ, List.length_append, ih, hkdfT_length L, Nat.succ_mul]; omega

theorem blocksFrom_add (prk info : List Byte) (k a b : Nat) :
    blocksFrom F prk info k (a + b) = blocksFrom F prk info k a ++ blocksFrom F prk info (k + a) b := by
  induction a generalizing k with
  | zero => simp [blocksFrom]
  | succ a ih => rw [show a + 1 + b = a + b + 1 by omega, blocksFrom_succ, ih, blocksFrom_succ, List.append_assoc,
      show k + 1 + a = k + (a + 1) by omega]

/-- While the counter byte does not wrap, the code's blocks are those of the RFC. -/
theorem chain_T (prk info : List Byte) (n k : Nat) :
    (chain F prk info n (Spec.hkdfT F prk info k) (BitVec.ofNat 8 (k + 1))).flatten = blocksFrom F prk info k n ∧
    lastBlk F prk info n (Spec.hkdfT F prk info k) (BitVec.ofNat 8 (k + 1)) = Spec.hkdfT F prk info (k + n) := by
  induction n generalizing k with
  | zero => simp [chain, lastBlk, blocksFrom]
  | succ n ih =>
    obtain ⟨h1, h2⟩ := ih (k + 1)
    have eb : blk F prk info (Spec.hkdfT F prk info k) (BitVec.ofNat 8 (k + 1)) = Spec.hkdfT F prk info (k + 1) := rfl
    have ec : BitVec.ofNat 8 (k + 1) + 1 = BitVec.ofNat 8 (k + 1 + 1) := by rw [BitVec.add_comm, one_add_ofNat]
    constructor
    · rw [blocksFrom_succ, chain, eb, ec, List.flatten_cons, h1]
    · rw [lastBlk, eb, ec, h2]; congr 1; omega

/-- An object that has produced blocks `1 … k` of the stream for `prk`, `info`; `s` is what is left of the stream. -/
def At (M : MacImpl) (F : List Byte → List Byte → List Byte) (info : List Byte) (o : Obj M) (k : Nat) (s : List Byte) : Prop :=
  k ≤ 255 ∧ o.counter = BitVec.ofNat 8 (k + 1) ∧ (k = 0 → o.bufferSize = 0) ∧ (0 < k → o.buffer = Spec.hkdfT F o.prk info k) ∧
    s = o.buffer.drop (M.digestSize - o.bufferSize) ++ blocksFrom F o.prk info k (255 - k)

def Rep (h : Host) (L : LawfulMac M F) (sizes : Nat → Nat) (a : Args) (m : Mem) (o : Obj M) (s : List Byte) : Prop :=
  Wf L sizes o ∧ (∃ v, View.bytes m o.info = some v ∧ v.length < 2 ^ 64 ∧ (s = [] ∨ ∃ k, At M F v o k s)) ∧
    ∀ m' : Mem, (h.consteval = true ∨ m' a.info.buf = m a.info.buf) → o.info.bytes m' = o.info.bytes m

theorem init_eq (hL : M.digestSize < 2 ^ 64) (sizes : Nat → Nat) (m : Mem) (o : Obj M) (a : Args) (ho : Wf L sizes o)
    (hm : Kdf.MemOk sizes m) (ha : ∀ s ∈ [a.ikm, a.salt, a.info], s.size ≤ sizes s.buf ∧ s.size < 2 ^ 64) :
    ∃ o', init h M o m a = some o' ∧ Rep h L sizes a m o' (stream F m a) := by
  obtain ⟨w, wi, wp, wb, ws⟩ := ho
  simp only [List.mem_cons, List.not_mem_nil, or_false, forall_eq_or_imp, forall_eq] at ha
  obtain ⟨h1, h2, h3⟩ := ha
  obtain ⟨v, ev, fv, bv, sv⟩ := View.make_some h sizes m a.info hm h3
  obtain ⟨s1, e1, r1⟩ := L.init o.hmac (val m a.salt) w (by simp [val]; omega)
  obtain ⟨s2, e2, r2⟩ := L.update s1 _ _ (val m a.ikm) r1 (by simp [val]; omega)
  obtain ⟨s3, e3, f3⟩ := L.finalize s2 _ _ r2
  have e4 := digest_all L s3 _ _ o.prk f3 (by omega)
  rw [List.drop_of_length_le (by omega), List.append_nil, List.nil_append] at e4
  refine ⟨_, by
    simp only [init, ev, read_some sizes m a.salt hm h2.1, read_some sizes m a.ikm hm h1.1, Option.bind_eq_bind, Option.bind_some,
      show List.take a.salt.size (m a.salt.buf) = val m a.salt from rfl, show List.take a.ikm.size (m a.ikm.buf) = val m a.ikm from rfl,
      e1, e2, e3, e4, Option.pure_def]; rfl, ?_, ⟨val m a.info, bv, ?_, .inr ⟨0, by omega, rfl, fun _ => rfl, fun h => absurd h (by omega), ?_⟩⟩, ?_⟩
  · exact ⟨L.fin_wf _ _ _ f3, fv, L.length _ _, wb, Nat.zero_le _⟩
  · simp [val]; omega
  · simp only [Nat.sub_zero]
    rw [List.drop_of_length_le (by omega), List.nil_append]
    simp only [stream, Spec.hkdf, blocksFrom, Nat.zero_add]
  · exact sv

theorem derive_wf (hL : M.digestSize < 2 ^ 64) (hpos : 0 < M.digestSize) (sizes : Nat → Nat) (m : Mem) (o : Obj M) (dst : List Byte) (n : Nat)
    (ho : Wf L sizes o) (hm : Kdf.MemOk sizes m) (hn : n ≤ dst.length) :
    ∃ o' out, derive h M o m dst n = some (o', out, n) ∧ Wf L sizes o' := by
  obtain ⟨w, wi, wp, wb, ws⟩ := ho
  obtain ⟨info, hi, hil⟩ := View.bytes_some sizes m o.info hm wi
  by_cases hc : n ≤ o.bufferSize
  · exact ⟨_, _, derive_done h o wb ws m dst n hn hc, w, wi, wp, wb, by simp; omega⟩
  · obtain ⟨s, e, w'⟩ := derive_more h L hL hpos m info hil o dst n w wp wb ws hi hn (by omega)
    exact ⟨_, _, e, w', wi, wp, lastBlk_length L _ _ _ _ _ (.inl (Nat.succ_pos _)), Nat.sub_le _ _⟩

theorem derive_rep (hL : M.digestSize < 2 ^ 64) (hpos : 0 < M.digestSize) (sizes : Nat → Nat) (a : Args) (m : Mem) (o : Obj M) (s dst : List Byte)
    (n : Nat) (ho : Rep h L sizes a m o s) (hm : Kdf.MemOk sizes m) (hs : n ≤ s.length) (hn : n ≤ dst.length) :
    ∃ o', derive h M o m dst n = some (o', s.take n ++ dst.drop n, n) ∧ Rep h L sizes a m o' (s.drop n) := by
  obtain ⟨hw, ⟨v, hi, hil, hk⟩, hv⟩ := ho
  obtain ⟨w, wi, wp, wb, ws⟩ := hw
  rcases hk with rfl | ⟨k, hk, hc, hk0, hkb, hS⟩
  · have : n = 0 := by simpa using hs
    subst this
    refine ⟨_, derive_done h o wb ws m dst 0 hn (by omega), ⟨w, wi, wp, wb, ws⟩, ⟨v, hi, hil, .inl (by simp)⟩, hv⟩
  have hbl := blocksFrom_length L o.prk v k (255 - k)
  have hdl : (o.buffer.drop (M.digestSize - o.bufferSize)).length = o.bufferSize := by simp; omega
  by_cases hcs : n ≤ o.bufferSize
  · refine ⟨{ o with bufferSize := o.bufferSize - n }, ?_, ⟨w, wi, wp, wb, by simp; omega⟩, ⟨v, hi, hil, .inr ⟨k, hk, hc, fun h => by simp [hk0 h], hkb, ?_⟩⟩, hv⟩
    · rw [derive_done h o wb ws m dst n hn hcs, hS, List.take_append_of_le_length (by omega)]
    · simp only [hS]
      rw [List.drop_append_of_le_length (by omega), List.drop_drop]
      rw [show M.digestSize - o.bufferSize + n = M.digestSize - (o.bufferSize - n) by omega]
  · obtain ⟨s', e, w'⟩ := derive_more h L hL hpos m v hil o dst n w wp wb ws hi hn (by omega)
    have hrem : n - o.bufferSize ≤ (255 - k) * M.digestSize := by rw [hS] at hs; simp [hbl] at hs; omega
    have hk255 : k < 255 := by
      refine Nat.lt_of_not_le fun hx => ?_
      have : 255 - k = 0 := by omega
      rw [this] at hrem; omega
    have hprev : previous M o = Spec.hkdfT F o.prk v k := by
      unfold previous
      by_cases hz : k = 0
      · subst hz; rw [if_pos (by rw [hc]; rfl)]; rfl
      · rw [if_neg, hkb (by omega)]
        rw [hc]
        intro hx
        have := congrArg BitVec.toNat hx
        simp at this; omega
    have hdm := Nat.div_add_mod (n - o.bufferSize) M.digestSize
    have hml := Nat.mod_lt (n - o.bufferSize) hpos
    rw [hprev, hc] at e
    have hq : (n - o.bufferSize) / M.digestSize ≤ 255 - k := Nat.div_le_of_le_mul (by rw [Nat.mul_comm]; exact hrem)
    generalize (n - o.bufferSize) / M.digestSize = q at *
    generalize (n - o.bufferSize) % M.digestSize = r at *
    obtain ⟨c1, c2⟩ := chain_T (F := F) o.prk v (q + 1) k
    rw [c1, c2] at e
    have hll : (Spec.hkdfT F o.prk v (k + (q + 1))).length = M.digestSize := hkdfT_length L o.prk v (k + q)
    have hout : o.buffer.drop (M.digestSize - o.bufferSize) ++ (blocksFrom F o.prk v k (q + 1)).take (n - o.bufferSize) = s.take n := by
      rw [hS, List.take_append, hdl, List.take_of_length_le (l := o.buffer.drop (M.digestSize - o.bufferSize)) (by omega)]
      congr 1
      by_cases hqe : q + 1 ≤ 255 - k
      · rw [show 255 - k = (q + 1) + (255 - k - (q + 1)) by omega, blocksFrom_add o.prk v k (q + 1), List.take_append_of_le_length]
        rw [blocksFrom_length L, Nat.succ_mul, Nat.mul_comm q]; omega
      · have hqe' : 255 - k = q := by omega
        rw [hqe'] at hrem ⊢
        rw [blocksFrom_add _ _ k q 1, List.take_append_of_le_length]
        rw [blocksFrom_length L]; omega
    rw [hout] at e
    refine ⟨_, e, ⟨w', wi, wp, hll, by simp⟩, ⟨v, hi, hil, ?_⟩, hv⟩
    by_cases hqe : k + q + 1 ≤ 255
    · right
      refine ⟨k + q + 1, hqe, ?_, fun hx => absurd hx (by omega), fun _ => rfl, ?_⟩
      · simp only
        rw [← BitVec.ofNat_add]; congr 1; omega
      · simp only
        rw [hS, show 255 - k = q + 1 + (255 - (k + q + 1)) by omega, blocksFrom_add o.prk v k (q + 1), ← List.append_assoc, List.drop_append_of_le_length]
        · rw [show k + (q + 1) = k + q + 1 by omega]
          congr 1
          rw [show n = o.bufferSize + (n - o.bufferSize) by omega, drop_left_add _ _ _ _ hdl, blocksFrom_add _ _ k q 1, ← hdm,
            drop_left_add _ _ _ _ (by rw [blocksFrom_length L, Nat.mul_comm])]
          simp [blocksFrom]
          congr 1; omega
        · simp only [List.length_append, hdl, blocksFrom_length L]
          rw [Nat.succ_mul, Nat.mul_comm q]; omega
    · left
      have : 255 - k = q := by omega
      rw [this] at hrem
      apply List.drop_of_length_le
      rw [hS, List.length_append, hdl, hbl, this]
      rw [Nat.mul_comm] at hrem ⊢
      omega

/-- HKDF over a lawful mac is RFC 5869. -/
def lawful (hL : M.digestSize < 2 ^ 64) (hpos : 0 < M.digestSize) :
    LawfulKdf h (impl h M) (stream F) fun a : Args => [a.info.buf] where
  Wf := Wf L
  Rep := Rep h L
  fresh := fun _ => ⟨L.fresh, by simp [impl, View.Fits], by simp [impl], by simp [impl], Nat.zero_le _⟩
  rep_wf := fun _ _ _ _ _ r => r.1
  init := fun sizes m o a w hm ha => init_eq h L hL sizes m o a w hm ha
  rep_mem := fun sizes a m m' o s r _ hx => by
    obtain ⟨w, ⟨v, hi, hil, hk⟩, hv⟩ := r
    have hx' : h.consteval = true ∨ m' a.info.buf = m a.info.buf := by simpa using hx
    have e := hv m' hx'
    refine ⟨w, ⟨v, by rw [e, hi], hil, hk⟩, fun m'' hm'' => ?_⟩
    rw [e]
    apply hv
    rcases hx' with h1 | h1
    · exact .inl h1
    · rcases hm'' with h2 | h2
      · exact .inl h2
      · exact .inr (h2.trans h1)
  derive_wf := fun sizes m o dst n w hm hn => derive_wf h L hL hpos sizes m o dst n w hm hn
  derive := fun sizes a m o s dst n r hm hs hn => derive_rep h L hL hpos sizes a m o s dst n r hm hs hn

include L in
/-- After 255 blocks the counter byte has wrapped to its initial value: the next full block is `T(1)` again. -/
theorem repeats (hL : M.digestSize < 2 ^ 64) (hpos : 0 < M.digestSize) (sizes : Nat → Nat) (m : Mem) (hm : Kdf.MemOk sizes m) (a : Args)
    (ha : ∀ s ∈ [a.ikm, a.salt, a.info], s.size ≤ sizes s.buf ∧ s.size < 2 ^ 64) (dst1 dst2 : List Byte)
    (h1 : 255 * M.digestSize ≤ dst1.length) (h2 : 2 * M.digestSize ≤ dst2.length) :
    ∃ st out1 out2, Kdf.run (impl h M) m [.init a, .derive (.ptr dst1 (255 * M.digestSize)), .derive (.ptr dst2 (2 * M.digestSize))]
        = some (st, [(out1, 255 * M.digestSize), (out2, 2 * M.digestSize)]) ∧
      (out2.drop M.digestSize).take M.digestSize = out1.take M.digestSize := by
  obtain ⟨o, e, hw, ⟨v, hi, hil, hk⟩, hv⟩ := init_eq h L hL sizes m _ a ((lawful h L hL hpos).fresh sizes) hm ha
  have hst : (stream F m a).length = 255 * M.digestSize := by
    have := blocksFrom_length L (F (val m a.salt) (val m a.ikm)) (val m a.info) 0 255
    simpa [blocksFrom, stream, Spec.hkdf] using this
  rcases hk with hk | ⟨k, hk, hc, hk0, hkb, hS⟩
  · rw [hk] at hst; simp at hst; omega
  have hz : o.bufferSize = 0 ∧ o.counter = 1 := by
    simp only [init, Option.bind_eq_bind, Option.bind_eq_some_iff, Option.pure_def, Option.some.injEq] at e
    obtain ⟨_, _, _, _, _, _, _, _, _, _, _, _, _, _, rfl⟩ := e
    exact ⟨rfl, rfl⟩
  obtain ⟨w, wi, wp, wb, ws⟩ := hw
  obtain ⟨s1, e1, w1⟩ := derive_more h L hL hpos m v hil o dst1 (255 * M.digestSize) w wp wb ws hi h1 (by omega)
  rw [hz.1, hz.2] at e1
  simp only [Nat.sub_zero, Nat.mul_div_cancel _ hpos, Nat.mul_mod_left] at e1
  rw [show (1 : BitVec 8) + BitVec.ofNat 8 (255 + 1) = 1 from by decide] at e1
  have hpr : previous M o = [] := by unfold previous; rw [if_pos hz.2]
  rw [hpr, List.drop_of_length_le (Nat.le_of_eq wb), List.nil_append] at e1
  have hll := lastBlk_length L o.prk v (255 + 1) [] 1 (.inl (by omega))
  generalize lastBlk F o.prk v (255 + 1) [] 1 = lb at e1 hll
  obtain ⟨s2, e2, w2⟩ := derive_more h L hL hpos m v hil
    { o with hmac := s1, bufferSize := M.digestSize, counter := 1, buffer := lb } dst2 (2 * M.digestSize)
    w1 wp hll (Nat.le_refl _) hi h2 (by simp; omega)
  simp only [show 2 * M.digestSize - M.digestSize = M.digestSize by omega, Nat.div_self hpos, Nat.mod_self, Nat.sub_self, List.drop_zero,
    previous, if_true] at e2
  have key : ∀ o1 out1 o2 out2, derive h M o m dst1 (255 * M.digestSize) = some (o1, out1, 255 * M.digestSize) →
      derive h M o1 m dst2 (2 * M.digestSize) = some (o2, out2, 2 * M.digestSize) →
      Kdf.run (impl h M) m [.init a, .derive (.ptr dst1 (255 * M.digestSize)), .derive (.ptr dst2 (2 * M.digestSize))]
        = some ((o2, m), [(out1, 255 * M.digestSize), (out2, 2 * M.digestSize)]) := by
    intro o1 out1 o2 out2 e1 e2
    exact Kdf.run_two (impl h M) m a o dst1 dst2 _ _ _ _ _ _ e e1 e2
  refine ⟨_, _, _, key _ _ _ _ e1 e2, ?_⟩
  · have hb := blk_length L o.prk v [] 1
    have c1 : ∀ n, ((chain F o.prk v (n + 1) [] 1).flatten).take M.digestSize = blk F o.prk v [] 1 := by
      intro n; rw [chain, List.flatten_cons, List.take_left' hb]
    rw [List.append_assoc, List.drop_left' hll, List.take_left' (by rw [c1, hb]), c1, List.take_append_of_le_length, List.take_take,
      Nat.min_eq_left (by omega), c1]
    rw [List.length_take, chain_flatten_length L]
    have := hpos
    omega

end Milo.Hkdf
