import Verif.Proof.KdfLawful
import Verif.Proof.MacLawful
import Verif.Proof.Soak
import Verif.Proof.Hkdf
import Verif.Model.Pbkdf2
/- PBKDF2 over a lawful mac is lawful. -/
namespace Milo.Pbkdf2
open Memory

variable (h : Host) (junk : Nat → Byte) {M : MacImpl} {F : List Byte → List Byte → List Byte} (L : LawfulMac M F)

/-- Every object. -/
def Wf (L : LawfulMac M F) (sizes : Nat → Nat) (o : Obj M) : Prop :=
  L.Wf o.prf ∧ o.ikm.Fits sizes ∧ o.salt.Fits sizes ∧ o.buffer.length = M.digestSize ∧ o.bufferSize ≤ M.digestSize

theorem stor_ctr (c : W32) : storBe h (v := 4) (p := 1) (uninit junk 4) 0 c = some (Spec.beBytes 4 c.toNat) := by
  have hl : (uninit junk 4).length = 4 := by simp [uninit]
  have hb : (Spec.beBytes 4 c.toNat).length = 4 := by rw [spec_beBytes]; simp
  rw [storBe_eq h ⟨by omega, by omega, .inl ⟨4, by omega⟩⟩ (by simp [Swappable]), image_bytes', toBytes_big,
    wrN_some _ _ _ (by simp [hl, hb]), Option.map_some, ofImage_bytes' _ _ _ (by simp [hl, hb])]
  rw [Nat.zero_mul, List.take_zero, List.nil_append, hb, Nat.zero_add, List.drop_of_length_le (by omega), List.append_nil]

/-- The blocks of the code, with the counter as the code has it: at least one iteration. -/
def T (F : List Byte → List Byte → List Byte) (p s : List Byte) (it c : W32) : List Byte := Spec.pbkdf2T F p s c.toNat (it.toNat - 1 + 1)

include L in
theorem U_length (p s : List Byte) (i j : Nat) : (Spec.pbkdf2U F p s i j).length = M.digestSize := by
  cases j <;> exact L.length _ _

include L in
theorem T_length' (p s : List Byte) (i c : Nat) : (Spec.pbkdf2T F p s i (c + 1)).length = M.digestSize := by
  induction c with
  | zero => exact U_length L _ _ _ _
  | succ c ih => simp [Spec.pbkdf2T, ih, U_length L]

theorem iterate_eq (hL : M.digestSize < 2 ^ 64) (m : Mem) (ikm : View) (p : List Byte) (hp : ikm.bytes m = some p) (hpl : p.length < 2 ^ 64)
    (s : List Byte) (blk : Nat) (n i j : Nat) (st : M.σ) (w : L.Wf st) :
    ∃ st', forM' (iterate h M m ikm) n i (st, Spec.pbkdf2U F p s blk j, Spec.pbkdf2T F p s blk (j + 1))
      = some (st', Spec.pbkdf2U F p s blk (j + n), Spec.pbkdf2T F p s blk (j + n + 1)) ∧ L.Wf st' := by
  induction n generalizing i j st with
  | zero => exact ⟨st, rfl, w⟩
  | succ n ih =>
    have hu := U_length L p s blk j
    have ht := T_length' L p s blk j
    obtain ⟨s1, e1, r1⟩ := L.init st p w hpl
    obtain ⟨s2, e2, r2⟩ := L.update s1 _ _ (Spec.pbkdf2U F p s blk j) r1 (by omega)
    obtain ⟨s3, e3, f3⟩ := L.finalize s2 _ _ r2
    have e4 := Hkdf.digest_all L s3 _ _ (Spec.pbkdf2U F p s blk j) f3 (by omega)
    rw [List.drop_of_length_le (by omega), List.append_nil, List.nil_append] at e4
    have hu' := U_length L p s blk (j + 1)
    have es : iterate h M m ikm i (st, Spec.pbkdf2U F p s blk j, Spec.pbkdf2T F p s blk (j + 1))
        = some (s3, Spec.pbkdf2U F p s blk (j + 1), Spec.pbkdf2T F p s blk (j + 1 + 1)) := by
      simp only [iterate, hp, e1, e2, e3, e4, Option.bind_eq_bind, Option.bind_some]
      rw [show F p (Spec.pbkdf2U F p s blk j) = Spec.pbkdf2U F p s blk (j + 1) from rfl,
        xor_eq h _ _ _ _ (by omega) (by omega) (by omega)]
      simp only [Option.bind_some, Option.pure_def]
      rw [List.drop_of_length_le (by omega), List.append_nil, List.take_of_length_le (by simp; omega)]
      rfl
    obtain ⟨st', e', w'⟩ := ih (i + 1) (j + 1) s3 (L.fin_wf _ _ _ f3)
    refine ⟨st', ?_, w'⟩
    simp only [forM', Option.bind_eq_bind]
    rw [es, Option.bind_some, e', show j + 1 + n = j + (n + 1) by omega]

theorem expand_eq (hL : M.digestSize < 2 ^ 64) (m : Mem) (o : Obj M) (dst : List Byte) (c : W32) (p s : List Byte) (w : L.Wf o.prf)
    (hp : o.ikm.bytes m = some p) (hpl : p.length < 2 ^ 64) (hs : o.salt.bytes m = some s) (hsl : s.length < 2 ^ 64) (hd : M.digestSize ≤ dst.length) :
    ∃ st, expand h M junk m o dst c = some ({ o with prf := st }, T F p s o.iterations c ++ dst.drop M.digestSize) ∧ L.Wf st := by
  have hb : (Spec.beBytes 4 c.toNat).length = 4 := by rw [spec_beBytes]; simp
  have hj : (uninit junk M.digestSize).length = M.digestSize := by simp [uninit]
  obtain ⟨s1, e1, r1⟩ := L.init o.prf p w hpl
  obtain ⟨s2, e2, r2⟩ := L.update s1 _ _ s r1 hsl
  obtain ⟨s3, e3, r3⟩ := L.update s2 _ _ (Spec.beBytes 4 c.toNat) r2 (by omega)
  obtain ⟨s4, e4, f4⟩ := L.finalize s3 _ _ r3
  have e5 := Hkdf.digest_all L s4 _ _ (uninit junk M.digestSize) f4 (by omega)
  rw [List.drop_of_length_le (by omega), List.append_nil, List.nil_append] at e5
  have hu := U_length L p s c.toNat 0
  obtain ⟨s5, e6, w5⟩ := iterate_eq h L hL m o.ikm p hp hpl s c.toNat (o.iterations.toNat - 1) 0 0 s4 (L.fin_wf _ _ _ f4)
  refine ⟨s5, ?_, w5⟩
  unfold expand
  rw [stor_ctr]
  simp only [hp, hs, e1, e2, e3, e4, e5, Option.bind_eq_bind, Option.bind_some]
  rw [show F p (s ++ Spec.beBytes 4 c.toNat) = Spec.pbkdf2U F p s c.toNat 0 from rfl, copy_bytes h _ _ _ (by omega) (by omega)]
  simp only [Option.bind_some]
  rw [List.take_of_length_le (by omega), List.drop_of_length_le (by omega), List.append_nil]
  rw [show forM' (iterate h M m o.ikm) (o.iterations.toNat - 1) 0 (s4, Spec.pbkdf2U F p s c.toNat 0, Spec.pbkdf2U F p s c.toNat 0) = _ from e6]
  have ht := T_length' L p s c.toNat (o.iterations.toNat - 1)
  simp only [Option.bind_some, Nat.zero_add]
  rw [copy_bytes h _ _ _ (by omega) hd, List.take_of_length_le (by omega)]
  rfl

/-- The blocks for counters `c`, `c+1`, … -/
def chain (F : List Byte → List Byte → List Byte) (p s : List Byte) (it : W32) : Nat → W32 → List Byte
  | 0, _ => []
  | n + 1, c => T F p s it c ++ chain F p s it n (c + 1)

include L in
theorem chain_length (p s : List Byte) (it : W32) (n : Nat) (c : W32) : (chain F p s it n c).length = n * M.digestSize := by
  induction n generalizing c with
  | zero => simp [chain]
  | succ n ih => rw [chain, List.length_append, ih, T, T_length' L, Nat.succ_mul, Nat.add_comm]

theorem chain_succ (p s : List Byte) (it : W32) (n : Nat) (c : W32) :
    chain F p s it (n + 1) c = chain F p s it n c ++ T F p s it (c + BitVec.ofNat 32 n) := by
  induction n generalizing c with
  | zero => simp [chain]
  | succ n ih =>
    rw [chain, ih, chain, List.append_assoc, BitVec.add_assoc, Hkdf.one_add_ofNat]

theorem loop_eq (hL : M.digestSize < 2 ^ 64) (m : Mem) (p s : List Byte) (hpl : p.length < 2 ^ 64) (hsl : s.length < 2 ^ 64) (n i : Nat) (o : Obj M)
    (done rest : List Byte) (c : W32) (w : L.Wf o.prf) (hp : o.ikm.bytes m = some p) (hs : o.salt.bytes m = some s)
    (hn : n * M.digestSize ≤ rest.length) :
    ∃ st, forM' (step h M junk m) n i ⟨o, done ++ rest, c, done.length⟩
      = some ⟨{ o with prf := st }, done ++ chain F p s o.iterations n c ++ rest.drop (n * M.digestSize), c + BitVec.ofNat 32 n,
          done.length + n * M.digestSize⟩ ∧ L.Wf st := by
  induction n generalizing i o done rest c with
  | zero => exact ⟨o.prf, by simp [forM', chain], w⟩
  | succ n ih =>
    rw [Nat.succ_mul] at hn
    obtain ⟨s1, e1, w1⟩ := expand_eq h junk L hL m o rest c p s w hp hpl hs hsl (by omega)
    have ht : (T F p s o.iterations c).length = M.digestSize := T_length' L _ _ _ _
    have es : step h M junk m i ⟨o, done ++ rest, c, done.length⟩
        = some ⟨{ o with prf := s1 }, done ++ T F p s o.iterations c ++ rest.drop M.digestSize, c + 1,
            (done ++ T F p s o.iterations c).length⟩ := by
      unfold step
      rw [if_pos (by simp), List.drop_left' rfl, List.take_left' rfl, e1]
      simp [List.append_assoc, ht]
    obtain ⟨s2, e2, w2⟩ := ih (i + 1) { o with prf := s1 } (done ++ T F p s o.iterations c) (rest.drop M.digestSize) (c + 1) w1 hp hs
      (by simp; omega)
    refine ⟨s2, ?_, w2⟩
    simp only [forM', Option.bind_eq_bind]
    rw [es, Option.bind_some, e2]
    simp only [BitVec.add_assoc, Hkdf.one_add_ofNat, List.drop_drop, chain, List.append_assoc, List.length_append, ht, Nat.succ_mul]
    rw [Nat.add_comm M.digestSize (n * M.digestSize), Nat.add_assoc, Nat.add_comm M.digestSize (n * M.digestSize)]

/-- `generate`: the blocks; the last one, if incomplete, is kept in the buffer. -/
theorem generate_eq (hL : M.digestSize < 2 ^ 64) (hpos : 0 < M.digestSize) (m : Mem) (p s : List Byte) (hpl : p.length < 2 ^ 64) (hsl : s.length < 2 ^ 64)
    (o : Obj M) (done rest : List Byte) (n : Nat) (w : L.Wf o.prf) (hp : o.ikm.bytes m = some p) (hs : o.salt.bytes m = some s)
    (hb : o.buffer.length = M.digestSize) (hn : n ≤ rest.length) :
    ∃ st buf, generate h M junk m o (done ++ rest) done.length n
      = some ({ o with
          prf := st, buffer := buf
          bufferSize := if n % M.digestSize = 0 then 0 else M.digestSize - n % M.digestSize
          counter := o.counter + BitVec.ofNat 32 (n / M.digestSize + if n % M.digestSize = 0 then 0 else 1) },
        done ++ ((chain F p s o.iterations (n / M.digestSize + 1) o.counter).take n ++ rest.drop n)) ∧ L.Wf st ∧
      buf.length = M.digestSize ∧
      (n % M.digestSize ≠ 0 → buf = T F p s o.iterations (o.counter + BitVec.ofNat 32 (n / M.digestSize))) := by
  have hdm := Nat.div_add_mod n M.digestSize
  have hml := Nat.mod_lt n hpos
  rw [Nat.mul_comm] at hdm
  generalize hq : n / M.digestSize = full at hdm
  generalize hr : n % M.digestSize = last at hdm hml
  obtain ⟨s1, e1, w1⟩ := loop_eq h junk L hL m p s hpl hsl full 0 o done rest o.counter w hp hs (by omega)
  have hcl := chain_length L p s o.iterations full o.counter
  have htl : (T F p s o.iterations (o.counter + BitVec.ofNat 32 full)).length = M.digestSize := T_length' L _ _ _ _
  unfold generate
  simp only [hq, hr, Option.bind_eq_bind]
  rw [e1, Option.bind_some]
  unfold final
  have hout : (chain F p s o.iterations (full + 1) o.counter).take n
      = chain F p s o.iterations full o.counter ++ (T F p s o.iterations (o.counter + BitVec.ofNat 32 full)).take last := by
    rw [chain_succ, List.take_append, List.take_of_length_le (by omega), hcl, show n - full * M.digestSize = last by omega]
  by_cases hz : last = 0
  · subst hz
    refine ⟨s1, o.buffer, ?_, w1, hb, fun hx => absurd rfl hx⟩
    rw [if_neg (by omega), hout, show full * M.digestSize = n by omega]
    simp [List.append_assoc]
  · obtain ⟨s2, e2, w2⟩ := expand_eq h junk L hL m { o with prf := s1 } o.buffer (o.counter + BitVec.ofNat 32 full) p s w1 hp hpl hs hsl (by simp [hb])
    rw [List.drop_of_length_le (by omega), List.append_nil] at e2
    refine ⟨s2, T F p s o.iterations (o.counter + BitVec.ofNat 32 full), ?_, w2, htl, fun _ => rfl⟩
    rw [if_pos (by omega)]
    simp only [e2, Option.bind_eq_bind, Option.bind_some]
    rw [at_eq _ _ _ (by simp [hcl]), copy_bytes h _ _ _ (by omega) (by simp [hcl]; omega)]
    simp only [Option.map_some, Option.bind_some, Option.pure_def, if_neg hz]
    rw [List.take_left' (by simp [hcl]), List.drop_left' (by simp [hcl]), List.drop_drop, hdm, hout]
    have ec : o.counter + BitVec.ofNat 32 full + 1 = o.counter + BitVec.ofNat 32 (full + 1) := by
      rw [BitVec.add_assoc, BitVec.add_comm _ (1 : BitVec 32), Hkdf.one_add_ofNat]
    rw [ec]
    simp [List.append_assoc]

/-- What leftovers `derive` takes. -/
theorem serve_eq (o : Obj M) (hb : o.buffer.length = M.digestSize) (hs : o.bufferSize ≤ M.digestSize) (key : List Byte) (n : Nat) (hn : n ≤ key.length) :
    serve h M o key n = some ({ o with bufferSize := o.bufferSize - min n o.bufferSize },
      (o.buffer.drop (M.digestSize - o.bufferSize)).take (min n o.bufferSize) ++ key.drop (min n o.bufferSize), n - min n o.bufferSize) := by
  unfold serve
  by_cases hc : o.bufferSize > 0
  · rw [if_pos hc, advance_eq _ _ (by omega)]
    simp only [Option.bind_eq_bind, Option.bind_some]
    rw [copy_bytes h _ _ _ (by simp; omega) (by omega)]
    simp
  · have : o.bufferSize = 0 := by omega
    rw [if_neg hc]
    simp only [this, Nat.min_zero, Nat.sub_zero, List.take_zero, List.nil_append, List.drop_zero, Option.pure_def]
    rw [← this]

theorem derive_done (o : Obj M) (hb : o.buffer.length = M.digestSize) (hs : o.bufferSize ≤ M.digestSize) (m : Mem) (key : List Byte) (n : Nat)
    (hn : n ≤ key.length) (hr : n ≤ o.bufferSize) :
    derive h M junk o m key n = some ({ o with bufferSize := o.bufferSize - n },
      (o.buffer.drop (M.digestSize - o.bufferSize)).take n ++ key.drop n, n) := by
  unfold derive
  rw [serve_eq h o hb hs key n hn]
  simp [Nat.min_eq_left hr]

theorem derive_more (hL : M.digestSize < 2 ^ 64) (hpos : 0 < M.digestSize) (m : Mem) (p s : List Byte) (hpl : p.length < 2 ^ 64) (hsl : s.length < 2 ^ 64)
    (o : Obj M) (key : List Byte) (n : Nat) (w : L.Wf o.prf) (hp : o.ikm.bytes m = some p) (hsa : o.salt.bytes m = some s)
    (hb : o.buffer.length = M.digestSize) (hs : o.bufferSize ≤ M.digestSize) (hn : n ≤ key.length) (hr : o.bufferSize < n) :
    ∃ st buf, derive h M junk o m key n
      = some ({ o with
          prf := st, buffer := buf
          bufferSize := if (n - o.bufferSize) % M.digestSize = 0 then 0 else M.digestSize - (n - o.bufferSize) % M.digestSize
          counter := o.counter + BitVec.ofNat 32 ((n - o.bufferSize) / M.digestSize + if (n - o.bufferSize) % M.digestSize = 0 then 0 else 1) },
        o.buffer.drop (M.digestSize - o.bufferSize) ++
          (chain F p s o.iterations ((n - o.bufferSize) / M.digestSize + 1) o.counter).take (n - o.bufferSize) ++ key.drop n, n) ∧ L.Wf st ∧
      buf.length = M.digestSize ∧
      ((n - o.bufferSize) % M.digestSize ≠ 0 → buf = T F p s o.iterations (o.counter + BitVec.ofNat 32 ((n - o.bufferSize) / M.digestSize))) := by
  have hsv : min n o.bufferSize = o.bufferSize := by omega
  have hd : (o.buffer.drop (M.digestSize - o.bufferSize)).length = o.bufferSize := by simp; omega
  obtain ⟨st, buf, e, w', hb', hbuf⟩ := generate_eq h junk L hL hpos m p s hpl hsl { o with bufferSize := o.bufferSize - o.bufferSize }
    (o.buffer.drop (M.digestSize - o.bufferSize)) (key.drop o.bufferSize) (n - o.bufferSize) w hp hsa hb (by simp; omega)
  rw [hd] at e
  refine ⟨st, buf, ?_, w', hb', hbuf⟩
  unfold derive
  rw [serve_eq h o hb hs key n hn, hsv, List.take_of_length_le (by omega)]
  simp only [Option.bind_eq_bind, Option.bind_some]
  rw [if_neg (by omega), show n - (n - o.bufferSize) = o.bufferSize by omega, e]
  simp only [Option.bind_some, Option.pure_def, List.drop_drop]
  rw [show o.bufferSize + (n - o.bufferSize) = n by omega]
  simp [List.append_assoc]

/-- The stream of RFC 8018; an iteration count of zero is one. -/
def stream (F : List Byte → List Byte → List Byte) (m : Mem) (a : Args) : List Byte :=
  Spec.pbkdf2 F (Hkdf.val m a.ikm) (Hkdf.val m a.salt) (max a.iterations.toNat 1)

/-- `T_(k+1) | … | T_(k+n)`. -/
def blocksFrom (F : List Byte → List Byte → List Byte) (p s : List Byte) (c k n : Nat) : List Byte :=
  ((List.range n).map fun i => Spec.pbkdf2T F p s (k + i + 1) c).flatten

theorem blocksFrom_succ (p s : List Byte) (c k n : Nat) :
    blocksFrom F p s c k (n + 1) = Spec.pbkdf2T F p s (k + 1) c ++ blocksFrom F p s c (k + 1) n := by
  unfold blocksFrom
  rw [List.range_succ_eq_map]
  simp only [List.map_cons, List.map_map, List.flatten_cons, Nat.add_zero]
  congr 2
  apply List.map_congr_left
  intro i _
  simp only [Function.comp]
  congr 1; omega

theorem blocksFrom_add (p s : List Byte) (c k a b : Nat) :
    blocksFrom F p s c k (a + b) = blocksFrom F p s c k a ++ blocksFrom F p s c (k + a) b := by
  induction a generalizing k with
  | zero => simp [blocksFrom]
  | succ a ih => rw [show a + 1 + b = a + b + 1 by omega, blocksFrom_succ, ih, blocksFrom_succ, List.append_assoc,
      show k + 1 + a = k + (a + 1) by omega]

include L in
theorem blocksFrom_length (p s : List Byte) (c k n : Nat) : (blocksFrom F p s (c + 1) k n).length = n * M.digestSize := by
  induction n generalizing k with
  | zero => simp [blocksFrom]
  | succ n ih => rw [blocksFrom_succ, List.length_append, ih, T_length' L, Nat.succ_mul]; omega

/-- While the counter does not wrap. -/
theorem chain_T (p s : List Byte) (it : W32) (n k : Nat) (hk : k + n < 2 ^ 32) :
    chain F p s it n (BitVec.ofNat 32 (k + 1)) = blocksFrom F p s (it.toNat - 1 + 1) k n := by
  induction n generalizing k with
  | zero => simp [chain, blocksFrom]
  | succ n ih =>
    rw [chain, BitVec.add_comm, Hkdf.one_add_ofNat, ih (k + 1) (by omega), blocksFrom_succ, T, BitVec.toNat_ofNat, Nat.mod_eq_of_lt (by omega)]

/-- An object that has produced blocks `1 … k`; `st` is what is left of the stream. -/
def At (M : MacImpl) (F : List Byte → List Byte → List Byte) (p s : List Byte) (o : Obj M) (k : Nat) (st : List Byte) : Prop :=
  k ≤ 2 ^ 32 - 1 ∧ o.counter = BitVec.ofNat 32 (k + 1) ∧
    st = o.buffer.drop (M.digestSize - o.bufferSize) ++ blocksFrom F p s (o.iterations.toNat - 1 + 1) k (2 ^ 32 - 1 - k)

def Rep (h : Host) (L : LawfulMac M F) (sizes : Nat → Nat) (a : Args) (m : Mem) (o : Obj M) (st : List Byte) : Prop :=
  Wf L sizes o ∧ (∃ p s, View.bytes m o.ikm = some p ∧ p.length < 2 ^ 64 ∧ View.bytes m o.salt = some s ∧ s.length < 2 ^ 64 ∧ ∃ k, At M F p s o k st) ∧
    ∀ m' : Mem, (h.consteval = true ∨ m' a.ikm.buf = m a.ikm.buf ∧ m' a.salt.buf = m a.salt.buf) →
      o.ikm.bytes m' = o.ikm.bytes m ∧ o.salt.bytes m' = o.salt.bytes m

theorem init_eq (sizes : Nat → Nat) (m : Mem) (o : Obj M) (a : Args) (ho : Wf L sizes o)
    (hm : Kdf.MemOk sizes m) (ha : ∀ s ∈ [a.ikm, a.salt], s.size ≤ sizes s.buf ∧ s.size < 2 ^ 64) :
    ∃ o', init h M o m a = some o' ∧ Rep h L sizes a m o' (stream F m a) := by
  obtain ⟨w, wi, wp, wb, ws⟩ := ho
  simp only [List.mem_cons, List.not_mem_nil, or_false, forall_eq_or_imp, forall_eq] at ha
  obtain ⟨h1, h2⟩ := ha
  obtain ⟨v, ev, fv, bv, sv⟩ := View.make_some h sizes m a.ikm hm h1
  obtain ⟨u, eu, fu, bu, su⟩ := View.make_some h sizes m a.salt hm h2
  refine ⟨_, by simp only [init, ev, eu, Option.bind_eq_bind, Option.bind_some, Option.pure_def]; rfl, ?_,
    ⟨Hkdf.val m a.ikm, Hkdf.val m a.salt, bv, by simp [Hkdf.val]; omega, bu, by simp [Hkdf.val]; omega, 0, by omega, rfl, ?_⟩, ?_⟩
  · exact ⟨w, fv, fu, wb, Nat.zero_le _⟩
  · simp only [Nat.sub_zero]
    rw [List.drop_of_length_le (by omega), List.nil_append]
    simp only [stream, Spec.pbkdf2, blocksFrom, Nat.zero_add]
    rw [show max a.iterations.toNat 1 = a.iterations.toNat - 1 + 1 by omega]
  · intro m' hx
    rcases hx with hx | hx
    · exact ⟨sv m' (.inl hx), su m' (.inl hx)⟩
    · exact ⟨sv m' (.inr hx.1), su m' (.inr hx.2)⟩

theorem derive_wf (hL : M.digestSize < 2 ^ 64) (hpos : 0 < M.digestSize) (sizes : Nat → Nat) (m : Mem) (o : Obj M) (dst : List Byte) (n : Nat)
    (ho : Wf L sizes o) (hm : Kdf.MemOk sizes m) (hn : n ≤ dst.length) :
    ∃ o' out, derive h M junk o m dst n = some (o', out, n) ∧ Wf L sizes o' := by
  obtain ⟨w, wi, wp, wb, ws⟩ := ho
  obtain ⟨p, hp, hpl⟩ := View.bytes_some sizes m o.ikm hm wi
  obtain ⟨s, hs, hsl⟩ := View.bytes_some sizes m o.salt hm wp
  by_cases hc : n ≤ o.bufferSize
  · exact ⟨_, _, derive_done h junk o wb ws m dst n hn hc, w, wi, wp, wb, by simp; omega⟩
  · obtain ⟨st, buf, e, w', hb, -⟩ := derive_more h junk L hL hpos m p s hpl hsl o dst n w hp hs wb ws hn (by omega)
    refine ⟨_, _, e, w', wi, wp, hb, ?_⟩
    simp only
    split
    · exact Nat.zero_le _
    · exact Nat.sub_le _ _

theorem derive_rep (hL : M.digestSize < 2 ^ 64) (hpos : 0 < M.digestSize) (sizes : Nat → Nat) (a : Args) (m : Mem) (o : Obj M) (st dst : List Byte)
    (n : Nat) (ho : Rep h L sizes a m o st) (hm : Kdf.MemOk sizes m) (hs : n ≤ st.length) (hn : n ≤ dst.length) :
    ∃ o', derive h M junk o m dst n = some (o', st.take n ++ dst.drop n, n) ∧ Rep h L sizes a m o' (st.drop n) := by
  obtain ⟨hw, ⟨p, s, hp, hpl, hsa, hsl, k, hk, hc, hS⟩, hv⟩ := ho
  obtain ⟨w, wi, wp, wb, ws⟩ := hw
  generalize hN : 2 ^ 32 - 1 = N at hk hS
  have hbl := blocksFrom_length L p s (o.iterations.toNat - 1) k (N - k)
  have hdl : (o.buffer.drop (M.digestSize - o.bufferSize)).length = o.bufferSize := by simp; omega
  by_cases hcs : n ≤ o.bufferSize
  · refine ⟨{ o with bufferSize := o.bufferSize - n }, ?_, ⟨w, wi, wp, wb, by simp; omega⟩, ⟨p, s, hp, hpl, hsa, hsl, k, by omega, hc, ?_⟩, hv⟩
    · rw [derive_done h junk o wb ws m dst n hn hcs, hS, List.take_append_of_le_length (by omega)]
    · simp only [hS]
      rw [List.drop_append_of_le_length (by omega), List.drop_drop, hN]
      rw [show M.digestSize - o.bufferSize + n = M.digestSize - (o.bufferSize - n) by omega]
  · obtain ⟨s', buf, e, w', hb, hbuf⟩ := derive_more h junk L hL hpos m p s hpl hsl o dst n w hp hsa wb ws hn (by omega)
    have hrem : n - o.bufferSize ≤ (N - k) * M.digestSize := by rw [hS] at hs; simp [hbl] at hs; omega
    have hdm := Nat.div_add_mod (n - o.bufferSize) M.digestSize
    have hml := Nat.mod_lt (n - o.bufferSize) hpos
    rw [hc] at e hbuf
    have hq : (n - o.bufferSize) / M.digestSize ≤ N - k := Nat.div_le_of_le_mul (by rw [Nat.mul_comm]; exact hrem)
    generalize (n - o.bufferSize) / M.digestSize = q at *
    generalize (n - o.bufferSize) % M.digestSize = r at *
    have hqr : r ≠ 0 → q + 1 ≤ N - k := by
      intro hr
      refine Nat.lt_of_not_le fun hx => ?_
      have := Nat.mul_le_mul_right M.digestSize hx
      rw [Nat.mul_comm q] at this
      omega
    generalize hit : o.iterations.toNat - 1 = it at *
    have hchain : (chain F p s o.iterations (q + 1) (BitVec.ofNat 32 (k + 1))).take (n - o.bufferSize)
        = (blocksFrom F p s (it + 1) k (N - k)).take (n - o.bufferSize) := by
      by_cases hr : r = 0
      · have e1 : n - o.bufferSize = q * M.digestSize := by rw [Nat.mul_comm]; omega
        rw [chain_succ, chain_T p s _ q k (by omega), hit, e1,
          List.take_append_of_le_length (by rw [blocksFrom_length L]; exact Nat.le_refl _),
          show N - k = q + (N - k - q) by omega, blocksFrom_add p s (it + 1) k q,
          List.take_append_of_le_length (by rw [blocksFrom_length L]; exact Nat.le_refl _)]
      · have := hqr hr
        rw [chain_T p s _ (q + 1) k (by omega), hit]
        rw [show N - k = (q + 1) + (N - k - (q + 1)) by omega, blocksFrom_add p s (it + 1) k (q + 1), List.take_append_of_le_length]
        rw [blocksFrom_length L, Nat.succ_mul, Nat.mul_comm q]; omega
    rw [hchain] at e
    have hout : o.buffer.drop (M.digestSize - o.bufferSize) ++ (blocksFrom F p s (it + 1) k (N - k)).take (n - o.bufferSize) = st.take n := by
      rw [hS, List.take_append, hdl, List.take_of_length_le (l := o.buffer.drop (M.digestSize - o.bufferSize)) (by omega)]
    rw [hout] at e
    refine ⟨_, e, ⟨w', wi, wp, hb, ?_⟩, ⟨p, s, hp, hpl, hsa, hsl, k + q + (if r = 0 then 0 else 1), ?_, ?_, ?_⟩, hv⟩
    · simp only; split
      · exact Nat.zero_le _
      · exact Nat.sub_le _ _
    · by_cases hr : r = 0
      · rw [if_pos hr]; omega
      · rw [if_neg hr]; have := hqr hr; omega
    · simp only
      rw [← BitVec.ofNat_add]; congr 1; omega
    · simp only [hN, hit]
      have e1 : (st.drop n) = (blocksFrom F p s (it + 1) k (N - k)).drop (n - o.bufferSize) := by
        rw [hS]
        conv => lhs; rw [show n = o.bufferSize + (n - o.bufferSize) by omega]
        rw [drop_left_add _ _ _ _ hdl]
      rw [e1]
      by_cases hr : r = 0
      · simp only [if_pos hr, Nat.add_zero, Nat.sub_zero]
        rw [List.drop_of_length_le (l := buf) (by omega), List.nil_append, show N - k = q + (N - (k + q)) by omega, blocksFrom_add p s (it + 1) k q,
          List.drop_left' (by rw [blocksFrom_length L, Nat.mul_comm]; omega)]
      · simp only [if_neg hr]
        have := hqr hr
        rw [hbuf hr, show N - k = q + (1 + (N - (k + q + 1))) by omega, blocksFrom_add p s (it + 1) k q, blocksFrom_add p s (it + 1) (k + q) 1,
          ← hdm, drop_left_add _ _ _ _ (by rw [blocksFrom_length L, Nat.mul_comm]), List.drop_append_of_le_length (by rw [blocksFrom_length L]; omega)]
        have ht : T F p s o.iterations (BitVec.ofNat 32 (k + 1) + BitVec.ofNat 32 q) = blocksFrom F p s (it + 1) (k + q) 1 := by
          rw [← BitVec.ofNat_add, T, hit, BitVec.toNat_ofNat, Nat.mod_eq_of_lt (by omega)]
          simp only [blocksFrom, List.range_one, List.map_cons, List.map_nil, List.flatten_cons, List.flatten_nil, List.append_nil, Nat.add_zero]
          congr 1; omega
        rw [ht, show M.digestSize - (M.digestSize - r) = r by omega, show N - (k + q + 1) = N - k - q - 1 by omega]

/-- PBKDF2 over a lawful mac is RFC 8018. -/
def lawful (hL : M.digestSize < 2 ^ 64) (hpos : 0 < M.digestSize) :
    LawfulKdf h (impl h M junk) (stream F) fun a : Args => [a.ikm.buf, a.salt.buf] where
  Wf := Wf L
  Rep := Rep h L
  fresh := fun _ => ⟨L.fresh, by simp [impl, View.Fits], by simp [impl, View.Fits], by simp [impl], Nat.zero_le _⟩
  rep_wf := fun _ _ _ _ _ r => r.1
  init := fun sizes m o a w hm ha => init_eq h L sizes m o a w hm ha
  rep_mem := fun sizes a m m' o s r _ hx => by
    obtain ⟨w, ⟨p, s, hp, hpl, hsa, hsl, hk⟩, hv⟩ := r
    have hx' : h.consteval = true ∨ m' a.ikm.buf = m a.ikm.buf ∧ m' a.salt.buf = m a.salt.buf := by simpa using hx
    have e := hv m' hx'
    refine ⟨w, ⟨p, s, by rw [e.1, hp], hpl, by rw [e.2, hsa], hsl, hk⟩, fun m'' hm'' => ?_⟩
    rw [e.1, e.2]
    apply hv
    rcases hx' with h1 | h1
    · exact .inl h1
    · rcases hm'' with h2 | h2
      · exact .inl h2
      · exact .inr ⟨h2.1.trans h1.1, h2.2.trans h1.2⟩
  derive_wf := fun sizes m o dst n w hm hn => derive_wf h junk L hL hpos sizes m o dst n w hm hn
  derive := fun sizes a m o s dst n r hm hs hn => derive_rep h junk L hL hpos sizes a m o s dst n r hm hs hn

end Milo.Pbkdf2
