import Verif.Proof.Pbkdf2
import Verif.Spec.KdfLong
/- PBKDF2 without regard to the limit of RFC 8018: the block number is counted modulo 2^32. (Proof/Pbkdf2.lean says what holds within the limit.) -/
namespace Milo.Pbkdf2Wrap
open Pbkdf2 (Obj Args impl init derive Wf T chain derive_done derive_more derive_wf chain_succ T_length')

variable (h : Host) (junk : Nat → Byte) {M : MacImpl} {F : List Byte → List Byte → List Byte} (L : LawfulMac M F)

/-- The first `N` blocks of what the code delivers; an iteration count of zero is one. -/
def stream (N : Nat) (F : List Byte → List Byte → List Byte) (m : Mem) (a : Args) : List Byte :=
  Spec.pbkdf2Wrapped F (Hkdf.val m a.ikm) (Hkdf.val m a.salt) (max a.iterations.toNat 1) N

/-- The blocks from `k` on, each with its number modulo `2^32`. -/
def blocksFrom (F : List Byte → List Byte → List Byte) (p s : List Byte) (c k n : Nat) : List Byte :=
  ((List.range n).map fun i => Spec.pbkdf2T F p s ((k + i + 1) % 2 ^ 32) c).flatten

theorem blocksFrom_succ (p s : List Byte) (c k n : Nat) :
    blocksFrom F p s c k (n + 1) = Spec.pbkdf2T F p s ((k + 1) % 2 ^ 32) c ++ blocksFrom F p s c (k + 1) n := by
  unfold blocksFrom
  rw [List.range_succ_eq_map]
  simp only [List.map_cons, List.map_map, List.flatten_cons, Nat.add_zero]
  congr 2
  apply List.map_congr_left
  intro i _
  simp only [Function.comp]
  rw [show k + (i + 1) + 1 = k + 1 + i + 1 by omega]

theorem blocksFrom_add (p s : List Byte) (c k a b : Nat) :
    blocksFrom F p s c k (a + b) = blocksFrom F p s c k a ++ blocksFrom F p s c (k + a) b := by
  induction a generalizing k with
  | zero => simp [blocksFrom]
  | succ a ih => rw [show a + 1 + b = a + b + 1 by omega, blocksFrom_succ, ih, blocksFrom_succ, List.append_assoc,
      show k + 1 + a = k + (a + 1) by omega]

include L in
theorem blocksFrom_length (p s : List Byte) (c k n : Nat) : (blocksFrom F p s (c + 1) k n).length = n * M.digestSize := by
  induction n generalizing k with
  | zero => simp [blocksFrom]
  | succ n ih => rw [blocksFrom_succ, List.length_append, ih, T_length' L, Nat.succ_mul]; omega

/-- The counter wraps. -/
theorem chain_T (p s : List Byte) (it : W32) (n k : Nat) :
    chain F p s it n (BitVec.ofNat 32 (k + 1)) = blocksFrom F p s (it.toNat - 1 + 1) k n := by
  induction n generalizing k with
  | zero => simp [chain, blocksFrom]
  | succ n ih =>
    rw [chain, BitVec.add_comm, Hkdf.one_add_ofNat, ih (k + 1), blocksFrom_succ, T, BitVec.toNat_ofNat]

/-- An object that has produced blocks `1 … k`; `st` is what is left of the stream. -/
def At (N : Nat) (M : MacImpl) (F : List Byte → List Byte → List Byte) (p s : List Byte) (o : Obj M) (k : Nat) (st : List Byte) : Prop :=
  k ≤ N ∧ o.counter = BitVec.ofNat 32 (k + 1) ∧
    st = o.buffer.drop (M.digestSize - o.bufferSize) ++ blocksFrom F p s (o.iterations.toNat - 1 + 1) k (N - k)

def Rep (N : Nat) (h : Host) (L : LawfulMac M F) (sizes : Nat → Nat) (a : Args) (m : Mem) (o : Obj M) (st : List Byte) : Prop :=
  Wf L sizes o ∧ (∃ p s, View.bytes m o.ikm = some p ∧ p.length < 2 ^ 64 ∧ View.bytes m o.salt = some s ∧ s.length < 2 ^ 64 ∧ ∃ k, At N M F p s o k st) ∧
    ∀ m' : Mem, (h.consteval = true ∨ m' a.ikm.buf = m a.ikm.buf ∧ m' a.salt.buf = m a.salt.buf) →
      o.ikm.bytes m' = o.ikm.bytes m ∧ o.salt.bytes m' = o.salt.bytes m

theorem init_eq (N : Nat) (sizes : Nat → Nat) (m : Mem) (o : Obj M) (a : Args) (ho : Wf L sizes o)
    (hm : Kdf.MemOk sizes m) (ha : ∀ s ∈ [a.ikm, a.salt], s.size ≤ sizes s.buf ∧ s.size < 2 ^ 64) :
    ∃ o', init h M o m a = some o' ∧ Rep N h L sizes a m o' (stream N F m a) := by
  obtain ⟨w, wi, wp, wb, ws⟩ := ho
  simp only [List.mem_cons, List.not_mem_nil, or_false, forall_eq_or_imp, forall_eq] at ha
  obtain ⟨h1, h2⟩ := ha
  obtain ⟨v, ev, fv, bv, sv⟩ := View.make_some h sizes m a.ikm hm h1
  obtain ⟨u, eu, fu, bu, su⟩ := View.make_some h sizes m a.salt hm h2
  refine ⟨_, by simp only [init, ev, eu, Option.bind_eq_bind, Option.bind_some, Option.pure_def]; rfl, ?_,
    ⟨Hkdf.val m a.ikm, Hkdf.val m a.salt, bv, by simp [Hkdf.val]; omega, bu, by simp [Hkdf.val]; omega, 0, by omega, rfl, ?_⟩, ?_⟩
  · exact ⟨w, fv, fu, wb, Nat.zero_le _⟩
  · simp only [Nat.sub_zero]
    rw [List.drop_of_length_le (by omega), List.nil_append]
    simp only [stream, Spec.pbkdf2Wrapped, blocksFrom, Nat.zero_add]
    rw [show max a.iterations.toNat 1 = a.iterations.toNat - 1 + 1 by omega]
  · intro m' hx
    rcases hx with hx | hx
    · exact ⟨sv m' (.inl hx), su m' (.inl hx)⟩
    · exact ⟨sv m' (.inr hx.1), su m' (.inr hx.2)⟩

theorem derive_rep (N : Nat) (hL : M.digestSize < 2 ^ 64) (hpos : 0 < M.digestSize) (sizes : Nat → Nat) (a : Args) (m : Mem) (o : Obj M) (st dst : List Byte)
    (n : Nat) (ho : Rep N h L sizes a m o st) (hm : Kdf.MemOk sizes m) (hs : n ≤ st.length) (hn : n ≤ dst.length) :
    ∃ o', derive h M junk o m dst n = some (o', st.take n ++ dst.drop n, n) ∧ Rep N h L sizes a m o' (st.drop n) := by
  obtain ⟨hw, ⟨p, s, hp, hpl, hsa, hsl, k, hk, hc, hS⟩, hv⟩ := ho
  obtain ⟨w, wi, wp, wb, ws⟩ := hw
  have hbl := blocksFrom_length L p s (o.iterations.toNat - 1) k (N - k)
  have hdl : (o.buffer.drop (M.digestSize - o.bufferSize)).length = o.bufferSize := by simp; omega
  by_cases hcs : n ≤ o.bufferSize
  · refine ⟨{ o with bufferSize := o.bufferSize - n }, ?_, ⟨w, wi, wp, wb, by simp; omega⟩, ⟨p, s, hp, hpl, hsa, hsl, k, by omega, hc, ?_⟩, hv⟩
    · rw [derive_done h junk o wb ws m dst n hn hcs, hS, List.take_append_of_le_length (by omega)]
    · simp only [hS]
      rw [List.drop_append_of_le_length (by omega), List.drop_drop]
      rw [show M.digestSize - o.bufferSize + n = M.digestSize - (o.bufferSize - n) by omega]
  · obtain ⟨s', buf, e, w', hb, hbuf⟩ := derive_more h junk L hL hpos m p s hpl hsl o dst n w hp hsa wb ws hn (by omega)
    have hrem : n - o.bufferSize ≤ (N - k) * M.digestSize := by rw [hS] at hs; simp [hbl] at hs; omega
    have hdm := Nat.div_add_mod (n - o.bufferSize) M.digestSize
    have hml := Nat.mod_lt (n - o.bufferSize) hpos
    rw [hc] at e hbuf
    have hq : (n - o.bufferSize) / M.digestSize ≤ N - k := Nat.div_le_of_le_mul (by rw [Nat.mul_comm]; exact hrem)
    generalize (n - o.bufferSize) / M.digestSize = q at *
    generalize (n - o.bufferSize) % M.digestSize = r at *
    have hqr : r ≠ 0 → q + 1 ≤ N - k := by
      intro hr
      refine Nat.lt_of_not_le fun hx => ?_
      have := Nat.mul_le_mul_right M.digestSize hx
      rw [Nat.mul_comm q] at this
      omega
    generalize hit : o.iterations.toNat - 1 = it at *
    have hchain : (chain F p s o.iterations (q + 1) (BitVec.ofNat 32 (k + 1))).take (n - o.bufferSize)
        = (blocksFrom F p s (it + 1) k (N - k)).take (n - o.bufferSize) := by
      by_cases hr : r = 0
      · have e1 : n - o.bufferSize = q * M.digestSize := by rw [Nat.mul_comm]; omega
        rw [chain_succ, chain_T p s _ q k, hit, e1,
          List.take_append_of_le_length (by rw [blocksFrom_length L]; exact Nat.le_refl _),
          show N - k = q + (N - k - q) by omega, blocksFrom_add p s (it + 1) k q,
          List.take_append_of_le_length (by rw [blocksFrom_length L]; exact Nat.le_refl _)]
      · have := hqr hr
        rw [chain_T p s _ (q + 1) k, hit]
        rw [show N - k = (q + 1) + (N - k - (q + 1)) by omega, blocksFrom_add p s (it + 1) k (q + 1), List.take_append_of_le_length]
        rw [blocksFrom_length L, Nat.succ_mul, Nat.mul_comm q]; omega
    rw [hchain] at e
    have hout : o.buffer.drop (M.digestSize - o.bufferSize) ++ (blocksFrom F p s (it + 1) k (N - k)).take (n - o.bufferSize) = st.take n := by
      rw [hS, List.take_append, hdl, List.take_of_length_le (l := o.buffer.drop (M.digestSize - o.bufferSize)) (by omega)]
    rw [hout] at e
    refine ⟨_, e, ⟨w', wi, wp, hb, ?_⟩, ⟨p, s, hp, hpl, hsa, hsl, k + q + (if r = 0 then 0 else 1), ?_, ?_, ?_⟩, hv⟩
    · simp only; split
      · exact Nat.zero_le _
      · exact Nat.sub_le _ _
    · by_cases hr : r = 0
      · rw [if_pos hr]; omega
      · rw [if_neg hr]; have := hqr hr; omega
    · simp only
      rw [← BitVec.ofNat_add]; congr 1; omega
    · simp only [hit]
      have e1 : (st.drop n) = (blocksFrom F p s (it + 1) k (N - k)).drop (n - o.bufferSize) := by
        rw [hS]
        conv => lhs; rw [show n = o.bufferSize + (n - o.bufferSize) by omega]
        rw [Memory.drop_left_add _ _ _ _ hdl]
      rw [e1]
      by_cases hr : r = 0
      · simp only [if_pos hr, Nat.add_zero, Nat.sub_zero]
        rw [List.drop_of_length_le (l := buf) (by omega), List.nil_append, show N - k = q + (N - (k + q)) by omega, blocksFrom_add p s (it + 1) k q,
          List.drop_left' (by rw [blocksFrom_length L, Nat.mul_comm]; omega)]
      · simp only [if_neg hr]
        have := hqr hr
        rw [hbuf hr, show N - k = q + (1 + (N - (k + q + 1))) by omega, blocksFrom_add p s (it + 1) k q, blocksFrom_add p s (it + 1) (k + q) 1,
          ← hdm, Memory.drop_left_add _ _ _ _ (by rw [blocksFrom_length L, Nat.mul_comm]), List.drop_append_of_le_length (by rw [blocksFrom_length L]; omega)]
        have ht : T F p s o.iterations (BitVec.ofNat 32 (k + 1) + BitVec.ofNat 32 q) = blocksFrom F p s (it + 1) (k + q) 1 := by
          rw [← BitVec.ofNat_add, T, hit, BitVec.toNat_ofNat]
          simp only [blocksFrom, List.range_one, List.map_cons, List.map_nil, List.flatten_cons, List.flatten_nil, List.append_nil, Nat.add_zero]
          rw [show k + 1 + q = k + q + 1 by omega]
        rw [ht, show M.digestSize - (M.digestSize - r) = r by omega, show N - (k + q + 1) = N - k - q - 1 by omega]

/-- PBKDF2 over a lawful mac delivers these blocks, however many are asked for. -/
def lawful (N : Nat) (hL : M.digestSize < 2 ^ 64) (hpos : 0 < M.digestSize) :
    LawfulKdf h (impl h M junk) (stream N F) fun a : Args => [a.ikm.buf, a.salt.buf] where
  Wf := Wf L
  Rep := Rep N h L
  fresh := fun _ => ⟨L.fresh, by simp [impl, View.Fits], by simp [impl, View.Fits], by simp [impl], Nat.zero_le _⟩
  rep_wf := fun _ _ _ _ _ r => r.1
  init := fun sizes m o a w hm ha => init_eq h L N sizes m o a w hm ha
  rep_mem := fun sizes a m m' o s r _ hx => by
    obtain ⟨w, ⟨p, s, hp, hpl, hsa, hsl, hk⟩, hv⟩ := r
    have hx' : h.consteval = true ∨ m' a.ikm.buf = m a.ikm.buf ∧ m' a.salt.buf = m a.salt.buf := by simpa using hx
    have e := hv m' hx'
    refine ⟨w, ⟨p, s, by rw [e.1, hp], hpl, by rw [e.2, hsa], hsl, hk⟩, fun m'' hm'' => ?_⟩
    rw [e.1, e.2]
    apply hv
    rcases hx' with h1 | h1
    · exact .inl h1
    · rcases hm'' with h2 | h2
      · exact .inl h2
      · exact .inr ⟨h2.1.trans h1.1, h2.2.trans h1.2⟩
  derive_wf := fun sizes m o dst n w hm hn => derive_wf h junk L hL hpos sizes m o dst n w hm hn
  derive := fun sizes a m o s dst n r hm hs hn => derive_rep h junk L N hL hpos sizes a m o s dst n r hm hs hn

end Milo.Pbkdf2Wrap
