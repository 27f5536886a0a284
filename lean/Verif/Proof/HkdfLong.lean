import Verif.Proof.Hkdf
import Verif.Spec.KdfLong
/- HKDF without regard to the limit of RFC 5869. (Proof/Hkdf.lean says what holds within the limit.) -/
namespace Milo.HkdfLong
open Hkdf (Obj Args impl init derive Wf chain lastBlk previous val derive_done derive_more one_add_ofNat blk init_eq lawful)

variable (h : Host) {M : MacImpl} {F : List Byte → List Byte → List Byte} (L : LawfulMac M F)

theorem chain_blocks (prk info : List Byte) (n k : Nat) (prev : List Byte) :
    chain F prk info n prev (BitVec.ofNat 8 (k + 1)) = Spec.hkdfBlocks F prk info prev k n := by
  induction n generalizing k prev with
  | zero => rfl
  | succ n ih =>
    have ec : BitVec.ofNat 8 (k + 1) + 1 = BitVec.ofNat 8 (k + 1 + 1) := by rw [BitVec.add_comm, one_add_ofNat]
    rw [chain, ec, ih]
    rfl

theorem last_blocks (prk info : List Byte) (n k : Nat) (prev : List Byte) :
    lastBlk F prk info n prev (BitVec.ofNat 8 (k + 1)) = (Spec.hkdfBlocks F prk info prev k n).getLastD prev := by
  induction n generalizing k prev with
  | zero => rfl
  | succ n ih =>
    have ec : BitVec.ofNat 8 (k + 1) + 1 = BitVec.ofNat 8 (k + 1 + 1) := by rw [BitVec.add_comm, one_add_ofNat]
    rw [lastBlk, ec, ih, Spec.hkdfBlocks]
    simp only [List.getLastD_cons]
    rfl

theorem last_cons (l : List (List Byte)) (h : l ≠ []) (a b : List Byte) : l.getLastD a = l.getLastD b := by
  cases l with
  | nil => exact absurd rfl h
  | cons x l => simp only [List.getLastD_cons]

theorem blocks_length (prk info : List Byte) (n k : Nat) (prev : List Byte) : (Spec.hkdfBlocks F prk info prev k n).length = n := by
  induction n generalizing k prev with
  | zero => rfl
  | succ n ih => simp only [Spec.hkdfBlocks, List.length_cons, ih]

include L in
theorem blocks_split (prk info : List Byte) (n k : Nat) (prev : List Byte) : ∃ a, (Spec.hkdfBlocks F prk info prev k (n + 1)).flatten
    = a ++ (Spec.hkdfBlocks F prk info prev k (n + 1)).getLastD [] ∧ a.length = n * M.digestSize := by
  induction n generalizing k prev with
  | zero => exact ⟨[], by simp [Spec.hkdfBlocks], by simp⟩
  | succ n ih =>
    rw [Spec.hkdfBlocks]
    have ht := L.length prk (prev ++ info ++ [BitVec.ofNat 8 (k + 1)])
    generalize F prk (prev ++ info ++ [BitVec.ofNat 8 (k + 1)]) = t at ht
    show ∃ a, (t :: Spec.hkdfBlocks F prk info t (k + 1) (n + 1)).flatten = a ++ (t :: Spec.hkdfBlocks F prk info t (k + 1) (n + 1)).getLastD [] ∧ _
    obtain ⟨a, h1, h2⟩ := ih (k + 1) t
    refine ⟨t ++ a, ?_, ?_⟩
    · simp only [List.flatten_cons, List.getLastD_cons]
      have hne : Spec.hkdfBlocks F prk info t (k + 1) (n + 1) ≠ [] := fun hc => by
        have := congrArg List.length hc
        rw [blocks_length] at this
        simp at this
      rw [h1, List.append_assoc, last_cons _ hne [] _]
    · rw [List.length_append, ht, h2, Nat.succ_mul]; omega

/-- The object is in the state `g` of the generator. -/
def Inv (L : LawfulMac M F) (sizes : Nat → Nat) (m : Mem) (prk info : List Byte) (o : Obj M) (g : Spec.HkdfState) : Prop :=
  Wf L sizes o ∧ View.bytes m o.info = some info ∧ o.prk = prk ∧ o.counter = BitVec.ofNat 8 (g.made + 1) ∧ (0 < g.made → o.buffer = g.last) ∧
    g.left = o.buffer.drop (M.digestSize - o.bufferSize)

theorem derive_request (hL : M.digestSize < 2 ^ 64) (hpos : 0 < M.digestSize) (sizes : Nat → Nat) (m : Mem) (prk info : List Byte) (hil : info.length < 2 ^ 64)
    (o : Obj M) (g : Spec.HkdfState) (hI : Inv L sizes m prk info o g) (dst : List Byte) (n : Nat) (hn : n ≤ dst.length) :
    ∃ o', derive h M o m dst n = some (o', (Spec.hkdfRequest F prk info M.digestSize g n).2 ++ dst.drop n, n) ∧
      Inv L sizes m prk info o' (Spec.hkdfRequest F prk info M.digestSize g n).1 ∧ (Spec.hkdfRequest F prk info M.digestSize g n).2.length = n := by
  obtain ⟨⟨w, wi, wp, wb, ws⟩, hi, hp, hc, hb, hl⟩ := hI
  have hll : g.left.length = o.bufferSize := by rw [hl, List.length_drop, wb]; omega
  unfold Spec.hkdfRequest
  by_cases hle : n ≤ g.left.length
  · rw [if_pos hle]
    refine ⟨_, by rw [derive_done h o wb ws m dst n hn (by omega), ← hl], ?_, by rw [List.length_take]; omega⟩
    refine ⟨⟨w, wi, wp, wb, by simp; omega⟩, hi, hp, hc, hb, ?_⟩
    simp only [hl, List.drop_drop]
    congr 1
    omega
  · rw [if_neg hle]
    obtain ⟨s, e, w'⟩ := derive_more h L hL hpos m info hil o dst n w wp wb ws hi hn (by omega)
    have hprev : previous M o = if g.made % 256 = 0 then [] else g.last := by
      unfold previous
      rw [hc]
      have : (BitVec.ofNat 8 (g.made + 1) = 1) ↔ g.made % 256 = 0 := by
        rw [← BitVec.toNat_inj, BitVec.toNat_ofNat]
        show (g.made + 1) % 2 ^ 8 = 1 % 2 ^ 8 ↔ _
        omega
      by_cases h0 : g.made % 256 = 0
      · rw [if_pos (this.mpr h0), if_pos h0]
      · rw [if_neg (fun hx => h0 (this.mp hx)), if_neg h0]
        exact hb (by omega)
    rw [hprev, hc, chain_blocks, last_blocks, hp, ← hl, ← hll] at e
    obtain ⟨a, ha, hal⟩ := blocks_split L prk info ((n - g.left.length) / M.digestSize) g.made (if g.made % 256 = 0 then [] else g.last)
    have hne : Spec.hkdfBlocks F prk info (if g.made % 256 = 0 then [] else g.last) g.made ((n - g.left.length) / M.digestSize + 1) ≠ [] := fun hx => by
      have := congrArg List.length hx
      rw [blocks_length] at this
      simp at this
    rw [last_cons _ hne _ []] at e
    generalize hbs : Spec.hkdfBlocks F prk info (if g.made % 256 = 0 then [] else g.last) g.made ((n - g.left.length) / M.digestSize + 1) = bs at e ha hne
    have hlast : (bs.getLastD []).length = M.digestSize := by
      have := Hkdf.lastBlk_length L prk info ((n - g.left.length) / M.digestSize + 1) (if g.made % 256 = 0 then [] else g.last) (BitVec.ofNat 8 (g.made + 1)) (.inl (Nat.succ_pos _))
      rw [last_blocks, hbs, last_cons _ hne _ []] at this
      exact this
    have hdm := Nat.div_add_mod (n - g.left.length) M.digestSize
    rw [Nat.mul_comm, ← hal] at hdm
    have hmod := Nat.mod_lt (n - g.left.length) hpos
    simp only [hbs]
    refine ⟨_, e, ?_, ?_⟩
    refine ⟨⟨w', wi, by rw [← hp]; exact wp, hlast, Nat.sub_le _ _⟩, hi, rfl, ?_, fun _ => rfl, ?_⟩
    · simp only [hc]
      rw [← BitVec.ofNat_add]
      congr 1
      omega
    · simp only [ha]
      rw [List.drop_append, List.drop_of_length_le (l := a) (by omega), List.nil_append]
      congr 1
      omega
    · have := congrArg List.length ha
      rw [List.length_append, hlast] at this
      rw [List.length_append, List.length_take, this]
      omega

theorem init_inv (hL : M.digestSize < 2 ^ 64) (hpos : 0 < M.digestSize) (sizes : Nat → Nat) (m : Mem) (o : Obj M) (a : Args) (ho : Wf L sizes o)
    (hm : Kdf.MemOk sizes m) (ha : ∀ s ∈ [a.ikm, a.salt, a.info], s.size ≤ sizes s.buf ∧ s.size < 2 ^ 64) :
    ∃ o', init h M o m a = some o' ∧ Inv L sizes m (F (val m a.salt) (val m a.ikm)) (val m a.info) o' ⟨0, [], []⟩ := by
  obtain ⟨w, wi, wp, wb, ws⟩ := ho
  simp only [List.mem_cons, List.not_mem_nil, or_false, forall_eq_or_imp, forall_eq] at ha
  obtain ⟨h1, h2, h3⟩ := ha
  obtain ⟨v, ev, fv, bv, sv⟩ := View.make_some h sizes m a.info hm h3
  obtain ⟨s1, e1, r1⟩ := L.init o.hmac (val m a.salt) w (by simp [val]; omega)
  obtain ⟨s2, e2, r2⟩ := L.update s1 _ _ (val m a.ikm) r1 (by simp [val]; omega)
  obtain ⟨s3, e3, f3⟩ := L.finalize s2 _ _ r2
  have e4 := Hkdf.digest_all L s3 _ _ o.prk f3 (by omega)
  rw [List.drop_of_length_le (by omega), List.append_nil, List.nil_append] at e4
  refine ⟨_, by
    simp only [init, ev, read_some sizes m a.salt hm h2.1, read_some sizes m a.ikm hm h1.1, Option.bind_eq_bind, Option.bind_some,
      show List.take a.salt.size (m a.salt.buf) = val m a.salt from rfl, show List.take a.ikm.size (m a.ikm.buf) = val m a.ikm from rfl,
      e1, e2, e3, e4, Option.pure_def]; rfl, ?_⟩
  refine ⟨⟨L.fin_wf _ _ _ f3, fv, L.length _ _, wb, Nat.zero_le _⟩, bv, rfl, rfl, fun hx => absurd hx (by decide), ?_⟩
  rw [List.drop_of_length_le]
  simp only [Nat.sub_zero]
  omega

theorem deriveReq_of (K : KdfImpl) (P : K.σ → Prop) (sizes : Nat → Nat) (o : K.σ) (m : Mem) (r : DigestReq) (hr : Kdf.Call.Ok K sizes (.derive r)) (key : List Byte)
    (hlen : key.length = Spec.asked r)
    (he : ∀ dst, Spec.asked r ≤ dst.length → ∃ o', K.derive o m dst (Spec.asked r) = some (o', key ++ dst.drop (Spec.asked r), Spec.asked r) ∧ P o') :
    ∃ o', Kdf.deriveReq K o m r = some (o', Spec.received key r) ∧ P o' := by
  cases r with
  | ptr dst n =>
    obtain ⟨o', e, w⟩ := he dst hr
    refine ⟨o', ?_, w⟩
    simp only [Spec.asked] at e hlen
    simp only [Kdf.deriveReq, Option.bind_eq_bind, Option.pure_def, Spec.received, hlen, e, Option.bind_some]
  | cont c n =>
    have h1 := HashApie.resize_fits c n
    have h3 : Spec.asked (.cont c n) = (c.resize n).2 := by
      by_cases hd : c.dynamic <;> simp [Spec.asked, Container.resize, hd]
    rw [h3] at he hlen
    obtain ⟨o', e, w⟩ := he (c.resize n).1.data (by omega)
    refine ⟨o', ?_, w⟩
    simp only [Kdf.deriveReq, Option.bind_eq_bind, Option.pure_def, Container.withData, Spec.received, hlen, e, Option.bind_some]
    congr 4
    by_cases hd : c.dynamic
    · rw [if_pos hd]
      simp only [Container.resize, hd, if_true]
      apply List.drop_of_length_le; simp; omega
    · rw [if_neg hd]
      have hdf : c.dynamic = false := by simpa using hd
      simp only [Container.resize, hdf, Bool.false_eq_true, if_false]

theorem request_eq (hL : M.digestSize < 2 ^ 64) (hpos : 0 < M.digestSize) (sizes : Nat → Nat) (m : Mem) (prk info : List Byte) (hil : info.length < 2 ^ 64)
    (o : Obj M) (g : Spec.HkdfState) (hI : Inv L sizes m prk info o g) (r : DigestReq) (hr : Kdf.Call.Ok (impl h M) sizes (.derive r)) :
    ∃ o', Kdf.deriveReq (impl h M) o m r = some (o', Spec.received (Spec.hkdfRequest F prk info M.digestSize g (Spec.asked r)).2 r) ∧
      Inv L sizes m prk info o' (Spec.hkdfRequest F prk info M.digestSize g (Spec.asked r)).1 := by
  refine deriveReq_of (impl h M) (fun o' => Inv L sizes m prk info o' _) sizes o m r hr _ ?_ fun dst hd => ?_
  · obtain ⟨-, -, -, hlen⟩ := derive_request h L hL hpos sizes m prk info hil o g hI (List.replicate (Spec.asked r) 0) (Spec.asked r) (by simp)
    exact hlen
  · obtain ⟨o', e, w, -⟩ := derive_request h L hL hpos sizes m prk info hil o g hI dst (Spec.asked r) hd
    exact ⟨o', e, w⟩

theorem requests_eq (hL : M.digestSize < 2 ^ 64) (hpos : 0 < M.digestSize) (sizes : Nat → Nat) (m : Mem) (prk info : List Byte) (hil : info.length < 2 ^ 64)
    (rs : List DigestReq) (hrs : ∀ r ∈ rs, Kdf.Call.Ok (impl h M) sizes (.derive r)) (o : Obj M) (g : Spec.HkdfState) (hI : Inv L sizes m prk info o g) :
    ∃ st, runCalls (Kdf.exec (impl h M)) (o, m) (rs.map .derive) = some (st, Spec.hkdfRequests F prk info M.digestSize g rs) := by
  induction rs generalizing o g with
  | nil => exact ⟨_, rfl⟩
  | cons r rs ih =>
    obtain ⟨o', e, w⟩ := request_eq h L hL hpos sizes m prk info hil o g hI r (hrs r (.head _))
    obtain ⟨st, e'⟩ := ih (fun r hr => hrs r (.tail _ hr)) o' _ w
    refine ⟨st, ?_⟩
    simp only [List.map_cons, runCalls, Kdf.exec, Option.bind_eq_bind, Option.pure_def, e, Option.bind_some, e', Spec.hkdfRequests]
    rfl

theorem run_init (K : KdfImpl) (m : Mem) (a : K.Args) (o : K.σ) (cs : List (Kdf.Call K.Args)) (st : K.σ × Mem) (outs : List Kdf.Out) (e : K.init K.fresh m a = some o)
    (e' : runCalls (Kdf.exec K) (o, m) cs = some (st, outs)) : Kdf.run K m (.init a :: cs) = some (st, outs) := by
  simp only [Kdf.run, runCalls, Kdf.exec, Option.bind_eq_bind, Option.pure_def, e, Option.bind_some, e', List.nil_append]

include L in
theorem run_eq (hL : M.digestSize < 2 ^ 64) (hpos : 0 < M.digestSize) (sizes : Nat → Nat) (m : Mem) (hm : Kdf.MemOk sizes m) (a : Args)
    (ha : ∀ s ∈ [a.ikm, a.salt, a.info], s.size ≤ sizes s.buf ∧ s.size < 2 ^ 64) (rs : List DigestReq)
    (hrs : ∀ r ∈ rs, Kdf.Call.Ok (impl h M) sizes (.derive r)) :
    ∃ st, Kdf.run (impl h M) m (.init a :: rs.map .derive)
      = some (st, Spec.hkdfRequests F (F (val m a.salt) (val m a.ikm)) (val m a.info) M.digestSize ⟨0, [], []⟩ rs) := by
  obtain ⟨o, e, hI⟩ := init_inv h L hL hpos sizes m _ a ((lawful h L hL hpos).fresh sizes) hm ha
  obtain ⟨st, e'⟩ := requests_eq h L hL hpos sizes m _ _ (by simp [val]; have := (ha a.info (by simp)).2; omega) rs hrs o _ hI
  exact ⟨st, run_init (impl h M) m a o _ _ _ e e'⟩

end Milo.HkdfLong
