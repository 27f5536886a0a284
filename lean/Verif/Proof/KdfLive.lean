import Verif.Spec.KdfLive
import Verif.Proof.Hkdf
import Verif.Proof.Pbkdf2
/- The kdf classes at run time, with buffers that change: what every request receives. -/
namespace Milo
open Memory

/-- A kdf class whose objects behave as `Spec.live` says. -/
structure LiveKdf (K : KdfImpl) {S : Type} (start : S) (more : Mem → K.Args → Mem → S → Nat → List Byte × S) where
  Wf : (Nat → Nat) → K.σ → Prop
  Rep : (Nat → Nat) → Mem → K.Args → K.σ → List Byte → S → Prop
  init : ∀ sizes m o a, Wf sizes o → Kdf.MemOk sizes m → (∀ s ∈ K.spans a, s.size ≤ sizes s.buf ∧ s.size < 2 ^ 64) →
    ∃ o', K.init o m a = some o' ∧ Rep sizes m a o' [] start
  done : ∀ sizes m0 a o rest s m dst n, Rep sizes m0 a o rest s → Kdf.MemOk sizes m → n ≤ dst.length → n ≤ rest.length →
    ∃ o', K.derive o m dst n = some (o', rest.take n ++ dst.drop n, n) ∧ Rep sizes m0 a o' (rest.drop n) s
  more : ∀ sizes m0 a o rest s m dst n, Rep sizes m0 a o rest s → Kdf.MemOk sizes m → n ≤ dst.length → rest.length < n →
    ∃ o', K.derive o m dst n = some (o', (rest ++ (more m0 a m s (n - rest.length)).1).take n ++ dst.drop n, n) ∧
      Rep sizes m0 a o' ((rest ++ (more m0 a m s (n - rest.length)).1).drop n) (more m0 a m s (n - rest.length)).2 ∧
      n ≤ (rest ++ (more m0 a m s (n - rest.length)).1).length

namespace Kdf
variable {K : KdfImpl} {S : Type} {start : S} {more : Mem → K.Args → Mem → S → Nat → List Byte × S} (L : LiveKdf K start more)
include L

theorem live_req (sizes : Nat → Nat) (m0 : Mem) (a : K.Args) (o : K.σ) (rest : List Byte) (s : S) (m : Mem) (r : DigestReq) (hr : L.Rep sizes m0 a o rest s)
    (hm : MemOk sizes m) (hc : Call.Ok K sizes (.derive r)) :
    (Spec.asked r ≤ rest.length → ∃ o', deriveReq K o m r = some (o', Spec.received (rest.take (Spec.asked r)) r) ∧ L.Rep sizes m0 a o' (rest.drop (Spec.asked r)) s) ∧
    (rest.length < Spec.asked r → ∃ o', deriveReq K o m r
        = some (o', Spec.received ((rest ++ (more m0 a m s (Spec.asked r - rest.length)).1).take (Spec.asked r)) r) ∧
      L.Rep sizes m0 a o' ((rest ++ (more m0 a m s (Spec.asked r - rest.length)).1).drop (Spec.asked r)) (more m0 a m s (Spec.asked r - rest.length)).2) := by
  have key : ∀ (b : List Byte), Spec.asked r ≤ b.length → ∀ (P : K.σ → Prop),
      (∀ dst n, n = Spec.asked r → n ≤ dst.length → ∃ o', K.derive o m dst n = some (o', b.take n ++ dst.drop n, n) ∧ P o') →
      ∃ o', deriveReq K o m r = some (o', Spec.received (b.take (Spec.asked r)) r) ∧ P o' := by
    intro b hb P hd
    cases r with
    | ptr dst n =>
      obtain ⟨o', e, w⟩ := hd dst n rfl hc
      have hb' : n ≤ b.length := hb
      refine ⟨o', ?_, w⟩
      simp only [deriveReq, e, Option.bind_eq_bind, Option.bind_some, Option.pure_def, Spec.received, Spec.asked, List.length_take]
      rw [Nat.min_eq_left hb']
    | cont c n =>
      have h1 := HashApie.resize_fits c n
      have h3 : Spec.asked (.cont c n) = (c.resize n).2 := by
        by_cases hd : c.dynamic <;> simp [Spec.asked, Container.resize, hd]
      rw [h3] at hb hd ⊢
      obtain ⟨o', e, w⟩ := hd (c.resize n).1.data (c.resize n).2 rfl (by omega)
      refine ⟨o', ?_, w⟩
      simp only [deriveReq, e, Option.bind_eq_bind, Option.bind_some, Option.pure_def, Container.withData, Spec.received, List.length_take]
      rw [Nat.min_eq_left hb]
      congr 4
      by_cases hd : c.dynamic
      · rw [if_pos hd]
        simp only [Container.resize, hd, if_true]
        apply List.drop_of_length_le; simp; omega
      · rw [if_neg hd]
        have hdf : c.dynamic = false := by simpa using hd
        simp only [Container.resize, hdf, Bool.false_eq_true, if_false]
  constructor
  · intro h1
    exact key rest h1 _ fun dst n hn hl => by
      subst hn; exact L.done sizes m0 a o rest s m dst _ hr hm hl h1
  · intro h1
    have hz := fun (dst : List Byte) (hl : Spec.asked r ≤ dst.length) => L.more sizes m0 a o rest s m dst _ hr hm hl h1
    obtain ⟨_, _, _, hlen⟩ := hz (List.replicate (Spec.asked r) 0) (by simp)
    refine key _ hlen _ fun dst n hn hl => ?_
    subst hn
    obtain ⟨o', e, w, _⟩ := hz dst hl
    exact ⟨o', e, w⟩

/-- Any later calls but `initialize`, with any change of any buffer. -/
theorem live_calls (sizes : Nat → Nat) (m0 : Mem) (a : K.Args) (rest : List Byte) (s : S) (st : K.σ × Mem) (cs : List (Call K.Args)) (hr : L.Rep sizes m0 a st.1 rest s)
    (hm : MemOk sizes st.2) (hc : ∀ c ∈ cs, c.Ok K sizes) (hl : ∀ c ∈ cs, ∀ x, c ≠ .init x) :
    ∃ st', runCalls (exec K) st cs = some (st', Spec.live (more m0 a) rest s (requests st.2 cs)) := by
  induction cs generalizing st s rest with
  | nil => exact ⟨st, rfl⟩
  | cons c cs ih =>
    have hc' := fun y hy => hc y (List.mem_cons_of_mem _ hy)
    have hl' := fun y hy => hl y (List.mem_cons_of_mem _ hy)
    have h2 := hc c List.mem_cons_self
    cases c with
    | init x => exact absurd rfl (hl _ List.mem_cons_self x)
    | poke b content =>
      have m1 : MemOk sizes (fun i => if i = b then content else st.2 i) := by
        intro i
        show (if i = b then content else st.2 i).length = _
        by_cases hi : i = b
        · rw [if_pos hi, hi]; exact h2
        · rw [if_neg hi]; exact hm i
      obtain ⟨st', e'⟩ := ih rest s (st.1, fun i => if i = b then content else st.2 i) hr m1 hc' hl'
      refine ⟨st', ?_⟩
      simp only [runCalls, exec, Option.bind_eq_bind, Option.bind_some, Option.pure_def, e', List.nil_append, requests]
    | derive r =>
      obtain ⟨k1, k2⟩ := live_req L sizes m0 a st.1 rest s st.2 r hr hm h2
      by_cases hlt : Spec.asked r ≤ rest.length
      · obtain ⟨o', e1, r1⟩ := k1 hlt
        obtain ⟨st', e'⟩ := ih _ s (o', st.2) r1 hm hc' hl'
        refine ⟨st', ?_⟩
        simp only [runCalls, exec, Option.bind_eq_bind, Option.bind_some, Option.pure_def, e1, e', requests, Spec.live]
        rw [if_pos hlt]
        rfl
      · obtain ⟨o', e1, r1⟩ := k2 (by omega)
        obtain ⟨st', e'⟩ := ih _ _ (o', st.2) r1 hm hc' hl'
        refine ⟨st', ?_⟩
        simp only [runCalls, exec, Option.bind_eq_bind, Option.bind_some, Option.pure_def, e1, e', requests, Spec.live]
        rw [if_neg hlt]
        rfl

/-- After any use of the object, `initialize` and any later calls. -/
theorem run_live {h : Host} {stream : Mem → K.Args → List Byte} {retained : K.Args → List Nat} (A : LawfulKdf h K stream retained) (hW : L.Wf = A.Wf)
    (sizes : Nat → Nat) (m : Mem) (hm : MemOk sizes m) (pre : List (Call K.Args)) (hpre : ∀ c ∈ pre, c.Ok K sizes) :
    ∃ outs, ∀ a : K.Args, Call.Ok K sizes (.init a) → ∀ cs : List (Call K.Args), (∀ c ∈ cs, c.Ok K sizes) → (∀ c ∈ cs, ∀ x, c ≠ .init x) →
      ∃ st, run K m (pre ++ [.init a] ++ cs) = some (st, outs ++ Spec.live (more (memAfter m pre) a) [] start (requests (memAfter m pre) cs)) := by
  obtain ⟨s0, outs, e0, w0, m0, a0⟩ := Kdf.runCalls_wf A sizes (K.fresh, m) pre ⟨A.fresh sizes, hm⟩ hpre
  refine ⟨outs, fun a ha cs hc hl => ?_⟩
  obtain ⟨o1, e1, r1⟩ := L.init sizes s0.2 s0.1 a (by rw [hW]; exact w0) m0 ha
  obtain ⟨st, e2⟩ := Kdf.live_calls L sizes s0.2 a [] start (o1, s0.2) cs r1 m0 hc hl
  refine ⟨st, ?_⟩
  rw [← show s0.2 = memAfter m pre from a0]
  have ei : runCalls (exec K) s0 [.init a] = some ((o1, s0.2), []) := by simp [runCalls, exec, e1]
  unfold run
  rw [runCalls_append, runCalls_append, e0]
  simp only [Option.bind_some, ei, Option.map_some, e2, List.append_nil]

omit L in
theorem run_pokes (K : KdfImpl) (s : K.σ × Mem) (ws : List (Nat × List Byte)) :
    runCalls (exec K) s (pokes ws) = some ((s.1, memAfter s.2 (pokes (A := K.Args) ws)), []) := by
  induction ws generalizing s with
  | nil => rfl
  | cons w ws ih =>
    have := ih (s.1, fun i => if i = w.1 then w.2 else s.2 i)
    simp only [pokes] at this
    simp only [pokes, List.map_cons, runCalls, exec, Option.bind_eq_bind, Option.bind_some, this, Option.pure_def, List.append_nil, memAfter]

omit L in
theorem pokes_keep {A : Type} (m : Mem) (ws : List (Nat × List Byte)) (b : Nat) (hb : ∀ w ∈ ws, w.1 ≠ b) : memAfter m (pokes (A := A) ws) b = m b := by
  induction ws generalizing m with
  | nil => rfl
  | cons w ws ih =>
    show memAfter (fun i => if i = w.1 then w.2 else m i) (pokes (A := A) ws) b = _
    rw [ih _ fun x hx => hb x (List.mem_cons_of_mem _ hx), if_neg fun e => hb w List.mem_cons_self e.symm]

omit L in
theorem pokes_memOk {A : Type} (sizes : Nat → Nat) (m : Mem) (hm : MemOk sizes m) (ws : List (Nat × List Byte)) (hw : ∀ w ∈ ws, w.2.length = sizes w.1) :
    MemOk sizes (memAfter m (pokes (A := A) ws)) := by
  induction ws generalizing m with
  | nil => exact hm
  | cons w ws ih =>
    refine ih (fun i => if i = w.1 then w.2 else m i) (fun i => ?_) fun x hx => hw x (List.mem_cons_of_mem _ hx)
    show (if i = w.1 then w.2 else m i).length = _
    by_cases hi : i = w.1
    · rw [if_pos hi, hi]; exact hw w List.mem_cons_self
    · rw [if_neg hi]; exact hm i

omit L in
/-- `initialize` followed by changes of buffers it has not read is `initialize` after the changes. -/
theorem run_replaced (K : KdfImpl) (m : Mem) (a : K.Args) (ws : List (Nat × List Byte)) (cs : List (Call K.Args))
    (hi : K.init K.fresh m a = K.init K.fresh (memAfter m (pokes (A := K.Args) ws)) a) :
    run K m (.init a :: (pokes ws ++ cs)) = run K (memAfter m (pokes (A := K.Args) ws)) (.init a :: cs) := by
  unfold run
  simp only [runCalls, exec, ← hi]
  cases K.init K.fresh m a with
  | none => rfl
  | some o =>
    simp only [Option.bind_eq_bind, Option.bind_some, Option.pure_def]
    rw [runCalls_append, run_pokes]
    simp only [Option.bind_some, List.nil_append]
    cases runCalls (exec K) (o, memAfter m (pokes (A := K.Args) ws)) cs <;> rfl

end Kdf

namespace Pbkdf2
variable (h : Host) (hc : h.consteval = false) (junk : Nat → Byte) {M : MacImpl} {F : List Byte → List Byte → List Byte} (L : LawfulMac M F)

/-- An object at run time: it refers to the caller's buffers; `i` is the number of the next block. -/
def LiveRep (L : LawfulMac M F) (sizes : Nat → Nat) (a : Args) (o : Obj M) (rest : List Byte) (i : Nat) : Prop :=
  Wf L sizes o ∧ o.ikm = .ref a.ikm ∧ o.salt = .ref a.salt ∧ o.iterations = a.iterations ∧ o.counter = BitVec.ofNat 32 i ∧
    rest = o.buffer.drop (M.digestSize - o.bufferSize)

theorem chain_live (p s : List Byte) (it : W32) (n i : Nat) :
    chain F p s it n (BitVec.ofNat 32 i) = ((List.range n).map fun j => Spec.pbkdf2T F p s ((i + j) % 2 ^ 32) (max it.toNat 1)).flatten := by
  induction n with
  | zero => rfl
  | succ n ih =>
    rw [chain_succ, ih, List.range_succ]
    simp only [List.map_append, List.map_cons, List.map_nil, List.flatten_append, List.flatten_cons, List.flatten_nil, List.append_nil]
    congr 1
    unfold T
    rw [← BitVec.ofNat_add, BitVec.toNat_ofNat, show max it.toNat 1 = it.toNat - 1 + 1 by omega]

include hc in
def live (hL : M.digestSize < 2 ^ 64) (hpos : 0 < M.digestSize) :
    LiveKdf (impl h M junk) 1 (fun _ a m i n =>
      Spec.pbkdf2More F M.digestSize (Hkdf.val m a.ikm) (Hkdf.val m a.salt) (max a.iterations.toNat 1) i n) := by
  refine ⟨Wf L, fun sizes _ a o rest i => LiveRep L sizes a o rest i, ?_, ?_, ?_⟩
  · intro sizes m (o : Obj M) (a : Args) ho hm ha
    obtain ⟨w, wi, wp, wb, ws⟩ := ho
    simp only [impl, List.mem_cons, List.not_mem_nil, or_false, forall_eq_or_imp, forall_eq] at ha
    have ev : ∀ s, View.make h m s = some (.ref s) := fun s => by simp [View.make, hc]
    let o1 : Obj M := { o with ikm := .ref a.ikm, salt := .ref a.salt, iterations := a.iterations, counter := 1, bufferSize := 0 }
    have e1 : (impl h M junk).init o m a = some o1 := by
      simp only [impl, init, ev, Option.bind_eq_bind, Option.bind_some, Option.pure_def]; rfl
    refine ⟨o1, e1, ⟨w, ha.1, ha.2, wb, Nat.zero_le _⟩, rfl, rfl, rfl, rfl, ?_⟩
    show [] = List.drop (M.digestSize - 0) _
    rw [List.drop_of_length_le (by show o.buffer.length ≤ _; omega)]
  · intro sizes m0 (a : Args) (o : Obj M) rest i m dst n hr hm hn hlt
    obtain ⟨⟨w, wi, wp, wb, ws⟩, r1, r2, r3, r4, r5⟩ := hr
    have hlen : rest.length = o.bufferSize := by rw [r5]; simp; omega
    let o1 : Obj M := { o with bufferSize := o.bufferSize - n }
    have e1 : (impl h M junk).derive o m dst n = some (o1, rest.take n ++ dst.drop n, n) := by
      rw [show (impl h M junk).derive = derive h M junk from rfl, derive_done h junk o wb ws m dst n hn (by omega), ← r5]
    refine ⟨o1, e1, ⟨w, wi, wp, wb, by show o.bufferSize - n ≤ _; omega⟩, r1, r2, r3, r4, ?_⟩
    show _ = List.drop (M.digestSize - (o.bufferSize - n)) o.buffer
    rw [r5, List.drop_drop]
    congr 1
    omega
  · intro sizes m0 (a : Args) (o : Obj M) rest i m dst n hr hm hn hlt
    obtain ⟨⟨w, wi, wp, wb, ws⟩, r1, r2, r3, r4, r5⟩ := hr
    have hlen : rest.length = o.bufferSize := by rw [r5]; simp; omega
    rw [r1] at wi
    rw [r2] at wp
    have hp : o.ikm.bytes m = some (Hkdf.val m a.ikm) := by rw [r1]; exact read_some sizes m _ hm wi.1
    have hs : o.salt.bytes m = some (Hkdf.val m a.salt) := by rw [r2]; exact read_some sizes m _ hm wp.1
    have hpl : (Hkdf.val m a.ikm).length < 2 ^ 64 := by have := wi.2; simp [Hkdf.val]; omega
    have hsl : (Hkdf.val m a.salt).length < 2 ^ 64 := by have := wp.2; simp [Hkdf.val]; omega
    obtain ⟨st, buf, e, w', hb', hbuf⟩ := derive_more h junk L hL hpos m _ _ hpl hsl o dst n w hp hs wb ws hn (by omega)
    rw [← hlen] at e hbuf
    have hk0 : 0 < n - rest.length := by omega
    have hnk : n = rest.length + (n - rest.length) := by omega
    generalize n - rest.length = k at *
    have hdm := Nat.div_add_mod k M.digestSize
    have hml := Nat.mod_lt k hpos
    generalize hD : M.digestSize = D at *
    have hcnt : (k + D - 1) / D = k / D + if k % D = 0 then 0 else 1 := by
      generalize hq : k / D = q at *
      generalize hrm : k % D = r at *
      split
      · next h0 =>
        rw [Nat.add_zero, Nat.div_eq_iff (by omega)]
        rw [Nat.mul_comm D q] at hdm
        omega
      · next h0 =>
        rw [Nat.div_eq_iff (by omega)]
        rw [Nat.mul_comm D q] at hdm
        rw [Nat.add_mul, Nat.one_mul]
        omega
    have hch : ∀ c, (chain F (Hkdf.val m a.ikm) (Hkdf.val m a.salt) o.iterations c o.counter).length = c * D := fun c => by
      rw [chain_length L, hD]
    have hnew : (Spec.pbkdf2More F D (Hkdf.val m a.ikm) (Hkdf.val m a.salt) (max a.iterations.toNat 1) i k).1
        = chain F (Hkdf.val m a.ikm) (Hkdf.val m a.salt) o.iterations (k / D + if k % D = 0 then 0 else 1) o.counter := by
      unfold Spec.pbkdf2More
      rw [hcnt, r4, chain_live, r3]
    have hle : k ≤ (k / D + if k % D = 0 then 0 else 1) * D := by
      rw [Nat.mul_comm] at hdm
      split
      · rw [Nat.add_zero]; omega
      · rw [Nat.add_mul]; omega
    have htake : (chain F (Hkdf.val m a.ikm) (Hkdf.val m a.salt) o.iterations (k / D + 1) o.counter).take k
        = (chain F (Hkdf.val m a.ikm) (Hkdf.val m a.salt) o.iterations (k / D + if k % D = 0 then 0 else 1) o.counter).take k := by
      split
      · next h0 =>
        rw [chain_succ, Nat.add_zero, List.take_append_of_le_length]
        rw [hch, Nat.mul_comm]; omega
      · rfl
    rw [hnew]
    have hdrop : (rest ++ chain F (Hkdf.val m a.ikm) (Hkdf.val m a.salt) o.iterations (k / D + if k % D = 0 then 0 else 1) o.counter).drop n
        = (chain F (Hkdf.val m a.ikm) (Hkdf.val m a.salt) o.iterations (k / D + if k % D = 0 then 0 else 1) o.counter).drop k := by
      rw [hnk, List.drop_append, List.drop_of_length_le (by omega), List.nil_append]
      congr 1; omega
    let o1 : Obj M := { o with
      prf := st, buffer := buf, bufferSize := if k % D = 0 then 0 else D - k % D, counter := o.counter + BitVec.ofNat 32 (k / D + if k % D = 0 then 0 else 1) }
    refine ⟨o1, Eq.trans e ?_, ⟨⟨w', by show View.Fits sizes o.ikm; rw [r1]; exact wi, by show View.Fits sizes o.salt; rw [r2]; exact wp, by rw [hD]; exact hb', ?_⟩, r1, r2, r3, ?_, ?_⟩, ?_⟩
    · have r5' : List.drop (D - rest.length) o.buffer = rest := by rw [hlen]; exact r5.symm
      rw [htake, r5']
      have : (rest ++ chain F (Hkdf.val m a.ikm) (Hkdf.val m a.salt) o.iterations (k / D + if k % D = 0 then 0 else 1) o.counter).take n
          = rest ++ (chain F (Hkdf.val m a.ikm) (Hkdf.val m a.salt) o.iterations (k / D + if k % D = 0 then 0 else 1) o.counter).take k := by
        rw [hnk, List.take_append, List.take_of_length_le (by omega)]
        congr 2; omega
      rw [this]; rfl
    · show (if k % D = 0 then 0 else D - k % D) ≤ _
      rw [hD]; split <;> omega
    · show o.counter + BitVec.ofNat 32 (k / D + if k % D = 0 then 0 else 1) = _
      simp only [Spec.pbkdf2More]
      rw [hcnt, r4, ← BitVec.ofNat_add]
    · rw [hdrop, hD]
      show _ = List.drop (D - if k % D = 0 then 0 else D - k % D) buf
      by_cases h0 : k % D = 0
      · simp only [h0, if_true, Nat.add_zero, Nat.sub_zero]
        rw [List.drop_of_length_le (by rw [hch, Nat.mul_comm]; omega), List.drop_of_length_le (by omega)]
      · simp only [h0, if_false]
        rw [hbuf h0, chain_succ, List.drop_append, List.drop_of_length_le (by rw [hch, Nat.mul_comm]; omega), List.nil_append, hch]
        congr 1
        rw [Nat.mul_comm] at hdm
        omega
    · rw [List.length_append, hch]; omega

end Pbkdf2

namespace Hkdf
variable (h : Host) (hc : h.consteval = false) {M : MacImpl} {F : List Byte → List Byte → List Byte} (L : LawfulMac M F)

theorem chain_live (prk info : List Byte) (n : Nat) (prev : List Byte) (i : Nat) :
    chain F prk info n prev (BitVec.ofNat 8 i) = Spec.hkdfChain F prk info n prev i := by
  induction n generalizing prev i with
  | zero => rfl
  | succ n ih =>
    unfold chain Spec.hkdfChain
    rw [← ih, show BitVec.ofNat 8 i + 1 = BitVec.ofNat 8 (i + 1) from (BitVec.ofNat_add ..).symm]
    rfl

theorem last_live (prk info : List Byte) (n : Nat) (prev : List Byte) (c : BitVec 8) :
    (chain F prk info (n + 1) prev c).getLastD [] = lastBlk F prk info (n + 1) prev c := by
  rw [chain_snoc, lastBlk_succ]
  simp

/-- An object at run time: it refers to the caller's buffer of `info`; `s` is the last block and the number of the next. -/
def LiveRep (L : LawfulMac M F) (sizes : Nat → Nat) (m0 : Mem) (a : Args) (o : Obj M) (rest : List Byte) (s : List Byte × Nat) : Prop :=
  Wf L sizes o ∧ o.info = .ref a.info ∧ o.prk = F (val m0 a.salt) (val m0 a.ikm) ∧ o.counter = BitVec.ofNat 8 s.2 ∧ (s.2 % 256 ≠ 1 → o.buffer = s.1) ∧
    rest = o.buffer.drop (M.digestSize - o.bufferSize)

include hc in
def live (hL : M.digestSize < 2 ^ 64) (hpos : 0 < M.digestSize) :
    LiveKdf (impl h M) ([], 1) (fun m0 a m s n =>
      Spec.hkdfMore F M.digestSize (F (val m0 a.salt) (val m0 a.ikm)) (val m a.info) s n) := by
  refine ⟨Wf L, fun sizes m0 a o rest i => LiveRep L sizes m0 a o rest i, ?_, ?_, ?_⟩
  · intro sizes m (o : Obj M) (a : Args) ho hm ha
    obtain ⟨w, wi, wp, wb, ws⟩ := ho
    simp only [impl, List.mem_cons, List.not_mem_nil, or_false, forall_eq_or_imp, forall_eq] at ha
    obtain ⟨h1, h2, h3⟩ := ha
    have ev : ∀ s, View.make h m s = some (.ref s) := fun s => by simp [View.make, hc]
    obtain ⟨s1, e1, r1⟩ := L.init o.hmac (val m a.salt) w (by simp [val]; omega)
    obtain ⟨s2, e2, r2⟩ := L.update s1 _ _ (val m a.ikm) r1 (by simp [val]; omega)
    obtain ⟨s3, e3, f3⟩ := L.finalize s2 _ _ r2
    have e4 := digest_all L s3 _ _ o.prk f3 (by omega)
    rw [List.drop_of_length_le (by omega), List.append_nil, List.nil_append] at e4
    let o1 : Obj M := { o with info := .ref a.info, counter := 1, bufferSize := 0, hmac := s3, prk := F (val m a.salt) (val m a.ikm) }
    have e5 : (impl h M).init o m a = some o1 := by
      simp only [impl, init, ev, read_some sizes m a.salt hm h2.1, read_some sizes m a.ikm hm h1.1, Option.bind_eq_bind, Option.bind_some,
        show List.take a.salt.size (m a.salt.buf) = val m a.salt from rfl, show List.take a.ikm.size (m a.ikm.buf) = val m a.ikm from rfl,
        e1, e2, e3, e4, Option.pure_def]; rfl
    refine ⟨o1, e5, ⟨L.fin_wf _ _ _ f3, h3, L.length _ _, wb, Nat.zero_le _⟩, rfl, rfl, rfl, fun hx => absurd rfl hx, ?_⟩
    show [] = List.drop (M.digestSize - 0) _
    rw [List.drop_of_length_le (by show o.buffer.length ≤ _; omega)]
  · intro sizes m0 (a : Args) (o : Obj M) rest i m dst n hr hm hn hlt
    obtain ⟨⟨w, wi, wp, wb, ws⟩, r1, r2, r3, r4, r5⟩ := hr
    have hlen : rest.length = o.bufferSize := by rw [r5]; simp; omega
    let o1 : Obj M := { o with bufferSize := o.bufferSize - n }
    have e1 : (impl h M).derive o m dst n = some (o1, rest.take n ++ dst.drop n, n) := by
      rw [show (impl h M).derive = derive h M from rfl, derive_done h o wb ws m dst n hn (by omega), ← r5]
    refine ⟨o1, e1, ⟨w, wi, wp, wb, by show o.bufferSize - n ≤ _; omega⟩, r1, r2, r3, r4, ?_⟩
    show _ = List.drop (M.digestSize - (o.bufferSize - n)) o.buffer
    rw [r5, List.drop_drop]
    congr 1
    omega
  · intro sizes m0 (a : Args) (o : Obj M) rest s m dst n hr hm hn hlt
    obtain ⟨⟨w, wi, wp, wb, ws⟩, r1, r2, r3, r4, r5⟩ := hr
    have hlen : rest.length = o.bufferSize := by rw [r5]; simp; omega
    have wi' := wi
    rw [r1] at wi
    have hi : o.info.bytes m = some (val m a.info) := by rw [r1]; exact read_some sizes m _ hm wi.1
    have hil : (val m a.info).length < 2 ^ 64 := by have := wi.2; simp [val]; omega
    obtain ⟨st, e, w'⟩ := derive_more h L hL hpos m _ hil o dst n w wp wb ws hi hn (by omega)
    have r5' : List.drop (M.digestSize - rest.length) o.buffer = rest := by rw [hlen]; exact r5.symm
    rw [← hlen, r5'] at e
    have hk0 : 0 < n - rest.length := by omega
    have hnk : n = rest.length + (n - rest.length) := by omega
    generalize n - rest.length = k at *
    have hdm := Nat.div_add_mod k M.digestSize
    have hml := Nat.mod_lt k hpos
    have hprev : previous M o = if s.2 % 256 = 1 then [] else s.1 := by
      unfold previous
      rw [r3]
      by_cases h1 : s.2 % 256 = 1
      · rw [if_pos h1, if_pos]
        apply BitVec.eq_of_toNat_eq
        rw [BitVec.toNat_ofNat]; exact h1
      · rw [if_neg h1, if_neg, r4 h1]
        intro hx
        have := congrArg BitVec.toNat hx
        rw [BitVec.toNat_ofNat] at this
        exact h1 this
    have hch : ∀ c, ((Spec.hkdfChain F o.prk (val m a.info) c (previous M o) s.2).flatten).length = c * M.digestSize := fun c => by
      rw [← chain_live, chain_flatten_length L]
    have hnew : (Spec.hkdfMore F M.digestSize (F (val m0 a.salt) (val m0 a.ikm)) (val m a.info) s k)
        = ((Spec.hkdfChain F o.prk (val m a.info) (k / M.digestSize + 1) (previous M o) s.2).flatten,
          (lastBlk F o.prk (val m a.info) (k / M.digestSize + 1) (previous M o) o.counter, s.2 + k / M.digestSize + 1)) := by
      unfold Spec.hkdfMore
      rw [← r2, ← hprev, ← last_live, r3, chain_live]
    rw [hnew]
    have hle : k ≤ (k / M.digestSize + 1) * M.digestSize := by rw [Nat.add_mul, Nat.mul_comm]; omega
    let o1 : Obj M := { o with
      hmac := st, bufferSize := M.digestSize - k % M.digestSize, counter := o.counter + BitVec.ofNat 8 (k / M.digestSize + 1)
      buffer := lastBlk F o.prk (val m a.info) (k / M.digestSize + 1) (previous M o) o.counter }
    have hb1 : o1.buffer.length = M.digestSize := lastBlk_length L _ _ _ _ _ (.inl (Nat.succ_pos _))
    refine ⟨o1, Eq.trans e ?_, ⟨⟨w', wi', wp, hb1, Nat.sub_le _ _⟩, r1, r2, ?_, fun _ => rfl, ?_⟩, ?_⟩
    · rw [r3, chain_live, ← r3]
      have : (rest ++ (Spec.hkdfChain F o.prk (val m a.info) (k / M.digestSize + 1) (previous M o) s.2).flatten).take n
          = rest ++ (Spec.hkdfChain F o.prk (val m a.info) (k / M.digestSize + 1) (previous M o) s.2).flatten.take k := by
        rw [hnk, List.take_append, List.take_of_length_le (by omega)]
        congr 2; omega
      rw [this]; rfl
    · show o.counter + BitVec.ofNat 8 (k / M.digestSize + 1) = _
      rw [r3, ← BitVec.ofNat_add]
      congr 1
    · show _ = List.drop (M.digestSize - (M.digestSize - k % M.digestSize)) (lastBlk F o.prk (val m a.info) (k / M.digestSize + 1) (previous M o) o.counter)
      have h2 := hch (k / M.digestSize)
      rw [← chain_live, ← r3] at h2 ⊢
      rw [hnk, List.drop_append, List.drop_of_length_le (by omega), List.nil_append, chain_snoc, ← lastBlk_succ, List.flatten_append, List.drop_append, h2,
        List.drop_of_length_le (by rw [h2, Nat.mul_comm]; omega), List.nil_append]
      simp only [List.flatten_cons, List.flatten_nil, List.append_nil]
      congr 1
      rw [Nat.mul_comm] at hdm
      omega
    · rw [List.length_append, hch]; omega

end Hkdf

end Milo
