import Verif.Proof.HashApie
import Verif.Proof.Memory
import Verif.Model.Kdf
import Verif.Spec.KdfUse
/- What the users of a kdf class may rely on; call sequences on lawful kdfs. -/
namespace Milo
open Memory

theorem read_some (sizes : Nat → Nat) (m : Mem) (s : Span) (hm : Kdf.MemOk sizes m) (hs : s.size ≤ sizes s.buf) :
    s.read m = some ((m s.buf).take s.size) := by
  unfold Span.read
  rw [rdN_some _ _ _ (by rw [hm]; omega), List.drop_zero]

/-- A view is readable in every memory of the given shape; its content has less than `2^64` bytes. -/
def View.Fits (sizes : Nat → Nat) : View → Prop
  | .ref s => s.size ≤ sizes s.buf ∧ s.size < 2 ^ 64
  | .owned b => b.length < 2 ^ 64

theorem View.bytes_some (sizes : Nat → Nat) (m : Mem) (v : View) (hm : Kdf.MemOk sizes m) (hv : v.Fits sizes) :
    ∃ b, v.bytes m = some b ∧ b.length < 2 ^ 64 := by
  cases v with
  | ref s =>
    refine ⟨_, read_some sizes m s hm hv.1, ?_⟩
    have := hv.2
    simp; omega
  | owned b => exact ⟨b, rfl, hv⟩

theorem View.make_some (h : Host) (sizes : Nat → Nat) (m : Mem) (s : Span) (hm : Kdf.MemOk sizes m) (hs : s.size ≤ sizes s.buf ∧ s.size < 2 ^ 64) :
    ∃ v, View.make h m s = some v ∧ v.Fits sizes ∧ v.bytes m = some ((m s.buf).take s.size) ∧
      ∀ m' : Mem, (h.consteval = true ∨ m' s.buf = m s.buf) → v.bytes m' = v.bytes m := by
  have hr := read_some sizes m s hm hs.1
  unfold View.make
  by_cases hc : h.consteval
  · refine ⟨.owned ((m s.buf).take s.size), by rw [if_pos hc, hr]; rfl, ?_, rfl, fun _ _ => rfl⟩
    show (List.take _ _).length < _
    have := hs.2
    simp; omega
  · refine ⟨.ref s, by rw [if_neg hc], hs, hr, fun m' hm' => ?_⟩
    rcases hm' with h1 | h1
    · exact absurd h1 hc
    · simp [View.bytes, Span.read, h1]

/-- `K` yields, after `initialize` with `a`, the stream `stream m a`, reading after `initialize` only the buffers `retained a` (none in constant
evaluation). -/
structure LawfulKdf (h : Host) (K : KdfImpl) (stream : Mem → K.Args → List Byte) (retained : K.Args → List Nat) where
  Wf : (Nat → Nat) → K.σ → Prop
  Rep : (Nat → Nat) → K.Args → Mem → K.σ → List Byte → Prop
  fresh : ∀ sizes, Wf sizes K.fresh
  rep_wf : ∀ sizes a m o s, Rep sizes a m o s → Wf sizes o
  init : ∀ sizes m o a, Wf sizes o → Kdf.MemOk sizes m → (∀ s ∈ K.spans a, s.size ≤ sizes s.buf ∧ s.size < 2 ^ 64) →
    ∃ o', K.init o m a = some o' ∧ Rep sizes a m o' (stream m a)
  rep_mem : ∀ sizes a m m' o s, Rep sizes a m o s → Kdf.MemOk sizes m' → (h.consteval = true ∨ ∀ b ∈ retained a, m' b = m b) → Rep sizes a m' o s
  derive_wf : ∀ sizes m o dst n, Wf sizes o → Kdf.MemOk sizes m → n ≤ dst.length →
    ∃ o' out, K.derive o m dst n = some (o', out, n) ∧ Wf sizes o'
  derive : ∀ sizes a m o s dst n, Rep sizes a m o s → Kdf.MemOk sizes m → n ≤ s.length → n ≤ dst.length →
    ∃ o', K.derive o m dst n = some (o', s.take n ++ dst.drop n, n) ∧ Rep sizes a m o' (s.drop n)

namespace Kdf

theorem run_two (K : KdfImpl) (m : Mem) (a : K.Args) (o : K.σ) (dst1 dst2 : List Byte) (n1 n2 : Nat) (o1 o2 : K.σ) (out1 out2 : List Byte)
    (e : K.init K.fresh m a = some o) (e1 : K.derive o m dst1 n1 = some (o1, out1, n1)) (e2 : K.derive o1 m dst2 n2 = some (o2, out2, n2)) :
    run K m [.init a, .derive (.ptr dst1 n1), .derive (.ptr dst2 n2)] = some ((o2, m), [(out1, n1), (out2, n2)]) := by
  simp [run, runCalls, exec, deriveReq, e, e1, e2]

variable {h : Host} {K : KdfImpl} {stream : Mem → K.Args → List Byte} {retained : K.Args → List Nat} (L : LawfulKdf h K stream retained)
include L

theorem deriveReq_wf (sizes : Nat → Nat) (m : Mem) (o : K.σ) (r : DigestReq) (ho : L.Wf sizes o) (hm : MemOk sizes m)
    (hr : Call.Ok K sizes (.derive r)) : ∃ o' out, deriveReq K o m r = some (o', out) ∧ L.Wf sizes o' := by
  cases r with
  | ptr dst n =>
    obtain ⟨o', out, e, w⟩ := L.derive_wf sizes m o dst n ho hm hr
    exact ⟨o', (out, n), by simp [deriveReq, e], w⟩
  | cont c n =>
    have h1 := HashApie.resize_fits c n
    obtain ⟨o', out, e, w⟩ := L.derive_wf sizes m o (c.resize n).1.data (c.resize n).2 ho hm (by omega)
    refine ⟨o', (out, (c.resize n).2), ?_, w⟩
    simp [deriveReq, e, Container.withData]

theorem deriveReq_eq (sizes : Nat → Nat) (a : K.Args) (m : Mem) (o : K.σ) (s : List Byte) (r : DigestReq) (ho : L.Rep sizes a m o s)
    (hm : MemOk sizes m) (hr : Call.Ok K sizes (.derive r)) (hs : Spec.asked r ≤ s.length) :
    ∃ o', deriveReq K o m r = some (o', Spec.received (s.take (Spec.asked r)) r) ∧ L.Rep sizes a m o' (s.drop (Spec.asked r)) := by
  cases r with
  | ptr dst n =>
    have hs' : n ≤ s.length := hs
    obtain ⟨o', e, w⟩ := L.derive sizes a m o s dst n ho hm hs hr
    refine ⟨o', ?_, w⟩
    simp only [deriveReq, e, Option.bind_eq_bind, Option.bind_some, Option.pure_def, Spec.received, Spec.asked, List.length_take]
    rw [Nat.min_eq_left hs']
  | cont c n =>
    have h1 := HashApie.resize_fits c n
    have h3 : Spec.asked (.cont c n) = (c.resize n).2 := by
      by_cases hd : c.dynamic <;> simp [Spec.asked, Container.resize, hd]
    rw [h3] at hs ⊢
    obtain ⟨o', e, w⟩ := L.derive sizes a m o s (c.resize n).1.data (c.resize n).2 ho hm hs (by omega)
    refine ⟨o', ?_, w⟩
    simp only [deriveReq, e, Option.bind_eq_bind, Option.bind_some, Option.pure_def, Container.withData, Spec.received, List.length_take]
    rw [Nat.min_eq_left hs]
    congr 4
    by_cases hd : c.dynamic
    · rw [if_pos hd]
      simp only [Container.resize, hd, if_true]
      apply List.drop_of_length_le; simp; omega
    · rw [if_neg hd]
      have hdf : c.dynamic = false := by simpa using hd
      simp only [Container.resize, hdf, Bool.false_eq_true, if_false]

theorem exec_wf (sizes : Nat → Nat) (s : K.σ × Mem) (c : Call K.Args) (hs : L.Wf sizes s.1 ∧ MemOk sizes s.2) (hc : c.Ok K sizes) :
    ∃ s' out, exec K s c = some (s', out) ∧ L.Wf sizes s'.1 ∧ MemOk sizes s'.2 ∧ s'.2 = memAfter s.2 [c] := by
  cases c with
  | init a =>
    obtain ⟨o', e, r⟩ := L.init sizes s.2 s.1 a hs.1 hs.2 hc
    exact ⟨(o', s.2), [], by simp [exec, e], L.rep_wf _ _ _ _ _ r, hs.2, rfl⟩
  | poke b content =>
    refine ⟨_, _, rfl, hs.1, ?_, rfl⟩
    intro i
    show (if i = b then content else s.2 i).length = _
    by_cases hi : i = b
    · rw [if_pos hi, hi]; exact hc
    · rw [if_neg hi]; exact hs.2 i
  | derive r =>
    obtain ⟨o', out, e, w⟩ := deriveReq_wf L sizes s.2 s.1 r hs.1 hs.2 hc
    exact ⟨(o', s.2), [out], by simp [exec, e], w, hs.2, rfl⟩

omit L in
theorem memAfter_append {A : Type} (m : Mem) (a b : List (Call A)) : memAfter m (a ++ b) = memAfter (memAfter m a) b := by
  induction a generalizing m with
  | nil => rfl
  | cons c cs ih => cases c <;> simp [memAfter, ih]

theorem runCalls_wf (sizes : Nat → Nat) (s : K.σ × Mem) (cs : List (Call K.Args)) (hs : L.Wf sizes s.1 ∧ MemOk sizes s.2)
    (hc : ∀ c ∈ cs, c.Ok K sizes) :
    ∃ s' outs, runCalls (exec K) s cs = some (s', outs) ∧ L.Wf sizes s'.1 ∧ MemOk sizes s'.2 ∧ s'.2 = memAfter s.2 cs := by
  induction cs generalizing s with
  | nil => exact ⟨s, [], rfl, hs.1, hs.2, rfl⟩
  | cons c cs ih =>
    obtain ⟨s1, out, e1, w1, m1, a1⟩ := exec_wf L sizes s c hs (hc c List.mem_cons_self)
    obtain ⟨s2, outs, e2, w2, m2, a2⟩ := ih s1 ⟨w1, m1⟩ (fun y hy => hc y (List.mem_cons_of_mem _ hy))
    refine ⟨s2, out ++ outs, by simp [runCalls, e1, e2], w2, m2, ?_⟩
    rw [a2, a1, show c :: cs = [c] ++ cs from rfl, memAfter_append]

theorem later_eq (sizes : Nat → Nat) (a : K.Args) (s : List Byte) (st : K.σ × Mem) (cs : List (Call K.Args)) (hr : L.Rep sizes a st.2 st.1 s)
    (hm : MemOk sizes st.2) (hc : ∀ c ∈ cs, c.Ok K sizes) (hl : ∀ c ∈ cs, Later h (retained a) c) (ht : Spec.totalAsked (reqs cs) ≤ s.length) :
    ∃ st', runCalls (exec K) st cs = some (st', Spec.streamed s (reqs cs)) ∧ st'.2 = memAfter st.2 cs := by
  induction cs generalizing st s with
  | nil => exact ⟨st, rfl, rfl⟩
  | cons c cs ih =>
    have hc' := fun y hy => hc y (List.mem_cons_of_mem _ hy)
    have hl' := fun y hy => hl y (List.mem_cons_of_mem _ hy)
    have h1 := hl c List.mem_cons_self
    have h2 := hc c List.mem_cons_self
    cases c with
    | init a => exact absurd h1 id
    | poke b content =>
      obtain ⟨s1, out, e1, -, m1, a1⟩ := exec_wf L sizes st (.poke b content) ⟨L.rep_wf _ _ _ _ _ hr, hm⟩ h2
      simp only [exec, Option.some.injEq, Prod.mk.injEq] at e1
      obtain ⟨rfl, rfl⟩ := e1
      have hr' := L.rep_mem sizes a st.2 (fun i => if i = b then content else st.2 i) st.1 s hr m1 (by
        rcases h1 with h1 | h1
        · exact .inl h1
        · refine .inr fun b' hb' => ?_
          have : b' ≠ b := fun e => h1 (e ▸ hb')
          simp [this])
      obtain ⟨st', e', a'⟩ := ih s (st.1, fun i => if i = b then content else st.2 i) hr' m1 hc' hl' ht
      refine ⟨st', ?_, a'⟩
      simp only [runCalls, exec, Option.bind_eq_bind, Option.bind_some, Option.pure_def, e', List.nil_append]
      rfl
    | derive r =>
      simp only [reqs, Spec.totalAsked, List.map_cons, List.sum_cons] at ht
      obtain ⟨o', e1, r1⟩ := deriveReq_eq L sizes a st.2 st.1 s r hr hm h2 (by omega)
      obtain ⟨st', e', a'⟩ := ih (s.drop (Spec.asked r)) (o', st.2) r1 hm hc' hl' (by simp [Spec.totalAsked]; omega)
      refine ⟨st', ?_, a'⟩
      simp only [runCalls, exec, Option.bind_eq_bind, Option.bind_some, Option.pure_def, e1, e', reqs, Spec.streamed]
      rfl

/-- After any use of the object, `initialize(a)` and later calls. -/
theorem run_eq (sizes : Nat → Nat) (m : Mem) (hm : MemOk sizes m) (pre : List (Call K.Args)) (hpre : ∀ c ∈ pre, c.Ok K sizes) :
    ∃ outs, ∀ (a : K.Args), Call.Ok K sizes (.init a) → ∀ (cs : List (Call K.Args)), (∀ c ∈ cs, c.Ok K sizes) →
      (∀ c ∈ cs, Later h (retained a) c) → Spec.totalAsked (reqs cs) ≤ (stream (memAfter m pre) a).length →
      ∃ st, run K m (pre ++ [.init a] ++ cs) = some (st, outs ++ Spec.streamed (stream (memAfter m pre) a) (reqs cs)) := by
  obtain ⟨s0, outs, e0, w0, m0, a0⟩ := runCalls_wf L sizes (K.fresh, m) pre ⟨L.fresh sizes, hm⟩ hpre
  refine ⟨outs, fun a ha cs hc hl ht => ?_⟩
  obtain ⟨o1, e1, r1⟩ := L.init sizes s0.2 s0.1 a w0 m0 ha
  rw [a0] at r1
  rw [← show s0.2 = memAfter m pre from a0] at r1 ht ⊢
  obtain ⟨st, e2, -⟩ := later_eq L sizes a _ (o1, s0.2) cs r1 m0 hc hl ht
  refine ⟨st, ?_⟩
  have ei : runCalls (exec K) s0 [.init a] = some ((o1, s0.2), []) := by simp [runCalls, exec, e1]
  unfold run
  rw [runCalls_append, runCalls_append, e0]
  simp only [Option.bind_some, ei, Option.map_some, e2, List.append_nil]

omit L in
theorem reqs_map {A : Type} (rs : List DigestReq) : reqs (rs.map (Call.derive (A := A))) = rs := by
  induction rs with
  | nil => rfl
  | cons r rs ih => simp [reqs, ih]

/-- `run_eq` for calls that only derive. -/
theorem run_derives (sizes : Nat → Nat) (m : Mem) (hm : MemOk sizes m) (pre : List (Call K.Args)) (hpre : ∀ c ∈ pre, c.Ok K sizes) :
    ∃ outs, ∀ (a : K.Args), Call.Ok K sizes (.init a) → ∀ (rs : List DigestReq), (∀ r ∈ rs, Call.Ok K sizes (.derive r)) →
      Spec.totalAsked rs ≤ (stream (memAfter m pre) a).length →
      ∃ st, run K m (pre ++ [.init a] ++ rs.map .derive) = some (st, outs ++ Spec.streamed (stream (memAfter m pre) a) rs) := by
  obtain ⟨outs, hr⟩ := run_eq L sizes m hm pre hpre
  refine ⟨outs, fun a ha rs hrs ht => ?_⟩
  have := hr a ha (rs.map .derive)
    (fun c hc => by obtain ⟨r, hr, rfl⟩ := List.mem_map.mp hc; exact hrs r hr)
    (fun c hc => by obtain ⟨r, hr, rfl⟩ := List.mem_map.mp hc; trivial)
  rw [reqs_map] at this
  exact this ht

/-- A fresh object: `initialize(a)` and later calls. -/
theorem run_fresh (sizes : Nat → Nat) (m : Mem) (hm : MemOk sizes m) (a : K.Args) (ha : Call.Ok K sizes (.init a)) (cs : List (Call K.Args))
    (hc : ∀ c ∈ cs, c.Ok K sizes) (hl : ∀ c ∈ cs, Later h (retained a) c) (ht : Spec.totalAsked (reqs cs) ≤ (stream m a).length) :
    ∃ st, run K m (.init a :: cs) = some (st, Spec.streamed (stream m a) (reqs cs)) := by
  obtain ⟨o1, e1, r1⟩ := L.init sizes m K.fresh a (L.fresh sizes) hm ha
  obtain ⟨st, e2, -⟩ := later_eq L sizes a _ (o1, m) cs r1 hm hc hl ht
  refine ⟨st, ?_⟩
  simp only [run, runCalls, exec, e1, Option.bind_eq_bind, Option.bind_some, Option.pure_def, e2, List.nil_append]

theorem run_fresh_derives (sizes : Nat → Nat) (m : Mem) (hm : MemOk sizes m) (a : K.Args) (ha : Call.Ok K sizes (.init a)) (rs : List DigestReq)
    (hrs : ∀ r ∈ rs, Call.Ok K sizes (.derive r)) (ht : Spec.totalAsked rs ≤ (stream m a).length) :
    ∃ st, run K m (.init a :: rs.map .derive) = some (st, Spec.streamed (stream m a) rs) := by
  have := run_fresh L sizes m hm a ha (rs.map .derive)
    (fun c hc => by obtain ⟨r, hr, rfl⟩ := List.mem_map.mp hc; exact hrs r hr)
    (fun c hc => by obtain ⟨r, hr, rfl⟩ := List.mem_map.mp hc; trivial)
  rw [reqs_map] at this
  exact this ht

theorem oneshots (sizes : Nat → Nat) (m : Mem) (hm : MemOk sizes m) (a : K.Args) (ha : Call.Ok K sizes (.init a)) :
    (∀ dst n, n ≤ dst.length → n ≤ (stream m a).length → oneshot K m a dst n = some (Spec.received ((stream m a).take n) (.ptr dst n))) ∧
    (∀ c n, Spec.asked (.cont c n) ≤ (stream m a).length →
      oneshotC K m a c n = some (Spec.received ((stream m a).take (Spec.asked (.cont c n))) (.cont c n))) ∧
    (∀ n, n ≤ (stream m a).length → oneshotDynamic K m a n = some ⟨true, (stream m a).take n⟩) ∧
    (∀ init : List Byte, init.length ≤ (stream m a).length → oneshotStatic K m a init = some ⟨false, (stream m a).take init.length⟩) := by
  obtain ⟨o, e, r⟩ := L.init sizes m _ a (L.fresh sizes) hm ha
  have hc : ∀ c n, Spec.asked (.cont c n) ≤ (stream m a).length →
      oneshotC K m a c n = some (Spec.received ((stream m a).take (Spec.asked (.cont c n))) (.cont c n)) := by
    intro c n hn
    obtain ⟨o', e', -⟩ := deriveReq_eq L sizes a m o _ (.cont c n) r hm trivial hn
    simp only [oneshotC, e, e', Option.bind_eq_bind, Option.bind_some, Option.pure_def]
  refine ⟨?_, hc, ?_, ?_⟩
  · intro dst n hn hs
    obtain ⟨o', e', -⟩ := deriveReq_eq L sizes a m o _ (.ptr dst n) r hm hn hs
    simp only [oneshot, e, e', Option.bind_eq_bind, Option.bind_some, Option.pure_def, Spec.asked]
  · intro n hn
    simp only [oneshotDynamic, hc ⟨true, []⟩ n hn, Option.bind_eq_bind, Option.bind_some, Option.pure_def, Spec.received, Spec.asked, if_true,
      List.append_nil]
  · intro init hn
    have hn' : Spec.asked (.cont ⟨false, init⟩ init.length) = init.length := by simp [Spec.asked]
    simp only [oneshotStatic, hc ⟨false, init⟩ init.length (by omega), Option.bind_eq_bind, Option.bind_some, Option.pure_def, Spec.received, hn']
    simp; omega

end Kdf
end Milo
