import Verif.Proof.Lawful
import Verif.Model.HashApie
import Verif.Spec.Output
/- Call sequences on lawful hashes. -/
namespace Milo

theorem runCalls_append {σ C O : Type} (exec : σ → C → Option (σ × List O)) (o : σ) (a b : List C) :
    runCalls exec o (a ++ b) = (runCalls exec o a).bind fun r => (runCalls exec r.1 b).map fun s => (s.1, r.2 ++ s.2) := by
  induction a generalizing o with
  | nil =>
    simp only [List.nil_append, runCalls, Option.bind_some, List.nil_append]
    cases runCalls exec o b <;> rfl
  | cons c cs ih =>
    simp only [List.cons_append, runCalls, Option.bind_eq_bind, Option.pure_def]
    cases hx : exec o c with
    | none => rfl
    | some r =>
      simp only [Option.bind_some]
      rw [ih]
      cases hr : runCalls exec r.1 cs with
      | none => rfl
      | some s =>
        simp only [Option.bind_some]
        cases runCalls exec s.1 b with
        | none => rfl
        | some t => simp [List.append_assoc]

/-- A sequence of calls preserving an invariant is defined. -/
theorem runCalls_inv {σ C O : Type} (exec : σ → C → Option (σ × List O)) (I : σ → Prop) (ok : C → Prop)
    (h : ∀ o c, I o → ok c → ∃ o' out, exec o c = some (o', out) ∧ I o') (cs : List C) (hok : ∀ c ∈ cs, ok c) (o : σ) (ho : I o) :
    ∃ o' outs, runCalls exec o cs = some (o', outs) ∧ I o' := by
  induction cs generalizing o with
  | nil => exact ⟨o, [], rfl, ho⟩
  | cons c cs ih =>
    obtain ⟨o1, out, e1, h1⟩ := h o c ho (hok c List.mem_cons_self)
    obtain ⟨o2, outs, e2, h2⟩ := ih (fun c hc => hok c (List.mem_cons_of_mem _ hc)) o1 h1
    refine ⟨o2, out ++ outs, ?_, h2⟩
    simp only [runCalls, e1, e2, Option.bind_eq_bind, Option.bind_some, Option.pure_def]

namespace Hash

variable {H : HashImpl} {F : List Byte → List Byte} (L : Lawful H F)
include L

theorem exec_wf (o : H.σ) (c : Call) (ho : L.Wf o) (hc : c.Ok H.digestSize) : ∃ o' out, exec H o c = some (o', out) ∧ L.Wf o' := by
  cases c with
  | init => exact ⟨_, _, rfl, L.rep_wf _ _ (L.init o ho)⟩
  | update x =>
    obtain ⟨o', e, w⟩ := L.update_wf o x ho
    exact ⟨o', [], by simp [exec, e], w⟩
  | finalize =>
    obtain ⟨o', e, w⟩ := L.finalize_wf o ho
    exact ⟨o', [], by simp [exec, e], w⟩
  | digest dst n =>
    obtain ⟨out, e, -⟩ := L.digest_wf o dst n ho hc
    exact ⟨o, [(out, min n H.digestSize)], by simp [exec, e], ho⟩

theorem run_wf (cs : List Call) (hc : ∀ c ∈ cs, c.Ok H.digestSize) : ∃ o outs, run H cs = some (o, outs) ∧ L.Wf o :=
  runCalls_inv _ L.Wf (Call.Ok H.digestSize) (exec_wf L) cs hc _ L.fresh

theorem updates (o : H.σ) (m : List Byte) (hr : L.Rep o m) (xs : List (List Byte)) (hx : ∀ x ∈ xs, x.length < 2 ^ 64) :
    ∃ o', runCalls (exec H) o (xs.map .update) = some (o', []) ∧ L.Rep o' (m ++ xs.flatten) := by
  induction xs generalizing o m with
  | nil => exact ⟨o, rfl, by simpa using hr⟩
  | cons x xs ih =>
    obtain ⟨o1, e1, r1⟩ := L.update o m x hr (hx x List.mem_cons_self)
    obtain ⟨o2, e2, r2⟩ := ih o1 _ r1 (fun y hy => hx y (List.mem_cons_of_mem _ hy))
    refine ⟨o2, ?_, by simpa [List.append_assoc] using r2⟩
    simp [runCalls, exec, e1, e2]

theorem digests (o : H.σ) (m : List Byte) (hf : L.Fin o m) (ds : List (List Byte × Nat)) (hd : ∀ d ∈ ds, min d.2 H.digestSize ≤ d.1.length) :
    runCalls (exec H) o (ds.map fun d => .digest d.1 d.2)
      = some (o, ds.map fun d => Spec.written (F m) d.1 d.2) := by
  have ht : ∀ n, (F m).take (min n H.digestSize) = (F m).take n := by
    intro n
    rw [← L.length m]
    by_cases hc : n ≤ (F m).length
    · rw [Nat.min_eq_left hc]
    · rw [Nat.min_eq_right (by omega), List.take_of_length_le (Nat.le_refl _), List.take_of_length_le (by omega)]
  induction ds with
  | nil => rfl
  | cons d ds ih =>
    have e := L.digest o m d.1 d.2 hf (hd d List.mem_cons_self)
    rw [ht] at e
    simp [runCalls, exec, e, Spec.written, L.length, ih (fun y hy => hd y (List.mem_cons_of_mem _ hy))]

/-- The digests of a message, after any earlier use of the object. -/
theorem run_eq (pre : List Call) (hpre : ∀ c ∈ pre, c.Ok H.digestSize) (xs : List (List Byte)) (hx : ∀ x ∈ xs, x.length < 2 ^ 64)
    (ds : List (List Byte × Nat)) (hd : ∀ d ∈ ds, min d.2 H.digestSize ≤ d.1.length) :
    ∃ o outs, run H (pre ++ [.init] ++ xs.map .update ++ [.finalize] ++ ds.map fun d => .digest d.1 d.2)
      = some (o, outs ++ ds.map fun d => Spec.written (F xs.flatten) d.1 d.2) := by
  obtain ⟨o0, outs, e0, w0⟩ := run_wf L pre hpre
  obtain ⟨o1, e1, r1⟩ := updates L (H.init o0) [] (L.init o0 w0) xs hx
  obtain ⟨o2, e2, f2⟩ := L.finalize o1 _ r1
  have e3 := digests L o2 _ f2 ds hd
  refine ⟨o2, outs, ?_⟩
  unfold run at e0 ⊢
  rw [runCalls_append, runCalls_append, runCalls_append, runCalls_append, e0]
  have ei : runCalls (exec H) o0 [.init] = some (H.init o0, []) := rfl
  have ef : runCalls (exec H) o1 [.finalize] = some (o2, []) := by simp [runCalls, exec, e2]
  simp only [Option.bind_some, ei, Option.map_some, e1, ef, e3, List.append_nil, List.nil_append]

end Hash

namespace HashApie

variable {H : HashImpl} {F : List Byte → List Byte} (L : Lawful H F)

theorem resize_fits (c : Container) (n : Nat) : (c.resize n).2 ≤ (c.resize n).1.data.length := by
  unfold Container.resize; split <;> simp <;> omega

theorem resize_le (c : Container) (n : Nat) : (c.resize n).2 ≤ n := by
  unfold Container.resize; split <;> simp; omega

include L

theorem doFinalize_wf (o : Obj H) (ho : L.Wf o.impl) : ∃ o', doFinalize H o = some o' ∧ L.Wf o'.impl ∧ o'.finalized = true := by
  unfold doFinalize
  by_cases hf : o.finalized
  · exact ⟨o, by simp [hf], ho, hf⟩
  · obtain ⟨i, e, w⟩ := L.finalize_wf o.impl ho
    exact ⟨⟨i, true⟩, by simp [hf, e], w, rfl⟩

theorem digest_wf (o : Obj H) (ho : L.Wf o.impl) (dst : List Byte) (n : Nat) (hn : min n H.digestSize ≤ dst.length) :
    ∃ o' out, digest H o dst n = some (o', out) ∧ L.Wf o'.impl := by
  obtain ⟨o', e, w, -⟩ := doFinalize_wf L o ho
  obtain ⟨out, ed, -⟩ := L.digest_wf o'.impl dst n w hn
  exact ⟨o', _, by simp [digest, e, ed]; rfl, w⟩

theorem exec_wf (o : Obj H) (c : Call) (ho : L.Wf o.impl) (hc : c.Ok H.digestSize) :
    ∃ o' out, exec H o c = some (o', out) ∧ L.Wf o'.impl := by
  cases c with
  | init => exact ⟨_, _, rfl, L.rep_wf _ _ (L.init o.impl ho)⟩
  | update x =>
    obtain ⟨i, e, w⟩ := L.update_wf o.impl x ho
    exact ⟨{ o with impl := i }, [], by simp [exec, update, e], w⟩
  | digest dst n =>
    obtain ⟨o', out, e, w⟩ := digest_wf L o ho dst n hc
    exact ⟨o', [out], by simp [exec, e], w⟩
  | digestC c n =>
    obtain ⟨o1, e1, w1, -⟩ := doFinalize_wf L o ho
    have h1 := resize_fits c (min n H.digestSize)
    obtain ⟨o2, out, e2, w2⟩ := digest_wf L o1 w1 (c.resize (min n H.digestSize)).1.data (c.resize (min n H.digestSize)).2 (by omega)
    exact ⟨o2, _, by simp [exec, digestC, e1, e2]; rfl, w2⟩

theorem run_wf (u : Bool) (cs : List Call) (hc : ∀ c ∈ cs, c.Ok H.digestSize) :
    ∃ o outs, run H u cs = some (o, outs) ∧ L.Wf o.impl :=
  runCalls_inv _ (fun o : Obj H => L.Wf o.impl) (Call.Ok H.digestSize) (exec_wf L) cs hc _ (L.rep_wf _ _ (L.init _ L.fresh))

theorem updates (o : Obj H) (m : List Byte) (hr : L.Rep o.impl m) (hf : o.finalized = false) (xs : List (List Byte))
    (hx : ∀ x ∈ xs, x.length < 2 ^ 64) :
    ∃ o', runCalls (exec H) o (xs.map .update) = some (o', []) ∧ L.Rep o'.impl (m ++ xs.flatten) ∧ o'.finalized = false := by
  induction xs generalizing o m with
  | nil => exact ⟨o, rfl, by simpa using hr, hf⟩
  | cons x xs ih =>
    obtain ⟨i, e1, r1⟩ := L.update o.impl m x hr (hx x List.mem_cons_self)
    obtain ⟨o2, e2, r2, f2⟩ := ih { o with impl := i } _ r1 hf (fun y hy => hx y (List.mem_cons_of_mem _ hy))
    refine ⟨o2, ?_, by simpa [List.append_assoc] using r2, f2⟩
    simp [runCalls, exec, update, e1, e2]

/-- Not yet finalized with `m` absorbed, or finalized over `m`. -/
def Holds (o : Obj H) (m : List Byte) : Prop := (o.finalized = false ∧ L.Rep o.impl m) ∨ (o.finalized = true ∧ L.Fin o.impl m)

theorem doFinalize_holds (o : Obj H) (m : List Byte) (ho : Holds L o m) :
    ∃ o', doFinalize H o = some o' ∧ o'.finalized = true ∧ L.Fin o'.impl m := by
  rcases ho with ⟨hf, hr⟩ | ⟨hf, hr⟩
  · obtain ⟨i, e, f⟩ := L.finalize o.impl m hr
    exact ⟨⟨i, true⟩, by simp [doFinalize, hf, e], rfl, f⟩
  · exact ⟨o, by simp [doFinalize, hf], hf, hr⟩

theorem take_min (m : List Byte) (n : Nat) : (F m).take (min n H.digestSize) = (F m).take n := by
  rw [← L.length m]
  by_cases hc : n ≤ (F m).length
  · rw [Nat.min_eq_left hc]
  · rw [Nat.min_eq_right (by omega), List.take_of_length_le (Nat.le_refl _), List.take_of_length_le (by omega)]

theorem digest_holds (o : Obj H) (m : List Byte) (ho : Holds L o m) (dst : List Byte) (n : Nat) (hn : min n H.digestSize ≤ dst.length) :
    ∃ o', digest H o dst n = some (o', Spec.written (F m) dst n) ∧ Holds L o' m := by
  obtain ⟨o', e, hf, f⟩ := doFinalize_holds L o m ho
  have ed := L.digest o'.impl m dst n f hn
  rw [take_min L] at ed
  exact ⟨o', by simp [digest, e, ed, Spec.written, L.length], .inr ⟨hf, f⟩⟩

theorem digestC_holds (o : Obj H) (m : List Byte) (ho : Holds L o m) (c : Container) (n : Nat) :
    ∃ o', digestC H o c n = some (o', Spec.contained (F m) c n) ∧ Holds L o' m := by
  obtain ⟨o1, e1, hf, f1⟩ := doFinalize_holds L o m ho
  have h1 := resize_fits c (min n H.digestSize)
  have h2 := resize_le c (min n H.digestSize)
  have h3 := h2
  obtain ⟨o2, e2, w2⟩ := digest_holds L o1 m (.inr ⟨hf, f1⟩) (c.resize (min n H.digestSize)).1.data (c.resize (min n H.digestSize)).2 (by omega)
  refine ⟨o2, ?_, w2⟩
  simp only [digestC, e1, e2, Option.bind_eq_bind, Option.bind_some, Option.pure_def]
  congr 2
  have hl := L.length m
  unfold Spec.contained Spec.written
  rw [hl]
  by_cases hd : c.dynamic
  · simp only [Container.resize, hd, if_true, Container.withData]
    rw [List.drop_of_length_le (by simp; omega), List.append_nil, take_min L, Nat.min_assoc, Nat.min_self]
  · have hdf : c.dynamic = false := by simpa using hd
    simp only [Container.resize, Container.withData, hdf, Bool.false_eq_true, if_false]
    have e : (F m).take (min (min n H.digestSize) c.data.length) = (F m).take (min n c.data.length) := by
      rw [show min (min n H.digestSize) c.data.length = min (min n c.data.length) H.digestSize by omega, take_min L]
    rw [e, show min (min (min n H.digestSize) c.data.length) H.digestSize = min (min n c.data.length) H.digestSize by omega]

theorem digests (o : Obj H) (m : List Byte) (ho : Holds L o m) (ds : List DigestReq) (hd : ∀ d ∈ ds, d.Ok H.digestSize) :
    ∃ o', runCalls (exec H) o (ds.map ofReq) = some (o', ds.map (Spec.extracted (F m))) := by
  induction ds generalizing o with
  | nil => exact ⟨o, rfl⟩
  | cons d ds ih =>
    have hd1 := hd d List.mem_cons_self
    have h1 : ∃ o', exec H o (ofReq d) = some (o', [Spec.extracted (F m) d]) ∧ Holds L o' m := by
      cases d with
      | ptr dst n =>
        obtain ⟨o', e, h⟩ := digest_holds L o m ho dst n hd1
        exact ⟨o', by simp [ofReq, exec, e, Spec.extracted], h⟩
      | cont c n =>
        obtain ⟨o', e, h⟩ := digestC_holds L o m ho c n
        exact ⟨o', by simp [ofReq, exec, e, Spec.extracted], h⟩
    obtain ⟨o1, e1, h1⟩ := h1
    obtain ⟨o2, e2⟩ := ih o1 h1 (fun y hy => hd y (List.mem_cons_of_mem _ hy))
    exact ⟨o2, by simp [runCalls, e1, e2]⟩

/-- After construction, or after any calls and `initialize`. -/
theorem run_eq (u : Bool) (pre : List Call) (hpre : ∀ c ∈ pre, c.Ok H.digestSize) (hi : pre = [] ∨ pre.getLast? = some .init)
    (xs : List (List Byte)) (hx : ∀ x ∈ xs, x.length < 2 ^ 64) (ds : List DigestReq) (hd : ∀ d ∈ ds, d.Ok H.digestSize) :
    ∃ o outs, run H u (pre ++ xs.map .update ++ ds.map ofReq) = some (o, outs ++ ds.map (Spec.extracted (F xs.flatten))) := by
  have h0 : ∃ o outs, run H u pre = some (o, outs) ∧ L.Rep o.impl [] ∧ o.finalized = false := by
    rcases hi with rfl | hi
    · exact ⟨_, [], rfl, L.init _ L.fresh, rfl⟩
    · obtain ⟨pre', rfl⟩ := List.getLast?_eq_some_iff.mp hi
      obtain ⟨o, outs, e, w⟩ := run_wf L u pre' (fun c hc => hpre c (by simp [hc]))
      refine ⟨initialise H o, outs, ?_, L.init _ w, rfl⟩
      unfold run at e ⊢
      rw [runCalls_append, e]
      have ei : runCalls (exec H) o [.init] = some (initialise H o, []) := rfl
      simp only [Option.bind_some, ei, Option.map_some, List.append_nil]
  obtain ⟨o0, outs, e0, r0, f0⟩ := h0
  obtain ⟨o1, e1, r1, f1⟩ := updates L o0 [] r0 f0 xs hx
  obtain ⟨o2, e2⟩ := digests L o1 _ (.inl ⟨f1, r1⟩) ds hd
  refine ⟨o2, outs, ?_⟩
  unfold run at e0 ⊢
  rw [runCalls_append, runCalls_append, e0]
  simp only [Option.bind_some, Option.map_some, e1, e2, List.append_nil, List.nil_append]

end HashApie

end Milo
