import Verif.Proof.HashApie
import Verif.Model.MacImpl
/- What the users of a mac class may rely on; call sequences on lawful macs. -/
namespace Milo

/-- `M` computes the keyed function `F`. -/
structure LawfulMac (M : MacImpl) (F : List Byte → List Byte → List Byte) where
  Wf : M.σ → Prop
  Rep : M.σ → List Byte → List Byte → Prop
  Fin : M.σ → List Byte → List Byte → Prop
  fresh : Wf M.fresh
  rep_wf : ∀ o k m, Rep o k m → Wf o
  fin_wf : ∀ o k m, Fin o k m → Wf o
  init : ∀ o k, Wf o → k.length < 2 ^ 64 → ∃ o', M.init o k = some o' ∧ Rep o' k []
  update_wf : ∀ o x, Wf o → ∃ o', M.update o x = some o' ∧ Wf o'
  update : ∀ o k m x, Rep o k m → x.length < 2 ^ 64 → ∃ o', M.update o x = some o' ∧ Rep o' k (m ++ x)
  finalize_wf : ∀ o, Wf o → ∃ o', M.finalize o = some o' ∧ Wf o'
  finalize : ∀ o k m, Rep o k m → ∃ o', M.finalize o = some o' ∧ Fin o' k m
  digest_wf : ∀ o dst n, Wf o → min n M.digestSize ≤ dst.length →
    ∃ out, M.digest o dst n = some (out, min n M.digestSize) ∧ out.length = dst.length
  digest : ∀ o k m dst n, Fin o k m → min n M.digestSize ≤ dst.length →
    M.digest o dst n = some ((F k m).take (min n M.digestSize) ++ dst.drop (min n M.digestSize), min n M.digestSize)
  length : ∀ k m, (F k m).length = M.digestSize

namespace Mac

variable {M : MacImpl} {F : List Byte → List Byte → List Byte} (L : LawfulMac M F)
include L

theorem take_min (k m : List Byte) (n : Nat) : (F k m).take (min n M.digestSize) = (F k m).take n := by
  rw [← L.length k m]
  by_cases hc : n ≤ (F k m).length
  · rw [Nat.min_eq_left hc]
  · rw [Nat.min_eq_right (by omega), List.take_of_length_le (Nat.le_refl _), List.take_of_length_le (by omega)]

theorem digest_written (o : M.σ) (k m dst : List Byte) (n : Nat) (hf : L.Fin o k m) (hn : min n M.digestSize ≤ dst.length) :
    M.digest o dst n = some (Spec.written (F k m) dst n) := by
  rw [L.digest o k m dst n hf hn, take_min L]
  simp [Spec.written, L.length]

theorem exec_wf (o : M.σ) (c : Call) (ho : L.Wf o) (hc : c.Ok M.digestSize) : ∃ o' out, exec M o c = some (o', out) ∧ L.Wf o' := by
  cases c with
  | init k =>
    obtain ⟨o', e, r⟩ := L.init o k ho hc
    exact ⟨o', [], by simp [exec, e], L.rep_wf _ _ _ r⟩
  | update x =>
    obtain ⟨o', e, w⟩ := L.update_wf o x ho
    exact ⟨o', [], by simp [exec, e], w⟩
  | finalize =>
    obtain ⟨o', e, w⟩ := L.finalize_wf o ho
    exact ⟨o', [], by simp [exec, e], w⟩
  | digest dst n =>
    obtain ⟨out, e, -⟩ := L.digest_wf o dst n ho hc
    exact ⟨o, [(out, min n M.digestSize)], by simp [exec, e], ho⟩

theorem run_wf (cs : List Call) (hc : ∀ c ∈ cs, c.Ok M.digestSize) : ∃ o outs, run M cs = some (o, outs) ∧ L.Wf o :=
  runCalls_inv _ L.Wf (Call.Ok M.digestSize) (exec_wf L) cs hc _ L.fresh

theorem updates (o : M.σ) (k m : List Byte) (hr : L.Rep o k m) (xs : List (List Byte)) (hx : ∀ x ∈ xs, x.length < 2 ^ 64) :
    ∃ o', runCalls (exec M) o (xs.map .update) = some (o', []) ∧ L.Rep o' k (m ++ xs.flatten) := by
  induction xs generalizing o m with
  | nil => exact ⟨o, rfl, by simpa using hr⟩
  | cons x xs ih =>
    obtain ⟨o1, e1, r1⟩ := L.update o k m x hr (hx x List.mem_cons_self)
    obtain ⟨o2, e2, r2⟩ := ih o1 _ r1 (fun y hy => hx y (List.mem_cons_of_mem _ hy))
    refine ⟨o2, ?_, by simpa [List.append_assoc] using r2⟩
    simp [runCalls, exec, e1, e2]

theorem digests (o : M.σ) (k m : List Byte) (hf : L.Fin o k m) (ds : List (List Byte × Nat))
    (hd : ∀ d ∈ ds, min d.2 M.digestSize ≤ d.1.length) :
    runCalls (exec M) o (ds.map fun d => .digest d.1 d.2) = some (o, ds.map fun d => Spec.written (F k m) d.1 d.2) := by
  induction ds with
  | nil => rfl
  | cons d ds ih =>
    have e := digest_written L o k m d.1 d.2 hf (hd d List.mem_cons_self)
    simp [runCalls, exec, e, ih (fun y hy => hd y (List.mem_cons_of_mem _ hy))]

/-- The outputs after `pre` do not depend on anything else. -/
theorem run_eq' (pre : List Call) (hpre : ∀ c ∈ pre, c.Ok M.digestSize) :
    ∃ outs, ∀ (k : List Byte), k.length < 2 ^ 64 → ∀ (xs : List (List Byte)), (∀ x ∈ xs, x.length < 2 ^ 64) →
    ∀ (ds : List (List Byte × Nat)), (∀ d ∈ ds, min d.2 M.digestSize ≤ d.1.length) →
    ∃ o, run M (pre ++ [.init k] ++ xs.map .update ++ [.finalize] ++ ds.map fun d => .digest d.1 d.2)
      = some (o, outs ++ ds.map fun d => Spec.written (F k xs.flatten) d.1 d.2) := by
  obtain ⟨o0, outs, e0, w0⟩ := run_wf L pre hpre
  refine ⟨outs, fun k hk xs hx ds hd => ?_⟩
  obtain ⟨o0', ei, r0⟩ := L.init o0 k w0 hk
  obtain ⟨o1, e1, r1⟩ := updates L o0' k [] r0 xs hx
  obtain ⟨o2, e2, f2⟩ := L.finalize o1 _ _ r1
  have e3 := digests L o2 _ _ f2 ds hd
  refine ⟨o2, ?_⟩
  unfold run at e0 ⊢
  rw [runCalls_append, runCalls_append, runCalls_append, runCalls_append, e0]
  have ei : runCalls (exec M) o0 [.init k] = some (o0', []) := by simp [runCalls, exec, ei]
  have ef : runCalls (exec M) o1 [.finalize] = some (o2, []) := by simp [runCalls, exec, e2]
  simp only [Option.bind_some, ei, Option.map_some, e1, ef, e3, List.append_nil, List.nil_append]

end Mac

namespace MacApie

variable {M : MacImpl} {F : List Byte → List Byte → List Byte} (L : LawfulMac M F)
include L

/-- What holds of every object that has been initialised. -/
def Good (o : Obj M) : Prop := L.Wf o.impl ∧ o.finalized ≠ none

theorem doFinalize_good (o : Obj M) (ho : Good L o) : ∃ o', doFinalize M o = some o' ∧ Good L o' := by
  obtain ⟨w, hf⟩ := ho
  unfold doFinalize
  cases e : o.finalized with
  | none => exact absurd e hf
  | some b =>
    cases b with
    | true => exact ⟨o, rfl, w, hf⟩
    | false =>
      obtain ⟨i, e, w⟩ := L.finalize_wf o.impl w
      exact ⟨⟨i, some true⟩, by simp [e], w, by simp⟩

theorem digest_good (o : Obj M) (ho : Good L o) (dst : List Byte) (n : Nat) (hn : min n M.digestSize ≤ dst.length) :
    ∃ o' out, digest M o dst n = some (o', out) ∧ Good L o' := by
  obtain ⟨o', e, w⟩ := doFinalize_good L o ho
  obtain ⟨out, ed, -⟩ := L.digest_wf o'.impl dst n w.1 hn
  exact ⟨o', _, by simp [digest, e, ed]; rfl, w⟩

theorem init_rep (o : Obj M) (k : List Byte) (ho : L.Wf o.impl) (hk : k.length < 2 ^ 64) :
    ∃ o', initialise M o k = some o' ∧ L.Rep o'.impl k [] ∧ o'.finalized = some false := by
  obtain ⟨i, e, r⟩ := L.init o.impl k ho hk
  exact ⟨⟨i, some false⟩, by simp [initialise, e], r, rfl⟩

theorem exec_good (o : Obj M) (c : Call) (ho : Good L o) (hc : c.Ok M.digestSize) :
    ∃ o' out, exec M o c = some (o', out) ∧ Good L o' := by
  cases c with
  | init k =>
    obtain ⟨o', e, r, f⟩ := init_rep L o k ho.1 hc
    exact ⟨o', [], by simp [exec, e], L.rep_wf _ _ _ r, by simp [f]⟩
  | update x =>
    obtain ⟨i, e, w⟩ := L.update_wf o.impl x ho.1
    exact ⟨{ o with impl := i }, [], by simp [exec, update, e], w, ho.2⟩
  | digest dst n =>
    obtain ⟨o', out, e, w⟩ := digest_good L o ho dst n hc
    exact ⟨o', [out], by simp [exec, e], w⟩
  | digestC c n =>
    obtain ⟨o1, e1, w1⟩ := doFinalize_good L o ho
    have h1 := HashApie.resize_fits c (min n M.digestSize)
    obtain ⟨o2, out, e2, w2⟩ := digest_good L o1 w1 (c.resize (min n M.digestSize)).1.data (c.resize (min n M.digestSize)).2 (by omega)
    exact ⟨o2, _, by simp [exec, digestC, e1, e2]; rfl, w2⟩

theorem run_good (k : List Byte) (hk : k.length < 2 ^ 64) (cs : List Call) (hc : ∀ c ∈ cs, c.Ok M.digestSize) :
    ∃ o outs, run M k cs = some (o, outs) ∧ Good L o := by
  obtain ⟨o', e, r, f⟩ := init_rep L (constructDefault M) k L.fresh hk
  obtain ⟨o, outs, er, g⟩ := runCalls_inv (exec M) (Good L) (Call.Ok M.digestSize) (exec_good L) cs hc o' ⟨L.rep_wf _ _ _ r, by simp [f]⟩
  exact ⟨o, outs, by simp [run, construct, e, er], g⟩

theorem updates (o : Obj M) (k m : List Byte) (hr : L.Rep o.impl k m) (hf : o.finalized = some false) (xs : List (List Byte))
    (hx : ∀ x ∈ xs, x.length < 2 ^ 64) :
    ∃ o', runCalls (exec M) o (xs.map .update) = some (o', []) ∧ L.Rep o'.impl k (m ++ xs.flatten) ∧ o'.finalized = some false := by
  induction xs generalizing o m with
  | nil => exact ⟨o, rfl, by simpa using hr, hf⟩
  | cons x xs ih =>
    obtain ⟨i, e1, r1⟩ := L.update o.impl k m x hr (hx x List.mem_cons_self)
    obtain ⟨o2, e2, r2, f2⟩ := ih { o with impl := i } _ r1 hf (fun y hy => hx y (List.mem_cons_of_mem _ hy))
    refine ⟨o2, ?_, by simpa [List.append_assoc] using r2, f2⟩
    simp [runCalls, exec, update, e1, e2]

def Holds (o : Obj M) (k m : List Byte) : Prop :=
  (o.finalized = some false ∧ L.Rep o.impl k m) ∨ (o.finalized = some true ∧ L.Fin o.impl k m)

theorem doFinalize_holds (o : Obj M) (k m : List Byte) (ho : Holds L o k m) :
    ∃ o', doFinalize M o = some o' ∧ o'.finalized = some true ∧ L.Fin o'.impl k m := by
  rcases ho with ⟨hf, hr⟩ | ⟨hf, hr⟩
  · obtain ⟨i, e, f⟩ := L.finalize o.impl k m hr
    exact ⟨⟨i, some true⟩, by simp [doFinalize, hf, e], rfl, f⟩
  · exact ⟨o, by simp [doFinalize, hf], hf, hr⟩

theorem digest_holds (o : Obj M) (k m : List Byte) (ho : Holds L o k m) (dst : List Byte) (n : Nat) (hn : min n M.digestSize ≤ dst.length) :
    ∃ o', digest M o dst n = some (o', Spec.written (F k m) dst n) ∧ Holds L o' k m := by
  obtain ⟨o', e, hf, f⟩ := doFinalize_holds L o k m ho
  refine ⟨o', ?_, .inr ⟨hf, f⟩⟩
  simp [digest, e, Mac.digest_written L _ k m dst n f hn]

theorem digestC_holds (o : Obj M) (k m : List Byte) (ho : Holds L o k m) (c : Container) (n : Nat) :
    ∃ o', digestC M o c n = some (o', Spec.contained (F k m) c n) ∧ Holds L o' k m := by
  obtain ⟨o1, e1, hf, f1⟩ := doFinalize_holds L o k m ho
  have h1 := HashApie.resize_fits c (min n M.digestSize)
  have h2 := HashApie.resize_le c (min n M.digestSize)
  obtain ⟨o2, e2, w2⟩ := digest_holds L o1 k m (.inr ⟨hf, f1⟩) (c.resize (min n M.digestSize)).1.data (c.resize (min n M.digestSize)).2 (by omega)
  refine ⟨o2, ?_, w2⟩
  simp only [digestC, e1, e2, Option.bind_eq_bind, Option.bind_some, Option.pure_def]
  congr 2
  have hl := L.length k m
  unfold Spec.contained Spec.written
  rw [hl]
  by_cases hd : c.dynamic
  · simp only [Container.resize, hd, if_true, Container.withData]
    rw [List.drop_of_length_le (by simp; omega), List.append_nil, Mac.take_min L, Nat.min_assoc, Nat.min_self]
  · have hdf : c.dynamic = false := by simpa using hd
    simp only [Container.resize, Container.withData, hdf, Bool.false_eq_true, if_false]
    have e : (F k m).take (min (min n M.digestSize) c.data.length) = (F k m).take (min n c.data.length) := by
      rw [show min (min n M.digestSize) c.data.length = min (min n c.data.length) M.digestSize by omega, Mac.take_min L]
    rw [e, show min (min (min n M.digestSize) c.data.length) M.digestSize = min (min n c.data.length) M.digestSize by omega]

theorem digests (o : Obj M) (k m : List Byte) (ho : Holds L o k m) (ds : List DigestReq) (hd : ∀ d ∈ ds, d.Ok M.digestSize) :
    ∃ o', runCalls (exec M) o (ds.map ofReq) = some (o', ds.map (Spec.extracted (F k m))) := by
  induction ds generalizing o with
  | nil => exact ⟨o, rfl⟩
  | cons d ds ih =>
    have hd1 := hd d List.mem_cons_self
    have h1 : ∃ o', exec M o (ofReq d) = some (o', [Spec.extracted (F k m) d]) ∧ Holds L o' k m := by
      cases d with
      | ptr dst n =>
        obtain ⟨o', e, h⟩ := digest_holds L o k m ho dst n hd1
        exact ⟨o', by simp [ofReq, exec, e, Spec.extracted], h⟩
      | cont c n =>
        obtain ⟨o', e, h⟩ := digestC_holds L o k m ho c n
        exact ⟨o', by simp [ofReq, exec, e, Spec.extracted], h⟩
    obtain ⟨o1, e1, h1⟩ := h1
    obtain ⟨o2, e2⟩ := ih o1 h1 (fun y hy => hd y (List.mem_cons_of_mem _ hy))
    exact ⟨o2, by simp [runCalls, e1, e2]⟩

/-- From an object that has just been given the key. -/
theorem rest_eq (o0 : Obj M) (k : List Byte) (r0 : L.Rep o0.impl k []) (f0 : o0.finalized = some false)
    (xs : List (List Byte)) (hx : ∀ x ∈ xs, x.length < 2 ^ 64) (ds : List DigestReq) (hd : ∀ d ∈ ds, d.Ok M.digestSize) :
    ∃ o, runCalls (exec M) o0 (xs.map .update ++ ds.map ofReq) = some (o, ds.map (Spec.extracted (F k xs.flatten))) := by
  obtain ⟨o1, e1, r1, f1⟩ := updates L o0 k [] r0 f0 xs hx
  obtain ⟨o2, e2⟩ := digests L o1 k _ (.inl ⟨f1, r1⟩) ds hd
  refine ⟨o2, ?_⟩
  rw [runCalls_append, e1]
  simp only [Option.bind_some, Option.map_some, e2, List.nil_append]

/-- After construction with a key. -/
theorem run_fresh (k : List Byte) (hk : k.length < 2 ^ 64)
    (xs : List (List Byte)) (hx : ∀ x ∈ xs, x.length < 2 ^ 64) (ds : List DigestReq) (hd : ∀ d ∈ ds, d.Ok M.digestSize) :
    ∃ o, run M k (xs.map .update ++ ds.map ofReq) = some (o, ds.map (Spec.extracted (F k xs.flatten))) := by
  obtain ⟨o0, e0, r0, f0⟩ := init_rep L (constructDefault M) k L.fresh hk
  obtain ⟨o, e⟩ := rest_eq L o0 k r0 f0 xs hx ds hd
  exact ⟨o, by simp [run, construct, e0, e]⟩

/-- After any use of the object (constructed with key `k'`) and `initialize(k)`. -/
theorem run_eq (k' : List Byte) (hk' : k'.length < 2 ^ 64) (pre : List Call) (hpre : ∀ c ∈ pre, c.Ok M.digestSize) :
    ∃ outs, ∀ (k : List Byte), k.length < 2 ^ 64 → ∀ (xs : List (List Byte)), (∀ x ∈ xs, x.length < 2 ^ 64) →
    ∀ (ds : List DigestReq), (∀ d ∈ ds, d.Ok M.digestSize) →
    ∃ o, run M k' (pre ++ [.init k] ++ xs.map .update ++ ds.map ofReq) = some (o, outs ++ ds.map (Spec.extracted (F k xs.flatten))) := by
  obtain ⟨o0, outs, e0, w0⟩ := run_good L k' hk' pre hpre
  refine ⟨outs, fun k hk xs hx ds hd => ?_⟩
  obtain ⟨o1, e1, r1, f1⟩ := init_rep L o0 k w0.1 hk
  obtain ⟨o, e⟩ := rest_eq L o1 k r1 f1 xs hx ds hd
  refine ⟨o, ?_⟩
  have ei : runCalls (exec M) o0 [.init k] = some (o1, []) := by simp [runCalls, exec, e1]
  simp only [run] at e0 ⊢
  cases hcon : construct M k' with
  | none => simp [hcon] at e0
  | some oc =>
    simp only [hcon, Option.bind_eq_bind, Option.bind_some] at e0 ⊢
    rw [List.append_assoc, runCalls_append, runCalls_append, e0]
    simp only [Option.bind_some, ei, Option.map_some, e, List.append_nil, List.nil_append]

/-- After default construction and `initialize(k)`. -/
theorem run_default (k : List Byte) (hk : k.length < 2 ^ 64)
    (xs : List (List Byte)) (hx : ∀ x ∈ xs, x.length < 2 ^ 64) (ds : List DigestReq) (hd : ∀ d ∈ ds, d.Ok M.digestSize) :
    ∃ o, runDefault M ([.init k] ++ xs.map .update ++ ds.map ofReq) = some (o, ds.map (Spec.extracted (F k xs.flatten))) := by
  obtain ⟨o1, e1, r1, f1⟩ := init_rep L (constructDefault M) k L.fresh hk
  obtain ⟨o, e⟩ := rest_eq L o1 k r1 f1 xs hx ds hd
  refine ⟨o, ?_⟩
  have ei : runCalls (exec M) (constructDefault M) [.init k] = some (o1, []) := by simp [runCalls, exec, e1]
  unfold runDefault
  rw [List.append_assoc, runCalls_append, ei]
  simp only [Option.bind_some, Option.map_some, e, List.nil_append]

/-- The one-line functions. -/
theorem oneshots (k m : List Byte) (hk : k.length < 2 ^ 64) (hm : m.length < 2 ^ 64) :
    (∀ dst n, min n M.digestSize ≤ dst.length → oneshot M k m dst n = some (Spec.written (F k m) dst n)) ∧
    (∀ c n, oneshotC M k m c n = some (Spec.contained (F k m) c n)) ∧
    (∀ n, oneshotDynamic M k m n = some ⟨true, (F k m).take n⟩) ∧
    (∀ j, j ≤ M.digestSize → oneshotStatic M k m (List.replicate j 0) = some ⟨false, (F k m).take j⟩) := by
  obtain ⟨o0, e0, r0, f0⟩ := init_rep L (constructDefault M) k L.fresh hk
  obtain ⟨i, eu, ru⟩ := L.update o0.impl k [] m r0 hm
  have hl := L.length k m
  have hc : construct M k = some o0 := e0
  have hu : update M o0 m = some { o0 with impl := i } := by simp [update, eu]
  have hh : Holds L { o0 with impl := i } k m := .inl ⟨f0, by simpa using ru⟩
  refine ⟨?_, ?_, ?_, ?_⟩
  · intro dst n hn
    obtain ⟨o', ed, -⟩ := digest_holds L _ k m hh dst n hn
    simp [oneshot, hc, hu, ed]
  · intro c n
    obtain ⟨o', ed, -⟩ := digestC_holds L _ k m hh c n
    simp [oneshotC, hc, hu, ed]
  · intro n
    obtain ⟨o', ed, -⟩ := digestC_holds L _ k m hh ⟨true, []⟩ n
    simp [oneshotDynamic, digestDynamic, hc, hu, ed, Spec.contained]
  · intro j hj
    obtain ⟨o', ed, -⟩ := digestC_holds L _ k m hh ⟨false, List.replicate j 0⟩ j
    simp only [oneshotStatic, digestStatic, hc, hu, ed, Spec.contained, Spec.written, Option.bind_eq_bind, Option.bind_some,
      Option.pure_def, List.length_replicate, Nat.min_self, List.drop_replicate, hl, Bool.false_eq_true, if_false]
    rw [show j - min j M.digestSize = 0 by omega]; simp

end MacApie

end Milo
