import Verif.Proof.PolyResume
import Verif.Proof.ResumeUse
/- Mac objects over Poly1305: a message, a digest, more data, a digest. -/
namespace Milo
open Spec.Resume

namespace MacApie

/-- A digest of an object that is finalized, or that `finalize` finalizes. -/
theorem req_final {M : MacImpl} (o : Obj M) (i : M.σ) (hf : doFinalize M o = some ⟨i, some true⟩) (full : List Byte) (hl : full.length = M.digestSize)
    (hd : ∀ dst n, min n M.digestSize ≤ dst.length → M.digest i dst n = some (Spec.written full dst n)) (d : DigestReq) (hok : d.Ok M.digestSize) :
    exec M o (ofReq d) = some (⟨i, some true⟩, [Spec.extracted full d]) := by
  cases d with
  | ptr dst n =>
    simp only [ofReq, exec, digest, hf, hd dst n hok, Option.bind_eq_bind, Option.bind_some, Option.pure_def, Spec.extracted]
  | cont c n =>
    have h1 := HashApie.resize_fits c (min n M.digestSize)
    have e2 := hd (c.resize (min n M.digestSize)).1.data (c.resize (min n M.digestSize)).2 (by omega)
    have e3 := contained_resize _ _ hl c n
    have e5 : doFinalize M ⟨i, some true⟩ = some ⟨i, some true⟩ := rfl
    have e4 : digestC M o c n = some (⟨i, some true⟩, Spec.contained full c n) := by
      simp only [MacApie.digestC, hf, MacApie.digest, e5, e2, Option.bind_eq_bind, Option.bind_some, Option.pure_def]
      rw [e3]
    simp only [ofReq, exec, e4, Option.bind_eq_bind, Option.bind_some, Option.pure_def, Spec.extracted]

theorem updates_done {M : MacImpl} (P : M.σ → List Byte → Prop) (hu : ∀ i y x, P i y → ∃ i', M.update i x = some i' ∧ P i' (y ++ x)) (ys : List (List Byte)) (i : M.σ) (y : List Byte)
    (hp : P i y) : ∃ i', runCalls (exec M) ⟨i, some true⟩ (ys.map .update) = some (⟨i', some true⟩, []) ∧ P i' (y ++ ys.flatten) := by
  induction ys generalizing i y with
  | nil => exact ⟨i, rfl, by simpa using hp⟩
  | cons x ys ih =>
    obtain ⟨i1, e1, p1⟩ := hu i y x hp
    obtain ⟨i2, e2, p2⟩ := ih i1 _ p1
    refine ⟨i2, ?_, by simpa [List.append_assoc] using p2⟩
    simp only [List.map_cons, runCalls, exec, update, e1, e2, Option.bind_eq_bind, Option.bind_some, Option.pure_def, List.nil_append]

end MacApie

namespace Poly1305

theorem resuming_value (h : Host) (ds : Nat) (hds : ds ≤ 16) (key0 : List Byte) (hk0 : key0.length < 2 ^ 64) (pre : List MacApie.Call) (hpre : ∀ c ∈ pre, c.Ok ds)
    (key : List Byte) (hk : key.length < 2 ^ 64) (xs ys : List (List Byte)) (hx : ∀ x ∈ xs, x.length < 2 ^ 64) (d1 d2 : DigestReq) (h1 : d1.Ok ds) (h2 : d2.Ok ds) :
    ∃ outs v, (MacApie.run (impl h ds) key0 pre).map (·.2) = some outs ∧ PolyResumed (seen h.endian key) xs.flatten ys.flatten v ∧
      (MacApie.run (impl h ds) key0 (pre ++ [.init key] ++ xs.map .update ++ [MacApie.ofReq d1] ++ ys.map .update ++ [MacApie.ofReq d2])).map (·.2)
      = some (outs ++ [Spec.extracted (F h ds key xs.flatten) d1, Spec.extracted ((Spec.leBytes 16 (v % 2 ^ 128)).take ds) d2]) := by
  let L := lawful h ds hds
  obtain ⟨o, outs, e0, g⟩ := MacApie.run_good L key0 hk0 pre hpre
  obtain ⟨o1, e1, r1, f1⟩ := MacApie.init_rep L o key g.1 hk
  obtain ⟨⟨i2, fl⟩, e2, r2, f2⟩ := MacApie.updates L o1 key [] r1 f1 xs hx
  simp only at f2
  subst f2
  rw [List.nil_append] at r2
  obtain ⟨i3, e3, p3⟩ := finalize_resumed h i2 key xs.flatten r2
  have fin : L.Fin i3 key xs.flatten := by
    obtain ⟨i3', e3', f3⟩ := L.finalize i2 key xs.flatten r2
    have : some i3' = some i3 := e3'.symm.trans e3
    cases this
    exact f3
  obtain ⟨i4, e4, p4⟩ := MacApie.updates_done (M := impl h ds) (fun i y => Resumed h i key xs.flatten y) (fun i y x => update_resumed h i key xs.flatten y x) ys i3 [] p3
  rw [List.nil_append] at p4
  obtain ⟨v, hv, ev⟩ := resumed_value h i4 key xs.flatten ys.flatten p4
  have hf3 : MacApie.doFinalize (impl h ds) ⟨i2, some false⟩ = some ⟨i3, some true⟩ := by
    have e3 : (impl h ds).finalize i2 = some i3 := e3
    simp only [MacApie.doFinalize, e3]
    rfl
  have q1 := MacApie.req_final (M := impl h ds) ⟨i2, some false⟩ i3 hf3 (F h ds key xs.flatten) (L.length key xs.flatten)
    (fun dst n hn => Mac.digest_written L _ _ _ dst n fin hn) d1 h1
  have q2 := MacApie.req_final (M := impl h ds) ⟨i4, some true⟩ i4 rfl ((Spec.leBytes 16 (v % 2 ^ 128)).take ds) (by
      show _ = ds
      simp [Spec.leBytes]; omega)
    (fun dst n hn => by rw [← ev]; exact digest_wf_eq h ds hds i4 p4.wf dst n hn) d2 h2
  refine ⟨outs, v, by rw [e0]; rfl, hv, ?_⟩
  unfold MacApie.run at e0 ⊢
  cases ec : MacApie.construct (impl h ds) key0 with
  | none => rw [ec] at e0; exact absurd e0 (by simp)
  | some oc =>
    rw [ec] at e0
    have e0 : runCalls (MacApie.exec (impl h ds)) oc pre = some (o, outs) := e0
    have ei : MacApie.exec (impl h ds) o (.init key) = some (o1, []) := by simp only [MacApie.exec, e1, Option.bind_eq_bind, Option.bind_some, Option.pure_def]
    simp only [List.append_assoc, runCalls_append, e0, Option.bind_eq_bind, Option.bind_some, Option.pure_def, runCalls, ei, e2, q1, e4, q2, List.nil_append, List.append_nil,
      List.singleton_append, List.cons_append, Option.map_some]

end Poly1305
end Milo
