import Verif.Proof.AppUse
/- The command line application: what a run does not depend on. -/
namespace Milo.App
open Spec.App

theorem parameter_congr (a a' : Args) (hc : a.commands.head? = a'.commands.head?) (opts rest rest' : List Str) (ho : ∀ x ∈ opts, isOption x) (hr : Ends rest) (hr' : Ends rest')
    (h : a.args.drop a.cur = opts ++ rest) (h' : a'.args.drop a'.cur = opts ++ rest') (q : Str) : parameter a q = parameter a' q := by
  have ht : top a = top a' := by
    unfold top
    cases h1 : a.commands <;> cases h2 : a'.commands <;> rw [h1, h2] at hc <;> simp_all
  have hm : (missing a q : M Str) = missing a' q := by unfold missing; rw [ht]
  unfold parameter
  rw [h, h', paramArg_eq a q opts rest ho hr, paramArg_eq a' q opts rest' ho hr', hm, ht]

theorem primitive_congr (clock : Clock) (adv : Bool) (a a' : Args) (o : Options) (pattern : Str) (h : ∀ q, parameter a q = parameter a' q) (gs : List Group) :
    primitive clock adv a o pattern gs = primitive clock adv a' o pattern gs := by
  have hf : parameter a = parameter a' := funext h
  induction gs with
  | nil => rfl
  | cons g gs ih =>
    rw [primitive, primitive, ih]
    unfold invoke parse
    rw [hf]

theorem run_same (x86 : Bool) (clock : Clock) (prog prog' : Str) (u u' : Usage) (h : u.Ok) (h' : u'.Ok) (hp : u.pattern = u'.pattern) (ht : u.timing = u'.timing)
    (hi : u.inputs = u'.inputs) (hv : opt "verbose".toList ∉ u.global) (hv' : opt "verbose".toList ∉ u'.global)
    (ha : opt "advanced".toList ∈ u.global ↔ opt "advanced".toList ∈ u'.global) : run x86 clock (u.argv prog) = run x86 clock (u'.argv prog') := by
  obtain ⟨a1, a3, v, adv, d1, c1, d3, c3, ev, ea, e⟩ := run_line x86 clock prog u h
  obtain ⟨a1', a3', v', adv', d1', c1', d3', c3', ev', ea', e'⟩ := run_line x86 clock prog' u' h'
  have e1 : adv = adv' := by rw [Bool.eq_iff_iff, ea, ea', ha]
  have e2 : v = v' := by rw [ev, ev', if_neg hv, if_neg hv']
  have p3 : ∀ q, parameter a3 q = parameter a3' q := by
    intro q
    rw [← hi] at d3'
    exact parameter_congr a3 a3' (by rw [c3, c3', hp]) u.inputs u.rest u'.rest h.inputs h.rest h'.rest d3 d3' q
  have p1 : optionsOf a1 = optionsOf a1' := by
    rw [← ht] at d1'
    have key : ∀ q d, getOr a1 q d = getOr a1' q d := fun q d => by
      unfold getOr
      have hm : ∀ (x : Args) (n : Str), x.commands ≠ [] → ∃ t, (missing x n : M (BitVec 64)) = .error t := fun x n hx => by
        obtain ⟨c, hc⟩ := top_ok x hx
        unfold missing
        rw [hc]
        exact ⟨_, rfl⟩
      cases hf : u.timing.find? (fun x => q.isPrefixOf (x.drop 2)) with
      | none =>
        rw [parameter_missing a1 q _ _ h.timing (ends_command _ _ cmd_primitive) d1 hf, parameter_missing a1' q _ _ h.timing (ends_command _ _ cmd_primitive) d1' hf]
        obtain ⟨t, ht⟩ := hm a1 q c1
        obtain ⟨t', ht'⟩ := hm a1' q c1'
        rw [ht, ht']
      | some x =>
        obtain ⟨c, hc⟩ := top_ok a1 c1
        obtain ⟨c', hc'⟩ := top_ok a1' c1'
        unfold parameter
        rw [d1, d1', paramArg_eq a1 q _ _ h.timing (ends_command _ _ cmd_primitive), paramArg_eq a1' q _ _ h.timing (ends_command _ _ cmd_primitive), hf, hc, hc']
        simp only [ok_bind]
        cases findFirstOf x '=' 0 with
        | none => rfl
        | some pos =>
          simp only
          by_cases hpos : pos + 1 ≥ x.length
          · simp only [if_pos hpos]
          simp only [if_neg hpos]
          cases fromChars (x.drop (pos + 1)) <;> rfl
    unfold optionsOf
    simp only [key]
  rw [e, e', primitive_congr clock adv a3 a3' _ _ p3, p1, e1, e2, hp]

end Milo.App
