import Verif.Model.Copies
import Verif.Proof.HashApie
/- Programs with several objects answer like objects used alone. -/
namespace Milo.Copies
open Spec.Copies

variable {C O : Type}

/-- What one step must output. -/
def expect (R : Rules C O) (w : World C) : Op C → List O
  | .call i c => ((w.life i).bind fun l => R.answer l.past c).getD []
  | _ => []

theorem run_ok {T : ObjClass C O} (R : Rules C O) (Inv : World C → T.E × (Nat → Option T.S) → Prop)
    (hstep : ∀ w st op, Inv w st → Legal R (Answered R) w op → ∃ st', T.step st op = some (st', expect R w op) ∧ Inv (after w op) st') :
    ∀ ops w st, Inv w st → Allowed R (Answered R) w ops → ∃ st', runCalls T.step st ops = some (st', expected R w ops) ∧ Inv (worldAfter w ops) st' := by
  intro ops
  induction ops with
  | nil => intro w st hi _; exact ⟨st, rfl, hi⟩
  | cons op ops ih =>
    intro w st hi ha
    obtain ⟨st1, e1, i1⟩ := hstep w st op hi ha.1
    obtain ⟨st2, e2, i2⟩ := ih _ st1 i1 ha.2
    refine ⟨st2, ?_, i2⟩
    simp only [runCalls, e1, e2, Option.bind_eq_bind, Option.bind_some, Option.pure_def]
    cases op <;> rfl

theorem put_same {α : Type} {f : Nat → Option α} {i : Nat} {a : Option α} : put f i a i = a := by simp [put]

theorem put_other {α : Type} {i k : Nat} (hk : k ≠ i) (f : Nat → Option α) (a : Option α) : put f i a k = f k := by simp [put, hk]

/-- If calls that meet `Ok` are always answered, programs all of whose calls meet `Ok` are allowed. -/
theorem allowed_ok {R : Rules C O} {Ok : C → Prop} (hsafe : ∀ past, (∀ c ∈ past, Ok c) → ∀ c, Ok c → Answered R past c) : ∀ (ops : List (Op C)) (w : World C),
    (∀ c ∈ w.env, Ok c) → (∀ k l, w.life k = some l → ∀ c ∈ l.past, Ok c) → Allowed R (fun _ c => Ok c) w ops → Allowed R (Answered R) w ops := by
  intro ops
  induction ops with
  | nil => intro w _ _ _; exact trivial
  | cons op ops ih =>
    intro w he hl ha
    have hput : ∀ i (x : Option (Life C)), (∀ l, x = some l → ∀ c ∈ l.past, Ok c) → ∀ k l, put w.life i x k = some l → ∀ c ∈ l.past, Ok c := by
      intro i x hx k l hk
      by_cases hki : k = i
      · subst hki; rw [put_same] at hk; exact hx l hk
      · rw [put_other hki] at hk; exact hl k l hk
    cases op with
    | new i => exact ⟨ha.1, ih _ he (hput i _ (by rintro l ⟨⟩; exact he)) ha.2⟩
    | copy i j => exact ⟨ha.1, ih _ he (hput i _ (hl j)) ha.2⟩
    | move i j =>
      refine ⟨ha.1, ih _ he ?_ ha.2⟩
      intro k l hk
      simp only [after] at hk
      by_cases hkj : k = j
      · subst hkj
        rw [put_same] at hk
        cases hw : w.life k with
        | none => rw [hw] at hk; simp at hk
        | some l' =>
          rw [hw] at hk
          simp only [Option.map_some, Option.some.injEq] at hk
          subst hk
          exact hl k l' hw
      · rw [put_other hkj] at hk
        exact hput i _ (hl j) k l hk
    | assign i j => exact ⟨ha.1, ih _ he (hput i _ (hl j)) ha.2⟩
    | drop i => exact ⟨ha.1, ih _ he (hput i _ (by rintro l ⟨⟩)) ha.2⟩
    | call i c =>
      obtain ⟨⟨h1, l, h2, h3, h4⟩, h5⟩ := ha
      refine ⟨⟨h1, l, h2, h3, hsafe _ (hl i l h2) c h4⟩, ih _ he (hput i _ ?_) h5⟩
      intro l' hl' d hd
      rw [h2] at hl'
      cases hl'
      rcases List.mem_append.mp hd with hd | hd
      · exact hl i l h2 d hd
      · rw [List.mem_singleton.mp hd]; exact h4
    | env c =>
      obtain ⟨⟨h1, h2⟩, h3⟩ := ha
      refine ⟨⟨h1, hsafe _ he c h2⟩, ih _ ?_ ?_ h3⟩
      · intro d hd
        rcases List.mem_append.mp hd with hd | hd
        · exact he d hd
        · rw [List.mem_singleton.mp hd]; exact h2
      · intro k l hk d hd
        simp only [after] at hk
        cases hw : w.life k with
        | none => rw [hw] at hk; simp at hk
        | some l' =>
          rw [hw] at hk
          simp only [Option.map_some, Option.some.injEq] at hk
          subst hk
          rcases List.mem_append.mp hd with hd | hd
          · exact hl k l' hw d hd
          · rw [List.mem_singleton.mp hd]; exact h2

/-- An answer exists if the whole sequence of calls is defined. -/
theorem answered_of_run {σ : Type} {f : σ → C → Option (σ × List O)} {s : σ} {past : List C} {c : C} (h : (runCalls f s (past ++ [c])).isSome = true) :
    alone f s past c ≠ none := by
  rw [runCalls_append] at h
  cases h1 : runCalls f s past with
  | none => rw [h1] at h; simp at h
  | some p =>
    rw [h1] at h
    simp only [Option.bind_some, runCalls, Option.bind_eq_bind, Option.pure_def] at h
    simp only [alone, h1, Option.bind_eq_bind, Option.bind_some, Option.pure_def]
    cases h2 : f p.1 c with
    | none => rw [h2] at h; simp at h
    | some q => simp

/-- The two together. -/
theorem allowed_of_safe {σ : Type} {f : σ → C → Option (σ × List O)} {s : σ} {R : Rules C O} (hR : R.answer = alone f s) {Ok : C → Prop}
    (hsafe : ∀ cs, (∀ c ∈ cs, Ok c) → (runCalls f s cs).isSome = true) (ops : List (Op C)) (ha : Allowed R (fun _ c => Ok c) World.start ops) :
    Allowed R (Answered R) World.start ops := by
  refine allowed_ok (fun past hp c hc => ?_) ops _ (by simp [World.start]) (by simp [World.start]) ha
  unfold Answered
  rw [hR]
  refine answered_of_run (hsafe _ ?_)
  intro d hd
  rcases List.mem_append.mp hd with hd | hd
  · exact hp d hd
  · rw [List.mem_singleton.mp hd]; exact hc

/-! ### Plain classes -/

section plain
variable {E S : Type} (fresh : S) (readable : S → Bool) (exec : S × E → C → Option ((S × E) × List O)) (env : E → C → E) (e0 : E)

/-- One slot of a program with plain objects. -/
def SlotOk (e : E) (x : Option S) : Option (Life C) → Prop
  | none => x = none
  | some l => ∃ s o, x = some s ∧ runCalls exec (fresh, e0) l.past = some ((s, e), o)

def PlainInv (w : World C) (st : E × (Nat → Option S)) : Prop :=
  (∃ o, runCalls exec (fresh, e0) w.env = some ((fresh, st.1), o)) ∧ ∀ k, SlotOk fresh exec e0 st.1 (st.2 k) (w.life k)

theorem runCalls_snoc {σ : Type} {f : σ → C → Option (σ × List O)} {s s1 s2 : σ} {cs : List C} {c : C} {o o' : List O}
    (h1 : runCalls f s cs = some (s1, o)) (h2 : f s1 c = some (s2, o')) : runCalls f s (cs ++ [c]) = some (s2, o ++ o') := by
  rw [runCalls_append, h1]
  simp [runCalls, h2]

theorem alone_eq {σ : Type} {f : σ → C → Option (σ × List O)} {s s1 : σ} {cs : List C} {c : C} {o : List O}
    (h1 : runCalls f s cs = some (s1, o)) : alone f s cs c = (f s1 c).map (·.2) := by
  simp only [alone, h1, Option.bind_eq_bind, Option.bind_some, Option.pure_def]
  cases f s1 c <;> rfl

theorem plain_step (R : Rules C O)
    (henv : ∀ s e c, R.isEnv c = true → exec (s, e) c = some ((s, env e c), []))
    (hcall : ∀ s e c s' e' out, R.isEnv c = false → exec (s, e) c = some ((s', e'), out) → e' = e)
    (hans : R.answer = alone exec (fresh, e0))
    (hread : ∀ past s e o, R.complete past → runCalls exec (fresh, e0) past = some ((s, e), o) → readable s = true) :
    ∀ w (st : E × (Nat → Option S)) op, PlainInv fresh exec e0 w st → Legal R (Answered R) w op →
      ∃ st', (plainClass fresh readable exec env).step st op = some (st', expect R w op) ∧ PlainInv fresh exec e0 (after w op) st' := by
  rintro w ⟨e, sl⟩ op ⟨⟨oe, he⟩, hs⟩ hl
  have hsource : ∀ j, Source R w j → ∃ l s o, w.life j = some l ∧ sl j = some s ∧ runCalls exec (fresh, e0) l.past = some ((s, e), o) ∧ readable s = true := by
    rintro j ⟨l, hj, -, hc⟩
    have := hs j
    rw [hj] at this
    obtain ⟨s, o, hsj, hr⟩ := this
    exact ⟨l, s, o, hj, hsj, hr, hread _ _ _ _ hc hr⟩
  have hdead : ∀ i, w.life i = none → sl i = none := by
    intro i hi
    have := hs i
    rw [hi] at this
    exact this
  have hlive : ∀ i, w.life i ≠ none → ∃ l s o, w.life i = some l ∧ sl i = some s ∧ runCalls exec (fresh, e0) l.past = some ((s, e), o) := by
    intro i hi
    have := hs i
    cases hw : w.life i with
    | none => exact absurd hw hi
    | some l =>
      rw [hw] at this
      obtain ⟨s, o, hsj, hr⟩ := this
      exact ⟨l, s, o, rfl, hsj, hr⟩
  cases op with
  | new i =>
    have hi := hdead i hl
    refine ⟨((e, (put sl i (some fresh))) : E × (Nat → Option S)), by simp [ObjClass.step, hi, plainClass, expect], ⟨oe, he⟩, fun k => ?_⟩
    by_cases hk : k = i
    · subst hk
      simp only [after, put_same]
      exact ⟨fresh, oe, rfl, he⟩
    · simp only [after, put_other hk]; exact hs k
  | copy i j =>
    obtain ⟨l, s, o, hj, hsj, hr, hrd⟩ := hsource j hl.2
    have hi := hdead i hl.1
    refine ⟨((e, (put sl i (some s))) : E × (Nat → Option S)), by simp [ObjClass.step, hi, hsj, plainClass, expect, hrd], ⟨oe, he⟩, fun k => ?_⟩
    by_cases hk : k = i
    · subst hk
      simp only [after, put_same, hj]
      exact ⟨s, o, rfl, hr⟩
    · simp only [after, put_other hk]; exact hs k
  | move i j =>
    obtain ⟨l, s, o, hj, hsj, hr, hrd⟩ := hsource j hl.2
    have hi := hdead i hl.1
    have hij : i ≠ j := by intro e; subst e; rw [hl.1] at hj; exact absurd hj (by simp)
    refine ⟨((e, (put (put sl i (some s)) j (some s))) : E × (Nat → Option S)), by simp [ObjClass.step, hi, hsj, plainClass, expect, hrd], ⟨oe, he⟩, fun k => ?_⟩
    by_cases hk : k = j
    · subst hk
      simp only [after, put_same, hj]
      exact ⟨s, o, rfl, hr⟩
    · simp only [after, put_other hk]
      by_cases hk' : k = i
      · subst hk'
        simp only [put_same, hj]
        exact ⟨s, o, rfl, hr⟩
      · simp only [put_other hk']; exact hs k
  | assign i j =>
    obtain ⟨l, s, o, hj, hsj, hr, hrd⟩ := hsource j hl.2
    obtain ⟨l', s', o', hi, hsi, hr'⟩ := hlive i hl.1
    refine ⟨((e, (put sl i (some s))) : E × (Nat → Option S)), ?_, ⟨oe, he⟩, fun k => ?_⟩
    · by_cases hij : i = j
      · subst hij
        rw [hsi] at hsj
        cases hsj
        simp [ObjClass.step, hsi, plainClass, expect, hrd]
      · simp [ObjClass.step, hsi, hsj, plainClass, expect, hrd, hij]
    · by_cases hk : k = i
      · subst hk
        simp only [after, put_same, hj]
        exact ⟨s, o, rfl, hr⟩
      · simp only [after, put_other hk]; exact hs k
  | drop i =>
    obtain ⟨l', s', o', hi, hsi, hr'⟩ := hlive i hl
    refine ⟨((e, (put sl i none)) : E × (Nat → Option S)), by simp [ObjClass.step, hsi, plainClass, expect], ⟨oe, he⟩, fun k => ?_⟩
    by_cases hk : k = i
    · subst hk
      simp only [after, put_same]
      rfl
    · simp only [after, put_other hk]; exact hs k
  | call i c =>
    obtain ⟨hne, l, hi, -, ha⟩ := hl
    obtain ⟨l', s, o, hi', hsi, hr⟩ := hlive i (by rw [hi]; simp)
    rw [hi] at hi'
    cases hi'
    unfold Answered at ha
    rw [hans, alone_eq hr] at ha
    cases hx : exec (s, e) c with
    | none => rw [hx] at ha; simp at ha
    | some p =>
      obtain ⟨⟨s', e'⟩, out⟩ := p
      have := hcall _ _ _ _ _ _ hne hx
      subst this
      refine ⟨((e', (put sl i (some s'))) : E × (Nat → Option S)), ?_, ⟨oe, he⟩, fun k => ?_⟩
      · simp [ObjClass.step, hsi, plainClass, hx, expect, hi, hans, alone_eq hr]
      · by_cases hk : k = i
        · subst hk
          simp only [after, put_same, hi, Option.map_some]
          exact ⟨s', o ++ out, rfl, runCalls_snoc hr hx⟩
        · simp only [after, put_other hk]; exact hs k
  | env c =>
    refine ⟨(env e c, sl), rfl, ⟨oe ++ [], runCalls_snoc he (henv _ _ _ hl.1)⟩, fun k => ?_⟩
    have := hs k
    simp only [after]
    cases hw : w.life k with
    | none => rw [hw] at this; exact this
    | some l =>
      rw [hw] at this
      obtain ⟨s, o, hsj, hr⟩ := this
      exact ⟨s, o ++ [], hsj, runCalls_snoc hr (henv _ _ _ hl.1)⟩

theorem plain_run (R : Rules C O)
    (henv : ∀ s e c, R.isEnv c = true → exec (s, e) c = some ((s, env e c), []))
    (hcall : ∀ s e c s' e' out, R.isEnv c = false → exec (s, e) c = some ((s', e'), out) → e' = e)
    (hans : R.answer = alone exec (fresh, e0))
    (hread : ∀ past s e o, R.complete past → runCalls exec (fresh, e0) past = some ((s, e), o) → readable s = true)
    (ops : List (Op C)) (ha : Allowed R (Answered R) World.start ops) :
    ∃ st, (plainClass fresh readable exec env).run e0 ops = some (st, expected R World.start ops) := by
  have hstart : PlainInv fresh exec e0 (World.start : World C) (e0, fun _ => none) := ⟨⟨[], rfl⟩, fun _ => rfl⟩
  obtain ⟨st, h1, -⟩ := run_ok (T := plainClass fresh readable exec env) R (PlainInv fresh exec e0)
    (plain_step fresh readable exec env e0 R henv hcall hans hread) ops World.start (e0, fun _ => none) hstart ha
  exact ⟨st, h1⟩

end plain

/-! ### Without environment -/

theorem runCalls_noEnv {S : Type} (f : S → C → Option (S × List O)) : ∀ cs s,
    runCalls (noEnv f) (s, ()) cs = (runCalls f s cs).map fun p => ((p.1, ()), p.2) := by
  intro cs
  induction cs with
  | nil => intro s; rfl
  | cons c cs ih =>
    intro s
    simp only [runCalls, noEnv, Option.bind_eq_bind, Option.pure_def]
    cases f s c with
    | none => rfl
    | some p =>
      simp only [Option.bind_some, ih]
      cases runCalls f p.1 cs <;> rfl

theorem alone_noEnv {S : Type} (f : S → C → Option (S × List O)) (s : S) : alone (noEnv f) (s, ()) = alone f s := by
  funext past c
  simp only [alone, runCalls_noEnv, Option.bind_eq_bind, Option.pure_def]
  cases runCalls f s past with
  | none => rfl
  | some p =>
    simp only [Option.map_some, Option.bind_some, noEnv, Option.bind_eq_bind, Option.pure_def]
    cases f p.1 c <;> rfl

theorem value_run {S : Type} (fresh : S) (readable : S → Bool) (exec : S → C → Option (S × List O)) (complete : List C → Prop)
    (hread : ∀ past s o, complete past → runCalls exec fresh past = some (s, o) → readable s = true)
    (ops : List (Op C)) (ha : Allowed (rules fresh exec complete) (Answered (rules fresh exec complete)) World.start ops) :
    ∃ st, (plainClass fresh readable (noEnv exec) fun e _ => e).run () ops = some (st, expected (rules fresh exec complete) World.start ops) := by
  refine plain_run fresh readable (noEnv exec) (fun e _ => e) () (rules fresh exec complete) (fun _ _ _ h => absurd h (by simp [rules])) (fun _ _ _ _ _ _ _ _ => rfl)
    ?_ ?_ ops ha
  · rw [alone_noEnv]; rfl
  · intro past s e o hc hr
    rw [runCalls_noEnv] at hr
    cases hx : runCalls exec fresh past with
    | none => rw [hx] at hr; simp at hr
    | some p =>
      rw [hx] at hr
      simp only [Option.map_some, Option.some.injEq, Prod.mk.injEq] at hr
      exact hread past s p.2 hc (by rw [hx, ← hr.1.1])

end Milo.Copies
