import Verif.Proof.CopiesKdf
/- After `initialize`, no member of a mac or aead object is indeterminate. -/
namespace Milo.Copies

theorem runCalls_since {σ C O : Type} {f : σ → C → Option (σ × List O)} (P : σ → Prop) (hk : ∀ s c s' o, P s → f s c = some (s', o) → P s') (c : C)
    (hc : ∀ s s' o, f s c = some (s', o) → P s') : ∀ (cs : List C) (s s' : σ) (o : List O), (P s ∨ c ∈ cs) → runCalls f s cs = some (s', o) → P s' := by
  intro cs
  induction cs with
  | nil =>
    intro s s' o h e
    simp only [runCalls, Option.some.injEq, Prod.mk.injEq] at e
    rcases h with h | h
    · exact e.1 ▸ h
    · simp at h
  | cons d cs ih =>
    intro s s' o h e
    simp only [runCalls, Option.bind_eq_bind, Option.bind_eq_some_iff, Option.pure_def, Option.some.injEq, Prod.mk.injEq] at e
    obtain ⟨⟨s1, o1⟩, e1, ⟨s2, o2⟩, e2, rfl, -⟩ := e
    refine ih s1 s2 o2 ?_ e2
    rcases h with h | h
    · exact Or.inl (hk _ _ _ _ h e1)
    · rcases List.mem_cons.mp h with h | h
      · subst h; exact Or.inl (hc _ _ _ e1)
      · exact Or.inr h

namespace MacInit
open MacApie
variable {M : MacImpl}

theorem doFinalize_set {o o' : Obj M} (e : doFinalize M o = some o') : o'.finalized.isSome = true := by
  unfold doFinalize at e
  split at e
  · exact absurd e (by simp)
  · rename_i h
    cases e
    simp [h]
  · simp only [Option.bind_eq_bind, Option.bind_eq_some_iff, Option.pure_def, Option.some.injEq] at e
    obtain ⟨_, -, rfl⟩ := e
    rfl

theorem digest_set {o o' : Obj M} {dst : List Byte} {n : Nat} {out : List Byte × Nat} (e : digest M o dst n = some (o', out)) :
    o'.finalized.isSome = true := by
  simp only [digest, Option.bind_eq_bind, Option.bind_eq_some_iff, Option.pure_def, Option.some.injEq, Prod.mk.injEq] at e
  obtain ⟨o1, e1, _, -, rfl, -⟩ := e
  exact doFinalize_set e1

theorem exec_keep (s : Obj M) (c : Call) (s' : Obj M) (o : List Out) (hs : s.finalized.isSome = true) (e : exec M s c = some (s', o)) :
    s'.finalized.isSome = true := by
  cases c with
  | init key =>
    simp only [exec, initialise, Option.bind_eq_bind, Option.bind_eq_some_iff, Option.pure_def, Option.some.injEq, Prod.mk.injEq] at e
    obtain ⟨_, ⟨_, -, rfl⟩, rfl, -⟩ := e
    rfl
  | update x =>
    simp only [exec, update, Option.bind_eq_bind, Option.bind_eq_some_iff, Option.pure_def, Option.some.injEq, Prod.mk.injEq] at e
    obtain ⟨_, ⟨_, -, rfl⟩, rfl, -⟩ := e
    exact hs
  | digest dst n =>
    simp only [exec, Option.bind_eq_bind, Option.bind_eq_some_iff, Option.pure_def, Option.some.injEq, Prod.mk.injEq] at e
    obtain ⟨⟨o1, out⟩, e1, rfl, -⟩ := e
    exact digest_set e1
  | digestC c n =>
    simp only [exec, digestC, Option.bind_eq_bind, Option.bind_eq_some_iff, Option.pure_def, Option.some.injEq, Prod.mk.injEq] at e
    obtain ⟨⟨o1, c1, n1⟩, ⟨_, -, ⟨o2, out2⟩, e2, rfl, -⟩, rfl, -⟩ := e
    exact digest_set e2

theorem readable (past : List Call) (s : Obj M) (o : List Out) (hc : ∃ key, Call.init key ∈ past)
    (e : runCalls (exec M) (constructDefault M) past = some (s, o)) : s.finalized.isSome = true := by
  obtain ⟨key, hk⟩ := hc
  refine runCalls_since (f := exec M) (fun s => s.finalized.isSome = true) exec_keep (.init key) ?_ past _ s o (Or.inr hk) e
  intro s s' o e
  simp only [exec, initialise, Option.bind_eq_bind, Option.bind_eq_some_iff, Option.pure_def, Option.some.injEq, Prod.mk.injEq] at e
  obtain ⟨_, ⟨_, -, rfl⟩, rfl, -⟩ := e
  rfl

end MacInit

namespace AeadInit
open Aead
variable {h : Host} {B : ChaCha.Backend} {M : MacImpl}

/-- Both sizes are set. -/
def Set (o : Obj M) : Prop := (o.aadSize.isSome && o.eddSize.isSome) = true

theorem init_set {o o' : Obj M} {key iv : List Byte} (e : Aead.init h B o key iv = some o') : Set o' := by
  simp only [Aead.init, Option.bind_eq_bind, Option.bind_eq_some_iff, Option.pure_def, Option.some.injEq] at e
  obtain ⟨_, -, _, -, _, -, _, -, rfl⟩ := e
  rfl

theorem aad_set {o o' : Obj M} {x : List Byte} (ho : Set o) (e : aad o x = some o') : Set o' := by
  simp only [aad, Option.bind_eq_bind, Option.bind_eq_some_iff, Option.pure_def, Option.some.injEq] at e
  obtain ⟨_, -, _, -, rfl⟩ := e
  simp only [Set, Bool.and_eq_true] at ho ⊢
  exact ⟨rfl, ho.2⟩

theorem aadover_set {o o' : Obj M} (ho : Set o) (e : aadover o = some o') : Set o' := by
  simp only [aadover, updatePad, Option.bind_eq_bind, Option.bind_eq_some_iff, Option.pure_def, Option.some.injEq] at e
  obtain ⟨_, -, _, -, _, -, rfl⟩ := e
  exact ho

theorem encrypt_set {o o' : Obj M} {mem : List Byte} {src n dst : Nat} {out : List Byte × Nat} (ho : Set o)
    (e : encrypt h B o mem src n dst = some (o', out)) : Set o' := by
  simp only [encrypt, Option.bind_eq_bind, Option.bind_eq_some_iff, Option.pure_def, Option.some.injEq, Prod.mk.injEq] at e
  obtain ⟨_, -, _, -, _, -, _, -, rfl, -⟩ := e
  simp only [Set, Bool.and_eq_true] at ho ⊢
  exact ⟨ho.1, rfl⟩

theorem decrypt_set {o o' : Obj M} {mem : List Byte} {src n dst : Nat} {out : List Byte × Nat} (ho : Set o)
    (e : decrypt h B o mem src n dst = some (o', out)) : Set o' := by
  simp only [decrypt, Option.bind_eq_bind, Option.bind_eq_some_iff, Option.pure_def, Option.some.injEq, Prod.mk.injEq] at e
  obtain ⟨_, -, _, -, _, -, _, -, rfl, -⟩ := e
  simp only [Set, Bool.and_eq_true] at ho ⊢
  exact ⟨ho.1, rfl⟩

theorem finalize_set {o o' : Obj M} (ho : Set o) (e : finalize h o = some o') : Set o' := by
  simp only [finalize, updatePad, Option.bind_eq_bind, Option.bind_eq_some_iff, Option.pure_def, Option.some.injEq] at e
  obtain ⟨_, -, _, -, _, ⟨_, -, _, -, rfl⟩, _, -, _, -, _, -, rfl⟩ := e
  exact ho

theorem exec_keep (s : Obj M) (c : Call) (s' : Obj M) (o : List Out) (hs : Set s) (e : exec h B s c = some (s', o)) : Set s' := by
  cases c <;> simp only [exec, Option.bind_eq_bind, Option.bind_eq_some_iff, Option.pure_def, Option.some.injEq, Prod.mk.injEq] at e
  · obtain ⟨_, e, rfl, -⟩ := e; exact init_set e
  · obtain ⟨_, e, rfl, -⟩ := e; exact aad_set hs e
  · obtain ⟨_, e, rfl, -⟩ := e; exact aadover_set hs e
  · obtain ⟨⟨_, _⟩, e, rfl, -⟩ := e; exact encrypt_set hs e
  · obtain ⟨⟨_, _⟩, e, rfl, -⟩ := e; exact decrypt_set hs e
  · obtain ⟨_, e, rfl, -⟩ := e; exact finalize_set hs e
  · obtain ⟨_, -, rfl, -⟩ := e; exact hs

theorem readable (past : List Call) (s : Obj M) (o : List Out) (hc : ∃ key iv, Call.init key iv ∈ past)
    (e : runCalls (exec h B) (fresh M) past = some (s, o)) : Set s := by
  obtain ⟨key, iv, hk⟩ := hc
  refine runCalls_since (f := exec h B) Set exec_keep (.init key iv) ?_ past _ s o (Or.inr hk) e
  intro s s' o e
  simp only [exec, Option.bind_eq_bind, Option.bind_eq_some_iff, Option.pure_def, Option.some.injEq, Prod.mk.injEq] at e
  obtain ⟨_, e, rfl, -⟩ := e
  exact init_set e

end AeadInit

namespace AeadApieInit
open AeadApie
variable {h : Host} {B : ChaCha.Backend} {M : MacImpl}

/-- Both sizes and both flags are set. -/
def Set (o : Obj M) : Prop := (o.impl.aadSize.isSome && o.impl.eddSize.isSome && o.finalizedAad.isSome && o.finalized.isSome) = true

theorem set_iff {o : Obj M} : Set o ↔ AeadInit.Set o.impl ∧ o.finalizedAad.isSome = true ∧ o.finalized.isSome = true := by
  simp only [Set, AeadInit.Set, Bool.and_eq_true]
  constructor
  · rintro ⟨⟨⟨a, b⟩, c⟩, d⟩; exact ⟨⟨a, b⟩, c, d⟩
  · rintro ⟨⟨a, b⟩, c, d⟩; exact ⟨⟨⟨a, b⟩, c⟩, d⟩

theorem initialise_set {o o' : Obj M} {key iv : List Byte} (e : initialise h B o key iv = some o') : Set o' := by
  simp only [initialise, Option.bind_eq_bind, Option.bind_eq_some_iff, Option.pure_def, Option.some.injEq] at e
  obtain ⟨_, e, rfl⟩ := e
  exact set_iff.mpr ⟨AeadInit.init_set e, rfl, rfl⟩

theorem doFinalizeAad_set {o o' : Obj M} (ho : Set o) (e : doFinalizeAad o = some o') : Set o' := by
  rw [set_iff] at *
  unfold doFinalizeAad at e
  split at e
  · exact absurd e (by simp)
  · cases e; exact ho
  · simp only [Option.bind_eq_bind, Option.bind_eq_some_iff, Option.pure_def, Option.some.injEq] at e
    obtain ⟨_, e, rfl⟩ := e
    exact ⟨AeadInit.aadover_set ho.1 e, rfl, ho.2.2⟩

theorem doFinalize_set {o o' : Obj M} (ho : Set o) (e : doFinalize h o = some o') : Set o' := by
  rw [set_iff] at *
  unfold doFinalize at e
  split at e
  · exact absurd e (by simp)
  · cases e; exact ho
  · simp only [Option.bind_eq_bind, Option.bind_eq_some_iff, Option.pure_def, Option.some.injEq] at e
    obtain ⟨_, e, rfl⟩ := e
    exact ⟨AeadInit.finalize_set ho.1 e, ho.2.1, rfl⟩

theorem encrypt_set {o o' : Obj M} {mem : List Byte} {src n dst : Nat} {out : List Byte × Nat} (ho : Set o)
    (e : encrypt h B o mem src n dst = some (o', out)) : Set o' := by
  simp only [encrypt, Option.bind_eq_bind, Option.bind_eq_some_iff, Option.pure_def, Option.some.injEq, Prod.mk.injEq] at e
  obtain ⟨o1, e1, ⟨i, _⟩, e2, rfl, -⟩ := e
  have h1 := set_iff.mp (doFinalizeAad_set ho e1)
  exact set_iff.mpr ⟨AeadInit.encrypt_set h1.1 e2, h1.2⟩

theorem decrypt_set {o o' : Obj M} {mem : List Byte} {src n dst : Nat} {out : List Byte × Nat} (ho : Set o)
    (e : decrypt h B o mem src n dst = some (o', out)) : Set o' := by
  simp only [decrypt, Option.bind_eq_bind, Option.bind_eq_some_iff, Option.pure_def, Option.some.injEq, Prod.mk.injEq] at e
  obtain ⟨o1, e1, ⟨i, _⟩, e2, rfl, -⟩ := e
  have h1 := set_iff.mp (doFinalizeAad_set ho e1)
  exact set_iff.mpr ⟨AeadInit.decrypt_set h1.1 e2, h1.2⟩

theorem text_set {o o' : Obj M} {d : Bool} {t : TextReq} {out : List Byte × Nat} (ho : Set o) (e : text h B d o t = some (o', out)) : Set o' := by
  cases t with
  | ptr s =>
    cases d
    · exact encrypt_set ho (by simpa only [text, Bool.false_eq_true, if_false] using e)
    · exact decrypt_set ho (by simpa only [text, if_true] using e)
  | cont x tgt =>
    cases d
    · simp only [text, encryptC, Bool.false_eq_true, if_false, Option.bind_eq_bind, Option.bind_eq_some_iff, Option.pure_def, Option.some.injEq, Prod.mk.injEq] at e
      obtain ⟨_, ⟨⟨o2, out2⟩, e2, rfl⟩, rfl, -⟩ := e
      exact encrypt_set ho e2
    · simp only [text, decryptC, if_true, Option.bind_eq_bind, Option.bind_eq_some_iff, Option.pure_def, Option.some.injEq, Prod.mk.injEq] at e
      obtain ⟨_, ⟨⟨o2, out2⟩, e2, rfl⟩, rfl, -⟩ := e
      exact decrypt_set ho e2
  | self c =>
    cases d
    · simp only [text, encryptSelf, Bool.false_eq_true, if_false, Option.bind_eq_bind, Option.bind_eq_some_iff, Option.pure_def, Option.some.injEq, Prod.mk.injEq] at e
      obtain ⟨_, ⟨⟨o2, out2⟩, e2, rfl⟩, rfl, -⟩ := e
      exact encrypt_set ho e2
    · simp only [text, decryptSelf, if_true, Option.bind_eq_bind, Option.bind_eq_some_iff, Option.pure_def, Option.some.injEq, Prod.mk.injEq] at e
      obtain ⟨_, ⟨⟨o2, out2⟩, e2, rfl⟩, rfl, -⟩ := e
      exact decrypt_set ho e2

theorem digest_set {o o' : Obj M} {dst : List Byte} {n : Nat} {out : List Byte × Nat} (ho : Set o) (e : digest h o dst n = some (o', out)) : Set o' := by
  simp only [digest, Option.bind_eq_bind, Option.bind_eq_some_iff, Option.pure_def, Option.some.injEq, Prod.mk.injEq] at e
  obtain ⟨o1, e1, _, -, rfl, -⟩ := e
  exact doFinalize_set ho e1

theorem digestC_set {o o' : Obj M} {c : Container} {n : Nat} {out : Container × Nat} (ho : Set o) (e : digestC h o c n = some (o', out)) : Set o' := by
  simp only [digestC, Option.bind_eq_bind, Option.bind_eq_some_iff, Option.pure_def, Option.some.injEq, Prod.mk.injEq] at e
  obtain ⟨o1, e1, ⟨o2, _⟩, e2, rfl, -⟩ := e
  exact digest_set (doFinalize_set ho e1) e2

theorem verify_set {o o' : Obj M} {tag : List Byte} {out : Error} (ho : Set o) (e : verify h o tag = some (o', out)) : Set o' := by
  simp only [verify, digestStatic, Option.bind_eq_bind, Option.bind_eq_some_iff, Option.pure_def, Option.some.injEq, Prod.mk.injEq] at e
  obtain ⟨_, ⟨⟨o1, _⟩, e1, rfl⟩, _, -, rfl, -⟩ := e
  exact digestC_set ho e1

theorem exec_keep (s : Obj M) (c : Call) (s' : Obj M) (o : List Out) (hs : Set s) (e : exec h B s c = some (s', o)) : Set s' := by
  cases c <;> simp only [exec, Option.bind_eq_bind, Option.bind_eq_some_iff, Option.pure_def, Option.some.injEq, Prod.mk.injEq] at e
  · obtain ⟨_, e, rfl, -⟩ := e; exact initialise_set e
  · obtain ⟨_, e, rfl, -⟩ := e
    simp only [aad, Option.bind_eq_bind, Option.bind_eq_some_iff, Option.pure_def, Option.some.injEq] at e
    obtain ⟨_, e, rfl⟩ := e
    have h1 := set_iff.mp hs
    exact set_iff.mpr ⟨AeadInit.aad_set h1.1 e, h1.2⟩
  · obtain ⟨⟨_, _⟩, e, rfl, -⟩ := e; exact text_set hs e
  · obtain ⟨⟨_, _⟩, e, rfl, -⟩ := e; exact digest_set hs e
  · obtain ⟨⟨_, _⟩, e, rfl, -⟩ := e; exact digestC_set hs e
  · obtain ⟨⟨_, _⟩, e, rfl, -⟩ := e; exact verify_set hs e
  · obtain ⟨⟨o1, _⟩, e, rfl, -⟩ := e
    simp only [verifyThrow, Option.bind_eq_bind, Option.bind_eq_some_iff] at e
    obtain ⟨⟨o2, er⟩, e1, e2⟩ := e
    split at e2 <;> simp only [Option.pure_def, Option.some.injEq, Prod.mk.injEq] at e2 <;> exact e2.1 ▸ verify_set hs e1

theorem readable (past : List Call) (s : Obj M) (o : List Out) (hc : ∃ key iv, Call.init key iv ∈ past)
    (e : runCalls (exec h B) (constructDefault M) past = some (s, o)) : Set s := by
  obtain ⟨key, iv, hk⟩ := hc
  refine runCalls_since (f := exec h B) Set exec_keep (.init key iv) ?_ past _ s o (Or.inr hk) e
  intro s s' o e
  simp only [exec, Option.bind_eq_bind, Option.bind_eq_some_iff, Option.pure_def, Option.some.injEq, Prod.mk.injEq] at e
  obtain ⟨_, e, rfl, -⟩ := e
  exact initialise_set e

end AeadApieInit
end Milo.Copies
