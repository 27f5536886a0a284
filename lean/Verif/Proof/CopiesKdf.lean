import Verif.Proof.CopiesHeap
/- `initialize` and `derive` of the two kdf classes and their views. -/
namespace Milo.Copies
open Memory

theorem forM'_keep {σ : Type} {f : Nat → σ → Option σ} (P : σ → Prop) (hf : ∀ i s s', P s → f i s = some s' → P s') :
    ∀ {n i : Nat} {s s' : σ}, P s → forM' f n i s = some s' → P s' := by
  intro n
  induction n with
  | zero => intro i s s' hp h; simp only [forM', Option.some.injEq] at h; exact h ▸ hp
  | succ n ih =>
    intro i s s' hp h
    simp only [forM', Option.bind_eq_bind, Option.bind_eq_some_iff] at h
    obtain ⟨s1, h1, h2⟩ := h
    exact ih (hf _ _ _ hp h1) h2

namespace HkdfLaws
open Hkdf
variable {h : Host} {M : MacImpl}

theorem expand_info {m : Mem} {o o' : Obj M} {dst d : List Byte} {c : BitVec 8} {prev : List Byte}
    (e : expand M m o dst c prev = some (o', d)) : o'.info = o.info := by
  simp only [expand, Option.bind_eq_bind, Option.bind_eq_some_iff, Option.pure_def, Option.some.injEq, Prod.mk.injEq] at e
  obtain ⟨_, -, _, -, _, -, _, -, _, -, _, -, _, -, rfl, -⟩ := e
  rfl

theorem expandKey_info {m : Mem} {o o' : Obj M} {key d : List Byte} {off : Nat} {c : BitVec 8} {prev : List Byte}
    (e : expandKey M m o key off c prev = some (o', d)) : o'.info = o.info := by
  unfold expandKey at e
  split at e
  · simp only [Option.bind_eq_bind, Option.bind_eq_some_iff, Option.pure_def, Option.some.injEq, Prod.mk.injEq] at e
    obtain ⟨⟨o1, d1⟩, e1, e2, -⟩ := e
    exact e2 ▸ expand_info e1
  · exact absurd e (by simp)

theorem expandBuffer_info {m : Mem} {o o' : Obj M} {c : BitVec 8} {prev : List Byte}
    (e : expandBuffer M m o c prev = some o') : o'.info = o.info := by
  simp only [expandBuffer, Option.bind_eq_bind, Option.bind_eq_some_iff, Option.pure_def, Option.some.injEq] at e
  obtain ⟨⟨o1, d1⟩, e1, rfl⟩ := e
  exact expand_info (o' := o1) e1

theorem serve_info {o o' : Obj M} {key d : List Byte} {n r : Nat} (e : serve h M o key n = some (o', d, r)) : o'.info = o.info := by
  unfold serve at e
  split at e
  · simp only [Option.bind_eq_bind, Option.bind_eq_some_iff, Option.pure_def, Option.some.injEq, Prod.mk.injEq] at e
    obtain ⟨_, -, _, -, rfl, -⟩ := e
    rfl
  · simp only [Option.pure_def, Option.some.injEq, Prod.mk.injEq] at e
    exact e.1 ▸ rfl

theorem blocks_info {m : Mem} {o o' : Obj M} {key d prev : List Byte} {off full off' : Nat} {c : BitVec 8}
    (e : blocks M m o key off full prev = some (o', d, off', c)) : o'.info = o.info := by
  simp only [blocks, Option.bind_eq_bind, Option.bind_eq_some_iff, Option.pure_def, Option.some.injEq, Prod.mk.injEq] at e
  obtain ⟨⟨o1, k1⟩, e1, s, es, pr, -, o2, e2, rfl, -⟩ := e
  have h1 := expandKey_info e1
  have h2 := expandBuffer_info e2
  have h3 : s.o.info = o1.info := by
    refine forM'_keep (fun s : Loop M => s.o.info = o1.info) ?_ rfl es
    intro i s s' hs hx
    simp only [step, Option.bind_eq_bind, Option.bind_eq_some_iff, Option.pure_def, Option.some.injEq] at hx
    obtain ⟨_, -, ⟨o3, k3⟩, e3, rfl⟩ := hx
    exact (expandKey_info e3).trans hs
  rw [h2, h3, h1]

theorem generate_info {m : Mem} {o o' : Obj M} {key d : List Byte} {off n : Nat} (e : generate h M m o key off n = some (o', d)) : o'.info = o.info := by
  unfold generate at e
  by_cases hf : n / M.digestSize = 0
  · simp only [hf, if_true, single, Option.bind_eq_bind, Option.bind_eq_some_iff, Option.pure_def, Option.some.injEq, Prod.mk.injEq] at e
    obtain ⟨⟨o1, k1, off1, c1⟩, ⟨o2, e2, rfl, -⟩, _, -, rfl, -⟩ := e
    exact expandBuffer_info (o' := o1) e2
  · simp only [hf, if_false, Option.bind_eq_bind, Option.bind_eq_some_iff, Option.pure_def, Option.some.injEq, Prod.mk.injEq] at e
    obtain ⟨⟨o1, k1, off1, c1⟩, e1, _, -, rfl, -⟩ := e
    exact blocks_info (o' := o1) e1

theorem derive_info {m : Mem} {o o' : Obj M} {key : List Byte} {n : Nat} {out : List Byte × Nat} (e : derive h M o m key n = some (o', out)) :
    o'.info = o.info := by
  simp only [derive, Option.bind_eq_bind, Option.bind_eq_some_iff] at e
  obtain ⟨⟨o1, k1, r1⟩, e1, e2⟩ := e
  have h1 := serve_info e1
  split at e2
  · simp only [Option.pure_def, Option.some.injEq, Prod.mk.injEq] at e2
    exact e2.1 ▸ h1
  · simp only [Option.bind_eq_some_iff, Option.pure_def, Option.some.injEq, Prod.mk.injEq] at e2
    obtain ⟨⟨o2, k2⟩, e2, e3, -⟩ := e2
    rw [← e3, generate_info e2, h1]

theorem laws (hc : h.consteval = true) : ViewLaws (hkdf h M) where
  count _ := rfl
  setSet _ _ _ := rfl
  fresh := rfl
  initSame := by
    rintro ⟨a1, a2, a3, a4, a5, a6⟩ ⟨b1, b2, b3, b4, b5, b6⟩ m a hs
    have := congrFun hs []
    simp only [hkdf, Obj.mk.injEq, true_and] at this
    obtain ⟨rfl, rfl, rfl, rfl, rfl⟩ := this
    rfl
  init := by
    intro (s : Obj M) m (a : Args) (s' : Obj M) e
    have e1 : Hkdf.init h M s m a = some s' := e
    clear e
    simp only [Hkdf.init, View.make, hc, if_true, Option.bind_eq_bind, Option.bind_eq_some_iff, Option.map_eq_some_iff, Option.pure_def, Option.some.injEq] at e1
    obtain ⟨v, ⟨b, hb, rfl⟩, _, -, _, -, _, -, _, -, _, -, _, -, rfl⟩ := e1
    exact ⟨[b], by simp [hkdf, hb], rfl⟩
  derive := by
    intro s m key n s' out bs e hs
    have h1 : s'.info = s.info := derive_info e
    have h2 := congrArg Obj.info hs
    simp only [hkdf] at h2
    rw [← h1] at h2
    show ({ s' with info := View.owned (bs.getD 0 []) } : Obj M) = s'
    rw [h2]
    rfl

end HkdfLaws

namespace Pbkdf2Laws
open Pbkdf2
variable {h : Host} {M : MacImpl} {junk : Nat → Byte}

/-- The two views. -/
def vs (o : Obj M) : View × View := (o.ikm, o.salt)

theorem expand_vs {m : Mem} {o o' : Obj M} {dst d : List Byte} {c : W32} (e : expand h M junk m o dst c = some (o', d)) : vs o' = vs o := by
  simp only [expand, Option.bind_eq_bind, Option.bind_eq_some_iff, Option.pure_def, Option.some.injEq, Prod.mk.injEq] at e
  obtain ⟨_, -, _, -, _, -, _, -, _, -, _, -, _, -, _, -, _, -, _, -, _, -, rfl, -⟩ := e
  rfl

theorem serve_vs {o o' : Obj M} {key d : List Byte} {n r : Nat} (e : serve h M o key n = some (o', d, r)) : vs o' = vs o := by
  unfold serve at e
  split at e
  · simp only [Option.bind_eq_bind, Option.bind_eq_some_iff, Option.pure_def, Option.some.injEq, Prod.mk.injEq] at e
    obtain ⟨_, -, _, -, rfl, -⟩ := e
    rfl
  · simp only [Option.pure_def, Option.some.injEq, Prod.mk.injEq] at e
    exact e.1 ▸ rfl

theorem generate_vs {m : Mem} {o o' : Obj M} {key d : List Byte} {off n : Nat} (e : generate h M junk m o key off n = some (o', d)) : vs o' = vs o := by
  simp only [generate, Option.bind_eq_bind, Option.bind_eq_some_iff] at e
  obtain ⟨s, es, e2⟩ := e
  have h1 : vs s.o = vs o := by
    refine forM'_keep (fun s : Loop M => vs s.o = vs o) ?_ rfl es
    intro i s s' hs hx
    unfold step at hx
    split at hx
    · simp only [Option.bind_eq_bind, Option.bind_eq_some_iff, Option.pure_def, Option.some.injEq] at hx
      obtain ⟨⟨o3, k3⟩, e3, rfl⟩ := hx
      exact (expand_vs e3).trans hs
    · exact absurd hx (by simp)
  unfold final at e2
  split at e2
  · simp only [Option.bind_eq_bind, Option.bind_eq_some_iff, Option.pure_def, Option.some.injEq, Prod.mk.injEq] at e2
    obtain ⟨⟨o3, k3⟩, e3, _, -, rfl, -⟩ := e2
    exact (expand_vs (o' := o3) e3).trans h1
  · simp only [Option.pure_def, Option.some.injEq, Prod.mk.injEq] at e2
    rw [← e2.1]
    exact h1

theorem derive_vs {m : Mem} {o o' : Obj M} {key : List Byte} {n : Nat} {out : List Byte × Nat} (e : derive h M junk o m key n = some (o', out)) :
    vs o' = vs o := by
  simp only [derive, Option.bind_eq_bind, Option.bind_eq_some_iff] at e
  obtain ⟨⟨o1, k1, r1⟩, e1, e2⟩ := e
  have h1 := serve_vs e1
  split at e2
  · simp only [Option.pure_def, Option.some.injEq, Prod.mk.injEq] at e2
    exact e2.1 ▸ h1
  · simp only [Option.bind_eq_some_iff, Option.pure_def, Option.some.injEq, Prod.mk.injEq] at e2
    obtain ⟨⟨o2, k2⟩, e2, e3, -⟩ := e2
    rw [← e3, generate_vs e2, h1]

theorem laws (hc : h.consteval = true) : ViewLaws (pbkdf2 h M junk) where
  count _ := rfl
  setSet _ _ _ := rfl
  fresh := rfl
  initSame := by
    rintro ⟨a1, a2, a3, a4, a5, a6, a7⟩ ⟨b1, b2, b3, b4, b5, b6, b7⟩ m a hs
    have := congrFun hs []
    simp only [pbkdf2, Obj.mk.injEq, true_and] at this
    obtain ⟨rfl, rfl, rfl, rfl, rfl⟩ := this
    rfl
  init := by
    intro (s : Obj M) m (a : Args) (s' : Obj M) e
    have e1 : Pbkdf2.init h M s m a = some s' := e
    clear e
    simp only [Pbkdf2.init, View.make, hc, if_true, Option.bind_eq_bind, Option.bind_eq_some_iff, Option.map_eq_some_iff, Option.pure_def, Option.some.injEq] at e1
    obtain ⟨v, ⟨b, hb, rfl⟩, v', ⟨b', hb', rfl⟩, rfl⟩ := e1
    exact ⟨[b, b'], by simp [pbkdf2, hb, hb'], rfl⟩
  derive := by
    intro s m key n s' out bs e hs
    have h0 : vs s' = vs s := derive_vs e
    have h1 : s'.ikm = s.ikm := congrArg Prod.fst h0
    have h1' : s'.salt = s.salt := congrArg Prod.snd h0
    have h2 := congrArg Obj.ikm hs
    have h2' := congrArg Obj.salt hs
    simp only [pbkdf2] at h2 h2'
    rw [← h1] at h2
    rw [← h1'] at h2'
    show ({ s' with ikm := View.owned (bs.getD 0 []), salt := View.owned (bs.getD 1 []) } : Obj M) = s'
    rw [h2, h2']
    rfl

end Pbkdf2Laws
end Milo.Copies
