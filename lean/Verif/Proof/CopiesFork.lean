import Verif.Proof.CopiesInit
/- Programs consisting of calls on one object at a time. -/
namespace Milo.Copies
open Spec.Copies
variable {C O : Type}

theorem allowed_append (R : Rules C O) : ∀ (a b : List (Op C)) (w : World C), Allowed R (Answered R) w (a ++ b) ↔ Allowed R (Answered R) w a ∧ Allowed R (Answered R) (worldAfter w a) b := by
  intro a
  induction a with
  | nil => intro b w; exact ⟨fun h => ⟨trivial, h⟩, fun h => h.2⟩
  | cons x a ih =>
    intro b w
    have : Allowed R (Answered R) w (x :: a ++ b) ↔ Legal R (Answered R) w x ∧ Allowed R (Answered R) (after w x) (a ++ b) := Iff.rfl
    rw [this, ih, ← and_assoc]
    rfl

theorem expected_append (R : Rules C O) : ∀ (a b : List (Op C)) (w : World C),
    expected R w (a ++ b) = expected R w a ++ expected R (worldAfter w a) b := by
  intro a
  induction a with
  | nil => intro b w; rfl
  | cons x a ih =>
    intro b w
    simp only [List.cons_append, expected, ih, List.append_assoc]
    rfl

theorem put_put {α : Type} (f : Nat → Option α) (i : Nat) (a b : Option α) : put (put f i a) i b = put f i b := by
  funext k
  by_cases hk : k = i
  · subst hk; rw [put_same, put_same]
  · rw [put_other hk, put_other hk, put_other hk]

theorem put_id {α : Type} {f : Nat → Option α} {i : Nat} {a : Option α} (h : f i = a) : put f i a = f := by
  funext k
  by_cases hk : k = i
  · subst hk; rw [put_same, h]
  · rw [put_other hk]

/-- Calls on object `i`. -/
theorem calls_ok {S : Type} {fresh : S} {exec : S → C → Option (S × List O)} {complete : List C → Prop} {i : Nat} :
    ∀ (cs : List C) (w : World C) (past : List C) (s s' : S) (o o' : List O), w.life i = some ⟨past, false⟩ →
      runCalls exec fresh past = some (s, o) → runCalls exec s cs = some (s', o') →
      Allowed (rules fresh exec complete) (Answered (rules fresh exec complete)) w (cs.map (.call i)) ∧ expected (rules fresh exec complete) w (cs.map (.call i)) = o' ∧
        worldAfter w (cs.map (.call i)) = { w with life := put w.life i (some ⟨past ++ cs, false⟩) } := by
  intro cs
  induction cs with
  | nil =>
    intro w past s s' o o' hw _ h2
    simp only [runCalls, Option.some.injEq, Prod.mk.injEq] at h2
    refine ⟨trivial, h2.2 ▸ rfl, ?_⟩
    rw [List.append_nil, put_id hw]
    rfl
  | cons c cs ih =>
    intro w past s s' o o' hw h1 h2
    simp only [runCalls, Option.bind_eq_bind, Option.bind_eq_some_iff, Option.pure_def, Option.some.injEq, Prod.mk.injEq] at h2
    obtain ⟨⟨s1, o1⟩, e1, ⟨s2, o2⟩, e2, rfl, rfl⟩ := h2
    have hans : (rules fresh exec complete).answer past c = some o1 := by
      show alone exec fresh past c = some o1
      rw [alone_eq h1, e1]; rfl
    obtain ⟨ha, he, hwa⟩ := ih (after w (.call i c)) (past ++ [c]) s1 s2 (o ++ o1) o2 (by simp [after, hw, put_same]) (runCalls_snoc h1 e1) e2
    refine ⟨⟨⟨rfl, ⟨past, false⟩, hw, fun _ => rfl, ?_⟩, ha⟩, ?_, ?_⟩
    · show (rules fresh exec complete).answer past c ≠ none
      rw [hans]; simp
    · simp only [List.map_cons, expected, he, hw, Option.bind_some, hans, Option.getD_some]
    · have : worldAfter w ((c :: cs).map (.call i)) = worldAfter (after w (.call i c)) (cs.map (.call i)) := rfl
      rw [this, hwa]
      simp only [after, put_put, List.append_assoc, List.singleton_append]

theorem fork_ok {S : Type} {fresh : S} {exec : S → C → Option (S × List O)} {complete : List C → Prop} (xs ys zs : List C) {s sy sz : S} {o oy oz : List O}
    (hc : complete xs) (hx : runCalls exec fresh xs = some (s, o)) (hy : runCalls exec s ys = some (sy, oy)) (hz : runCalls exec s zs = some (sz, oz)) :
    Allowed (rules fresh exec complete) (Answered (rules fresh exec complete)) World.start (fork xs ys zs) ∧ expected (rules fresh exec complete) World.start (fork xs ys zs) = o ++ (oy ++ oz) := by
  obtain ⟨a1, e1, w1⟩ := calls_ok (complete := complete) (i := 0) xs (after (World.start : World C) (.new 0)) [] fresh s [] o (by simp [after, put_same, World.start]) rfl hx
  let w2 : World C := after (worldAfter (after (World.start : World C) (.new 0)) (xs.map (.call 0))) (.copy 1 0)
  have hw2 : w2 = after { after (World.start : World C) (.new 0) with life := put (after (World.start : World C) (.new 0)).life 0 (some ⟨xs, false⟩) } (.copy 1 0) := by
    simp only [w2, w1, List.nil_append]
  have l0 : w2.life 0 = some ⟨xs, false⟩ := by rw [hw2]; simp [after, put]
  have l1 : w2.life 1 = some ⟨xs, false⟩ := by rw [hw2]; simp [after, put]
  obtain ⟨a3, e3, w3⟩ := calls_ok (complete := complete) (i := 0) ys w2 xs s sy o oy l0 hx hy
  have l1' : (worldAfter w2 (ys.map (.call 0))).life 1 = some ⟨xs, false⟩ := by rw [w3]; simp [put, l1]
  obtain ⟨a4, e4, -⟩ := calls_ok (complete := complete) (i := 1) zs (worldAfter w2 (ys.map (.call 0))) xs s sz o oz l1' hx hz
  have hleg : Legal (rules fresh exec complete) (Answered (rules fresh exec complete)) (worldAfter (after (World.start : World C) (.new 0)) (xs.map (.call 0))) (.copy 1 0) := by
    rw [w1]
    refine ⟨by simp [after, put, World.start], ⟨xs, false⟩, by simp [put], rfl, hc⟩
  have e : fork xs ys zs = Op.new 0 :: (xs.map (Op.call 0) ++ (Op.copy 1 0 :: (ys.map (Op.call 0) ++ zs.map (Op.call 1)))) := by
    simp [fork]
  rw [e]
  refine ⟨⟨rfl, ?_⟩, ?_⟩
  · rw [allowed_append]
    refine ⟨a1, hleg, ?_⟩
    rw [allowed_append]
    exact ⟨a3, a4⟩
  · have h1 : expected (rules fresh exec complete) World.start (Op.new 0 :: (xs.map (Op.call 0) ++ (Op.copy 1 0 :: (ys.map (Op.call 0) ++ zs.map (Op.call 1)))))
        = expected (rules fresh exec complete) (after (World.start : World C) (.new 0)) (xs.map (Op.call 0) ++ (Op.copy 1 0 :: (ys.map (Op.call 0) ++ zs.map (Op.call 1)))) := rfl
    rw [h1, expected_append, e1]
    have h2 : expected (rules fresh exec complete) (worldAfter (after (World.start : World C) (.new 0)) (xs.map (Op.call 0)))
          (Op.copy 1 0 :: (ys.map (Op.call 0) ++ zs.map (Op.call 1)))
        = expected (rules fresh exec complete) w2 (ys.map (Op.call 0) ++ zs.map (Op.call 1)) := rfl
    rw [h2, expected_append, e3, e4]

end Milo.Copies
