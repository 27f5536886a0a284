import Verif.Spec.Output
/- Facts about the output specification. -/
namespace Milo

/-- Facts about `Spec.contained`. -/
theorem contained_facts (full : List Byte) (ds : Nat) (hl : full.length = ds) (c : Container) (n : Nat) :
    (Spec.contained full c n).1.dynamic = c.dynamic ∧
      (Spec.contained full c n).1.data.take (Spec.contained full c n).2 = full.take (Spec.contained full c n).2 ∧
      (c.dynamic = true → (Spec.contained full c n).2 = min n ds ∧ (Spec.contained full c n).1.data.length = (Spec.contained full c n).2) ∧
      (c.dynamic = false → (Spec.contained full c n).2 = min (min n c.data.length) ds ∧
        (Spec.contained full c n).1.data.length = c.data.length ∧
        (Spec.contained full c n).1.data.drop (Spec.contained full c n).2 = c.data.drop (Spec.contained full c n).2) := by
  unfold Spec.contained
  by_cases hd : c.dynamic = true
  · rw [if_pos hd]
    refine ⟨hd.symm, ?_, ?_, ?_⟩
    · show (full.take n).take _ = _
      rw [List.take_take]; congr 1; omega
    · intro _; exact ⟨by rw [hl], by simp⟩
    · intro h; rw [hd] at h; cases h
  · have hd' : c.dynamic = false := by simpa using hd
    rw [if_neg hd]
    refine ⟨hd'.symm, ?_, fun h => absurd h hd, fun _ => ⟨by simp only [Spec.written, hl], ?_, ?_⟩⟩
    · have hlen : (full.take (min n c.data.length)).length = min (min n c.data.length) full.length := by simp
      simp only [Spec.written]
      rw [List.take_left' hlen, ← List.take_eq_take_min]
    · simp only [Spec.written]
      simp; omega
    · have hlen : (full.take (min n c.data.length)).length = min (min n c.data.length) full.length := by simp
      simp only [Spec.written]
      rw [List.drop_left' hlen]

end Milo
