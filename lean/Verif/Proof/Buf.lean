import Verif.Model.Base
/- Lemmas about bounds-checked accesses. -/
namespace Milo

theorem wr1_append {α} (pre post : List α) (x y : α) :
    wr1 (pre ++ x :: post) pre.length y = some (pre ++ y :: post) := by
  simp [wr1]

theorem wr1_append' {α} (pre post : List α) (x y : α) (i : Nat) (h : i = pre.length) :
    wr1 (pre ++ x :: post) i y = some (pre ++ y :: post) := by
  subst h; exact wr1_append ..

theorem rd1_append {α} (pre post : List α) (x : α) (i : Nat) (h : i = pre.length) :
    rd1 (pre ++ x :: post) i = some x := by
  subst h; simp [rd1]

theorem wr1_isSome {α} (buf : List α) (i : Nat) (x : α) (h : i < buf.length) :
    wr1 buf i x = some (buf.set i x) := by simp [wr1, h]

theorem rd1_lt {α} (buf : List α) (i : Nat) (h : i < buf.length) : rd1 buf i = some buf[i] := by
  simp [rd1, h]

theorem wr1_length {α} {buf out : List α} {i : Nat} {x : α} (h : wr1 buf i x = some out) :
    out.length = buf.length := by
  unfold wr1 at h; split at h <;> simp at h; subst h; simp

end Milo
