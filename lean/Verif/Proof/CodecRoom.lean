import Verif.Proof.Base64Dec
/-
What a Base64 decoder that does not run out of its output must have had room for.
-/
namespace Milo.Base64
open Milo
open Milo.Base16 (Decoded)

theorem wr1_append {out o : List Byte} {i : Nat} {v : Byte} (e : wr1 out i v = some o) (x : List Byte) : wr1 (out ++ x) i v = some (o ++ x) := by
  unfold wr1 at *
  split at e
  · next h =>
    cases e
    rw [if_pos (by simp; omega), List.set_append_left _ _ h]
  · cases e

private theorem bsome {α β : Type} {x : Option α} {f : α → Option β} {b : β} (h : x.bind f = some b) : ∃ a, x = some a ∧ f a = some b := by
  cases x with
  | none => cases h
  | some a => exact ⟨a, rfl, h⟩

/-- The decoder given more room does the same. -/
private theorem last_append (sg : Bool) (src : List Byte) (fr t : Nat) (out : List Byte) (d : Decoded) (x : List Byte)
    (e : decodeLast sg src fr t out = some d) : decodeLast sg src fr t (out ++ x) = some ⟨d.out ++ x, d.size, d.err⟩ := by
  unfold decodeLast at *
  simp only [Option.bind_eq_bind] at *
  obtain ⟨c0, h0, e⟩ := bsome e
  obtain ⟨c1, h1, e⟩ := bsome e
  obtain ⟨c2, h2, e⟩ := bsome e
  obtain ⟨c3, h3, e⟩ := bsome e
  simp only [h0, h1, h2, h3, Option.bind_some]
  split at e
  · next hc => rw [if_pos hc]; cases e; rfl
  · next hc =>
    rw [if_neg hc]
    obtain ⟨o1, w1, e⟩ := bsome e
    rw [wr1_append w1 x, Option.bind_some]
    split at e
    · next hp =>
      rw [if_pos hp]
      obtain ⟨o2, w2, e⟩ := bsome e
      rw [wr1_append w2 x, Option.bind_some]
      split at e
      · next hq =>
        rw [if_pos hq]
        obtain ⟨o3, w3, e⟩ := bsome e
        rw [wr1_append w3 x, Option.bind_some]
        cases e; rfl
      · next hq => rw [if_neg hq]; cases e; rfl
    · next hp =>
      rw [if_neg hp]
      rw [Option.bind_some] at e
      split at e
      · next hq =>
        rw [if_pos hq]
        obtain ⟨o3, w3, e⟩ := bsome e
        rw [wr1_append w3 x, Option.bind_some]
        cases e; rfl
      · next hq => rw [if_neg hq]; cases e; rfl

private theorem loop_append (sg : Bool) (src x : List Byte) (k : Nat) : ∀ (fr t : Nat) (out : List Byte) (d : Decoded),
    decodeLoop sg src (decodeLast sg src) k fr t out = some d →
    decodeLoop sg src (decodeLast sg src) k fr t (out ++ x) = some ⟨d.out ++ x, d.size, d.err⟩ := by
  induction k with
  | zero => intro fr t out d e; exact last_append sg src fr t out d x e
  | succ k ih =>
    intro fr t out d e
    simp only [decodeLoop, Option.bind_eq_bind] at e ⊢
    obtain ⟨c0, h0, e⟩ := bsome e
    obtain ⟨c1, h1, e⟩ := bsome e
    obtain ⟨c2, h2, e⟩ := bsome e
    obtain ⟨c3, h3, e⟩ := bsome e
    simp only [h0, h1, h2, h3, Option.bind_some]
    split at e
    · next hc => rw [if_pos hc]; cases e; rfl
    · next hc =>
      rw [if_neg hc]
      obtain ⟨o1, w1, e⟩ := bsome e
      obtain ⟨o2, w2, e⟩ := bsome e
      obtain ⟨o3, w3, e⟩ := bsome e
      rw [wr1_append w1 x, Option.bind_some, wr1_append w2 x, Option.bind_some, wr1_append w3 x, Option.bind_some]
      exact ih _ _ _ _ e

theorem decode_append (sg : Bool) (txt out x : List Byte) (d : Decoded) (e : decode sg txt out = some d) :
    decode sg txt (out ++ x) = some ⟨d.out ++ x, d.size, d.err⟩ := by
  unfold decode at *
  simp only at *
  split at e
  · next h => rw [if_pos h]; cases e; rfl
  · next h =>
    rw [if_neg h]
    split at e
    · next h => rw [if_pos h]; exact loop_append sg txt x _ _ _ _ _ e
    · next h => rw [if_neg h]; cases e; rfl

private theorem last_length (sg : Bool) (src : List Byte) (fr t : Nat) (out : List Byte) (d : Decoded)
    (e : decodeLast sg src fr t out = some d) : d.out.length = out.length := by
  have wl : ∀ {out o : List Byte} {i : Nat} {v : Byte}, wr1 out i v = some o → o.length = out.length := by
    intro out o i v h; unfold wr1 at h; split at h <;> cases h; simp
  unfold decodeLast at *
  simp only [Option.bind_eq_bind] at *
  obtain ⟨c0, h0, e⟩ := bsome e
  obtain ⟨c1, h1, e⟩ := bsome e
  obtain ⟨c2, h2, e⟩ := bsome e
  obtain ⟨c3, h3, e⟩ := bsome e
  split at e
  · cases e; rfl
  · obtain ⟨o1, w1, e⟩ := bsome e
    have g1 := wl w1
    split at e
    · obtain ⟨o2, w2, e⟩ := bsome e
      have g2 := wl w2
      split at e
      · obtain ⟨o3, w3, e⟩ := bsome e
        have g3 := wl w3
        cases e; simp only; omega
      · cases e; simp only; omega
    · rw [Option.bind_some] at e
      split at e
      · obtain ⟨o3, w3, e⟩ := bsome e
        have g3 := wl w3
        cases e; simp only; omega
      · cases e; simp only; omega

private theorem loop_length (sg : Bool) (src : List Byte) (k : Nat) : ∀ (fr t : Nat) (out : List Byte) (d : Decoded),
    decodeLoop sg src (decodeLast sg src) k fr t out = some d → d.out.length = out.length := by
  have wl : ∀ {out o : List Byte} {i : Nat} {v : Byte}, wr1 out i v = some o → o.length = out.length := by
    intro out o i v h; unfold wr1 at h; split at h <;> cases h; simp
  induction k with
  | zero => intro fr t out d e; exact last_length sg src fr t out d e
  | succ k ih =>
    intro fr t out d e
    simp only [decodeLoop, Option.bind_eq_bind] at e ⊢
    obtain ⟨c0, h0, e⟩ := bsome e
    obtain ⟨c1, h1, e⟩ := bsome e
    obtain ⟨c2, h2, e⟩ := bsome e
    obtain ⟨c3, h3, e⟩ := bsome e
    split at e
    · cases e; rfl
    · obtain ⟨o1, w1, e⟩ := bsome e
      obtain ⟨o2, w2, e⟩ := bsome e
      obtain ⟨o3, w3, e⟩ := bsome e
      have := ih _ _ _ _ e
      have := wl w1
      have := wl w2
      have := wl w3
      omega

theorem decode_out_length (sg : Bool) (txt out : List Byte) (d : Decoded) (e : decode sg txt out = some d) : d.out.length = out.length := by
  unfold decode at e
  simp only at e
  split at e
  · cases e; rfl
  · split at e
    · exact loop_length sg txt _ _ _ _ _ e
    · cases e; rfl

/-- Without undefined behaviour there was room for every byte the text decodes to (also for those before an error). -/
theorem decode_room (sg : Bool) (txt out : List Byte) (d : Decoded) (hm : txt.length % 4 = 0) (e : decode sg txt out = some d) :
    (laxDecode sg txt).1.length ≤ out.length := by
  refine Nat.le_of_not_lt fun hlt => ?_
  -- more room, filled with a byte other than the one that belongs there
  generalize hL : (laxDecode sg txt).1 = L at *
  have hd := decode_out_length sg txt out d e
  have h1 := decode_append sg txt out (List.replicate L.length (~~~ L[out.length])) d e
  have h2 := decode_eq sg txt (out ++ List.replicate L.length (~~~ L[out.length])) hm (by rw [hL]; simp)
  rw [h1, hL] at h2
  have h3 := congrArg (fun r => (Option.map (fun r : Decoded => r.out[out.length]?) r)) h2
  simp only [Option.map_some, Option.some.injEq] at h3
  rw [List.getElem?_append_right (by omega), hd, Nat.sub_self, List.getElem?_append_left hlt, List.getElem?_replicate, if_pos (by omega),
    List.getElem?_eq_getElem hlt, Option.some.injEq] at h3
  have : ∀ b : Byte, ~~~ b ≠ b := by decide
  exact this _ h3

end Milo.Base64
