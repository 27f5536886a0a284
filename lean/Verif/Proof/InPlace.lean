import Verif.Model.InPlace
import Verif.Spec.InPlace
/- The codecs in one memory simulate the codecs with separate buffers as long as nothing unread is overwritten. -/
namespace Milo.InPlace
open Spec.InPlace

theorem replaced_length (mem : List Byte) (off : Nat) (xs : List Byte) (h : off + xs.length ≤ mem.length) : (replaced mem off xs).length = mem.length := by
  unfold replaced; simp; omega

theorem replaced_get (mem : List Byte) (off : Nat) (xs : List Byte) (h : off + xs.length ≤ mem.length) (i : Nat) :
    (replaced mem off xs)[i]? = if off ≤ i ∧ i < off + xs.length then xs[i - off]? else mem[i]? := by
  unfold replaced
  have ht : (mem.take off).length = off := by simp; omega
  rw [List.append_assoc, List.getElem?_append]
  split
  · rw [if_neg (by omega), List.getElem?_take, if_pos (by omega)]
  · rw [List.getElem?_append, ht]
    split
    · rw [if_pos (by omega)]
    · rw [if_neg (by omega), List.getElem?_drop]; congr 1; omega

theorem wr1_some {α : Type} {l l' : List α} {i : Nat} {x : α} (h : wr1 l i x = some l') : i < l.length ∧ l' = l.set i x := by
  unfold wr1 at h
  split at h
  · exact ⟨by assumption, by simpa using h.symm⟩
  · cases h

/-- A write to the result is a write to the memory. -/
theorem wr1_replaced {mem out out' : List Byte} {off w : Nat} {b : Byte} (h : off + out.length ≤ mem.length) (e : wr1 out w b = some out') :
    wr1 (replaced mem off out) (off + w) b = some (replaced mem off out') ∧ out'.length = out.length := by
  obtain ⟨hw, rfl⟩ := wr1_some e
  refine ⟨?_, by simp⟩
  unfold wr1
  rw [replaced_length mem off out h, if_pos (by omega)]
  congr 1
  unfold replaced
  rw [List.length_set, List.append_assoc, List.append_assoc, List.set_append_right _ _ (by simp; omega), List.set_append_left _ _ (by simp; omega)]
  have : (mem.take off).length = off := by simp; omega
  rw [this, Nat.add_sub_cancel_left]

/-- What is still to be read, from `fr` on, is in the memory unchanged. -/
def Unread (text : List Byte) (src fr : Nat) (mem : List Byte) : Prop := ∀ j, fr ≤ j → j < text.length → mem[src + j]? = text[j]?

theorem Unread.mono {text : List Byte} {src fr fr' : Nat} {mem : List Byte} (h : Unread text src fr mem) (hf : fr ≤ fr') : Unread text src fr' mem :=
  fun j hj hl => h j (by omega) hl

theorem Unread.rd {text : List Byte} {src fr : Nat} {mem : List Byte} (h : Unread text src fr mem) {j : Nat} (hj : fr ≤ j) {c : Byte} (e : rd1 text j = some c) :
    rd1 mem (src + j) = some c := by
  unfold rd1 at *
  have hl : j < text.length := by
    rcases Nat.lt_or_ge j text.length with hl | hl
    · exact hl
    · rw [List.getElem?_eq_none hl] at e; cases e
  rw [h j hj hl, e]

theorem Unread.wr {text : List Byte} {src fr : Nat} {mem mem' : List Byte} (h : Unread text src fr mem) {w : Nat} {b : Byte} (e : wr1 mem w b = some mem')
    (hw : w < src + fr ∨ src + text.length ≤ w) : Unread text src fr mem' := by
  obtain ⟨-, rfl⟩ := wr1_some e
  intro j hj hl
  rw [List.getElem?_set_ne (by omega)]
  exact h j hj hl

theorem bind_some {α β : Type} {x : Option α} {f : α → Option β} {b : β} (h : x.bind f = some b) : ∃ a, x = some a ∧ f a = some b := by
  cases x with
  | none => cases h
  | some a => exact ⟨a, rfl, h⟩

/-- The answer of the decoder in one memory. -/
def moved (mem : List Byte) (dst : Nat) (d : Base16.Decoded) : Base16.Decoded := ⟨replaced mem dst d.out, d.size, d.err⟩

section
variable (mem : List Byte) (text : List Byte) (src dst : Nat) (hb : dst ≤ src ∨ src + text.length ≤ dst)
include hb

theorem b16_decodeLoop (sg : Bool) (ret to : Nat) : ∀ (k i fr : Nat) (out : List Byte) (d : Base16.Decoded), dst + out.length ≤ mem.length → to + i ≤ fr + 1 →
    Unread text src fr (replaced mem dst out) → Base16.decodeLoop sg text ret to k i fr out = some d →
    Base16.At.decodeLoop sg src ret (dst + to) k i fr (replaced mem dst out) = some (moved mem dst d) := by
  intro k
  induction k with
  | zero =>
    intro i fr out d hl hi hu e
    simp only [Base16.decodeLoop, Option.some.injEq] at e
    subst e; rfl
  | succ k ih =>
    intro i fr out d hl hi hu e
    simp only [Base16.decodeLoop, Option.bind_eq_bind] at e
    obtain ⟨c0, e0, e⟩ := bind_some e
    obtain ⟨c1, e1, e⟩ := bind_some e
    simp only [Base16.At.decodeLoop, Option.bind_eq_bind, Nat.add_assoc, hu.rd (by omega) e0, hu.rd (by omega) e1, Option.bind_some]
    split at e
    · rw [if_pos (by assumption)]
      simp only [pure, Option.some.injEq] at e
      subst e; rfl
    · rw [if_neg (by assumption)]
      obtain ⟨out', ew, e⟩ := bind_some e
      obtain ⟨w1, w2⟩ := wr1_replaced hl ew
      rw [w1, Option.bind_some]
      refine ih (i + 1) (fr + 2) out' d (by omega) (by omega) ?_ e
      exact (hu.mono (by omega)).wr w1 (by rcases hb with h | h <;> omega)

theorem b16_decode (sg : Bool) (n : Nat) (hn : n = text.length) (out : List Byte) (d : Base16.Decoded) (hl : dst + out.length ≤ mem.length) (hu : Unread text src 0 (replaced mem dst out))
    (e : Base16.decode sg text out = some d) : Base16.At.decode sg (replaced mem dst out) src n dst = some (moved mem dst d) := by
  subst hn
  unfold Base16.decode at e
  unfold Base16.At.decode
  simp only at e ⊢
  split at e
  · rw [if_pos (by assumption)]
    simp only [Option.bind_eq_bind] at e ⊢
    obtain ⟨c0, e0, e⟩ := bind_some e
    rw [show rd1 (replaced mem dst out) src = some c0 from hu.rd (j := 0) (by omega) e0, Option.bind_some]
    split at e
    · rw [if_pos (by assumption)]
      simp only [pure, Option.some.injEq] at e
      subst e; rfl
    · rw [if_neg (by assumption)]
      obtain ⟨out', ew, e⟩ := bind_some e
      obtain ⟨w1, w2⟩ := wr1_replaced hl ew
      simp only [Nat.add_zero] at w1
      rw [w1, Option.bind_some]
      have : text.length &&& 1 = 1 := by
        have := Nat.and_one_is_mod text.length
        omega
      refine b16_decodeLoop mem text src dst hb sg _ 1 _ _ 1 out' d (by omega) (by omega) ?_ e
      refine (hu.mono (by omega)).wr w1 ?_
      rcases hb with h | h
      · left; omega
      · right; exact h
  · rw [if_neg (by assumption)]
    have h0 : text.length &&& 1 = 0 := by rename_i h; simpa using h
    exact b16_decodeLoop mem text src dst hb sg _ 0 _ _ 0 out d hl (by omega) hu e

theorem b64_decodeLast (sg : Bool) (fr to : Nat) (out : List Byte) (d : Base16.Decoded) (hl : dst + out.length ≤ mem.length)
    (hu : Unread text src fr (replaced mem dst out)) (e : Base64.decodeLast sg text fr to out = some d) :
    Base64.At.decodeLast sg src dst fr to (replaced mem dst out) = some (moved mem dst d) := by
  simp only [Base64.decodeLast, Option.bind_eq_bind] at e
  obtain ⟨c0, e0, e⟩ := bind_some e
  obtain ⟨c1, e1, e⟩ := bind_some e
  obtain ⟨c2, e2, e⟩ := bind_some e
  obtain ⟨c3, e3, e⟩ := bind_some e
  simp only [Base64.At.decodeLast, Option.bind_eq_bind, Nat.add_assoc, hu.rd (by omega) e0, hu.rd (by omega) e1, hu.rd (by omega) e2, hu.rd (by omega) e3, Option.bind_some]
  split at e
  · rw [if_pos (by assumption)]
    simp only [pure, Option.some.injEq] at e
    subst e; rfl
  · rw [if_neg (by assumption)]
    obtain ⟨o1, w1, e⟩ := bind_some e
    obtain ⟨v1, l1⟩ := wr1_replaced hl w1
    rw [v1, Option.bind_some]
    split at e
    · rw [if_pos (by assumption)]
      obtain ⟨o2, w2, e⟩ := bind_some e
      obtain ⟨v2, l2⟩ := wr1_replaced (mem := mem) (off := dst) (by omega) w2
      rw [v2, Option.bind_some]
      split at e
      · rw [if_pos (by assumption)]
        obtain ⟨o3, w3, e⟩ := bind_some e
        obtain ⟨v3, l3⟩ := wr1_replaced (mem := mem) (off := dst) (by omega) w3
        rw [v3, Option.bind_some]
        cases e; rfl
      · rw [if_neg (by assumption)]
        cases e; rfl
    · rw [if_neg (by assumption)]
      simp only [Option.bind_some] at e ⊢
      split at e
      · rw [if_pos (by assumption)]
        obtain ⟨o3, w3, e⟩ := bind_some e
        obtain ⟨v3, l3⟩ := wr1_replaced (mem := mem) (off := dst) (by omega) w3
        rw [v3, Option.bind_some]
        cases e; rfl
      · rw [if_neg (by assumption)]
        cases e; rfl

theorem b64_decodeLoop (sg : Bool) : ∀ (k fr to : Nat) (out : List Byte) (d : Base16.Decoded), dst + out.length ≤ mem.length → to ≤ fr →
    Unread text src fr (replaced mem dst out) → Base64.decodeLoop sg text (Base64.decodeLast sg text) k fr to out = some d →
    Base64.At.decodeLoop sg src dst (Base64.At.decodeLast sg src dst) k fr to (replaced mem dst out) = some (moved mem dst d) := by
  intro k
  induction k with
  | zero =>
    intro fr to out d hl ht hu e
    exact b64_decodeLast mem text src dst hb sg fr to out d hl hu e
  | succ k ih =>
    intro fr to out d hl ht hu e
    simp only [Base64.decodeLoop, Option.bind_eq_bind] at e
    obtain ⟨c0, e0, e⟩ := bind_some e
    obtain ⟨c1, e1, e⟩ := bind_some e
    obtain ⟨c2, e2, e⟩ := bind_some e
    obtain ⟨c3, e3, e⟩ := bind_some e
    simp only [Base64.At.decodeLoop, Option.bind_eq_bind, Nat.add_assoc, hu.rd (by omega) e0, hu.rd (by omega) e1, hu.rd (by omega) e2, hu.rd (by omega) e3, Option.bind_some]
    split at e
    · rw [if_pos (by assumption)]
      simp only [pure, Option.some.injEq] at e
      subst e; rfl
    · rw [if_neg (by assumption)]
      obtain ⟨o1, w1, e⟩ := bind_some e
      obtain ⟨o2, w2, e⟩ := bind_some e
      obtain ⟨o3, w3, e⟩ := bind_some e
      obtain ⟨v1, l1⟩ := wr1_replaced hl w1
      obtain ⟨v2, l2⟩ := wr1_replaced (mem := mem) (off := dst) (by omega) w2
      obtain ⟨v3, l3⟩ := wr1_replaced (mem := mem) (off := dst) (by omega) w3
      rw [v1, Option.bind_some, v2, Option.bind_some, v3, Option.bind_some]
      refine ih (fr + 4) (to + 3) o3 d (by omega) (by omega) ?_ e
      have hs : ∀ w, w ≤ to + 2 → dst + w < src + (fr + 4) ∨ src + text.length ≤ dst + w := fun w hw => by rcases hb with h | h <;> omega
      exact (((hu.mono (by omega)).wr v1 (hs _ (by omega))).wr v2 (hs _ (by omega))).wr v3 (hs _ (by omega))

theorem b64_decode (sg : Bool) (n : Nat) (hn : n = text.length) (out : List Byte) (d : Base16.Decoded) (hl : dst + out.length ≤ mem.length) (hu : Unread text src 0 (replaced mem dst out))
    (e : Base64.decode sg text out = some d) : Base64.At.decode sg (replaced mem dst out) src n dst = some (moved mem dst d) := by
  subst hn
  unfold Base64.decode at e
  unfold Base64.At.decode
  simp only at e ⊢
  split at e
  · rw [if_pos (by assumption)]; cases e; rfl
  · rw [if_neg (by assumption)]
    split at e
    · rw [if_pos (by assumption)]
      exact b64_decodeLoop mem text src dst hb sg _ 0 0 out d hl (Nat.le_refl _) hu e
    · rw [if_neg (by assumption)]; cases e; rfl

end

/-! Encoding -/

section
variable (mem : List Byte) (text : List Byte) (src dst : Nat)

theorem b16_encodeLoop (hb : dst + text.length ≤ src ∨ src + text.length ≤ dst) : ∀ (k fr : Nat) (rest out o : List Byte), rest = text.drop fr → k = rest.length →
    dst + out.length ≤ mem.length →
    Unread text src fr (replaced mem dst out) → Base16.encodeLoop rest (2 * fr) out = some o →
    Base16.At.encodeLoop k (src + fr) (dst + 2 * fr) (replaced mem dst out) = some (replaced mem dst o) := by
  intro k
  induction k with
  | zero =>
    intro fr rest out o hr hk hl hu e
    have : rest = [] := List.length_eq_zero_iff.mp hk.symm
    subst this
    cases e; rfl
  | succ k ih =>
    intro fr rest out o hr hk hl hu e
    cases rest with
    | nil => simp at hk
    | cons b rest =>
    have hfl : fr < text.length := by
      have := congrArg List.length hr; simp at this; omega
    have hr' : rest = text.drop (fr + 1) := by
      have := congrArg List.tail hr; simpa using this
    have hb0 : rd1 text fr = some b := by
      have := congrArg (fun l => l[0]?) hr
      simp at this; exact this.symm
    simp only [Base16.encodeLoop, Option.bind_eq_bind] at e
    obtain ⟨o1, w1, e⟩ := bind_some e
    obtain ⟨o2, w2, e⟩ := bind_some e
    obtain ⟨v1, l1⟩ := wr1_replaced hl w1
    obtain ⟨v2, l2⟩ := wr1_replaced (mem := mem) (off := dst) (by omega) w2
    simp only [Base16.At.encodeLoop, Option.bind_eq_bind, hu.rd (Nat.le_refl _) hb0, Option.bind_some]
    rw [show dst + 2 * fr + 0 = dst + (2 * fr + 0) by omega, v1, Option.bind_some, show dst + 2 * fr + 1 = dst + (2 * fr + 1) by omega, v2, Option.bind_some]
    have := ih (fr + 1) rest o2 o hr' (by simpa using hk) (by omega) ?_ (by rw [show 2 * (fr + 1) = 2 * fr + 2 by omega]; exact e)
    · exact this
    · have hs : ∀ w, w ≤ 2 * fr + 1 → dst + w < src + (fr + 1) ∨ src + text.length ≤ dst + w := fun w hw => by rcases hb with h | h <;> omega
      exact ((hu.mono (by omega)).wr v1 (hs _ (by omega))).wr v2 (hs _ (by omega))

theorem b16_encode (hb : dst + text.length ≤ src ∨ src + text.length ≤ dst) (n : Nat) (hn : n = text.length) (out : List Byte) (r : List Byte × Nat) (hl : dst + out.length ≤ mem.length)
    (hu : Unread text src 0 (replaced mem dst out)) (e : Base16.encode text out = some r) :
    Base16.At.encode (replaced mem dst out) src n dst = some (replaced mem dst r.1, r.2) := by
  subst hn
  simp only [Base16.encode, Option.bind_eq_bind] at e
  obtain ⟨o, e0, e⟩ := bind_some e
  cases e
  have := b16_encodeLoop mem text src dst hb text.length 0 text out o rfl rfl hl hu e0
  simp only [Base16.At.encode, Option.bind_eq_bind]
  rw [show src = src + 0 from rfl, show dst + 2 * 0 = dst from rfl] at this
  simp only [Nat.add_zero] at this
  rw [this]; rfl

theorem b64_encodeLoop (hb : dst + (text.length + 2) / 3 ≤ src ∨ src + text.length ≤ dst) : ∀ (k i : Nat) (out o : List Byte), 3 * (i + k) ≤ text.length → dst + out.length ≤ mem.length →
    Unread text src (3 * i) (replaced mem dst out) → Base64.encodeLoop text k (3 * i) (4 * i) out = some o →
    Base64.At.encodeLoop k (src + 3 * i) (dst + 4 * i) (replaced mem dst out) = some (replaced mem dst o) ∧ Unread text src (3 * (i + k)) (replaced mem dst o) ∧ o.length = out.length := by
  intro k
  induction k with
  | zero =>
    intro i out o hk hl hu e
    cases e
    exact ⟨rfl, hu, rfl⟩
  | succ k ih =>
    intro i out o hk hl hu e
    simp only [Base64.encodeLoop, Option.bind_eq_bind] at e
    obtain ⟨c0, e0, e⟩ := bind_some e
    obtain ⟨c1, e1, e⟩ := bind_some e
    obtain ⟨c2, e2, e⟩ := bind_some e
    obtain ⟨o1, w1, e⟩ := bind_some e
    obtain ⟨o2, w2, e⟩ := bind_some e
    obtain ⟨o3, w3, e⟩ := bind_some e
    obtain ⟨o4, w4, e⟩ := bind_some e
    obtain ⟨v1, l1⟩ := wr1_replaced hl w1
    obtain ⟨v2, l2⟩ := wr1_replaced (mem := mem) (off := dst) (by omega) w2
    obtain ⟨v3, l3⟩ := wr1_replaced (mem := mem) (off := dst) (by omega) w3
    obtain ⟨v4, l4⟩ := wr1_replaced (mem := mem) (off := dst) (by omega) w4
    simp only [Base64.At.encodeLoop, Option.bind_eq_bind, Nat.add_assoc, hu.rd (by omega) e0, hu.rd (by omega) e1, hu.rd (by omega) e2, Option.bind_some]
    rw [v1, Option.bind_some, v2, Option.bind_some, v3, Option.bind_some, v4, Option.bind_some]
    have hs : ∀ w, w ≤ 4 * i + 3 → dst + w < src + 3 * (i + 1) ∨ src + text.length ≤ dst + w := fun w hw => by rcases hb with h | h <;> omega
    obtain ⟨a, b, c⟩ := ih (i + 1) o4 o (by omega) (by omega)
      (((((hu.mono (by omega)).wr v1 (hs _ (by omega))).wr v2 (hs _ (by omega))).wr v3 (hs _ (by omega))).wr v4 (hs _ (by omega)))
      (by rw [show 3 * (i + 1) = 3 * i + 3 by omega, show 4 * (i + 1) = 4 * i + 4 by omega]; exact e)
    exact ⟨a, by rw [show i + (k + 1) = i + 1 + k by omega]; exact b, by omega⟩

theorem b64_encode (hb : dst + (text.length + 2) / 3 ≤ src ∨ src + text.length ≤ dst) (n : Nat) (hn : n = text.length) (out : List Byte) (r : List Byte × Nat) (hl : dst + out.length ≤ mem.length)
    (hu : Unread text src 0 (replaced mem dst out)) (e : Base64.encode text out = some r) :
    Base64.At.encode (replaced mem dst out) src n dst = some (replaced mem dst r.1, r.2) := by
  subst hn
  simp only [Base64.encode, Option.bind_eq_bind] at e
  obtain ⟨o, e0, e⟩ := bind_some e
  obtain ⟨a, b, c⟩ := b64_encodeLoop mem text src dst hb (text.length / 3) 0 out o (by omega) hl hu e0
  simp only [Nat.mul_zero, Nat.add_zero, Nat.zero_add] at a b
  simp only [Base64.At.encode, Option.bind_eq_bind, a, Option.bind_some]
  split at e
  · rw [if_pos (by assumption)]
    obtain ⟨c0, e0, e⟩ := bind_some e
    obtain ⟨c1, e1, e⟩ := bind_some e
    obtain ⟨o1, w1, e⟩ := bind_some e
    obtain ⟨o2, w2, e⟩ := bind_some e
    obtain ⟨o3, w3, e⟩ := bind_some e
    obtain ⟨o4, w4, e⟩ := bind_some e
    obtain ⟨v1, l1⟩ := wr1_replaced (mem := mem) (off := dst) (by omega) w1
    obtain ⟨v2, l2⟩ := wr1_replaced (mem := mem) (off := dst) (by omega) w2
    obtain ⟨v3, l3⟩ := wr1_replaced (mem := mem) (off := dst) (by omega) w3
    obtain ⟨v4, l4⟩ := wr1_replaced (mem := mem) (off := dst) (by omega) w4
    simp only [Nat.add_assoc, b.rd (by omega) e0, b.rd (by omega) e1, Option.bind_some]
    rw [v1, Option.bind_some, v2, Option.bind_some, v3, Option.bind_some, v4, Option.bind_some]
    cases e; rfl
  · rw [if_neg (by assumption)]
    cases e; rfl

end

end Milo.InPlace
