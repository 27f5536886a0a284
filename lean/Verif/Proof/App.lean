import Verif.Model.App
import Verif.Spec.App
/- The command line application: pattern expressions. -/
namespace Milo.App
open Spec.App

theorem find_some {s p : Str} {pos i : Nat} : find s p pos = some i ↔ (pos ≤ i ∧ i ≤ s.length ∧ p <+: s.drop i) ∧ ∀ j, pos ≤ j → j < i → ¬ p <+: s.drop j := by
  unfold find
  rw [List.find?_range_eq_some]
  simp only [Bool.and_eq_true, decide_eq_true_eq, List.isPrefixOf_iff_prefix, List.mem_range, Bool.not_eq_eq_eq_not, Bool.not_true, Bool.and_eq_false_iff, decide_eq_false_iff_not]
  constructor
  · rintro ⟨⟨h1, h2⟩, h3, h4⟩
    refine ⟨⟨h1, by omega, h2⟩, fun j hj hj' hc => ?_⟩
    rcases h4 j hj' with h | h
    · exact h hj
    · rw [← List.isPrefixOf_iff_prefix] at hc
      rw [hc] at h
      cases h
  · rintro ⟨⟨h1, h3, h2⟩, h4⟩
    refine ⟨⟨h1, h2⟩, by omega, fun j hj => ?_⟩
    by_cases hp : pos ≤ j
    · right
      have := h4 j hp hj
      rw [← List.isPrefixOf_iff_prefix, Bool.not_eq_true] at this
      exact this
    · exact .inl hp

theorem find_none {s p : Str} {pos : Nat} : find s p pos = none ↔ ∀ j, pos ≤ j → j ≤ s.length → ¬ p <+: s.drop j := by
  unfold find
  rw [List.find?_eq_none]
  simp only [Bool.and_eq_true, decide_eq_true_eq, List.isPrefixOf_iff_prefix, List.mem_range]
  exact ⟨fun h j h1 h2 hc => h j (by omega) ⟨h1, hc⟩, fun h j h1 hc => h j hc.1 (by omega) hc.2⟩

/-! ### Glob -/

theorem glob_star {p m : Str} : Glob ('*' :: p) m ↔ ∃ u v, m = u ++ v ∧ Glob p v := by
  constructor
  · intro h
    cases h with
    | star u h => exact ⟨u, _, rfl, h⟩
    | char hc => exact absurd rfl hc
  · rintro ⟨u, v, rfl, h⟩
    exact .star u h

theorem glob_nil {m : Str} : Glob [] m ↔ m = [] := by
  constructor
  · intro h; cases h; rfl
  · rintro rfl; exact .nil

theorem glob_char {c : Char} {p m : Str} (hc : c ≠ '*') : Glob (c :: p) m ↔ ∃ m', m = c :: m' ∧ Glob p m' := by
  constructor
  · intro h
    cases h with
    | star u h => exact absurd rfl hc
    | char _ h => exact ⟨_, rfl, h⟩
  · rintro ⟨m', rfl, h⟩
    exact .char hc h

theorem glob_lit {l p m : Str} (hl : '*' ∉ l) : Glob (l ++ p) m ↔ ∃ v, m = l ++ v ∧ Glob p v := by
  induction l generalizing m with
  | nil => simp
  | cons c l ih =>
    have hc : c ≠ '*' := fun h => hl (by rw [h]; exact .head _)
    rw [List.cons_append, glob_char hc]
    constructor
    · rintro ⟨m', rfl, h⟩
      obtain ⟨v, rfl, h'⟩ := (ih fun h => hl (.tail _ h)).mp h
      exact ⟨v, rfl, h'⟩
    · rintro ⟨v, rfl, h⟩
      exact ⟨l ++ v, rfl, (ih fun h => hl (.tail _ h)).mpr ⟨v, rfl, h⟩⟩

theorem glob_star_star {p m : Str} : Glob ('*' :: '*' :: p) m ↔ Glob ('*' :: p) m := by
  rw [glob_star]
  constructor
  · rintro ⟨u, v, rfl, h⟩
    obtain ⟨u', v', rfl, h'⟩ := glob_star.mp h
    rw [← List.append_assoc]
    exact .star _ h'
  · intro h
    exact ⟨[], m, rfl, h⟩

theorem glob_absorb {p m : Str} (u : Str) (h : Glob ('*' :: p) m) : Glob ('*' :: p) (u ++ m) := by
  obtain ⟨u', v, rfl, h'⟩ := glob_star.mp h
  rw [← List.append_assoc]
  exact .star _ h'

theorem glob_stars {p m : Str} (n : Nat) : Glob ('*' :: (List.replicate n '*' ++ p)) m ↔ Glob ('*' :: p) m := by
  induction n with
  | zero => rfl
  | succ n ih => rw [List.replicate_succ, List.cons_append, glob_star_star, ih]

/-! ### The loop -/

theorem ffno_some {s : Str} {c : Char} {pos i : Nat} : findFirstNotOf s c pos = some i ↔ (pos ≤ i ∧ i < s.length ∧ s[i]? ≠ some c) ∧ ∀ j, pos ≤ j → j < i → s[j]? = some c := by
  unfold findFirstNotOf
  rw [List.find?_range_eq_some]
  simp only [Bool.and_eq_true, decide_eq_true_eq, bne_iff_ne, List.mem_range, Bool.not_eq_eq_eq_not, Bool.not_true, Bool.and_eq_false_iff, decide_eq_false_iff_not]
  constructor
  · rintro ⟨⟨h1, h2⟩, h3, h4⟩
    refine ⟨⟨h1, h3, h2⟩, fun j hj hj' => ?_⟩
    rcases h4 j hj' with h | h
    · exact absurd hj h
    · simpa using h
  · rintro ⟨⟨h1, h3, h2⟩, h4⟩
    refine ⟨⟨h1, h2⟩, h3, fun j hj => ?_⟩
    by_cases hp : pos ≤ j
    · right; simpa using h4 j hp hj
    · exact .inl hp

theorem ffno_none {s : Str} {c : Char} {pos : Nat} : findFirstNotOf s c pos = none ↔ ∀ j, pos ≤ j → j < s.length → s[j]? = some c := by
  unfold findFirstNotOf
  rw [List.find?_eq_none]
  simp only [Bool.and_eq_true, decide_eq_true_eq, bne_iff_ne, List.mem_range, ne_eq, not_and, Decidable.not_not]
  exact ⟨fun h j h1 h2 => h j h2 h1, fun h j h1 h2 => h j h2 h1⟩

theorem ffo_some {s : Str} {c : Char} {pos i : Nat} : findFirstOf s c pos = some i ↔ (pos ≤ i ∧ i < s.length ∧ s[i]? = some c) ∧ ∀ j, pos ≤ j → j < i → s[j]? ≠ some c := by
  unfold findFirstOf
  rw [List.find?_range_eq_some]
  simp only [Bool.and_eq_true, decide_eq_true_eq, beq_iff_eq, List.mem_range, Bool.not_eq_eq_eq_not, Bool.not_true, Bool.and_eq_false_iff, decide_eq_false_iff_not]
  constructor
  · rintro ⟨⟨h1, h2⟩, h3, h4⟩
    refine ⟨⟨h1, h3, h2⟩, fun j hj hj' => ?_⟩
    rcases h4 j hj' with h | h
    · exact absurd hj h
    · simpa using h
  · rintro ⟨⟨h1, h3, h2⟩, h4⟩
    refine ⟨⟨h1, h2⟩, h3, fun j hj => ?_⟩
    by_cases hp : pos ≤ j
    · right; simpa using h4 j hp hj
    · exact .inl hp

theorem ffo_none {s : Str} {c : Char} {pos : Nat} : findFirstOf s c pos = none ↔ ∀ j, pos ≤ j → j < s.length → s[j]? ≠ some c := by
  unfold findFirstOf
  rw [List.find?_eq_none]
  simp only [Bool.and_eq_true, decide_eq_true_eq, beq_iff_eq, List.mem_range, not_and]
  exact ⟨fun h j h1 h2 => h j h2 h1, fun h j h1 h2 => h j h2 h1⟩

/-- What the two searches cut off the rest of the pattern: stars, then a piece without stars, up to the end or the next star. -/
theorem cut (s : Str) (pos : Nat) (hp : pos ≤ s.length) :
    (findFirstNotOf s '*' pos = none ∧ s.drop pos = List.replicate (s.length - pos) '*') ∨
    (∃ beg e, findFirstNotOf s '*' pos = some beg ∧ (findFirstOf s '*' beg).getD s.length = e ∧ pos ≤ beg ∧ beg < e ∧ e ≤ s.length ∧
      s.drop pos = List.replicate (beg - pos) '*' ++ (((s.drop beg).take (e - beg)) ++ s.drop e) ∧ '*' ∉ (s.drop beg).take (e - beg) ∧
      (s.drop e = [] ∨ ∃ t, s.drop e = '*' :: t)) := by
  cases h : findFirstNotOf s '*' pos with
  | none =>
    left
    refine ⟨rfl, ?_⟩
    rw [ffno_none] at h
    apply List.eq_replicate_iff.mpr
    refine ⟨by rw [List.length_drop], fun c hc => ?_⟩
    obtain ⟨i, hi⟩ := List.mem_iff_getElem?.mp hc
    rw [List.getElem?_drop] at hi
    have hl : pos + i < s.length := (List.getElem?_eq_some_iff.mp hi).1
    rw [h (pos + i) (by omega) hl] at hi
    exact (Option.some.inj hi).symm
  | some beg =>
    right
    obtain ⟨⟨h1, h2, h3⟩, h4⟩ := ffno_some.mp h
    obtain ⟨e, he⟩ : ∃ e, (findFirstOf s '*' beg).getD s.length = e := ⟨_, rfl⟩
    have key : beg < e ∧ e ≤ s.length ∧ (∀ j, beg ≤ j → j < e → s[j]? ≠ some '*') ∧ (s.drop e = [] ∨ ∃ t, s.drop e = '*' :: t) := by
      cases hf : findFirstOf s '*' beg with
      | none =>
        rw [hf] at he
        simp only [Option.getD_none] at he
        subst he
        exact ⟨h2, Nat.le_refl _, fun j h1 h2 => ffo_none.mp hf j h1 h2, .inl (List.drop_length)⟩
      | some e' =>
        rw [hf] at he
        simp only [Option.getD_some] at he
        subst he
        obtain ⟨⟨g1, g2, g3⟩, g4⟩ := ffo_some.mp hf
        have : beg ≠ e' := fun hc => h3 (by rw [hc]; exact g3)
        refine ⟨by omega, by omega, g4, .inr ⟨s.drop (e' + 1), ?_⟩⟩
        rw [List.getElem?_eq_some_iff] at g3
        obtain ⟨g5, g6⟩ := g3
        rw [← g6]
        exact List.drop_eq_getElem_cons g5
    obtain ⟨k1, k2, k3, k4⟩ := key
    refine ⟨beg, e, rfl, he, h1, k1, k2, ?_, ?_, k4⟩
    · have e1 : s.drop pos = (s.drop pos).take (beg - pos) ++ s.drop beg := by
        have := (List.take_append_drop (beg - pos) (s.drop pos)).symm
        rw [List.drop_drop, show pos + (beg - pos) = beg by omega] at this
        exact this
      have e2 : s.drop beg = (s.drop beg).take (e - beg) ++ s.drop e := by
        have := (List.take_append_drop (e - beg) (s.drop beg)).symm
        rw [List.drop_drop, show beg + (e - beg) = e by omega] at this
        exact this
      have e3 : (s.drop pos).take (beg - pos) = List.replicate (beg - pos) '*' := by
        apply List.eq_replicate_iff.mpr
        refine ⟨by rw [List.length_take, List.length_drop]; omega, fun c hc => ?_⟩
        obtain ⟨i, hi⟩ := List.mem_iff_getElem?.mp hc
        have hl := (List.getElem?_eq_some_iff.mp hi).1
        rw [List.length_take, List.length_drop] at hl
        rw [List.getElem?_take_of_lt (by omega), List.getElem?_drop, h4 (pos + i) (by omega) (by omega)] at hi
        exact (Option.some.inj hi).symm
      rw [← e2, ← e3, ← e1]
    · intro hc
      obtain ⟨i, hi⟩ := List.mem_iff_getElem?.mp hc
      have hl := (List.getElem?_eq_some_iff.mp hi).1
      rw [List.length_take, List.length_drop] at hl
      rw [List.getElem?_take_of_lt (by omega), List.getElem?_drop] at hi
      exact k3 (beg + i) (by omega) (by omega) hi

theorem endsWith_drop {s : Str} {c : Char} {n : Nat} (h : n < s.length) : endsWith (s.drop n) c = endsWith s c := by
  unfold endsWith
  rw [List.getLast?_drop, if_neg (by omega)]

/-- One pass of the loop, in terms of what is left of the pattern and of the message. -/
theorem loop_ok (pattern message : Str) : ∀ fuel pp mp, pp ≤ pattern.length → pattern.length - pp < fuel → mp ≤ message.length →
    ∃ b, matchLoop pattern message fuel pp mp = some b ∧
      (b = true → Glob ('*' :: pattern.drop pp) (message.drop mp)) ∧
      (endsWith pattern '*' = true → pp < pattern.length → Glob ('*' :: pattern.drop pp) (message.drop mp) → b = true) := by
  intro fuel
  induction fuel with
  | zero => intro pp mp h1 h2; omega
  | succ fuel ih =>
    intro pp mp h1 h2 h3
    unfold matchLoop
    rcases cut pattern pp h1 with ⟨e1, e2⟩ | ⟨beg, e, e1, e2, hb, hbe, hel, e3, e4, e5⟩
    · rw [e1]
      simp only []
      by_cases hlt : pp < pattern.length
      · rw [if_pos hlt]
        refine ⟨_, rfl, fun _ => ?_, fun h _ _ => h⟩
        rw [e2, ← List.append_nil (List.replicate _ _), glob_stars, ← List.append_nil (message.drop mp)]
        exact .star _ .nil
      · rw [if_neg hlt]
        refine ⟨_, rfl, fun h => ?_, fun _ h => absurd h hlt⟩
        have : message.length = mp := by simpa using h
        subst this
        rw [List.drop_length, List.drop_of_length_le (by omega)]
        exact .star [] .nil
    · rw [e1]
      simp only [e2]
      generalize hlit : (pattern.drop beg).take (e - beg) = lit at e3 e4
      have hll : lit.length = e - beg := by rw [← hlit, List.length_take, List.length_drop]; omega
      have hG : ∀ m, Glob ('*' :: pattern.drop pp) m ↔ ∃ u v, m = u ++ (lit ++ v) ∧ Glob (pattern.drop e) v := fun m => by
        rw [e3, glob_stars, glob_star]
        constructor
        · rintro ⟨u, v, rfl, h⟩
          obtain ⟨w, rfl, h'⟩ := (glob_lit e4).mp h
          exact ⟨u, w, rfl, h'⟩
        · rintro ⟨u, w, rfl, h⟩
          exact ⟨u, lit ++ w, rfl, (glob_lit e4).mpr ⟨w, rfl, h⟩⟩
      cases hf : find message lit mp with
      | none =>
        simp only []
        refine ⟨false, rfl, by simp, fun _ _ h => ?_⟩
        obtain ⟨u, v, hm, -⟩ := (hG _).mp h
        have hlen := congrArg List.length hm
        rw [List.length_drop, List.length_append, List.length_append] at hlen
        refine absurd ?_ (find_none.mp hf (mp + u.length) (by omega) (by omega))
        rw [← List.drop_drop, hm, List.drop_left]
        exact List.prefix_append _ _
      | some pos =>
        simp only []
        obtain ⟨⟨g1, g2, g3⟩, g4⟩ := find_some.mp hf
        obtain ⟨w, hw⟩ := g3
        have hwl := congrArg List.length hw
        rw [List.length_append, List.length_drop] at hwl
        have ew : w = message.drop (pos + lit.length) := by rw [← List.drop_drop, ← hw, List.drop_left]
        have em : message.drop mp = (message.drop mp).take (pos - mp) ++ (lit ++ w) := by
          rw [hw]
          have := (List.take_append_drop (pos - mp) (message.drop mp)).symm
          rw [List.drop_drop, show mp + (pos - mp) = pos by omega] at this
          exact this
        rw [show beg + (e - beg) = e by omega, ← hll]
        obtain ⟨b, hb1, hb2, hb3⟩ := ih e (pos + lit.length) hel (by omega) (by omega)
        refine ⟨b, hb1, fun h => ?_, fun he _ hg => ?_⟩
        · rw [hG, em]
          refine ⟨_, w, rfl, ?_⟩
          have := hb2 h
          rw [← ew] at this
          rcases e5 with e5 | ⟨t, e5⟩
          · -- the pattern is used up: the loop has checked that the message is, too
            rw [e5] at this ⊢
            have hb1' := hb1
            rcases fuel with _ | fuel
            · omega
            · unfold matchLoop at hb1'
              have hel' : pattern.length ≤ e := by
                have := congrArg List.length e5
                rw [List.length_drop, List.length_nil] at this
                omega
              have hnone : findFirstNotOf pattern '*' e = none := ffno_none.mpr fun j h1 h2 => by omega
              rw [hnone] at hb1'
              simp only [] at hb1'
              rw [if_neg (by omega), h] at hb1'
              have : message.length = pos + lit.length := by simpa using hb1'
              rw [glob_nil]
              exact List.eq_nil_of_length_eq_zero (by omega)
          · rw [e5] at this ⊢
            exact glob_star_star.mp this
        · have hlt : e < pattern.length := by
            rcases Nat.lt_or_ge e pattern.length with h | h
            · exact h
            · -- the pattern would end with the piece without stars
              exfalso
              have hee : pattern.drop e = [] := List.drop_of_length_le h
              rw [hee, List.append_nil] at e3
              have h5 : endsWith (pattern.drop pp) '*' = true := by rw [endsWith_drop (by omega)]; exact he
              rw [e3] at h5
              unfold endsWith at h5
              have hne : lit ≠ [] := fun hc => by rw [hc] at hll; simp at hll; omega
              rw [List.getLast?_append, Option.or_of_isSome (by simpa using hne)] at h5
              simp only [beq_iff_eq] at h5
              exact e4 (List.mem_of_getLast? h5)
          refine hb3 he hlt ?_
          obtain ⟨u, v, hm, hv⟩ := (hG _).mp hg
          obtain ⟨t, e5⟩ : ∃ t, pattern.drop e = '*' :: t := by
            rcases e5 with e5 | e5
            · have := congrArg List.length e5
              rw [List.length_drop, List.length_nil] at this
              omega
            · exact e5
          -- the first occurrence is not behind the one that matches
          have hlen := congrArg List.length hm
          rw [List.length_drop, List.length_append, List.length_append] at hlen
          have hle : pos ≤ mp + u.length := by
            rcases Nat.lt_or_ge (mp + u.length) pos with h | h
            · refine absurd ?_ (g4 (mp + u.length) (by omega) h)
              rw [← List.drop_drop, hm, List.drop_left]
              exact List.prefix_append _ _
            · exact h
          have hv' : v = message.drop (mp + u.length + lit.length) := by
            rw [Nat.add_assoc, ← List.drop_drop, hm, ← List.append_assoc, ← List.length_append, List.drop_left]
          have : message.drop (pos + lit.length) = (message.drop (pos + lit.length)).take (mp + u.length - pos) ++ v := by
            have := (List.take_append_drop (mp + u.length - pos) (message.drop (pos + lit.length))).symm
            rw [List.drop_drop, show pos + lit.length + (mp + u.length - pos) = mp + u.length + lit.length by omega, ← hv'] at this
            exact this
          rw [this, e5]
          rw [e5] at hv
          exact glob_absorb _ (glob_star_star.mpr hv)

/-! ### Patterns that do not end with a star -/

/-- The message is the shortest of its beginnings that the pattern, with a star before it, allows. -/
def Shortest (p m : Str) : Prop := Glob ('*' :: p) m ∧ ∀ u v, m = u ++ v → Glob ('*' :: p) u → v = []

theorem shortest_nil {m : Str} : Shortest [] m ↔ m = [] := by
  constructor
  · intro h
    refine h.2 [] m rfl (.star [] .nil)
  · rintro rfl
    exact ⟨.star [] .nil, fun u v h _ => (List.append_eq_nil_iff.mp h.symm).2⟩

/-- After the first occurrence of the piece, the rest of the pattern decides. -/
theorem shortest_step {n : Nat} {a lit w d : Str} (hl : '*' ∉ lit) (hd : d = [] ∨ ∃ t, d = '*' :: t) (first : ∀ u v, a ++ (lit ++ w) = u ++ (lit ++ v) → a.length ≤ u.length) :
    Shortest (List.replicate n '*' ++ (lit ++ d)) (a ++ (lit ++ w)) ↔ Shortest d w := by
  have hG : ∀ m, Glob ('*' :: (List.replicate n '*' ++ (lit ++ d))) m ↔ ∃ u v, m = u ++ (lit ++ v) ∧ Glob d v := fun m => by
    rw [glob_stars, glob_star]
    constructor
    · rintro ⟨u, v, rfl, h⟩
      obtain ⟨w, rfl, h'⟩ := (glob_lit hl).mp h
      exact ⟨u, w, rfl, h'⟩
    · rintro ⟨u, w, rfl, h⟩
      exact ⟨u, lit ++ w, rfl, (glob_lit hl).mpr ⟨w, rfl, h⟩⟩
  have hfwd : ∀ x y, a ++ (lit ++ w) = x ++ y → Glob ('*' :: (List.replicate n '*' ++ (lit ++ d))) x → ∃ z, w = z ++ y ∧ Glob ('*' :: d) z := fun x y he h => by
    obtain ⟨u, v, rfl, hv⟩ := (hG x).mp h
    have he' : a ++ (lit ++ w) = u ++ (lit ++ (v ++ y)) := by rw [he]; simp
    have hle := first _ _ he'
    have hw : w = ((u ++ lit).drop (a.length + lit.length)) ++ (v ++ y) := by
      have := congrArg (List.drop (a ++ lit).length) he'
      rw [← List.append_assoc, List.drop_left, ← List.append_assoc u, List.drop_append_of_le_length (by simp only [List.length_append]; omega),
        List.length_append] at this
      exact this
    exact ⟨_ ++ v, by rw [List.append_assoc]; exact hw, .star _ hv⟩
  rcases hd with rfl | ⟨t, rfl⟩
  · rw [shortest_nil]
    constructor
    · intro h
      exact h.2 (a ++ lit) w (by simp) ((hG _).mpr ⟨a, [], by simp, .nil⟩)
    · rintro rfl
      refine ⟨(hG _).mpr ⟨a, [], rfl, .nil⟩, fun x y he h => ?_⟩
      obtain ⟨z, hz, -⟩ := hfwd x y he h
      exact (List.append_eq_nil_iff.mp hz.symm).2
  · have hback : ∀ z, Glob ('*' :: '*' :: t) z → Glob ('*' :: (List.replicate n '*' ++ (lit ++ '*' :: t))) (a ++ (lit ++ z)) := fun z h =>
      (hG _).mpr ⟨a, z, rfl, glob_star_star.mp h⟩
    constructor
    · rintro ⟨h1, h2⟩
      obtain ⟨z, hz, hg⟩ := hfwd _ [] (by simp) h1
      rw [List.append_nil] at hz
      subst hz
      exact ⟨hg, fun u v he h => h2 (a ++ (lit ++ u)) v (by rw [he]; simp) (hback u h)⟩
    · rintro ⟨h1, h2⟩
      refine ⟨hback w h1, fun x y he h => ?_⟩
      obtain ⟨z, hz, hg⟩ := hfwd x y he h
      exact h2 z y hz hg

theorem loop_shortest (pattern message : Str) (hend : endsWith pattern '*' = false) : ∀ fuel pp mp, pp ≤ pattern.length → pattern.length - pp < fuel → mp ≤ message.length →
    (matchLoop pattern message fuel pp mp = some true ↔ Shortest (pattern.drop pp) (message.drop mp)) := by
  intro fuel
  induction fuel with
  | zero => intro pp mp h1 h2; omega
  | succ fuel ih =>
    intro pp mp h1 h2 h3
    unfold matchLoop
    rcases cut pattern pp h1 with ⟨e1, e2⟩ | ⟨beg, e, e1, e2, hb, hbe, hel, e3, e4, e5⟩
    · rw [e1]
      simp only []
      have hpp : pp = pattern.length := by
        rcases Nat.lt_or_ge pp pattern.length with h | h
        · exfalso
          rw [← endsWith_drop h, e2] at hend
          unfold endsWith at hend
          rw [List.getLast?_replicate, if_neg (by omega)] at hend
          exact absurd hend (by decide)
        · omega
      rw [if_neg (by omega), hpp, List.drop_length, shortest_nil, List.drop_eq_nil_iff]
      simp only [Option.some.injEq, beq_iff_eq]
      omega
    · rw [e1]
      simp only [e2]
      generalize hlit : (pattern.drop beg).take (e - beg) = lit at e3 e4
      have hll : lit.length = e - beg := by rw [← hlit, List.length_take, List.length_drop]; omega
      cases hf : find message lit mp with
      | none =>
        simp only [Option.some.injEq, Bool.false_eq_true, false_iff]
        rintro ⟨h, -⟩
        rw [e3, glob_stars, glob_star] at h
        obtain ⟨u, v, hm, h'⟩ := h
        obtain ⟨w, rfl, -⟩ := (glob_lit e4).mp h'
        have hlen := congrArg List.length hm
        rw [List.length_drop, List.length_append, List.length_append] at hlen
        refine absurd ?_ (find_none.mp hf (mp + u.length) (by omega) (by omega))
        rw [← List.drop_drop, hm, List.drop_left]
        exact List.prefix_append _ _
      | some pos =>
        simp only []
        obtain ⟨⟨g1, g2, g3⟩, g4⟩ := find_some.mp hf
        obtain ⟨w, hw⟩ := g3
        have hwl := congrArg List.length hw
        rw [List.length_append, List.length_drop] at hwl
        have ew : w = message.drop (pos + lit.length) := by rw [← List.drop_drop, ← hw, List.drop_left]
        have em : message.drop mp = (message.drop mp).take (pos - mp) ++ (lit ++ w) := by
          rw [hw]
          have := (List.take_append_drop (pos - mp) (message.drop mp)).symm
          rw [List.drop_drop, show mp + (pos - mp) = pos by omega] at this
          exact this
        rw [show beg + (e - beg) = e by omega, ← hll, ih e (pos + lit.length) hel (by omega) (by omega), ← ew, e3, em]
        refine (shortest_step e4 e5 fun u v he => ?_).symm
        rw [← em] at he
        rw [List.length_take, List.length_drop]
        have hlen := congrArg List.length he
        rw [List.length_drop, List.length_append, List.length_append] at hlen
        rcases Nat.lt_or_ge (mp + u.length) pos with h | h
        · refine absurd ?_ (g4 (mp + u.length) (by omega) h)
          rw [← List.drop_drop, he, List.drop_left]
          exact List.prefix_append _ _
        · omega

theorem match_shortest (p m : Str) (h : p.getLast? ≠ some '*') : patternMatchStar p m = some true ↔ Shortest p m := by
  unfold patternMatchStar
  have h1 : p ≠ ['*'] := fun hc => h (by rw [hc]; rfl)
  rw [if_neg h1]
  by_cases hp : p = []
  · subst hp
    rw [shortest_nil]
    by_cases hm : m = [] <;> simp [hm]
  · rw [if_neg (by simp [hp]), if_neg (by simp [hp])]
    have := loop_shortest p m (by unfold endsWith; simpa using h) (p.length + 1) 0 0 (Nat.zero_le _) (by omega) (Nat.zero_le _)
    simpa using this

end Milo.App
