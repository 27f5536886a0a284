import Verif.Spec.AppJson
import Verif.Spec.App
/- JSON written by the application. -/
namespace Milo.App
open Spec.Json

/-! ### What is JSON -/

theorem chars_plain (s : Str) (h : Plain s) : Chars s s := by
  induction s with
  | nil => exact .nil
  | cons c s ih =>
    obtain ⟨h1, h2, h3⟩ := h c (.head _)
    exact .plain h1 h2 h3 (ih fun c hc => h c (.tail _ hc))

theorem digit_digit (d : Nat) (h : d < 10) : Digit (Char.ofNat (48 + d)) := by
  have : ∀ d : Fin 10, 48 ≤ (Char.ofNat (48 + d.val)).toNat ∧ (Char.ofNat (48 + d.val)).toNat ≤ 57 := by decide
  exact this ⟨d, h⟩

theorem digit_zero (d : Nat) (h : d < 10) (hz : Char.ofNat (48 + d) = '0') : d = 0 := by
  have : ∀ d : Fin 10, Char.ofNat (48 + d.val) = '0' → d.val = 0 := by decide
  exact this ⟨d, h⟩ hz

theorem digits_small {n : Nat} (h : n < 10) : digits n = [Char.ofNat (48 + n)] := by rw [digits, dif_pos h]

theorem digits_big {n : Nat} (h : ¬ n < 10) : digits n = digits (n / 10) ++ [Char.ofNat (48 + n % 10)] := by rw [digits, dif_neg h]

theorem digits_ok (n : Nat) : ∃ c l, digits n = c :: l ∧ Digit c ∧ (∀ d ∈ l, Digit d) ∧ (c = '0' → n = 0 ∧ l = []) := by
  induction n using Nat.strongRecOn with
  | _ n ih =>
    by_cases h : n < 10
    · exact ⟨_, [], digits_small h, digit_digit n h, (fun d hd => nomatch hd), fun hc => ⟨digit_zero n h hc, rfl⟩⟩
    · obtain ⟨c, l, e, h1, h2, h3⟩ := ih (n / 10) (by omega)
      refine ⟨c, l ++ [Char.ofNat (48 + n % 10)], by rw [digits_big h, e]; rfl, h1, fun d hd => ?_, fun hc => ?_⟩
      · rcases List.mem_append.mp hd with hd | hd
        · exact h2 d hd
        · rw [List.mem_singleton.mp hd]; exact digit_digit _ (by omega)
      · have := (h3 hc).1
        omega

theorem whole_digits (n : Nat) : Whole (digits n) := by
  obtain ⟨c, l, e, h1, h2, h3⟩ := digits_ok n
  rw [e]
  by_cases hc : c = '0'
  · rw [hc, (h3 hc).2]; exact .zero
  · exact .other h1 hc h2

theorem decimal_digits (n : Nat) : Spec.App.Decimal (digits n) n := by
  induction n using Nat.strongRecOn with
  | _ n ih =>
    by_cases h : n < 10
    · rw [digits_small h]; exact .digit h rfl
    · rw [digits_big h]
      have e : n = 10 * (n / 10) + n % 10 := by omega
      have := Spec.App.Decimal.more (ih (n / 10) (by omega)) (d := n % 10) (by omega) rfl
      rwa [← e] at this

theorem number_digits (n : Nat) : Number (digits n) := by
  have := Number.mk (.inl rfl) (whole_digits n) (.inl rfl) (.inl rfl)
  simpa using this

theorem number_integer (z : Int) : Number (integer z) := by
  unfold integer
  split
  · have := Number.mk (.inr rfl) (whole_digits z.natAbs) (.inl rfl) (.inl rfl)
    simpa using this
  · exact number_digits _

theorem number_dbl (a b : Nat) : Number (Dbl.finite a b).text := by
  obtain ⟨c, l, e, h1, h2, h3⟩ := digits_ok (1000000 + b % 1000000)
  have hl : l ≠ [] := by
    intro hl
    rw [digits_big (by omega), hl] at e
    have := congrArg List.length e
    obtain ⟨c', l', e', -⟩ := digits_ok ((1000000 + b % 1000000) / 10)
    rw [e'] at this
    simp at this
  have := Number.mk (.inl rfl) (whole_digits a) (.inr ⟨l, hl, h2, rfl⟩) (.inl rfl)
  rw [Dbl.text, e]
  simpa using this

theorem ws_nil : Ws [] := fun c hc => nomatch hc

theorem elems_more (v : Var) (l : Elems) : (Elems.cons v l).jsonMore = ',' :: (Elems.cons v l).json := rfl
theorem members_more (k : Str) (v : Var) (l : Members) : (Members.cons k v l).jsonMore = ',' :: (Members.cons k v l).json := rfl

mutual

theorem var_text : ∀ v : Var, v.Good → Text v.denote v.json
  | .str s, h => .str (chars_plain s h)
  | .nat n, _ => .num (number_digits n)
  | .int z, _ => .num (number_integer z)
  | .bool true, _ => .true
  | .bool false, _ => .false
  | .dbl d, h => by
    obtain ⟨a, b, rfl⟩ := h
    exact .num (number_dbl a b)
  | .arr .nil, _ => .arrEmpty ws_nil
  | .arr (.cons v l), h => .arr (elems_text (.cons v l) h (fun h => nomatch h))
  | .obj .nil, _ => .objEmpty ws_nil
  | .obj (.cons k v l), h => .obj (members_text (.cons k v l) h (fun h => nomatch h))

theorem elems_text : ∀ l : Elems, l.Good → l ≠ .nil → Values l.denote l.json
  | .nil, _, h => absurd rfl h
  | .cons v .nil, h, _ => by
    have := Values.one ws_nil (var_text v h.1) ws_nil
    simpa [Elems.denote, Elems.json, Elems.jsonMore] using this
  | .cons v (.cons w l), h, _ => by
    have := Values.more ws_nil (var_text v h.1) ws_nil (elems_text (.cons w l) h.2 (fun h => nomatch h))
    rw [Elems.json, elems_more]
    simpa [Elems.denote] using this

theorem members_text : ∀ l : Members, l.Good → l ≠ .nil → Spec.Json.Members l.denote l.json
  | .nil, _, h => absurd rfl h
  | .cons k v .nil, h, _ => by
    have := Members.one ws_nil (chars_plain k h.1) ws_nil ws_nil (var_text v h.2.1) ws_nil
    simpa [Members.denote, Members.json, Members.jsonMore, quote] using this
  | .cons k v (.cons m w l), h, _ => by
    have := Members.more ws_nil (chars_plain k h.1) ws_nil ws_nil (var_text v h.2.1) ws_nil (members_text (.cons m w l) h.2.2 (fun h => nomatch h))
    rw [Members.json, members_more]
    simpa [Members.denote, quote] using this

end

/-! ### What is not -/

/-- Characters that may be outside of strings. -/
def outer (c : Char) : Bool := "0123456789+-.eEnultrefas[]{},: \t\n\r".toList.contains c

/-- Outside of a string (0), in a string (1), after a backslash (2). -/
def scan : List Char → Nat → Bool
  | [], 0 => true
  | [], _ => false
  | c :: l, 0 => if c = '"' then scan l 1 else outer c && scan l 0
  | c :: l, 1 => if c = '"' then scan l 0 else if c = '\\' then scan l 2 else decide (32 ≤ c.toNat) && scan l 1
  | _ :: l, _ => scan l 1

theorem outer_quote {c : Char} (h : outer c = true) : c ≠ '"' := by rintro rfl; revert h; decide

theorem scan_outer (l r : List Char) (h : ∀ c ∈ l, outer c = true) : scan (l ++ r) 0 = scan r 0 := by
  induction l with
  | nil => rfl
  | cons c l ih =>
    rw [List.cons_append, scan, if_neg (outer_quote (h c (.head _))), h c (.head _), Bool.true_and, ih fun c hc => h c (.tail _ hc)]

theorem outer_digit {c : Char} (h : Digit c) : outer c = true := by
  have : ∀ n : Fin 58, 48 ≤ n.val → outer (Char.ofNat n.val) = true := by decide
  have e : c = Char.ofNat c.toNat := by simp
  obtain ⟨h1, h2⟩ := h
  rw [e]
  exact this ⟨c.toNat, by omega⟩ h1

theorem outer_ws {l : List Char} (h : Ws l) : ∀ c ∈ l, outer c = true := fun c hc => by
  rcases h c hc with rfl | rfl | rfl | rfl <;> decide

theorem scan_ws {l : List Char} (h : Ws l) (r : List Char) : scan (l ++ r) 0 = scan r 0 := scan_outer l r (outer_ws h)

theorem outer_whole {l : List Char} (h : Whole l) : ∀ c ∈ l, outer c = true := by
  cases h with
  | zero => intro c hc; rw [List.mem_singleton.mp hc]; decide
  | other h1 _ h2 =>
    intro c hc
    rcases List.mem_cons.mp hc with rfl | hc
    · exact outer_digit h1
    · exact outer_digit (h2 c hc)

theorem outer_number {l : List Char} (h : Number l) : ∀ c ∈ l, outer c = true := by
  cases h with
  | mk h1 h2 h3 h4 =>
    intro c hc
    simp only [List.mem_append] at hc
    rcases hc with ((hc | hc) | hc) | hc
    · rcases h1 with rfl | rfl
      · exact nomatch hc
      · rw [List.mem_singleton.mp hc]; decide
    · exact outer_whole h2 c hc
    · rcases h3 with rfl | ⟨l, -, hl, rfl⟩
      · exact nomatch hc
      · rcases List.mem_cons.mp hc with rfl | hc
        · decide
        · exact outer_digit (hl c hc)
    · rcases h4 with rfl | ⟨e, s, l, he, hs, -, hl, rfl⟩
      · exact nomatch hc
      · rw [List.cons_append] at hc
        rcases List.mem_cons.mp hc with rfl | hc
        · rcases he with rfl | rfl <;> decide
        · rcases List.mem_append.mp hc with hc | hc
          · rcases hs with rfl | rfl | rfl
            · exact nomatch hc
            · rw [List.mem_singleton.mp hc]; decide
            · rw [List.mem_singleton.mp hc]; decide
          · exact outer_digit (hl c hc)

theorem scan_alnum (l r : List Char) (h : ∀ d ∈ l, d.isAlphanum = true) : scan (l ++ r) 1 = scan r 1 := by
  induction l with
  | nil => rfl
  | cons c l ih =>
    have hc := h c (.head _)
    have h1 : c ≠ '"' := by rintro rfl; revert hc; decide
    have h2 : c ≠ '\\' := by rintro rfl; revert hc; decide
    have h3 : 32 ≤ c.toNat := by
      by_cases hlt : 32 ≤ c.toNat
      · exact hlt
      · have : ∀ n : Fin 32, (Char.ofNat n.val).isAlphanum = false := by decide
        have := this ⟨c.toNat, by omega⟩
        rw [show Char.ofNat c.toNat = c from by simp, hc] at this
        exact nomatch this
    rw [List.cons_append, scan, if_neg h1, if_neg h2, decide_eq_true h3, Bool.true_and, ih fun c hc => h c (.tail _ hc)]

theorem scan_chars {s t : List Char} (h : Chars s t) (r : List Char) : scan (t ++ r) 1 = scan r 1 := by
  induction h with
  | nil => rfl
  | plain h1 h2 h3 _ ih => rw [List.cons_append, scan, if_neg h2, if_neg h3, decide_eq_true h1, Bool.true_and, ih]
  | escape _ _ ih =>
    rw [List.cons_append, List.cons_append, scan, if_neg (by decide), if_pos rfl, scan, ih]
    · decide
    · decide
  | hex hl hh _ ih =>
    rw [List.cons_append, List.cons_append, scan, if_neg (by decide), if_pos rfl, scan, List.append_assoc, scan_alnum _ _ hh, ih]
    · decide
    · decide

theorem scan_c (c : Char) (h : outer c = true) (r : List Char) : scan (c :: r) 0 = scan r 0 := scan_outer [c] r fun d hd => by rw [List.mem_singleton.mp hd]; exact h

theorem scan_open (r : List Char) : scan ('"' :: r) 0 = scan r 1 := rfl
theorem scan_close (r : List Char) : scan ('"' :: r) 1 = scan r 0 := rfl

mutual

theorem scan_text : ∀ {j : J} {t : List Char}, Text j t → ∀ r, scan (t ++ r) 0 = scan r 0
  | _, _, .null, r => scan_outer _ r (by decide)
  | _, _, .true, r => scan_outer _ r (by decide)
  | _, _, .false, r => scan_outer _ r (by decide)
  | _, _, .num h, r => scan_outer _ r (outer_number h)
  | _, _, .str h, r => by
    rw [List.cons_append, scan_open, List.append_assoc, scan_chars h]
    rfl
  | _, _, .arrEmpty h, r => by
    rw [List.cons_append, scan_c '[' (by decide), List.append_assoc, scan_ws h]
    exact scan_c ']' (by decide) r
  | _, _, .objEmpty h, r => by
    rw [List.cons_append, scan_c '{' (by decide), List.append_assoc, scan_ws h]
    exact scan_c '}' (by decide) r
  | _, _, .arr h, r => by
    rw [List.cons_append, scan_c '[' (by decide), List.append_assoc, scan_values h]
    exact scan_c ']' (by decide) r
  | _, _, .obj h, r => by
    rw [List.cons_append, scan_c '{' (by decide), List.append_assoc, scan_members h]
    exact scan_c '}' (by decide) r

theorem scan_values : ∀ {l : List J} {t : List Char}, Values l t → ∀ r, scan (t ++ r) 0 = scan r 0
  | _, _, .one ha ht hb, r => by simp only [List.append_assoc]; rw [scan_ws ha, scan_text ht, scan_ws hb]
  | _, _, .more ha ht hb hl, r => by
    simp only [List.append_assoc, List.cons_append]
    rw [scan_ws ha, scan_text ht, scan_ws hb, scan_c ',' (by decide), scan_values hl]

theorem scan_members : ∀ {l : List (List Char × J)} {t : List Char}, Spec.Json.Members l t → ∀ r, scan (t ++ r) 0 = scan r 0
  | _, _, .one ha hq hb hc ht hd, r => by
    simp only [List.append_assoc, List.cons_append]
    rw [scan_ws ha, scan_open, scan_chars hq, scan_close, scan_ws hb, scan_c ':' (by decide), scan_ws hc, scan_text ht, scan_ws hd]
  | _, _, .more ha hq hb hc ht hd hl, r => by
    simp only [List.append_assoc, List.cons_append]
    rw [scan_ws ha, scan_open, scan_chars hq, scan_close, scan_ws hb, scan_c ':' (by decide), scan_ws hc, scan_text ht, scan_ws hd, scan_c ',' (by decide), scan_members hl]

end

theorem scan_valid {t : List Char} (h : Valid t) : scan t 0 = true := by
  obtain ⟨j, hj⟩ := h
  have := scan_text hj []
  rwa [List.append_nil] at this

/-! ### Order -/

mutual

theorem same_good : ∀ {v w : Var}, Same v w → v.Good → w.Good
  | _, _, .str _, h => h
  | _, _, .nat _, h => h
  | _, _, .int _, h => h
  | _, _, .bool _, h => h
  | _, _, .dbl _, h => h
  | _, _, .arr h', h => sameElems_good h' h
  | _, _, .obj h', h => sameMembers_good h' h

theorem sameElems_good : ∀ {l m : Elems}, SameElems l m → l.Good → m.Good
  | _, _, .nil, h => h
  | _, _, .cons hv hl, h => ⟨same_good hv h.1, sameElems_good hl h.2⟩

theorem sameMembers_good : ∀ {l m : Members}, SameMembers l m → l.Good → m.Good
  | _, _, .nil, h => h
  | _, _, .cons _ hv hl, h => ⟨h.1, same_good hv h.2.1, sameMembers_good hl h.2.2⟩
  | _, _, .swap _ _ _ _ _, h => ⟨h.2.2.1, h.2.2.2.1, h.1, h.2.1, h.2.2.2.2⟩
  | _, _, .trans h1 h2, h => sameMembers_good h2 (sameMembers_good h1 h)

end

/-! ### The application's output -/

theorem members_good (l : List (Str × Var)) (h : ∀ p ∈ l, Plain p.1 ∧ p.2.Good) : (members l).Good := by
  induction l with
  | nil => exact trivial
  | cons p l ih => exact ⟨(h p (.head _)).1, (h p (.head _)).2, ih fun p hp => h p (.tail _ hp)⟩

theorem elems_good (l : List Var) (h : ∀ v ∈ l, v.Good) : (elems l).Good := by
  induction l with
  | nil => exact trivial
  | cons v l ih => exact ⟨h v (.head _), ih fun v hv => h v (.tail _ hv)⟩

def plainB (s : Str) : Bool := s.all fun c => decide (32 ≤ c.toNat) && c != '"' && c != '\\'

theorem plainB_iff {s : Str} : plainB s = true ↔ Plain s := by
  unfold plainB Plain
  simp only [List.all_eq_true, Bool.and_eq_true, decide_eq_true_eq, bne_iff_ne, and_assoc]

theorem dbl_good (round : Quot → Nat × Nat) (q : Quot) (h : q.den ≠ 0) : (Var.dbl (q.dbl round)).Good := by
  unfold Quot.dbl
  rw [if_neg h]
  exact ⟨_, _, rfl⟩

theorem plain_lit (s : String) (h : plainB s.toList = true) : Plain s.toList := plainB_iff.mp h

theorem config_good (e : Entry) (h : ∀ p ∈ e.input, Plain p.1) : e.config.Good := by
  refine members_good _ fun p hp => ?_
  rcases List.mem_cons.mp hp with rfl | hp
  · refine ⟨plain_lit _ (by decide +kernel), members_good _ fun p hp => ?_⟩
    rcases List.mem_append.mp hp with hp | hp
    · rcases List.mem_cons.mp hp with rfl | hp
      · exact ⟨plain_lit _ (by decide +kernel), trivial⟩
      · rw [List.mem_singleton.mp hp]; exact ⟨plain_lit _ (by decide +kernel), trivial⟩
    · split at hp
      · rw [List.mem_singleton.mp hp]; exact ⟨plain_lit _ (by decide +kernel), trivial⟩
      · exact nomatch hp
  · rw [List.mem_singleton.mp hp]
    refine ⟨plain_lit _ (by decide +kernel), members_good _ fun p hp => ?_⟩
    obtain ⟨q, hq, rfl⟩ := List.mem_map.mp hp
    exact ⟨h q hq, trivial⟩

theorem metrics_good (round : Quot → Nat × Nat) (e : Entry) (h : FiniteMetrics e.metrics) : (e.metricsVar round).Good := by
  obtain ⟨h1, h2, h3⟩ := h
  have two : ∀ (a b : Str) (q r : Quot), Plain a → Plain b → q.den ≠ 0 → r.den ≠ 0 → (members [(a, .dbl (q.dbl round)), (b, .dbl (r.dbl round))]).Good := fun a b q r ha hb hq hr =>
    ⟨ha, dbl_good round q hq, hb, dbl_good round r hr, trivial⟩
  refine members_good _ fun p hp => ?_
  rcases List.mem_append.mp hp with hp | hp
  · rcases List.mem_append.mp hp with hp | hp
    · rw [List.mem_singleton.mp hp]
      exact ⟨plain_lit _ (by decide +kernel), plain_lit _ (by decide +kernel), dbl_good round _ h1, trivial⟩
    · cases ht : e.metrics.throughput with
      | none => rw [ht] at hp; exact nomatch hp
      | some x =>
        rw [ht] at hp
        obtain ⟨g, m⟩ := x
        rw [List.mem_singleton.mp hp]
        exact ⟨plain_lit _ (by decide +kernel), two _ _ g m (plain_lit _ (by decide +kernel)) (plain_lit _ (by decide +kernel)) (h2 g m ht).1 (h2 g m ht).2⟩
  · cases ht : e.metrics.cpu with
    | none => rw [ht] at hp; exact nomatch hp
    | some x =>
      rw [ht] at hp
      obtain ⟨g, m⟩ := x
      rw [List.mem_singleton.mp hp]
      exact ⟨plain_lit _ (by decide +kernel), two _ _ g m (plain_lit _ (by decide +kernel)) (plain_lit _ (by decide +kernel)) (h3 g m ht).1 (h3 g m ht).2⟩

theorem result_good (round : Quot → Nat × Nat) (l : List Entry) (h : ∀ e ∈ l, Plain e.name ∧ (∀ p ∈ e.input, Plain p.1) ∧ FiniteMetrics e.metrics) : (resultVar round l).Good := by
  unfold resultVar
  split
  · exact trivial
  · refine ⟨plain_lit _ (by decide +kernel), ⟨plain_lit _ (by decide +kernel), members_good _ fun p hp => ?_, trivial⟩, trivial⟩
    obtain ⟨e, he, rfl⟩ := List.mem_map.mp hp
    obtain ⟨h1, h2, h3⟩ := h e he
    exact ⟨h1, plain_lit _ (by decide +kernel), config_good e h2, plain_lit _ (by decide +kernel), metrics_good round e h3, trivial⟩

theorem dump_plain (args : List Str) (h : ∀ x ∈ args, Plain x) : Plain (args.foldl (fun s x => s ++ x ++ [' ']) []).dropLast := by
  have key : ∀ (l : List Str) (s : Str), (∀ x ∈ l, Plain x) → Plain s → Plain (l.foldl (fun s x => s ++ x ++ [' ']) s) := by
    intro l
    induction l with
    | nil => intro s _ h; exact h
    | cons x l ih =>
      intro s hl hs
      refine ih _ (fun y hy => hl y (.tail _ hy)) fun c hc => ?_
      rcases List.mem_append.mp hc with hc | hc
      · rcases List.mem_append.mp hc with hc | hc
        · exact hs c hc
        · exact hl x (.head _) c hc
      · rw [List.mem_singleton.mp hc]; decide
  intro c hc
  exact key args [] h (fun c hc => nomatch hc) c (List.mem_of_mem_take (by rw [List.dropLast_eq_take] at hc; exact hc))

theorem printed_good (b : Build) (hb : Plain b.compiler ∧ Plain b.compilerVersion ∧ Plain b.project ∧ Plain b.projectVersion) (round : Quot → Nat × Nat)
    (v : Option (List Str)) (hv : ∀ args, v = some args → ∀ x ∈ args, Plain x) (l : List Entry)
    (h : ∀ e ∈ l, Plain e.name ∧ (∀ p ∈ e.input, Plain p.1) ∧ FiniteMetrics e.metrics) : (printedVar b round v l).Good := by
  cases v with
  | none => exact result_good round l h
  | some args =>
    obtain ⟨b1, b2, b3, b4⟩ := hb
    have ha := hv args rfl
    refine ⟨plain_lit _ (by decide +kernel), ⟨plain_lit _ (by decide +kernel), b1, plain_lit _ (by decide +kernel), b2, trivial⟩,
      plain_lit _ (by decide +kernel), ⟨plain_lit _ (by decide +kernel), b3, plain_lit _ (by decide +kernel), b4, trivial⟩,
      plain_lit _ (by decide +kernel), ⟨plain_lit _ (by decide +kernel), dump_plain args ha, plain_lit _ (by decide +kernel), elems_good _ fun v hv => ?_, trivial⟩,
      plain_lit _ (by decide +kernel), result_good round l h, trivial⟩
    obtain ⟨x, hx, rfl⟩ := List.mem_map.mp hv
    exact ha x hx

end Milo.App
