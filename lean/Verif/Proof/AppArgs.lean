import Verif.Proof.App
/- The command line application: arguments. -/
namespace Milo.App
open Spec.App

/-! ### Plain patterns -/

theorem plain_match (p m : Str) (hp : p ≠ []) (hs : '*' ∉ p) :
    patternMatchStar p m = some (decide (find m p 0 = some (m.length - p.length) ∧ p.length ≤ m.length)) := by
  have hlen : 0 < p.length := List.length_pos_iff.mpr hp
  have h0 : p ≠ ['*'] := fun h => hs (by rw [h]; exact .head _)
  unfold patternMatchStar
  rw [if_neg h0, if_neg (by simp [hp]), if_neg (by simp [hp])]
  have e1 : findFirstNotOf p '*' 0 = some 0 := ffno_some.mpr ⟨⟨Nat.le_refl _, hlen, fun h => hs (List.mem_of_getElem? h)⟩, fun j _ h => by omega⟩
  have e2 : findFirstOf p '*' 0 = none := ffo_none.mpr fun j _ _ h => hs (List.mem_of_getElem? h)
  have e3 : findFirstNotOf p '*' p.length = none := ffno_none.mpr fun j h1 h2 => by omega
  obtain ⟨k, hk⟩ : ∃ k, p.length = k + 1 := ⟨p.length - 1, by omega⟩
  have e4 : ∀ pos, matchLoop p m p.length p.length pos = some (m.length == pos) := fun pos => by
    rw [hk]
    unfold matchLoop
    rw [← hk, e3]
    simp only []
    rw [if_neg (by omega)]
  rw [matchLoop.eq_2, e1]
  simp only [e2, Option.getD_none, Nat.sub_zero, List.drop_zero, List.take_length, Nat.zero_add]
  cases hf : find m p 0 with
  | none => simp
  | some pos =>
    simp only [e4]
    obtain ⟨⟨-, g2, w, hw⟩, -⟩ := find_some.mp hf
    have hwl := congrArg List.length hw
    rw [List.length_append, List.length_drop] at hwl
    congr 1
    rw [Bool.eq_iff_iff]
    simp only [beq_iff_eq, Option.some.injEq, decide_eq_true_eq]
    omega

/-! ### Options and commands -/

theorem dashes_option {x : Str} : dashes.isPrefixOf x = true ↔ isOption x := by
  rw [List.isPrefixOf_iff_prefix]
  constructor
  · rintro ⟨y, rfl⟩; exact ⟨y, rfl⟩
  · rintro ⟨y, rfl⟩; exact ⟨y, rfl⟩

theorem dash_command {x : Str} : ['-'].isPrefixOf x = false ↔ isCommand x := by
  rw [← Bool.not_eq_true, List.isPrefixOf_iff_prefix]
  constructor
  · intro h y hy; exact h ⟨y, hy.symm⟩
  · rintro h ⟨y, rfl⟩; exact h y rfl

/-- The arguments after the options of a command: none, or one that is not an option. -/
def Ends (rest : List Str) : Prop := ∀ x, rest.head? = some x → ¬ isOption x

theorem optionLoop_eq (name : Str) (opts rest : List Str) (ho : ∀ x ∈ opts, isOption x) (hr : Ends rest) :
    optionLoop name (opts ++ rest) = true ↔ opt name ∈ opts := by
  induction opts with
  | nil =>
    cases rest with
    | nil => simp [optionLoop]
    | cons x l =>
      have : dashes.isPrefixOf x = false := by
        rw [← Bool.not_eq_true, dashes_option]
        exact hr x rfl
      simp [optionLoop, this]
  | cons x l ih =>
    have hx := ho x (.head _)
    obtain ⟨y, rfl⟩ := hx
    rw [List.cons_append, optionLoop, if_pos (dashes_option.mpr ⟨y, rfl⟩)]
    by_cases hy : y = name
    · subst hy
      simp [opt]
    · rw [if_neg (by simpa using hy), ih fun x hx => ho x (.tail _ hx)]
      simp only [List.mem_cons]
      constructor
      · exact .inr
      · rintro (h | h)
        · exact absurd (by simpa [opt] using h.symm) hy
        · exact h

theorem command_eq (a : Args) (opts : List Str) (c : Str) (rest : List Str) (ho : ∀ x ∈ opts, isOption x) (hc : isCommand c)
    (h : a.args.drop a.cur = opts ++ c :: rest) :
    command a = .ok (⟨a.args, a.cur + opts.length + 1, (c ++ " command".toList) :: a.commands⟩, c) ∧ a.args.drop (a.cur + opts.length + 1) = rest := by
  have hi : (opts ++ c :: rest).findIdx? (fun x => !['-'].isPrefixOf x) = some opts.length := by
    rw [List.findIdx?_append]
    have h1 : opts.findIdx? (fun x => !['-'].isPrefixOf x) = none := by
      rw [List.findIdx?_eq_none_iff]
      intro x hx
      obtain ⟨y, rfl⟩ := ho x hx
      rfl
    rw [h1, Option.none_or, List.findIdx?_cons, dash_command.mpr hc]
    simp
  constructor
  · unfold command
    rw [h, hi]
    simp only [List.getElem?_append_right (Nat.le_refl _), Nat.sub_self, List.getElem?_cons_zero]
  · rw [Nat.add_assoc, ← List.drop_drop, h, ← List.drop_drop, List.drop_left]
    rfl

theorem command_none (a : Args) (h : ∀ x ∈ a.args.drop a.cur, ¬ isCommand x) : command a = .error (.logic expected) := by
  unfold command
  have h1 : (a.args.drop a.cur).findIdx? (fun x => !['-'].isPrefixOf x) = none := by
    rw [List.findIdx?_eq_none_iff]
    intro x hx
    have := h x hx
    rw [← dash_command] at this
    simpa using this
  rw [h1]

/-! ### Parameters -/

theorem paramArg_eq (a : Args) (name : Str) (opts rest : List Str) (ho : ∀ x ∈ opts, isOption x) (hr : Ends rest) :
    paramArg a name (opts ++ rest) = match opts.find? fun x => name.isPrefixOf (x.drop 2) with
      | none => missing a name
      | some x => .ok x := by
  induction opts with
  | nil =>
    cases rest with
    | nil => rfl
    | cons x l =>
      have : dashes.isPrefixOf x = false := by
        rw [← Bool.not_eq_true, dashes_option]
        exact hr x rfl
      simp [paramArg, this]
  | cons x l ih =>
    have hx := ho x (.head _)
    rw [List.cons_append, paramArg, if_pos (dashes_option.mpr hx), List.find?_cons]
    cases hn : name.isPrefixOf (x.drop 2) with
    | true => simp
    | false =>
      simp only [Bool.false_eq_true, if_false]
      exact ih fun x hx => ho x (.tail _ hx)

/-- The value of a text: 0 for the empty one, otherwise what `from_chars` makes of it. -/
def valueOf (v : Str) : Option (BitVec 64) := if v = [] then some 0 else fromChars v

theorem ffo_name (name v : Str) (hn : '=' ∉ name) : findFirstOf (par name v) '=' 0 = some (name.length + 2) := by
  rw [ffo_some]
  have hl : (par name v).length = name.length + 2 + (v.length + 1) := by simp [par]; omega
  have e : par name v = ('-' :: '-' :: name) ++ '=' :: v := rfl
  refine ⟨⟨Nat.zero_le _, by omega, ?_⟩, fun j _ hj hc => ?_⟩
  · rw [e, List.getElem?_append_right (by simp)]
    simp
  · rw [e, List.getElem?_append_left (by simpa using hj)] at hc
    have := List.mem_of_getElem? hc
    simp only [List.mem_cons] at this
    rcases this with h | h | h
    · exact absurd h (by decide)
    · exact absurd h (by decide)
    · exact hn h

theorem drop_name (name v : Str) : (par name v).drop (name.length + 2 + 1) = v := by
  have e : par name v = (('-' :: '-' :: name) ++ ['=']) ++ v := by simp [par]
  rw [e, List.drop_left' (by simp)]

/-- A parameter whose argument is `--name=v`. -/
theorem parameter_eq (a : Args) (name v : Str) (opts rest : List Str) (ho : ∀ x ∈ opts, isOption x) (hr : Ends rest) (h : a.args.drop a.cur = opts ++ rest)
    (hn : '=' ∉ name) (hf : opts.find? (fun x => name.isPrefixOf (x.drop 2)) = some (par name v)) :
    parameter a name = match valueOf v with
      | some n => .ok n
      | none => top a >>= fun c => .error (.logic ("Error. Value conversion failure for --".toList ++ name ++ " parameter of ".toList ++ c ++ ". ".toList ++
          "Conversion from ".toList ++ v ++ " to type of type ".toList ++ "T".toList ++ " failed.".toList)) := by
  unfold parameter valueOf
  rw [h, paramArg_eq a name opts rest ho hr, hf]
  show (match findFirstOf (par name v) '=' 0 with | none => _ | some pos => _ : M (BitVec 64)) = _
  rw [ffo_name name v hn]
  show (if name.length + 2 + 1 ≥ (par name v).length then _ else _ : M (BitVec 64)) = _
  have hl : (par name v).length = name.length + 2 + (v.length + 1) := by simp [par]; omega
  by_cases hv : v = []
  · subst hv
    rw [if_pos (by rw [hl]; simp), if_pos rfl]
  · have : 0 < v.length := List.length_pos_iff.mpr hv
    rw [if_neg (by rw [hl]; omega), if_neg hv, drop_name]
    cases fromChars v <;> rfl

theorem parameter_missing (a : Args) (name : Str) (opts rest : List Str) (ho : ∀ x ∈ opts, isOption x) (hr : Ends rest) (h : a.args.drop a.cur = opts ++ rest)
    (hf : opts.find? (fun x => name.isPrefixOf (x.drop 2)) = none) : parameter a name = missing a name := by
  unfold parameter
  rw [h, paramArg_eq a name opts rest ho hr, hf]
  unfold missing
  cases a.commands with
  | nil => cases ht : top a <;> rfl
  | cons c l => cases ht : top a <;> rfl

/-! ### Numbers -/

theorem digit_ok (d : Nat) (h : d < 10) : (Char.ofNat (48 + d)).isDigit = true ∧ (Char.ofNat (48 + d)).toNat - '0'.toNat = d := by
  have : ∀ d : Fin 10, (Char.ofNat (48 + d.val)).isDigit = true ∧ (Char.ofNat (48 + d.val)).toNat - '0'.toNat = d.val := by decide
  exact this ⟨d, h⟩

theorem decimal_ok {s : Str} {n : Nat} (h : Decimal s n) : s ≠ [] ∧ (∀ c ∈ s, c.isDigit = true) ∧ s.foldl (fun n c => 10 * n + (c.toNat - '0'.toNat)) 0 = n := by
  induction h with
  | digit hd hc =>
    subst hc
    obtain ⟨h1, h2⟩ := digit_ok _ hd
    refine ⟨by simp, by simpa using h1, ?_⟩
    simp only [List.foldl_cons, List.foldl_nil, h2]
    omega
  | more hs hd hc ih =>
    subst hc
    obtain ⟨h1, h2⟩ := digit_ok _ hd
    obtain ⟨i1, i2, i3⟩ := ih
    refine ⟨by simp, ?_, ?_⟩
    · intro c hc
      rcases List.mem_append.mp hc with h | h
      · exact i2 c h
      · rw [List.mem_singleton.mp h]; exact h1
    · rw [List.foldl_append, i3]
      simp only [List.foldl_cons, List.foldl_nil, h2]

/-- `from_chars` on a number followed by something else. -/
theorem fromChars_eq {s t : Str} {n : Nat} (h : Decimal s n) (ht : ∀ c, t.head? = some c → c.isDigit = false) :
    fromChars (s ++ t) = if n < 2 ^ 64 then some (BitVec.ofNat 64 n) else none := by
  obtain ⟨h1, h2, h3⟩ := decimal_ok h
  have hw : (s ++ t).takeWhile Char.isDigit = s := by
    rw [List.takeWhile_append_of_pos h2]
    cases t with
    | nil => simp
    | cons c t => rw [List.takeWhile_cons, ht c rfl]; simp
  unfold fromChars
  rw [hw]
  simp only [h3, h1, if_false]
  split <;> split <;> first | rfl | omega

theorem fromChars_none {s : Str} (h : ∀ c, s.head? = some c → c.isDigit = false) : fromChars s = none := by
  unfold fromChars
  have : s.takeWhile Char.isDigit = [] := by
    cases s with
    | nil => rfl
    | cons c t => rw [List.takeWhile_cons, h c rfl]; simp
  rw [this]
  simp

end Milo.App
