import Verif.Proof.AppRun
/- The command line application: how a run ends, parameters. -/
namespace Milo.App
open Spec.App

theorem paramArg_mem (a : Args) (name : Str) (l : List Str) (x : Str) (h : paramArg a name l = .ok x) : x ∈ l ∧ opt name <+: x := by
  induction l with
  | nil =>
    exfalso
    rw [paramArg, missing] at h
    revert h
    cases top a <;> exact fun h => nomatch h
  | cons y l ih =>
    rw [paramArg] at h
    split at h
    · rename_i h1
      obtain ⟨z, rfl⟩ := dashes_option.mp h1
      split at h
      · rename_i h2
        injection h with h
        subst h
        refine ⟨.head _, ?_⟩
        obtain ⟨w, hw⟩ := List.isPrefixOf_iff_prefix.mp h2
        exact ⟨w, by rw [show z = name ++ w from hw.symm]; rfl⟩
      · obtain ⟨i1, i2⟩ := ih h
        exact ⟨.tail _ i1, i2⟩
    · exfalso
      rw [missing] at h
      revert h
      cases top a <;> exact fun h => nomatch h

theorem decimal_first {v : Str} {n : Nat} (h : Decimal v n) : v ≠ [] := (decimal_ok h).1

/-- A number that is not zero is not read as zero. -/
theorem parameter_pos (a : Args) (name : Str) (hn : '=' ∉ name)
    (h : ∀ x ∈ a.args, opt name <+: x → ∃ v n, x = par name v ∧ Decimal v n ∧ 0 < n) : parameter a name ≠ .ok 0 := by
  unfold parameter
  cases hp : paramArg a name (a.args.drop a.cur) with
  | error e => exact fun h => nomatch h
  | ok x =>
    obtain ⟨hx, hx'⟩ := paramArg_mem a name _ x hp
    obtain ⟨v, n, rfl, hd, hpos⟩ := h x (List.mem_of_mem_drop hx) hx'
    rw [ok_bind, ffo_name name v hn]
    have hv := decimal_first hd
    have : 0 < v.length := List.length_pos_iff.mpr hv
    have hl : (par name v).length = name.length + 2 + (v.length + 1) := by simp [par]; omega
    simp only
    rw [if_neg (by rw [hl]; omega), drop_name]
    have e := fromChars_eq (t := []) hd (fun c h => nomatch h)
    rw [List.append_nil] at e
    rw [e]
    split
    · rename_i m hm
      split at hm
      · injection hm with hm
        subst hm
        intro hc
        injection hc with hc
        have := congrArg BitVec.toNat hc
        rw [BitVec.toNat_ofNat, Nat.mod_eq_of_lt (by assumption)] at this
        exact absurd this (by show n ≠ 0; omega)
      · exact nomatch hm
    · cases top a <;> exact fun h => nomatch h

theorem bind_ub {α β : Type} (x : M α) (f : α → M β) (h1 : x ≠ .error .ub) (h2 : ∀ y, x = .ok y → f y ≠ .error .ub) : (x >>= f) ≠ .error .ub := by
  cases x with
  | error e => intro h; apply h1; injection h with h; rw [h]
  | ok y => exact h2 y rfl

theorem mapM_ub {α β : Type} (f : α → M β) (l : List α) (h : ∀ x ∈ l, f x ≠ .error .ub) : l.mapM f ≠ .error .ub := by
  induction l with
  | nil => exact fun h => nomatch h
  | cons x l ih =>
    rw [List.mapM_cons]
    refine bind_ub _ _ (h x (.head _)) fun y _ => bind_ub _ _ (ih fun y hy => h y (.tail _ hy)) fun ys _ => fun h => nomatch h

theorem mapM_some {α β : Type} (f : α → M β) (l : List α) (ys : List β) (h : l.mapM f = .ok ys) : ∀ (i : Nat) (x : α), l[i]? = some x → ∃ y, ys[i]? = some y ∧ f x = .ok y := by
  induction l generalizing ys with
  | nil => intro i x hx; simp at hx
  | cons x l ih =>
    rw [List.mapM_cons] at h
    cases hx : f x with
    | error e => rw [hx] at h; exact nomatch h
    | ok y =>
      rw [hx, ok_bind] at h
      cases hl : l.mapM f with
      | error e => rw [hl] at h; exact nomatch h
      | ok zs =>
        rw [hl, ok_bind] at h
        injection h with h
        subst h
        intro i z hz
        cases i with
        | zero =>
          simp only [List.getElem?_cons_zero, Option.some.injEq] at hz
          subst hz
          exact ⟨y, rfl, hx⟩
        | succ i => exact ih zs hl i z (by simpa using hz)

theorem touches_ub (a : Args) (hk : parameter a "key-size".toList ≠ .ok 0) (k : Kind) (ps : List (BitVec 64)) (h : parse a k.params = .ok ps) : k.touches ps ≠ .error .ub := by
  have key : ∀ n, ps[3]? = some n → k.params[3]? = some "key-size".toList → n ≠ 0 := by
    intro n hn hp hc
    obtain ⟨y, hy, hf⟩ := mapM_some (parameter a) k.params ps h 3 _ hp
    rw [hn] at hy
    injection hy with hy
    rw [← hy, hc] at hf
    exact hk hf
  unfold Kind.touches
  split
  · rw [if_neg (key _ rfl rfl)]; exact fun h => nomatch h
  · rw [if_neg (key _ rfl rfl)]; exact fun h => nomatch h
  · exact fun h => nomatch h

theorem invokeLoop_ub (clock : Clock) (o : Options) (k : Kind) (pattern : Str) (ps : List (BitVec 64)) (h : k.touches ps ≠ .error .ub) (names : List Str) :
    invokeLoop clock o k pattern ps names ≠ .error .ub := by
  induction names with
  | nil => exact fun h => nomatch h
  | cons x l ih =>
    rw [invokeLoop, matched_eq, ok_bind]
    split
    · exact bind_ub _ _ h fun _ _ => bind_ub _ _ ih fun _ _ => fun h => nomatch h
    · exact ih

theorem invoke_ub (clock : Clock) (a : Args) (hc : a.commands ≠ []) (hk : parameter a "key-size".toList ≠ .ok 0) (o : Options) (k : Kind) (pattern : Str) (names : List Str) :
    invoke clock a o k pattern names ≠ .error .ub := by
  unfold invoke
  split
  · exact fun h => nomatch h
  · rw [mapM_ok (matched pattern) (hits pattern) names fun x _ => matched_eq pattern x, ok_bind]
    split
    · refine bind_ub _ _ (mapM_ub _ _ fun q _ => parameter_ub a hc q) fun ps hps => ?_
      exact bind_ub _ _ (invokeLoop_ub clock o k pattern ps (touches_ub a hk k ps hps) names) fun _ _ => fun h => nomatch h
    · exact fun h => nomatch h

theorem primitive_ub (clock : Clock) (adv : Bool) (a : Args) (hc : a.commands ≠ []) (hk : parameter a "key-size".toList ≠ .ok 0) (o : Options) (pattern : Str) (gs : List Group) :
    primitive clock adv a o pattern gs ≠ .error .ub := by
  induction gs with
  | nil => exact fun h => nomatch h
  | cons g gs ih =>
    rw [primitive]
    exact bind_ub _ _ (invoke_ub clock a hc hk o g.kind pattern _) fun _ _ => bind_ub _ _ ih fun _ _ => fun h => nomatch h

theorem command_some (a : Args) : command a ≠ .error .ub ∧ ∀ b c, command a = .ok (b, c) → b.args = a.args ∧ b.commands ≠ [] := by
  unfold command
  cases h : (a.args.drop a.cur).findIdx? fun x => !['-'].isPrefixOf x with
  | none => exact ⟨(fun h => nomatch h), (fun b c h => nomatch h)⟩
  | some i =>
    simp only
    obtain ⟨hi, -⟩ := List.findIdx?_eq_some_iff_getElem.mp h
    rw [List.getElem?_eq_getElem hi]
    refine ⟨(fun h => nomatch h), fun b c h => ?_⟩
    injection h with h
    injection h with h1 h2
    subst h1
    exact ⟨rfl, by simp⟩

theorem caught_status (x : M Output) (h : x ≠ .error .ub) : (caught x).status = some 0 ∨ (caught x).status = some 1 := by
  cases x with
  | ok o => exact .inl rfl
  | error e =>
    cases e with
    | ub => exact absurd rfl h
    | logic t => exact .inr rfl
    | outOfRange => exact .inr rfl
    | badFunctionCall => exact .inr rfl

/-- A run with at least one argument, no zero `--key-size`. -/
theorem run_ends (x86 : Bool) (clock : Clock) (prog : Str) (args : List Str) (h : args ≠ [])
    (hk : ∀ x ∈ args, opt "key-size".toList <+: x → ∃ v n, x = par "key-size".toList v ∧ Decimal v n ∧ 0 < n) :
    (run x86 clock (prog :: args)).status = some 0 ∨ (run x86 clock (prog :: args)).status = some 1 := by
  obtain ⟨a0, h0⟩ : ∃ a0 : Args, a0 = ⟨args, 0, ["milo application".toList]⟩ := ⟨_, rfl⟩
  have h0' : a0.args = args := by rw [h0]
  rw [run_eq x86 clock prog args h a0 h0]
  apply caught_status
  refine bind_ub _ _ (command_some a0).1 fun ⟨a1, c⟩ h1 => ?_
  obtain ⟨e1, n1⟩ := (command_some a0).2 a1 c h1
  simp only
  split
  · rw [benchmark_eq x86 clock _ _ a1 n1]
    refine bind_ub _ _ (command_some a1).1 fun ⟨a2, c2⟩ h2 => ?_
    obtain ⟨e2, n2⟩ := (command_some a1).2 a2 c2 h2
    simp only
    split
    · refine bind_ub _ _ (command_some a2).1 fun ⟨a3, c3⟩ h3 => ?_
      obtain ⟨e3, n3⟩ := (command_some a2).2 a3 c3 h3
      simp only
      refine bind_ub _ _ (primitive_ub clock _ a3 n3 (parameter_pos a3 _ (by decide) ?_) _ c3 _) fun ⟨ns, es⟩ _ => ?_
      · rw [e3, e2, e1, h0']; exact hk
      · simp only
        split <;> exact fun h => nomatch h
    · exact fun h => nomatch h
  · split
    · exact fun h => nomatch h
    · exact fun h => nomatch h

/-! ### Parameters given or omitted -/

theorem find_given (opts : List Str) (ho : ∀ x ∈ opts, isOption x) (name v : Str) (hm : par name v ∈ opts) (hu : ∀ x ∈ opts, opt name <+: x → x = par name v) :
    opts.find? (fun x => name.isPrefixOf (x.drop 2)) = some (par name v) := by
  cases hf : opts.find? (fun x => name.isPrefixOf (x.drop 2)) with
  | none =>
    rw [List.find?_eq_none] at hf
    exact absurd (by
      show name.isPrefixOf (name ++ '=' :: v) = true
      exact List.isPrefixOf_iff_prefix.mpr ⟨_, rfl⟩) (hf _ hm)
  | some x =>
    have h1 := List.mem_of_find?_eq_some hf
    have h2 := List.find?_some hf
    obtain ⟨y, rfl⟩ := ho x h1
    obtain ⟨w, hw⟩ := List.isPrefixOf_iff_prefix.mp h2
    rw [hu _ h1 ⟨w, by rw [show y = name ++ w from hw.symm]; rfl⟩]

theorem find_omitted (opts : List Str) (ho : ∀ x ∈ opts, isOption x) (name : Str) (hu : Omitted opts name) :
    opts.find? (fun x => name.isPrefixOf (x.drop 2)) = none := by
  rw [List.find?_eq_none]
  intro x hx hc
  obtain ⟨y, rfl⟩ := ho x hx
  obtain ⟨w, hw⟩ := List.isPrefixOf_iff_prefix.mp hc
  exact hu _ hx ⟨w, by rw [show y = name ++ w from hw.symm]; rfl⟩

theorem parameter_given (a : Args) (opts rest : List Str) (ho : ∀ x ∈ opts, isOption x) (hr : Ends rest) (h : a.args.drop a.cur = opts ++ rest) (name : Str) (hn : '=' ∉ name)
    (n : Nat) (hg : Given opts name n) (hlt : n < 2 ^ 64) : parameter a name = .ok (BitVec.ofNat 64 n) := by
  obtain ⟨v, hd, hm, hu⟩ := hg
  rw [parameter_eq a name v opts rest ho hr h hn (find_given opts ho name v hm hu)]
  have e := fromChars_eq (t := []) hd (fun c h => nomatch h)
  rw [List.append_nil, if_pos hlt] at e
  unfold valueOf
  rw [if_neg (decimal_first hd), e]

theorem parameter_big (a : Args) (hc : a.commands ≠ []) (opts rest : List Str) (ho : ∀ x ∈ opts, isOption x) (hr : Ends rest) (h : a.args.drop a.cur = opts ++ rest) (name : Str) (hn : '=' ∉ name)
    (n : Nat) (hg : Given opts name n) (hge : 2 ^ 64 ≤ n) : ∃ t, parameter a name = .error (.logic t) := by
  obtain ⟨v, hd, hm, hu⟩ := hg
  obtain ⟨c, htop⟩ := top_ok a hc
  rw [parameter_eq a name v opts rest ho hr h hn (find_given opts ho name v hm hu)]
  have e := fromChars_eq (t := []) hd (fun c h => nomatch h)
  rw [List.append_nil, if_neg (by omega)] at e
  unfold valueOf
  rw [if_neg (decimal_first hd), e, htop]
  exact ⟨_, rfl⟩

theorem parameter_omitted (a : Args) (c : Str) (hc : a.commands.head? = some c) (opts rest : List Str) (ho : ∀ x ∈ opts, isOption x) (hr : Ends rest) (h : a.args.drop a.cur = opts ++ rest)
    (name : Str) (hu : Omitted opts name) : parameter a name = .error (.logic ("Error. Missing --".toList ++ name ++ " parameter of ".toList ++ c ++ ".".toList)) := by
  rw [parameter_missing a name opts rest ho hr h (find_omitted opts ho name hu)]
  unfold missing top
  cases hcs : a.commands with
  | nil => rw [hcs] at hc; exact nomatch hc
  | cons d l =>
    rw [hcs] at hc
    simp only [List.head?_cons, Option.some.injEq] at hc
    subst hc
    rfl

theorem getOr_given (a : Args) (hc : a.commands ≠ []) (opts rest : List Str) (ho : ∀ x ∈ opts, isOption x) (hr : Ends rest) (h : a.args.drop a.cur = opts ++ rest) (name : Str) (hn : '=' ∉ name)
    (d : BitVec 64) (n : Nat) (hg : GivenOr opts name d.toNat n) (hlt : n < 2 ^ 64) : getOr a name d = BitVec.ofNat 64 n := by
  unfold getOr
  rcases hg with hg | ⟨ho', rfl⟩
  · rw [parameter_given a opts rest ho hr h name hn n hg hlt]
  · cases hcs : a.commands with
    | nil => exact absurd hcs hc
    | cons c l =>
      rw [parameter_omitted a c (by rw [hcs]; rfl) opts rest ho hr h name ho']
      simp

/-! ### A parameter, whatever the arguments -/

theorem option_prefix {name x : Str} (hx : isOption x) : name.isPrefixOf (x.drop 2) = true ↔ opt name <+: x := by
  obtain ⟨y, rfl⟩ := hx
  rw [List.isPrefixOf_iff_prefix]
  simp [opt, List.cons_prefix_cons]

theorem paramArg_first (a : Args) (name : Str) (pre : List Str) (x : Str) (post : List Str) (hp : ∀ y ∈ pre, isOption y ∧ ¬ opt name <+: y) (hx : opt name <+: x) :
    paramArg a name (pre ++ x :: post) = .ok x := by
  induction pre with
  | nil =>
    obtain ⟨t, rfl⟩ := hx
    have ho : isOption (opt name ++ t) := ⟨name ++ t, by simp [opt]⟩
    rw [List.nil_append, paramArg, if_pos (dashes_option.mpr ho), if_pos ((option_prefix ho).mpr (List.prefix_append _ _))]
  | cons y l ih =>
    obtain ⟨h1, h2⟩ := hp y (.head _)
    rw [List.cons_append, paramArg, if_pos (dashes_option.mpr h1), if_neg (fun h => h2 ((option_prefix h1).mp h))]
    exact ih fun y hy => hp y (.tail _ hy)

theorem parameter_first (a : Args) (hc : a.commands ≠ []) (name : Str) (pre : List Str) (x : Str) (post : List Str) (h : a.args.drop a.cur = pre ++ x :: post)
    (hp : ∀ y ∈ pre, isOption y ∧ ¬ opt name <+: y) (hx : opt name <+: x) :
    ('=' ∉ x → ∃ t, parameter a name = .error (.logic t)) ∧
    (∀ y v, x = y ++ '=' :: v → '=' ∉ y → match valueOf v with
      | some n => parameter a name = .ok n
      | none => ∃ t, parameter a name = .error (.logic t)) := by
  obtain ⟨c, htop⟩ := top_ok a hc
  refine ⟨fun hn => ?_, fun y v hy hn => ?_⟩
  · unfold parameter
    rw [h, paramArg_first a name pre x post hp hx]
    have : findFirstOf x '=' 0 = none := ffo_none.mpr fun j _ _ hc => hn (List.mem_of_getElem? hc)
    show ∃ t, (match findFirstOf x '=' 0 with | none => _ | some pos => _ : M (BitVec 64)) = _
    rw [this, htop]
    exact ⟨_, rfl⟩
  · have hf : findFirstOf x '=' 0 = some y.length := by
      rw [ffo_some, hy]
      refine ⟨⟨Nat.zero_le _, by simp, by simp⟩, fun j _ hj hc => ?_⟩
      rw [List.getElem?_append_left hj] at hc
      exact hn (List.mem_of_getElem? hc)
    have hd : x.drop (y.length + 1) = v := by
      rw [hy, show y ++ '=' :: v = (y ++ ['=']) ++ v by simp, List.drop_left' (by simp)]
    have hl : x.length = y.length + 1 + v.length := by rw [hy]; simp; omega
    have e : parameter a name = if y.length + 1 ≥ x.length then .ok 0 else match fromChars v with
        | some n => .ok n
        | none => .error (.logic ("Error. Value conversion failure for --".toList ++ name ++ " parameter of ".toList ++ c ++ ". ".toList ++ "Conversion from ".toList ++
            v ++ " to type of type ".toList ++ "T".toList ++ " failed.".toList)) := by
      unfold parameter
      rw [h, paramArg_first a name pre x post hp hx]
      show (match findFirstOf x '=' 0 with | none => _ | some pos => _ : M (BitVec 64)) = _
      rw [hf]
      show (if y.length + 1 ≥ x.length then _ else _ : M (BitVec 64)) = _
      rw [hd, htop]
      cases fromChars v <;> rfl
    unfold valueOf
    rw [e]
    by_cases hv : v = []
    · subst hv
      rw [if_pos rfl]
      show (if y.length + 1 ≥ x.length then _ else _ : M (BitVec 64)) = _
      rw [if_pos (by rw [hl]; simp)]
    · have : 0 < v.length := List.length_pos_iff.mpr hv
      rw [if_neg hv]
      cases fromChars v with
      | some n =>
        show (if y.length + 1 ≥ x.length then _ else _ : M (BitVec 64)) = _
        rw [if_neg (by omega)]
      | none =>
        refine ⟨?t, ?h⟩
        case h => rw [if_neg (by omega)]

end Milo.App
