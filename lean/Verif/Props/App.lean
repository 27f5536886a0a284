import Verif.Proof.AppSame
import Verif.Proof.AppInv
import Verif.Proof.KernelRfl
/-
C57 … C62: the command line application.

`run x86 clock argv` is what the program does with its arguments, for any measurements of the clock. The command line is described by `Spec.App.Usage`, following
doc/benchmarking.md.
-/
namespace Milo.Props
open App Spec.App

deriving instance DecidableEq for Except

/-! ### C57 -/

set_option maxRecDepth 100000 in
theorem listed_table : ([(false, false), (false, true), (true, false), (true, true)].all fun x => (listed x.1 x.2).all (fun n => (benchmarks x.1 x.2).contains n) &&
    (benchmarks x.1 x.2).all fun n => (listed x.1 x.2).contains n) = true := by decide +kernel

theorem mem_listed {x86 advanced : Bool} {n : Str} : n ∈ listed x86 advanced ↔ n ∈ benchmarks x86 advanced := by
  have h := List.all_eq_true.mp listed_table (x86, advanced) (by cases x86 <;> cases advanced <;> decide)
  rw [Bool.and_eq_true] at h
  refine ⟨fun hn => ?_, fun hn => ?_⟩
  · have := List.all_eq_true.mp h.1 n hn
    simpa using this
  · have := List.all_eq_true.mp h.2 n hn
    simpa using this

/-- The full statement: a pattern matches exactly the names its stars allow. False, see below. -/
def PatternsExact : Prop := ∀ p m : Str, patternMatchStar p m = some true ↔ Glob p m

/-- C57, in part: matching always ends; what it accepts is allowed by the pattern with a star put before it; if the pattern ends with a star, it accepts exactly
that, hence all names the pattern allows; if the pattern also begins with a star, exactly the names the pattern allows. Missing: patterns that begin or end otherwise. -/
theorem C57_patterns_partial (p m : Str) :
    (∃ b, patternMatchStar p m = some b) ∧
    (patternMatchStar p m = some true → Glob ('*' :: p) m) ∧
    (p.getLast? = some '*' → (patternMatchStar p m = some true ↔ Glob ('*' :: p) m) ∧ (Glob p m → patternMatchStar p m = some true)) ∧
    (p.head? = some '*' → p.getLast? = some '*' → (patternMatchStar p m = some true ↔ Glob p m)) := by
  refine ⟨match_total p m, match_sound p m, fun h => ⟨match_trailing p m h, fun hg => (match_trailing p m h).mpr (.star [] hg)⟩, fun h h' => ?_⟩
  rw [match_trailing p m h']
  cases p with
  | nil => exact nomatch h
  | cons c p =>
    simp only [List.head?_cons, Option.some.injEq] at h
    subst h
    exact glob_star_star

/-- C57, in part: a pattern without a star is accepted by the names that end with it and contain it nowhere else. -/
theorem C57_plain_partial (p m : Str) (nonempty : p ≠ []) (plain : '*' ∉ p) :
    patternMatchStar p m = some true ↔ (∃ u, m = u ++ p) ∧ ∀ u v, m = u ++ p ++ v → v = [] := match_plain p m nonempty plain

/-- C57, in part: exactly which names a pattern that does not end with a star is accepted by: those that it allows with a star put before it and that do not begin with a shorter one
that it allows. With `C57_patterns_partial`, this settles every pattern. -/
theorem C57_shortest_partial (p m : Str) (last : p.getLast? ≠ some '*') :
    patternMatchStar p m = some true ↔ Glob ('*' :: p) m ∧ ∀ u v, m = u ++ v → Glob ('*' :: p) u → v = [] := match_shortest p m last

/-- C57: a listed name, used as a pattern, is accepted by no listed name but itself. -/
theorem C57_names (x86 advanced : Bool) (p n : Str) (hp : p ∈ benchmarks x86 advanced) (hn : n ∈ benchmarks x86 advanced) :
    patternMatchStar p n = some true ↔ n = p := by
  rw [← hits_iff]
  exact (name_ok x86 advanced p (mem_listed.mpr hp)).2.2 n (mem_listed.mpr hn)

/-- C57 fails at the beginning: `mac-*` accepts a name of a key derivation function. -/
theorem C57_begin_false : patternMatchStar "mac-*".toList "kdf-hkdf-hmac-sha-1-160".toList = some true ∧
    "kdf-hkdf-hmac-sha-1-160".toList ∈ benchmarks true false ∧ ¬ Glob "mac-*".toList "kdf-hkdf-hmac-sha-1-160".toList := by
  refine ⟨by decide +kernel, by decide +kernel, fun h => ?_⟩
  rw [show "mac-*".toList = "mac-".toList ++ ['*'] from by decide, glob_prefix (by decide)] at h
  revert h
  decide

/-- C57 fails at the end: `*de` does not accept a name that ends so, since the letters are found earlier. -/
theorem C57_end_false : patternMatchStar "*de".toList "codec-base-16-decode".toList = some false ∧ "codec-base-16-decode".toList ∈ benchmarks true false ∧
    Glob "*de".toList "codec-base-16-decode".toList := by
  refine ⟨by decide +kernel, by decide +kernel, ?_⟩
  rw [show "codec-base-16-decode".toList = "codec-base-16-deco".toList ++ "de".toList from by decide, show "*de".toList = '*' :: "de".toList from by decide]
  refine .star _ ?_
  rw [show "de".toList = ['d', 'e'] from by decide]
  exact .char (by decide) (.char (by decide) .nil)

theorem C57_full_false : ¬ PatternsExact := fun h => by
  obtain ⟨h1, -, h2⟩ := C57_begin_false
  exact h2 ((h _ _).mp h1)

example : patternMatchStar "*sha-2-*-sw*".toList "mac-hmac-sha-2-512-224-sw".toList = some true := by decide +kernel
example : patternMatchStar "*sha-2-*-sw*".toList "mac-hmac-sha-1-160-sw".toList = some false := by decide +kernel
example : "hash-sha-2-512".toList ∈ benchmarks true true ∧ "hash-sha-2-512-224".toList ∈ benchmarks true true := by decide +kernel

/-! ### C58 -/

/-- C58: an option is seen if and only if it is one of those directly after the command, up to the next argument that has no two dashes. -/
theorem C58_option (a : Args) (name : Str) (opts rest : List Str) (after : a.args.drop a.cur = opts ++ rest) (options : ∀ x ∈ opts, isOption x)
    (ends : ∀ x, rest.head? = some x → ¬ isOption x) : option a name = true ↔ opt name ∈ opts := by
  unfold option
  rw [after]
  exact optionLoop_eq name opts rest options ends

/-- C58: the next command is the first argument with no dash, the options before it are skipped; if there is none, that is an error. -/
theorem C58_command (a : Args) (opts : List Str) (c : Str) (rest : List Str) (after : a.args.drop a.cur = opts ++ c :: rest) (options : ∀ x ∈ opts, isOption x)
    (command : isCommand c) : ∃ a', App.command a = .ok (a', c) ∧ a'.args.drop a'.cur = rest ∧ a'.commands.head? = some (c ++ " command".toList) := by
  obtain ⟨h1, h2⟩ := command_eq a opts c rest options command after
  exact ⟨_, h1, h2, rfl⟩

/-- C58: what a run does not depend on: options and parameters before `benchmark` except `--verbose` and `--advanced`, those between `primitive` and the pattern, and whatever comes
after those of the pattern. (With `--verbose`, the output quotes all arguments.) -/
theorem C58_ignored (x86 : Bool) (clock : Clock) (program program' : Str) (u u' : Usage) (ok : u.Ok) (ok' : u'.Ok) (pattern : u.pattern = u'.pattern)
    (timing : u.timing = u'.timing) (inputs : u.inputs = u'.inputs) (quiet : opt "verbose".toList ∉ u.global) (quiet' : opt "verbose".toList ∉ u'.global)
    (advanced : opt "advanced".toList ∈ u.global ↔ opt "advanced".toList ∈ u'.global) :
    run x86 clock (u.argv program) = run x86 clock (u'.argv program') :=
  run_same x86 clock program program' u u' ok ok' pattern timing inputs quiet quiet' advanced

example : option ⟨["--x".toList, "--verbose".toList, "benchmark".toList, "--advanced".toList], 0, []⟩ "verbose".toList = true ∧
    option ⟨["--x".toList, "--verbose".toList, "benchmark".toList, "--advanced".toList], 0, []⟩ "advanced".toList = false := by decide +kernel

/-! ### C59 -/

/-- The full statement: a parameter has the value that `--name=v` gives it, if there is only one such argument, and is an error if `v` is no numeral. False, see below. -/
def ParametersExact : Prop := ∀ (a : Args) (name : Str) (opts rest : List Str) (v : Str), a.args.drop a.cur = opts ++ rest → (∀ x ∈ opts, isOption x) →
  (∀ x, rest.head? = some x → ¬ isOption x) → '=' ∉ name → par name v ∈ opts → (∀ w, par name w ∈ opts → w = v) →
  ∀ r : BitVec 64, parameter a name = .ok r ↔ ∃ n, n < 2 ^ 64 ∧ Decimal v n ∧ r = BitVec.ofNat 64 n

/-- C59, in part: a parameter that is given has its value, wherever it stands among the options of its command; one that is omitted is an error with the documented text, or has the
default; so is one that does not fit 64 bits. Missing: other arguments that begin like it, values that are no numerals. -/
theorem C59_parameter_partial (a : Args) (c : Str) (commands : a.commands.head? = some c) (name : Str) (opts rest : List Str) (after : a.args.drop a.cur = opts ++ rest)
    (options : ∀ x ∈ opts, isOption x) (ends : ∀ x, rest.head? = some x → ¬ isOption x) (hn : '=' ∉ name) (default : BitVec 64) :
    (∀ n, Given opts name n → n < 2 ^ 64 → parameter a name = .ok (BitVec.ofNat 64 n) ∧ parameterOr a name default = .ok (BitVec.ofNat 64 n)) ∧
    (∀ n, Given opts name n → 2 ^ 64 ≤ n → (∃ t, parameter a name = .error (.logic t)) ∧ parameterOr a name default = .ok default) ∧
    (Omitted opts name → parameter a name = .error (.logic ("Error. Missing --".toList ++ name ++ " parameter of ".toList ++ c ++ ".".toList)) ∧
      parameterOr a name default = .ok default) := by
  have hc : a.commands ≠ [] := fun h => by rw [h] at commands; exact nomatch commands
  refine ⟨fun n hg hlt => ?_, fun n hg hge => ?_, fun ho => ?_⟩
  · have := parameter_given a opts rest options ends after name hn n hg hlt
    refine ⟨this, ?_⟩
    unfold parameterOr
    rw [this]
  · obtain ⟨t, ht⟩ := parameter_big a hc opts rest options ends after name hn n hg hge
    refine ⟨⟨t, ht⟩, ?_⟩
    unfold parameterOr
    rw [ht]
  · have := parameter_omitted a c commands opts rest options ends after name ho
    refine ⟨this, ?_⟩
    unfold parameterOr
    rw [this]

/-- The parameter has the value `n`, with and without default; or it is an error, which the default replaces. -/
def Yields (a : Args) (name : Str) (default : BitVec 64) : Option Nat → Prop
  | some n => parameter a name = .ok (BitVec.ofNat 64 n) ∧ parameterOr a name default = .ok (BitVec.ofNat 64 n)
  | none => (∃ t, parameter a name = .error (.logic t)) ∧ parameterOr a name default = .ok default

/-- C59: what a parameter is whatever the arguments. `x` is the first that begins with `--name`; its value is what comes after the first `=`: 0 if that is empty, otherwise the number it begins
with, if that has 64 bits; everything else is an error. -/
theorem C59_actual (a : Args) (commands : a.commands ≠ []) (name : Str) (before : List Str) (x : Str) (later : List Str) (after : a.args.drop a.cur = before ++ x :: later)
    (others : ∀ y ∈ before, isOption y ∧ ¬ opt name <+: y) (this : opt name <+: x) (default : BitVec 64) :
    ('=' ∉ x → Yields a name default none) ∧
    (∀ y, x = y ++ ['='] → '=' ∉ y → Yields a name default (some 0)) ∧
    (∀ y v w n, x = y ++ '=' :: (v ++ w) → '=' ∉ y → Decimal v n → (∀ c, w.head? = some c → c.isDigit = false) → Yields a name default (if n < 2 ^ 64 then some n else none)) ∧
    (∀ y c w, x = y ++ '=' :: c :: w → '=' ∉ y → c.isDigit = false → Yields a name default none) := by
  obtain ⟨h1, h2⟩ := parameter_first a commands name before x later after others this
  have no : (∃ t, parameter a name = .error (.logic t)) → Yields a name default none := fun ⟨t, h⟩ => ⟨⟨t, h⟩, by unfold parameterOr; rw [h]⟩
  have yes : ∀ n, parameter a name = .ok (BitVec.ofNat 64 n) → Yields a name default (some n) := fun n h => ⟨h, by unfold parameterOr; rw [h]⟩
  refine ⟨fun h => no (h1 h), fun y hy hn => ?_, fun y v w n hy hn hd hw => ?_, fun y c w hy hn hc => ?_⟩
  · have := h2 y [] hy hn
    exact yes 0 this
  · have := h2 y (v ++ w) hy hn
    unfold valueOf at this
    rw [if_neg (fun h => decimal_first hd (List.append_eq_nil_iff.mp h).1), fromChars_eq hd hw] at this
    by_cases hlt : n < 2 ^ 64
    · rw [if_pos hlt] at this ⊢
      exact yes n this
    · rw [if_neg hlt] at this ⊢
      exact no this
  · have := h2 y (c :: w) hy hn
    unfold valueOf at this
    rw [if_neg (by simp), fromChars_none (fun d hd => by simp only [List.head?_cons, Option.some.injEq] at hd; rw [← hd]; exact hc)] at this
    exact no this

/-- C59 fails when another argument begins like the parameter: it is taken instead. -/
theorem C59_prefix_false : parameter ⟨["--key-size-max=5".toList, "--key-size=16".toList], 0, ["mac-* command".toList]⟩ "key-size".toList = .ok 5 := by decide +kernel

/-- C59 fails for values that are no numerals: letters after the digits are dropped, an empty value is 0. -/
theorem C59_malformed_false : parameter ⟨["--key-size=16k".toList], 0, ["mac-* command".toList]⟩ "key-size".toList = .ok 16 ∧
    parameter ⟨["--key-size=".toList], 0, ["mac-* command".toList]⟩ "key-size".toList = .ok 0 ∧
    parameterOr ⟨["--repeats-time=lots".toList], 0, ["benchmark command".toList]⟩ "repeats-time".toList 1024 = .ok 1024 := by decide +kernel

theorem decimal_digit (d : Nat) (h : d < 10) : Decimal [Char.ofNat (48 + d)] d := .digit h rfl

theorem C59_full_false : ¬ ParametersExact := fun h => by
  have := (h ⟨["--key-size=".toList], 0, ["mac-* command".toList]⟩ "key-size".toList ["--key-size=".toList] [] [] rfl
    (fun x hx => by rw [List.mem_singleton.mp hx]; exact ⟨"key-size=".toList, by decide⟩) (fun x hx => nomatch hx) (by decide) (by decide)
    (fun w hw => by
      have := List.mem_singleton.mp hw
      rw [show "--key-size=".toList = par "key-size".toList [] from by decide] at this
      simpa [par] using this) 0).mp (C59_malformed_false.2.1)
  obtain ⟨n, -, hd, -⟩ := this
  exact decimal_first hd rfl

example : Given ["--message-size=8".toList, "--key-size=32".toList] "key-size".toList 32 :=
  ⟨"32".toList, .more (s := ['3']) (n := 3) (d := 2) (decimal_digit 3 (by decide)) (by decide) (by decide), by decide, fun x hx h => by
    rcases List.mem_cons.mp hx with rfl | hx
    · exact absurd (List.isPrefixOf_iff_prefix.mpr h) (by decide)
    · rw [List.mem_singleton.mp hx]; decide⟩

/-! ### C60 -/

/-- The full statement: the program ends with status 0 or 1 (never 2: all exceptions are standard ones), whatever the arguments. False, see below. -/
def AlwaysEnds : Prop := ∀ (x86 : Bool) (clock : Clock) (argv : List Str), argv ≠ [] →
  (run x86 clock argv).status = some 0 ∨ (run x86 clock argv).status = some 1

/-- C60, in part: it does if there is at least one argument and no derived key of no bytes is asked for. -/
theorem C60_ends_partial (x86 : Bool) (clock : Clock) (program : Str) (args : List Str) (some_argument : args ≠ [])
    (keys : ∀ x ∈ args, opt "key-size".toList <+: x → ∃ v n, x = par "key-size".toList v ∧ Decimal v n ∧ 0 < n) :
    (run x86 clock (program :: args)).status = some 0 ∨ (run x86 clock (program :: args)).status = some 1 :=
  run_ends x86 clock program args some_argument keys

/-- C60 fails without arguments: the last character of an empty string is removed. -/
theorem C60_none_false (x86 : Bool) (clock : Clock) (program : Str) : run x86 clock [program] = .ub := rfl

set_option maxRecDepth 100000 in
/-- C60 fails for `milo benchmark primitive kdf-hkdf-hmac-sha-1-160 --ikm-size=1 --salt-size=1 --info-size=1 --key-size=0`: the first element of an empty vector is read. -/
theorem C60_key_false : run true (fun _ _ => 1) (["milo", "benchmark", "primitive", "kdf-hkdf-hmac-sha-1-160", "--ikm-size=1", "--salt-size=1", "--info-size=1",
    "--key-size=0"].map String.toList) = .ub := by decide +kernel

theorem C60_full_false : ¬ AlwaysEnds := fun h => by
  have := h true (fun _ _ => 1) ["milo".toList] (by simp)
  rw [C60_none_false] at this
  rcases this with h | h <;> exact nomatch h

set_option maxRecDepth 100000 in
example : (run true (fun _ _ => 1) (["milo", "benchmark", "primitive", "mac-poly-1305", "--key-size=32", "--message-size=8"].map String.toList)).status = some 0 ∧
    (run true (fun _ _ => 1) (["milo", "bench"].map String.toList)).status = some 1 := by decide +kernel

/-! ### C61 -/

/-- C61: `list` prints the names, each once; with `--advanced` also those of the implementations. -/
theorem C61_list (x86 : Bool) (clock : Clock) (program : Str) (u : Usage) (ok : u.Ok) (list : u.pattern = "list".toList) :
    ∃ l, run x86 clock (u.argv program) = .done (.names l) ∧ l.Nodup ∧ ∀ n, n ∈ l ↔ n ∈ benchmarks x86 (decide (opt "advanced".toList ∈ u.global)) :=
  ⟨_, run_list x86 clock program u ok list, listed_nodup _ _, fun _ => mem_listed⟩

/-- The entries of a run for the benchmarks `names`, with the values of the parameters `params` and the options for timing. -/
structure Reports (clock : Clock) (u : Usage) (params : List Str) (val : Str → Nat) (e : Entry) : Prop where
  input : e.input = params.map fun q => (q, BitVec.ofNat 64 (val q))
  warm : ∀ n, n < 2 ^ 64 → GivenOr u.timing "repeats-warm".toList 128 n → e.options.repeatsWarm.toNat = n
  time : ∀ n, n < 2 ^ 64 → GivenOr u.timing "repeats-time".toList 1024 n → e.options.repeatsTime.toNat = max n 1
  cpu : ∀ n, n * 1000000 < 2 ^ 64 → GivenOr u.timing "cpu-clock".toList 0 n → e.options.cpuClock.toNat = n * 1000000
  nanoseconds : e.metrics.nanosecondsPerCall = ⟨clock e.name (params.map fun q => BitVec.ofNat 64 (val q)), e.options.repeatsTime⟩

theorem reports_entry (clock : Clock) (u : Usage) (o : Options) (ht : Timing u.timing o) (k : Kind) (val : Str → Nat) (n : Str) :
    Reports clock u k.params val (entryOf clock o k (fun q => BitVec.ofNat 64 (val q)) n) where
  input := rfl
  warm m hm hg := by
    show o.repeatsWarm.toNat = m
    rw [ht.warm m hm hg, BitVec.toNat_ofNat, Nat.mod_eq_of_lt hm]
  time m hm hg := by
    show o.repeatsTime.toNat = _
    rw [ht.time m hm hg]
    split
    · rename_i h; rw [h]; rfl
    · rw [BitVec.toNat_ofNat, Nat.mod_eq_of_lt hm]; omega
  cpu m hm hg := by
    show o.cpuClock.toNat = _
    rw [ht.clock m (by omega) hg, BitVec.toNat_ofNat, Nat.mod_eq_of_lt hm]
  nanoseconds := rfl

set_option maxRecDepth 100000 in
theorem family_table : ([false, true].all fun x86 => (groups x86).all fun g => (declare true g).all fun n => documented.any fun d =>
    d.1.toList.dropLast.isPrefixOf n && decide (g.kind.params = d.2.map String.toList) && (!isKdf g.kind || "kdf-".toList.isPrefixOf n)) = true := by decide +kernel

theorem doc_shape : ∀ d ∈ documented, d.1.toList = d.1.toList.dropLast ++ ['*'] ∧ '*' ∉ d.1.toList.dropLast ∧ d.1.toList ≠ "list".toList := by decide +kernel

theorem family_ok (x86 : Bool) (g : Group) (hg : g ∈ groups x86) (n : Str) (hn : n ∈ declare true g) :
    ∃ d ∈ documented, Glob d.1.toList n ∧ g.kind.params = d.2.map String.toList ∧ (isKdf g.kind = true → "kdf-".toList <+: n) := by
  have h := List.all_eq_true.mp (List.all_eq_true.mp (List.all_eq_true.mp family_table x86 (by cases x86 <;> simp)) g hg) n hn
  obtain ⟨d, hd, h⟩ := List.any_eq_true.mp h
  simp only [Bool.and_eq_true, decide_eq_true_eq, Bool.or_eq_true, Bool.not_eq_true'] at h
  obtain ⟨⟨h1, h2⟩, h3⟩ := h
  refine ⟨d, hd, ?_, h2, fun hk => ?_⟩
  · obtain ⟨s1, s2, -⟩ := doc_shape d hd
    rw [s1]
    exact (glob_prefix s2).mpr (List.isPrefixOf_iff_prefix.mp h1)
  · rcases h3 with h3 | h3
    · rw [hk] at h3; exact nomatch h3
    · exact List.isPrefixOf_iff_prefix.mp h3

/-- C61: a pattern for whose matches all parameters are given runs exactly the benchmarks that match, each once, with these parameters, and reports them. -/
theorem C61_run (x86 : Bool) (clock : Clock) (program : Str) (u : Usage) (ok : u.Ok) (not_list : u.pattern ≠ "list".toList) (val : Str → Nat)
    (given : ∀ n ∈ benchmarks x86 (decide (opt "advanced".toList ∈ u.global)), patternMatchStar u.pattern n = some true → ∀ d ∈ documented, Glob d.1.toList n →
      (∀ q ∈ d.2.map String.toList, Given u.inputs q (val q) ∧ val q < 2 ^ 64) ∧ ("kdf-".toList <+: n → 0 < val "key-size".toList)) :
    ∃ es, run x86 clock (u.argv program) = .done (.result (if opt "verbose".toList ∈ u.global then some (u.argv program).tail else none) es) ∧
      (∀ n, n ∈ es.map Entry.name ↔ n ∈ benchmarks x86 (decide (opt "advanced".toList ∈ u.global)) ∧ patternMatchStar u.pattern n = some true) ∧ (es.map Entry.name).Nodup ∧
      ∀ e ∈ es, ∃ d ∈ documented, Glob d.1.toList e.name ∧ Reports clock u (d.2.map String.toList) val e := by
  obtain ⟨o, ht, h⟩ := run_result x86 clock program u ok not_list val fun g hg n hn hh => by
    obtain ⟨d, hd, h1, h2, h3⟩ := family_ok x86 g hg n (declare_true hn)
    obtain ⟨g1, g2⟩ := given n (mem_listed.mp (List.mem_flatMap.mpr ⟨g, hg, hn⟩)) (hits_iff.mp hh) d hd h1
    rw [h2]
    exact ⟨g1, fun hk => g2 (h3 hk)⟩
  have hn : ∀ o', (((groups x86).flatMap fun g => ((declare (decide (opt "advanced".toList ∈ u.global)) g).filter (hits u.pattern)).map
      (entryOf clock o' g.kind fun q => BitVec.ofNat 64 (val q))).map Entry.name) = (listed x86 (decide (opt "advanced".toList ∈ u.global))).filter (hits u.pattern) := fun o' => by
    unfold listed
    rw [List.map_flatMap, List.filter_flatMap]
    refine congrArg (fun f => List.flatMap f (groups x86)) (funext fun g => ?_)
    rw [List.map_map]
    have : (Entry.name ∘ entryOf clock o' g.kind fun q => BitVec.ofNat 64 (val q)) = id := rfl
    rw [this, List.map_id]
  refine ⟨_, h, fun n => ?_, ?_, fun e he => ?_⟩
  · rw [hn, List.mem_filter, mem_listed, hits_iff]
  · rw [hn]; exact (listed_nodup _ _).filter _
  · obtain ⟨g, hg, he⟩ := List.mem_flatMap.mp he
    obtain ⟨n, hn, rfl⟩ := List.mem_map.mp he
    obtain ⟨d, hd, h1, h2, -⟩ := family_ok x86 g hg n (declare_true (List.mem_filter.mp hn).1)
    refine ⟨d, hd, h1, ?_⟩
    rw [← h2]
    exact reports_entry clock u o ht g.kind val n

/-- The full statement about the documented patterns. False for `mac-*`, see below. -/
def DocumentedRuns (d : String × List String) : Prop := ∀ (x86 : Bool) (clock : Clock) (program : Str) (u : Usage), u.Ok → u.pattern = d.1.toList → ∀ val : Str → Nat,
  (∀ q ∈ d.2.map String.toList, Given u.inputs q (val q) ∧ 0 < val q ∧ val q < 2 ^ 64) →
  ∃ es, run x86 clock (u.argv program) = .done (.result (if opt "verbose".toList ∈ u.global then some (u.argv program).tail else none) es) ∧
    (∀ n, n ∈ es.map Entry.name ↔ n ∈ benchmarks x86 (decide (opt "advanced".toList ∈ u.global)) ∧ Glob u.pattern n) ∧ (es.map Entry.name).Nodup ∧
    ∀ e ∈ es, Reports clock u (d.2.map String.toList) val e

/-- C61, in part: each documented pattern but `mac-*` runs the benchmarks that the pattern allows, with the documented parameters and no others. -/
theorem C61_documented_partial (d : String × List String) (hd : d ∈ documented) (hm : d.1 ≠ "mac-*") : DocumentedRuns d := by
  intro x86 clock program u ok hp val hv
  obtain ⟨s1, s2, s3⟩ := doc_shape d hd
  have key := doc_ok x86 (decide (opt "advanced".toList ∈ u.global)) d hd hm
  have hkdf : ∀ k : Kind, isKdf k = true → "key-size".toList ∈ k.params := fun k => by cases k <;> decide
  obtain ⟨o, ht, h⟩ := run_result x86 clock program u ok (by rw [hp]; exact s3) val fun g hg n hn hh => by
    rw [hp] at hh
    have e := (key g hg n hn).2 hh
    refine ⟨fun q hq => ?_, fun hk => ?_⟩
    · rw [e] at hq; exact ⟨(hv q hq).1, (hv q hq).2.2⟩
    · have := hkdf _ hk
      rw [e] at this
      exact (hv _ this).2.1
  have hn : ∀ o', (((groups x86).flatMap fun g => ((declare (decide (opt "advanced".toList ∈ u.global)) g).filter (hits u.pattern)).map
      (entryOf clock o' g.kind fun q => BitVec.ofNat 64 (val q))).map Entry.name) = (listed x86 (decide (opt "advanced".toList ∈ u.global))).filter (hits u.pattern) := fun o' => by
    unfold listed
    rw [List.map_flatMap, List.filter_flatMap]
    refine congrArg (fun f => List.flatMap f (groups x86)) (funext fun g => ?_)
    rw [List.map_map]
    have : (Entry.name ∘ entryOf clock o' g.kind fun q => BitVec.ofNat 64 (val q)) = id := rfl
    rw [this, List.map_id]
  refine ⟨_, h, fun n => ?_, ?_, fun e he => ?_⟩
  · rw [hn, List.mem_filter, ← mem_listed]
    refine and_congr_right fun hl => ?_
    obtain ⟨g, hg, hng⟩ := List.mem_flatMap.mp hl
    rw [hp, (key g hg n hng).1]
    have := glob_prefix (n := n) s2
    rw [← s1] at this
    exact this.symm
  · rw [hn]; exact (listed_nodup _ _).filter _
  · obtain ⟨g, hg, he⟩ := List.mem_flatMap.mp he
    obtain ⟨n, hn, rfl⟩ := List.mem_map.mp he
    obtain ⟨h1, h2⟩ := List.mem_filter.mp hn
    rw [hp] at h2
    rw [← (key g hg n h1).2 h2]
    exact reports_entry clock u o ht g.kind val n

/-- C61: a documented parameter that is omitted gives the documented error. -/
theorem C61_missing (x86 : Bool) (clock : Clock) (program : Str) (u : Usage) (ok : u.Ok) (d : String × List String) (hd : d ∈ documented) (pattern : u.pattern = d.1.toList)
    (pre post : List Str) (q : Str) (params : d.2.map String.toList = pre ++ q :: post) (val : Str → Nat) (given : ∀ q ∈ pre, Given u.inputs q (val q) ∧ val q < 2 ^ 64)
    (omitted : Omitted u.inputs q) :
    run x86 clock (u.argv program) = .failed (some ("Error. Missing --".toList ++ q ++ " parameter of ".toList ++ (u.pattern ++ " command".toList) ++ ".".toList)) := by
  obtain ⟨gs, g, gs', e, h1, ⟨n, hn, hh⟩, h3⟩ := first_ok x86 (decide (opt "advanced".toList ∈ u.global)) d hd
  refine run_missing x86 clock program u ok (by rw [pattern]; exact (doc_shape d hd).2.2) val gs gs' g e (fun g hg n hn hh => ?_) n hn (by rw [pattern]; exact hh) pre post q
    (by rw [h3, params]) given omitted
  rw [pattern, h1 g hg n hn] at hh
  exact nomatch hh

/-- A usual command line. -/
def usage (global timing : List String) (pattern : String) (inputs : List String) : Usage :=
  ⟨global.map String.toList, timing.map String.toList, [], pattern.toList, inputs.map String.toList, []⟩

set_option maxRecDepth 100000 in
/-- C61 fails for `mac-*`: the benchmarks of key derivation functions match as well, and lack their parameters. -/
theorem C61_mac_false : run true (fun _ _ => 1) ((usage [] [] "mac-*" ["--key-size=3", "--message-size=4"]).argv "milo".toList) =
    .failed (some "Error. Missing --ikm-size parameter of mac-* command.".toList) := by decide +kernel

theorem usage_ok (global timing : List String) (pattern : String) (inputs : List String) (h1 : global.all fun x => "--".toList.isPrefixOf x.toList)
    (h2 : timing.all fun x => "--".toList.isPrefixOf x.toList) (h3 : inputs.all fun x => "--".toList.isPrefixOf x.toList) (h4 : ['-'].isPrefixOf pattern.toList = false) :
    (usage global timing pattern inputs).Ok := by
  have key : ∀ l : List String, (l.all fun x => "--".toList.isPrefixOf x.toList) = true → ∀ x ∈ l.map String.toList, isOption x := fun l h x hx => by
    obtain ⟨y, hy, rfl⟩ := List.mem_map.mp hx
    exact dashes_option.mp (List.all_eq_true.mp h y hy)
  exact ⟨key _ h1, key _ h2, (fun x hx => nomatch hx), dash_command.mp h4, key _ h3, (fun x hx => nomatch hx)⟩

theorem C61_full_false : ¬ ∀ d ∈ documented, DocumentedRuns d := fun h => by
  have := h ("mac-*", ["key-size", "message-size"]) (by decide) true (fun _ _ => 1) "milo".toList (usage [] [] "mac-*" ["--key-size=3", "--message-size=4"])
    (usage_ok _ _ _ _ (by decide) (by decide) (by decide) (by decide)) rfl (fun q => if q = "key-size".toList then 3 else 4) (fun q hq => by
      rcases List.mem_cons.mp hq with rfl | hq
      · refine ⟨⟨"3".toList, ?_, by decide, fun x hx h => ?_⟩, by decide, by decide⟩
        · rw [if_pos (by decide)]; exact decimal_digit 3 (by decide)
        · rcases List.mem_cons.mp hx with rfl | hx
          · decide
          · rw [List.mem_singleton.mp hx] at h ⊢
            exact absurd (List.isPrefixOf_iff_prefix.mpr h) (by decide)
      · rw [List.mem_singleton.mp hq]
        refine ⟨⟨"4".toList, ?_, by decide, fun x hx h => ?_⟩, by decide, by decide⟩
        · rw [if_neg (by decide)]; exact decimal_digit 4 (by decide)
        · rcases List.mem_cons.mp hx with rfl | hx
          · exact absurd (List.isPrefixOf_iff_prefix.mpr h) (by decide)
          · rw [List.mem_singleton.mp hx]; decide)
  obtain ⟨es, h, -⟩ := this
  rw [C61_mac_false] at h
  exact nomatch h

example : (usage ["--advanced"] ["--cpu-clock=3500"] "kdf-pbkdf-2-*" ["--iterations=2", "--salt-size=8", "--key-size=9", "--ikm-size=4"]).Ok :=
  usage_ok _ _ _ _ (by decide) (by decide) (by decide) (by decide)

set_option maxRecDepth 100000 in
example : run true (fun _ _ => 7) ((usage [] ["--repeats-time=2"] "hash-sha-2-256" ["--message-size=64"]).argv "milo".toList) =
    .done (.result none [⟨"hash-sha-2-256".toList, [("message-size".toList, 64)], ⟨0, 128, 2⟩, ⟨⟨7, 2⟩, some (⟨128, 7⟩, ⟨128000, 7⟩), none⟩⟩]) := by decide +kernel

/-! ### C62 -/

/-- The number that is printed (before it is rounded). -/
def value (q : Quot) : Rat := (q.num.toNat : Rat) / (q.den.toNat : Rat)

/-- The true values: `c` Hz, `r` calls of `p` bytes each in `t` nanoseconds. -/
structure TrueMetrics (c r p t : Nat) (m : Metrics) : Prop where
  duration : value m.nanosecondsPerCall = (t : Rat) / r
  throughput : r * p ≠ 0 → ∃ g mb, m.throughput = some (g, mb) ∧ value g = ((r : Rat) * p) / t ∧ value mb = ((r : Rat) * p) / t * 1000
  cpu : r * p ≠ 0 → c ≠ 0 → ∃ call byte, m.cpu = some (call, byte) ∧ value call = ((c : Rat) * (t / 1000000000)) / r ∧ value byte = ((c : Rat) * (t / 1000000000)) / ((r : Rat) * p)

/-- The full statement. False, see below. -/
def MetricsTrue : Prop := ∀ (o : Options) (t p : BitVec 64), TrueMetrics o.cpuClock.toNat o.repeatsTime.toNat p.toNat t.toNat (metrics o t (o.repeatsTime * p))

theorem toNat_mul_lt {x y : BitVec 64} (h : x.toNat * y.toNat < 2 ^ 64) : (x * y).toNat = x.toNat * y.toNat := by rw [BitVec.toNat_mul, Nat.mod_eq_of_lt h]

/-- C62, in part: the metrics are right if no product overflows: a thousand times the bytes processed, a billion times the bytes, and the clock rate times the nanoseconds. -/
theorem C62_metrics_partial (o : Options) (t p : BitVec 64) (bytes : 1000000000 * (o.repeatsTime.toNat * p.toNat) < 2 ^ 64) (calls : 1000000000 * o.repeatsTime.toNat < 2 ^ 64)
    (cycles : o.cpuClock.toNat * t.toNat < 2 ^ 64) : TrueMetrics o.cpuClock.toNat o.repeatsTime.toNat p.toNat t.toNat (metrics o t (o.repeatsTime * p)) := by
  have e1 : (o.repeatsTime * p).toNat = o.repeatsTime.toNat * p.toNat := toNat_mul_lt (by omega)
  have hz : ∀ x : BitVec 64, x.toNat ≠ 0 → x ≠ 0 := fun x h h' => h (by rw [h']; rfl)
  have hthousand : (1000 : BitVec 64).toNat = 1000 := rfl
  have hbillion : (1000000000 : BitVec 64).toNat = 1000000000 := rfl
  refine ⟨rfl, fun h => ?_, fun h hc => ?_⟩
  · refine ⟨_, _, if_pos (hz _ (by rw [e1]; exact h)), ?_, ?_⟩
    · show ((o.repeatsTime * p).toNat : Rat) / (t.toNat : Rat) = _
      rw [e1, Rat.natCast_mul]
    · show ((o.repeatsTime * p * 1000).toNat : Rat) / (t.toNat : Rat) = _
      rw [toNat_mul_lt (by rw [e1, hthousand]; omega), e1, Rat.natCast_mul, Rat.natCast_mul, hthousand, Rat.div_def, Rat.div_def]
      rw [Rat.mul_assoc _ _ (1000 : Rat), Rat.mul_comm _ (1000 : Rat), ← Rat.mul_assoc]
      rfl
  · refine ⟨_, _, if_pos ⟨hz _ (by rw [e1]; exact h), hz _ hc⟩, ?_, ?_⟩
    · show ((o.cpuClock * t).toNat : Rat) / ((1000000000 * o.repeatsTime).toNat : Rat) = _
      rw [toNat_mul_lt cycles, toNat_mul_lt (by rw [hbillion]; exact calls), Rat.natCast_mul, Rat.natCast_mul, hbillion, Rat.div_def, Rat.div_def, Rat.div_def, Rat.inv_mul_rev,
        Rat.mul_comm (o.repeatsTime.toNat : Rat)⁻¹, ← Rat.mul_assoc, Rat.mul_assoc _ (t.toNat : Rat)]
      rfl
    · show ((o.cpuClock * t).toNat : Rat) / ((1000000000 * (o.repeatsTime * p)).toNat : Rat) = _
      rw [toNat_mul_lt cycles, toNat_mul_lt (by rw [hbillion, e1]; exact bytes), e1, Rat.natCast_mul, Rat.natCast_mul, Rat.natCast_mul, hbillion, Rat.div_def, Rat.div_def, Rat.div_def, Rat.inv_mul_rev,
        Rat.mul_comm ((o.repeatsTime.toNat : Rat) * (p.toNat : Rat))⁻¹, ← Rat.mul_assoc, Rat.mul_assoc _ (t.toNat : Rat)]
      rfl

/-- The row of `counted` for a kind. -/
def rowOf : Kind → String × List String
  | .codec => ("codec-", ["bytes-size"])
  | .hash => ("hash-", ["message-size"])
  | .mac => ("mac-", ["message-size"])
  | .hkdf => ("kdf-hkdf-", ["key-size"])
  | .pbkdf2 => ("kdf-pbkdf-2-", ["key-size"])
  | .cipher => ("cipher-", ["bytes-size"])
  | .aead => ("aead-", ["aad-size", "bytes-size"])

theorem row_table : ([false, true].all fun x86 => (groups x86).all fun g => (declare true g).all fun n =>
    (rowOf g.kind).1.toList.isPrefixOf n && counted.all fun d => !d.1.toList.isPrefixOf n || decide (d = rowOf g.kind)) = true := by decide +kernel

theorem row_ok (x86 : Bool) (g : Group) (hg : g ∈ groups x86) (n : Str) (hn : n ∈ declare true g) :
    (rowOf g.kind ∈ counted ∧ (rowOf g.kind).1.toList <+: n) ∧ ∀ d ∈ counted, d.1.toList <+: n → d = rowOf g.kind := by
  have h := List.all_eq_true.mp (List.all_eq_true.mp (List.all_eq_true.mp row_table x86 (by cases x86 <;> simp)) g hg) n hn
  rw [Bool.and_eq_true] at h
  refine ⟨⟨?_, List.isPrefixOf_iff_prefix.mp h.1⟩, fun d hd hp => ?_⟩
  · cases g.kind <;> simp [rowOf, counted]
  · have := List.all_eq_true.mp h.2 d hd
    rw [Bool.or_eq_true, Bool.not_eq_true', decide_eq_true_eq] at this
    rcases this with h' | h'
    · rw [List.isPrefixOf_iff_prefix.mpr hp] at h'; exact nomatch h'
    · exact h'

theorem one {ps : List (BitVec 64)} (h : ps.length = 1) : ∃ a, ps = [a] := by match ps, h with | [a], _ => exact ⟨a, rfl⟩
theorem two {ps : List (BitVec 64)} (h : ps.length = 2) : ∃ a b, ps = [a, b] := by match ps, h with | [a, b], _ => exact ⟨a, b, rfl⟩
theorem four {ps : List (BitVec 64)} (h : ps.length = 4) : ∃ a b c d, ps = [a, b, c, d] := by match ps, h with | [a, b, c, d], _ => exact ⟨a, b, c, d, rfl⟩

theorem row_bytes (k : Kind) (ps : List (BitVec 64)) (h : ps.length = k.params.length) (fits : bytesPerCall (rowOf k).2 (k.params.zip ps) < 2 ^ 64) :
    (k.bytes ps).toNat = bytesPerCall (rowOf k).2 (k.params.zip ps) := by
  cases k
  case codec => obtain ⟨a, rfl⟩ := one h; clear fits; kernel_rfl
  case hash => obtain ⟨a, rfl⟩ := one h; clear fits; kernel_rfl
  case mac => obtain ⟨a, b, rfl⟩ := two h; clear fits; kernel_rfl
  case hkdf => obtain ⟨a, b, c, d, rfl⟩ := four h; clear fits; kernel_rfl
  case pbkdf2 => obtain ⟨a, b, c, d, rfl⟩ := four h; clear fits; kernel_rfl
  case cipher => obtain ⟨a, rfl⟩ := one h; clear fits; kernel_rfl
  case aead =>
    obtain ⟨a, b, rfl⟩ := two h
    have e : bytesPerCall (rowOf .aead).2 ((Kind.params .aead).zip [a, b]) = a.toNat + b.toNat := by clear fits; kernel_rfl
    rw [e] at fits ⊢
    rw [show Kind.bytes .aead [a, b] = a + b from rfl, BitVec.toNat_add, Nat.mod_eq_of_lt fits]

/-- C62, in part: whatever the command line, each benchmark in the output belongs to one family, and its metrics are those of the bytes that the parameters of this family count,
of the parameters shown with it and of the time measured, if no product overflows. -/
theorem C62_entries_partial (x86 : Bool) (clock : Clock) (argv : List Str) (verbose : Option (List Str)) (es : List Entry) (result : run x86 clock argv = .done (.result verbose es))
    (e : Entry) (he : e ∈ es) :
    (∃ d ∈ counted, d.1.toList <+: e.name) ∧ ∀ d ∈ counted, d.1.toList <+: e.name →
      bytesPerCall d.2 e.input < 2 ^ 64 → 1000000000 * (e.options.repeatsTime.toNat * bytesPerCall d.2 e.input) < 2 ^ 64 → 1000000000 * e.options.repeatsTime.toNat < 2 ^ 64 →
      e.options.cpuClock.toNat * (clock e.name (e.input.map Prod.snd)).toNat < 2 ^ 64 →
      TrueMetrics e.options.cpuClock.toNat e.options.repeatsTime.toNat (bytesPerCall d.2 e.input) (clock e.name (e.input.map Prod.snd)).toNat e.metrics := by
  obtain ⟨g, hg, hn, ps, hl, hi, hm⟩ := ((run_made x86 clock argv verbose es result).2 e he).counted
  obtain ⟨⟨h1, h2⟩, h3⟩ := row_ok x86 g hg e.name hn
  refine ⟨⟨_, h1, h2⟩, fun d hd hp f1 f2 f3 f4 => ?_⟩
  have hs : e.input.map Prod.snd = ps := by rw [hi, List.map_snd_zip (by omega)]
  have ed := h3 d hd hp
  rw [hs] at f4 ⊢
  rw [ed, hi] at f1 f2
  have key := row_bytes g.kind ps hl f1
  rw [← key] at f2
  have := C62_metrics_partial e.options (clock e.name ps) (g.kind.bytes ps) f2 f3 f4
  rw [← hm, key] at this
  rw [ed, hi]
  exact this

example : bytesPerCall ["aad-size", "bytes-size"] [("aad-size".toList, 5), ("bytes-size".toList, 7)] = 12 := by decide

/-- C62 fails for 1024 calls, of 16 MiB each, that take 6 seconds at 3.5 GHz: the number of cycles does not fit. -/
theorem C62_full_false : ¬ MetricsTrue := fun h => by
  have := (h ⟨3500000000, 128, 1024⟩ 6000000000 16777216).cpu (by decide) (by decide)
  obtain ⟨call, byte, h1, h2, -⟩ := this
  have : some (call, byte) = some ((⟨2553255926290448384, 1024000000000⟩ : Quot), (⟨2553255926290448384, 17179869184000000000⟩ : Quot)) := by rw [← h1]; decide
  injection this with this
  injection this with h3 h4
  rw [h3] at h2
  revert h2
  decide +kernel

example : 1000000000 * ((1024 : BitVec 64).toNat * (16384 : BitVec 64).toNat) < 2 ^ 64 ∧ 1000000000 * (1024 : BitVec 64).toNat < 2 ^ 64 ∧
    (3500000000 : BitVec 64).toNat * (9130453000 / 1000 : BitVec 64).toNat < 2 ^ 64 := by decide

end Milo.Props
