import Verif.Proof.AppJson
import Verif.Proof.AppInv
import Verif.Proof.AppDoc
import Verif.Props.App
/-
C63: what the application prints is JSON (`Spec.Json`, RFC 8259).
-/
namespace Milo.Props
open App Spec.Json

/-- The full statement: the text of a value is JSON, and denotes that value, in whatever order the members of objects are visited. False, see below. -/
def JsonExact : Prop := ∀ v w : Var, Same v w → Text w.denote w.json

/-- C63, in part: so it is if no string needs an escape and all numbers are finite. -/
theorem C63_json_partial (v w : Var) (good : v.Good) (same : Same v w) : Text w.denote w.json := var_text w (same_good same good)

/-- C63: whole numbers are printed as numerals of their values. -/
theorem C63_number (n : Nat) : Spec.App.Decimal (digits n) n := decimal_digits n

/-- C63: signed numbers: a minus sign if negative, and the decimal digits. -/
theorem C63_integer (z : Int) : ∃ t, Spec.App.Decimal t z.natAbs ∧ integer z = if z < 0 then '-' :: t else t := ⟨_, decimal_digits _, rfl⟩

theorem all_plain : ∀ x86 : Bool, ((groups x86).all fun g => (declare true g).all plainB && g.kind.params.all plainB) = true := by
  intro x86
  cases x86 <;> decide +kernel

/-- C63, in part: every result of the application is JSON, if the arguments (printed with `--verbose`) need no escapes and no quotient is one by zero. -/
theorem C63_run_partial (x86 : Bool) (clock : Clock) (argv : List Str) (verbose : Option (List Str)) (entries : List Entry)
    (result : run x86 clock argv = .done (.result verbose entries)) (build : Build)
    (constants : Plain build.compiler ∧ Plain build.compilerVersion ∧ Plain build.project ∧ Plain build.projectVersion) (round : Quot → Nat × Nat)
    (arguments : ∀ x ∈ argv, Plain x) (finite : ∀ e ∈ entries, FiniteMetrics e.metrics) (printed : Var) (order : Same (printedVar build round verbose entries) printed) :
    Text printed.denote printed.json := by
  obtain ⟨hv, hm⟩ := run_made x86 clock argv verbose entries result
  refine C63_json_partial _ _ (printed_good build constants round verbose (fun args ha x hx => ?_) entries fun e he => ?_) order
  · rcases hv with rfl | rfl
    · exact nomatch ha
    · injection ha with ha
      subst ha
      exact arguments x (List.mem_of_mem_tail hx)
  · obtain ⟨g, hg, h1, h2⟩ := (hm e he).name
    have := List.all_eq_true.mp (all_plain x86) g hg
    rw [Bool.and_eq_true] at this
    refine ⟨plainB_iff.mp (List.all_eq_true.mp this.1 _ h1), fun p hp => ?_, finite e he⟩
    have hp' : p.1 ∈ e.input.map Prod.fst := List.mem_map.mpr ⟨p, hp, rfl⟩
    rw [h2] at hp'
    exact plainB_iff.mp (List.all_eq_true.mp this.2 _ (List.mem_of_mem_take hp'))

theorem billion_mod (n : Nat) (h0 : n ≠ 0) (h : n < 36028797018963968) : 1000000000 * n % 18446744073709551616 ≠ 0 := by
  intro hc
  have h1 : 512 * 36028797018963968 ∣ 512 * (1953125 * n) := by
    rw [← Nat.mul_assoc]
    exact Nat.dvd_of_mod_eq_zero hc
  have h2 : 36028797018963968 ∣ n := Nat.Coprime.dvd_of_dvd_mul_left (by decide) (Nat.dvd_of_mul_dvd_mul_left (by decide) h1)
  exact Nat.not_le.mpr h (Nat.le_of_dvd (Nat.pos_of_ne_zero h0) h2)

theorem billion_ne (x : BitVec 64) (hx : x ≠ 0) (hlt : x.toNat < 2 ^ 55) : (1000000000 : BitVec 64) * x ≠ 0 := by
  intro hc
  have h := congrArg BitVec.toNat hc
  rw [BitVec.toNat_mul] at h
  refine billion_mod x.toNat (fun h => hx (BitVec.eq_of_toNat_eq h)) (Nat.lt_of_lt_of_le hlt (by decide)) ?_
  exact h

/-- C63: no quotient of a result is one by zero if the clock ran, for less than 2^55 calls and 2^55 bytes. -/
theorem C63_finite (o : Options) (t p : BitVec 64) (clock : t ≠ 0) (repeats : o.repeatsTime ≠ 0) (calls : o.repeatsTime.toNat < 2 ^ 55) (bytes : p.toNat < 2 ^ 55) :
    FiniteMetrics (metrics o t p) := by
  refine ⟨repeats, fun g b h => ?_, fun c b h => ?_⟩
  · unfold metrics at h
    simp only at h
    split at h
    · cases h; exact ⟨clock, clock⟩
    · exact nomatch h
  · unfold metrics at h
    simp only at h
    split at h
    · rename_i hp
      cases h
      exact ⟨billion_ne _ repeats calls, billion_ne _ hp.1 bytes⟩
    · exact nomatch h

theorem fixed_text (a b : Nat) (hb : b < 1000000) : Fixed (Dbl.finite a b).text (a, b) := by
  have key : ∀ k n m : Nat, m < 10 ^ (k + 1) → n = 10 ^ (k + 1) + m → ∃ l, digits n = '1' :: l ∧ l.length = k + 1 ∧ Spec.App.Decimal l m := by
    intro k
    induction k with
    | zero =>
      intro n m hm hn
      rw [digits_big (by omega), digits_small (by omega)]
      refine ⟨[Char.ofNat (48 + n % 10)], ?_, rfl, .digit hm ?_⟩
      · rw [show n / 10 = 1 by omega]; rfl
      · rw [show n % 10 = m by omega]
    | succ k ih =>
      intro n m hm hn
      rw [Nat.pow_succ] at hm hn
      obtain ⟨l, e, hl, hd⟩ := ih (n / 10) (m / 10) (by omega) (by omega)
      refine ⟨l ++ [Char.ofNat (48 + n % 10)], ?_, ?_, ?_⟩
      · have : 1 ≤ 10 ^ (k + 1) := Nat.one_le_pow _ _ (by omega)
        rw [digits_big (by omega), e]; rfl
      · rw [List.length_append, hl]; rfl
      · have := Spec.App.Decimal.more hd (d := n % 10) (by omega) rfl
        rwa [show 10 * (m / 10) + n % 10 = m by omega] at this
  obtain ⟨l, e, hl, hd⟩ := key 5 (1000000 + b % 1000000) b (by omega) (by omega)
  refine ⟨digits a, l, decimal_digits a, hl, hd, ?_⟩
  rw [Dbl.text, e]
  rfl

theorem says_nat {doc : J} {path : List Str} {n : Nat} (h : At doc path (.num (digits n))) : Says doc path n := ⟨_, decimal_digits n, h⟩

theorem says_quot {doc : J} {path : List Str} {round : Quot → Nat × Nat} {q : Quot} (hr : (round q).2 < 1000000) (hq : q.den ≠ 0) (h : At doc path (.num (q.dbl round).text)) :
    SaysQuot doc path round q := by
  unfold Quot.dbl at h
  rw [if_neg hq] at h
  exact ⟨_, fixed_text _ _ hr, h⟩

theorem params_nodup (k : Kind) : k.params.Nodup := by cases k <;> decide

/-- What is under an entry's name. -/
def entryVar (round : Quot → Nat × Nat) (e : Entry) : Var := .obj (members [("config".toList, e.config), ("metrics".toList, e.metricsVar round)])

theorem one_nodup (k : Str) : [k].Nodup := by simp
theorem keys_entry : ["config".toList, "metrics".toList].Nodup := by decide
theorem keys_config : ["benchmark".toList, "input".toList].Nodup := by decide
theorem keys_options : ["repeats-warm".toList, "repeats-time".toList, "cpu-clock".toList].Nodup := by decide
theorem keys_metrics : ["duration".toList, "throughput".toList, "cpu".toList].Nodup := by decide
theorem keys_throughput : ["gigabytes_per_second".toList, "megabytes_per_second".toList].Nodup := by decide
theorem keys_cpu : ["cycles_per_call".toList, "cycles_per_byte".toList].Nodup := by decide
theorem keys_top : ["compiler".toList, "project".toList, "command".toList, "result".toList].Nodup := by decide

/-- Options of an entry, as the output names them. -/
def optionsList (e : Entry) : List (Str × Nat) :=
  [("repeats-warm".toList, e.options.repeatsWarm.toNat), ("repeats-time".toList, e.options.repeatsTime.toNat)] ++
    if e.options.cpuClock ≠ 0 then [("cpu-clock".toList, e.options.cpuClock.toNat)] else []

theorem options_map (e : Entry) : ([("repeats-warm".toList, Var.nat e.options.repeatsWarm.toNat), ("repeats-time".toList, .nat e.options.repeatsTime.toNat)] ++
    if e.options.cpuClock ≠ 0 then [("cpu-clock".toList, .nat e.options.cpuClock.toNat)] else []) = (optionsList e).map fun p => (p.1, .nat p.2) := by
  unfold optionsList
  rw [List.map_append]
  congr 1
  split <;> rfl

theorem options_nodup (e : Entry) : (((optionsList e).map fun p => (p.1, Var.nat p.2)).map Prod.fst).Nodup := by
  rw [List.map_map]
  refine List.Sublist.nodup ?_ keys_options
  unfold optionsList
  rw [List.map_append]
  refine List.Sublist.append (l₁ := ["repeats-warm".toList, "repeats-time".toList]) (.refl _) (r₂ := ["cpu-clock".toList]) ?_
  split
  · exact .refl _
  · exact List.nil_sublist _

theorem at_options (e : Entry) (k : Str) (n : Nat) (h : (k, n) ∈ optionsList e) : At e.config.denote ["benchmark".toList, k] (.num (App.digits n)) := by
  unfold Entry.config
  rw [options_map]
  exact at_members _ (by exact keys_config) _ _ (.head _) (at_members _ (options_nodup e) k (.nat n) (List.mem_map.mpr ⟨(k, n), h, rfl⟩) (at_nat n))

theorem at_input (e : Entry) (hi : (e.input.map Prod.fst).Nodup) (q : Str) (v : BitVec 64) (h : (q, v) ∈ e.input) :
    At e.config.denote ["input".toList, q] (.num (App.digits v.toNat)) := by
  unfold Entry.config
  exact at_members _ (by exact keys_config) _ _ (.tail _ (.head _)) (at_members _ (by rw [List.map_map]; exact hi) q (.nat v.toNat) (List.mem_map.mpr ⟨(q, v), h, rfl⟩) (at_nat _))

/-- Members of the metrics. -/
def metricsList (round : Quot → Nat × Nat) (e : Entry) : List (Str × Var) :=
  [("duration".toList, .obj (members [("nanoseconds_per_call".toList, .dbl (e.metrics.nanosecondsPerCall.dbl round))]))] ++
    ((match e.metrics.throughput with
      | some (g, m) => [("throughput".toList, .obj (members [("gigabytes_per_second".toList, .dbl (g.dbl round)), ("megabytes_per_second".toList, .dbl (m.dbl round))]))]
      | none => []) ++
    (match e.metrics.cpu with
      | some (c, b) => [("cpu".toList, .obj (members [("cycles_per_call".toList, .dbl (c.dbl round)), ("cycles_per_byte".toList, .dbl (b.dbl round))]))]
      | none => []))

theorem metrics_list (round : Quot → Nat × Nat) (e : Entry) : e.metricsVar round = .obj (members (metricsList round e)) := by
  unfold Entry.metricsVar metricsList
  rw [List.append_assoc]
  rfl

theorem metrics_nodup (round : Quot → Nat × Nat) (e : Entry) : ((metricsList round e).map Prod.fst).Nodup := by
  refine List.Sublist.nodup ?_ keys_metrics
  unfold metricsList
  rw [List.map_append, List.map_append]
  refine List.Sublist.append (l₁ := ["duration".toList]) (.refl _) (r₂ := ["throughput".toList, "cpu".toList]) (List.Sublist.append (l₂ := ["throughput".toList]) (r₂ := ["cpu".toList]) ?_ ?_)
  · split
    · exact .refl _
    · exact List.nil_sublist _
  · split
    · exact .refl _
    · exact List.nil_sublist _

theorem at_metrics (round : Quot → Nat × Nat) (e : Entry) (k : Str) (l : List (Str × Var)) (h : (k, Var.obj (members l)) ∈ metricsList round e) (hn : (l.map Prod.fst).Nodup)
    (n : Str) (d : Dbl) (hd : (n, Var.dbl d) ∈ l) : At (e.metricsVar round).denote [k, n] (.num d.text) := by
  rw [metrics_list]
  exact at_members _ (metrics_nodup round e) _ _ h (at_members _ hn _ _ hd (at_dbl d))

theorem mem_duration (round : Quot → Nat × Nat) (e : Entry) :
    ("duration".toList, Var.obj (members [("nanoseconds_per_call".toList, .dbl (e.metrics.nanosecondsPerCall.dbl round))])) ∈ metricsList round e := .head _

theorem mem_throughput (round : Quot → Nat × Nat) (e : Entry) (g m : Quot) (h : e.metrics.throughput = some (g, m)) :
    ("throughput".toList, Var.obj (members [("gigabytes_per_second".toList, .dbl (g.dbl round)), ("megabytes_per_second".toList, .dbl (m.dbl round))])) ∈ metricsList round e := by
  unfold metricsList
  rw [h]
  exact .tail _ (.head _)

theorem mem_cpu (round : Quot → Nat × Nat) (e : Entry) (c b : Quot) (h : e.metrics.cpu = some (c, b)) :
    ("cpu".toList, Var.obj (members [("cycles_per_call".toList, .dbl (c.dbl round)), ("cycles_per_byte".toList, .dbl (b.dbl round))])) ∈ metricsList round e := by
  unfold metricsList
  rw [h]
  exact List.mem_append_right _ (List.mem_append_right _ (.head _))

theorem shows_entry (round : Quot → Nat × Nat) (hr : ∀ q, (round q).2 < 1000000) (e : Entry) (hi : (e.input.map Prod.fst).Nodup) (doc : J) (pre : List Str)
    (found : ∀ path t, At (entryVar round e).denote path (.num t) → At doc (pre ++ path) (.num t)) : Shows doc pre round e := by
  have cfg : ∀ path t, At e.config.denote path (.num t) → At doc (pre ++ "config".toList :: path) (.num t) := fun path t h =>
    found _ _ (at_members _ (by exact keys_entry) _ _ (.head _) h)
  have met : ∀ path t, At (e.metricsVar round).denote path (.num t) → At doc (pre ++ "metrics".toList :: path) (.num t) := fun path t h =>
    found _ _ (at_members _ (by exact keys_entry) _ _ (.tail _ (.head _)) h)
  refine ⟨says_nat (cfg _ _ (at_options e _ _ (.head _))), says_nat (cfg _ _ (at_options e _ _ (.tail _ (.head _)))), fun hc => says_nat (cfg _ _ (at_options e _ _ ?_)), fun q v hq => ?_,
    fun h => says_quot (hr _) h (met _ _ (at_metrics round e _ _ (mem_duration round e) (by exact one_nodup _) _ _ (.head _))),
    fun g m hg => ⟨fun h => says_quot (hr _) h (met _ _ (at_metrics round e _ _ (mem_throughput round e g m hg) (by exact keys_throughput) _ _ (.head _))),
      fun h => says_quot (hr _) h (met _ _ (at_metrics round e _ _ (mem_throughput round e g m hg) (by exact keys_throughput) _ _ (.tail _ (.head _))))⟩,
    fun c b hcb => ⟨fun h => says_quot (hr _) h (met _ _ (at_metrics round e _ _ (mem_cpu round e c b hcb) (by exact keys_cpu) _ _ (.head _))),
      fun h => says_quot (hr _) h (met _ _ (at_metrics round e _ _ (mem_cpu round e c b hcb) (by exact keys_cpu) _ _ (.tail _ (.head _))))⟩⟩
  · unfold optionsList
    rw [if_pos hc]
    exact .tail _ (.tail _ (.head _))
  · refine says_nat ?_
    unfold App.sub
    rw [List.append_assoc]
    exact cfg _ _ (at_input e hi q v hq)

theorem at_top (b : Build) (args : List Str) (r : Var) {path : List Str} {t : Str} (h : At r.denote path (.num t)) :
    At (Var.obj (members
      [("compiler".toList, .obj (members [("name".toList, .str b.compiler), ("version".toList, .str b.compilerVersion)])),
       ("project".toList, .obj (members [("name".toList, .str b.project), ("version".toList, .str b.projectVersion)])),
       ("command".toList, .obj (members [("dump".toList, .str (args.foldl (fun s x => s ++ x ++ [' ']) []).dropLast), ("args".toList, .arr (elems (args.map .str)))])),
       ("result".toList, r)])).denote ("result".toList :: path) (.num t) :=
  at_members _ (by exact keys_top) _ _ (.tail _ (.tail _ (.tail _ (.head _)))) h

/-- C63: what is printed denotes the configuration and metrics of every entry, under its name, whatever the order of members. -/
theorem C63_content (x86 : Bool) (clock : Clock) (argv : List Str) (verbose : Option (List Str)) (entries : List Entry)
    (result : run x86 clock argv = .done (.result verbose entries)) (build : Build) (round : Quot → Nat × Nat) (digits : ∀ q, (round q).2 < 1000000)
    (printed : Var) (order : Same (printedVar build round verbose entries) printed) (e : Entry) (he : e ∈ entries) :
    Shows printed.denote (sub (if verbose.isSome then ["result".toList] else []) ["benchmark", "primitive"] ++ [e.name]) round e := by
  obtain ⟨adv, hsub⟩ := run_names x86 clock argv verbose entries result
  have hnd : (entries.map Entry.name).Nodup := hsub.nodup (listed_nodup x86 adv)
  obtain ⟨g, -, -, ps, hl, hi, -⟩ := ((run_made x86 clock argv verbose entries result).2 e he).counted
  refine shows_entry round digits e (by rw [hi, List.map_fst_zip (by omega)]; exact params_nodup _) _ _ fun path t h => same_at order _ _ ?_
  have res : At (resultVar round entries).denote ("benchmark".toList :: "primitive".toList :: e.name :: path) (.num t) := by
    unfold resultVar
    rw [if_neg (by rintro rfl; exact nomatch he)]
    refine at_members _ (by exact one_nodup _) _ _ (.head _) (at_members _ (by exact one_nodup _) _ _ (.head _)
      (at_members _ ?_ e.name (entryVar round e) (List.mem_map.mpr ⟨e, he, rfl⟩) h))
    rw [List.map_map]
    exact hnd
  cases verbose with
  | none => exact res
  | some args => exact at_top build args _ res

def build : Build := ⟨"gcc".toList, "12.2.1".toList, "milo".toList, "0.1.0".toList⟩

set_option maxRecDepth 100000 in
/-- C63 fails for `milo --verbose benchmark primitive x"y`: the quotation mark is not escaped. -/
theorem C63_quote_false : run true (fun _ _ => 1) (["milo", "--verbose", "benchmark", "primitive", "x\"y"].map String.toList) =
      .done (.result (some (["--verbose", "benchmark", "primitive", "x\"y"].map String.toList)) []) ∧
    ¬ Valid (printedVar build (fun _ => (1, 0)) (some (["--verbose", "benchmark", "primitive", "x\"y"].map String.toList)) []).json := by
  refine ⟨by decide +kernel, fun h => ?_⟩
  have := scan_valid h
  revert this
  decide +kernel

set_option maxRecDepth 100000 in
/-- C63 fails when the clock is too coarse for the calls: `inf` is printed for the throughput. -/
theorem C63_infinite_false (e : Entry) (he : run true (fun _ _ => 0) (["milo", "benchmark", "primitive", "hash-sha-1-160", "--message-size=1"].map String.toList) = .done (.result none [e])) :
    ¬ Valid (printedVar build (fun _ => (1, 0)) none [e]).json := by
  have : run true (fun _ _ => 0) (["milo", "benchmark", "primitive", "hash-sha-1-160", "--message-size=1"].map String.toList) =
    .done (.result none [⟨"hash-sha-1-160".toList, [("message-size".toList, 1)], ⟨0, 128, 1024⟩, ⟨⟨0, 1024⟩, some (⟨1024, 0⟩, ⟨1024000, 0⟩), none⟩⟩]) := by decide +kernel
  rw [this] at he
  injection he with he
  injection he with _ he
  injection he with he
  subst he
  intro h
  have := scan_valid h
  revert this
  decide +kernel

theorem C63_full_false : ¬ JsonExact := fun h => by
  have := scan_valid ⟨_, h (.arr (elems [.str ['"']])) _ (.arr (.cons (.str _) .nil))⟩
  revert this
  decide

set_option maxRecDepth 100000 in
example : (printedVar build (fun _ => (8916, 458008)) none [⟨"hash-sha-1-160".toList, [("message-size".toList, 16384)], ⟨0, 128, 1024⟩, ⟨⟨9130453, 1024⟩, none, none⟩⟩]).json =
    "{\"benchmark\":{\"primitive\":{\"hash-sha-1-160\":{\"config\":{\"benchmark\":{\"repeats-warm\":128,\"repeats-time\":1024},\"input\":{\"message-size\":16384}},\"metrics\":{\"duration\":{\"nanoseconds_per_call\":8916.458008}}}}}}".toList := by
  decide +kernel

example : FiniteMetrics (metrics ⟨3500000000, 128, 1024⟩ 9130453 16777216) := C63_finite _ _ _ (by decide) (by decide) (by decide) (by decide)

set_option maxRecDepth 100000 in
/-- Hypotheses of C63 met: `milo benchmark --cpu-clock=3500 primitive hash-sha-1-160 --message-size=16384`. -/
example (round : Quot → Nat × Nat) (digits : ∀ q, (round q).2 < 1000000) :
    ∃ e, run true (fun _ _ => 9130453) (["milo", "benchmark", "--cpu-clock=3500", "primitive", "hash-sha-1-160", "--message-size=16384"].map String.toList) = .done (.result none [e]) ∧
      Shows (printedVar build round none [e]).denote (["benchmark", "primitive", "hash-sha-1-160"].map String.toList) round e ∧ e.metrics.cpu ≠ none := by
  have h : run true (fun _ _ => 9130453) (["milo", "benchmark", "--cpu-clock=3500", "primitive", "hash-sha-1-160", "--message-size=16384"].map String.toList) =
    .done (.result none [⟨"hash-sha-1-160".toList, [("message-size".toList, 16384)], ⟨3500000000, 128, 1024⟩,
      metrics ⟨3500000000, 128, 1024⟩ 9130453 16777216⟩]) := by decide +kernel
  exact ⟨_, h, C63_content true _ _ none _ h build round digits _ (same_refl _) _ (.head _), by decide⟩

end Milo.Props
