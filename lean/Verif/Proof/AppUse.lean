import Verif.Proof.AppEnds
/- The command line application: patterns and whole runs, as the properties need them. -/
namespace Milo.App
open Spec.App

theorem glob_any (m : Str) : Glob ['*'] m := by
  have := Glob.star m Glob.nil
  rwa [List.append_nil] at this

theorem match_sound (p m : Str) (h : patternMatchStar p m = some true) : Glob ('*' :: p) m := by
  unfold patternMatchStar at h
  by_cases h1 : p = ['*']
  · rw [h1]; exact glob_star_star.mpr (glob_any m)
  rw [if_neg h1] at h
  by_cases h2 : p = [] ∧ m = []
  · rw [h2.1]; exact glob_any m
  rw [if_neg h2] at h
  by_cases h3 : p = [] ∧ m ≠ []
  · rw [h3.1]; exact glob_any m
  rw [if_neg h3] at h
  obtain ⟨b, hb, hb', -⟩ := loop_ok p m (p.length + 1) 0 0 (Nat.zero_le _) (by omega) (Nat.zero_le _)
  rw [h] at hb
  injection hb with hb
  exact hb' hb.symm

theorem match_trailing (p m : Str) (hp : p.getLast? = some '*') : patternMatchStar p m = some true ↔ Glob ('*' :: p) m := by
  refine ⟨match_sound p m, fun h => ?_⟩
  have hne : p ≠ [] := fun h => by rw [h] at hp; exact nomatch hp
  unfold patternMatchStar
  by_cases h1 : p = ['*']
  · rw [if_pos h1]
  rw [if_neg h1, if_neg (fun h => hne h.1), if_neg (fun h => hne h.1)]
  obtain ⟨b, hb, -, hb'⟩ := loop_ok p m (p.length + 1) 0 0 (Nat.zero_le _) (by omega) (Nat.zero_le _)
  rw [hb, hb' (by unfold endsWith; rw [hp]; rfl) (List.length_pos_iff.mpr hne) h]

theorem match_plain (p m : Str) (hp : p ≠ []) (hs : '*' ∉ p) : patternMatchStar p m = some true ↔ (∃ u, m = u ++ p) ∧ ∀ u v, m = u ++ p ++ v → v = [] := by
  rw [plain_match p m hp hs]
  simp only [Option.some.injEq, decide_eq_true_eq]
  constructor
  · rintro ⟨h, hl⟩
    obtain ⟨⟨-, -, w, hw⟩, hmin⟩ := find_some.mp h
    have hwl := congrArg List.length hw
    rw [List.length_append, List.length_drop] at hwl
    have : w = [] := List.length_eq_zero_iff.mp (by omega)
    subst this
    refine ⟨⟨m.take (m.length - p.length), ?_⟩, fun u v huv => ?_⟩
    · rw [List.append_nil] at hw
      have := List.take_append_drop (m.length - p.length) m
      rw [← hw] at this
      exact this.symm
    · have hlen := congrArg List.length huv
      simp only [List.length_append] at hlen
      by_cases hv : u.length < m.length - p.length
      · exact absurd (by rw [huv, List.append_assoc, List.drop_left]; exact ⟨v, rfl⟩) (hmin u.length (Nat.zero_le _) hv)
      · exact List.length_eq_zero_iff.mp (by omega)
  · rintro ⟨⟨u, rfl⟩, h⟩
    refine ⟨find_some.mpr ⟨⟨Nat.zero_le _, Nat.sub_le _ _, ?_⟩, fun j _ hj hc => ?_⟩, by simp⟩
    · rw [List.length_append, Nat.add_sub_cancel, List.drop_left]; exact ⟨[], by simp⟩
    · obtain ⟨w, hw⟩ := hc
      have := h ((u ++ p).take j) w (by rw [List.append_assoc, hw, List.take_append_drop])
      subst this
      have hwl := congrArg List.length hw
      rw [List.length_append, List.length_drop] at hwl
      simp only [List.length_append, List.length_nil] at hwl hj
      omega

/-! ### Runs -/

/-- Names of all benchmarks. -/
def listed (x86 adv : Bool) : List Str := (groups x86).flatMap (declare adv)

theorem run_list (x86 : Bool) (clock : Clock) (prog : Str) (u : Usage) (h : u.Ok) (hp : u.pattern = "list".toList) :
    run x86 clock (u.argv prog) = .done (.names (listed x86 (decide (opt "advanced".toList ∈ u.global)))) := by
  obtain ⟨a1, a3, v, adv, -, -, -, -, -, hadv, e⟩ := run_line x86 clock prog u h
  have : decide (opt "advanced".toList ∈ u.global) = adv := by rw [Bool.eq_iff_iff, decide_eq_true_eq]; exact hadv.symm
  rw [e, hp, primitive_list, ok_bind, this]
  rfl

/-- The options for timing. -/
structure Timing (timing : List Str) (o : Options) : Prop where
  warm : ∀ n, n < 2 ^ 64 → GivenOr timing "repeats-warm".toList 128 n → o.repeatsWarm = BitVec.ofNat 64 n
  time : ∀ n, n < 2 ^ 64 → GivenOr timing "repeats-time".toList 1024 n → o.repeatsTime = if n = 0 then 1 else BitVec.ofNat 64 n
  clock : ∀ n, n < 2 ^ 64 → GivenOr timing "cpu-clock".toList 0 n → o.cpuClock = BitVec.ofNat 64 (n * 1000000)

theorem timing_ok (a : Args) (hc : a.commands ≠ []) (opts rest : List Str) (ho : ∀ x ∈ opts, isOption x) (hr : Ends rest) (h : a.args.drop a.cur = opts ++ rest) :
    Timing opts (optionsOf a) where
  warm n hn hg := getOr_given a hc opts rest ho hr h _ (by decide) _ n hg hn
  time n hn hg := by
    have := getOr_given a hc opts rest ho hr h _ (by decide) (1024 : BitVec 64) n hg hn
    unfold optionsOf
    simp only [this]
    by_cases h0 : n = 0
    · rw [if_pos h0, h0]; rfl
    · rw [if_neg h0, if_neg]
      intro hz
      have := congrArg BitVec.toNat hz
      rw [BitVec.toNat_ofNat, Nat.mod_eq_of_lt hn] at this
      exact h0 this
  clock n hn hg := by
    have := getOr_given a hc opts rest ho hr h _ (by decide) (0 : BitVec 64) n hg hn
    unfold optionsOf
    simp only [this]
    apply BitVec.eq_of_toNat_eq
    simp [BitVec.toNat_mul, Nat.mul_mod]

def isKdf : Kind → Bool
  | .hkdf => true
  | .pbkdf2 => true
  | _ => false

theorem runs_ok (k : Kind) (val : Str → BitVec 64) (h : isKdf k = true → val "key-size".toList ≠ 0) : Runs k val := by
  unfold Runs
  cases k <;> first
    | rfl
    | (show (if val "key-size".toList = 0 then _ else _ : M Unit) = _; rw [if_neg (h rfl)])

theorem params_eq (k : Kind) : ∀ q ∈ k.params, '=' ∉ q := by
  cases k <;> decide

theorem run_result (x86 : Bool) (clock : Clock) (prog : Str) (u : Usage) (h : u.Ok) (hp : u.pattern ≠ "list".toList) (val : Str → Nat)
    (hg : ∀ g ∈ groups x86, ∀ n ∈ declare (decide (opt "advanced".toList ∈ u.global)) g, hits u.pattern n = true →
      (∀ q ∈ g.kind.params, Given u.inputs q (val q) ∧ val q < 2 ^ 64) ∧ (isKdf g.kind = true → 0 < val "key-size".toList)) :
    ∃ o, Timing u.timing o ∧
    run x86 clock (u.argv prog) = .done (.result (if opt "verbose".toList ∈ u.global then some (u.argv prog).tail else none)
      ((groups x86).flatMap fun g => ((declare (decide (opt "advanced".toList ∈ u.global)) g).filter (hits u.pattern)).map
        (entryOf clock o g.kind fun q => BitVec.ofNat 64 (val q)))) := by
  obtain ⟨a1, a3, v, adv, d1, c1, d3, c3, hv, hadv, e⟩ := run_line x86 clock prog u h
  have e1 : decide (opt "advanced".toList ∈ u.global) = adv := by rw [Bool.eq_iff_iff, decide_eq_true_eq]; exact hadv.symm
  refine ⟨optionsOf a1, timing_ok a1 c1 _ _ h.timing (ends_command _ _ cmd_primitive) d1, ?_⟩
  rw [e1] at hg ⊢
  rw [← hv, e]
  have := primitive_ok clock adv a3 (optionsOf a1) u.pattern hp (fun q => BitVec.ofNat 64 (val q)) (groups x86) fun g hgm n hn hh => by
    obtain ⟨h1, h2⟩ := hg g hgm n hn hh
    refine ⟨fun q hq => parameter_given a3 _ _ h.inputs h.rest d3 q (params_eq _ q hq) _ (h1 q hq).1 (h1 q hq).2, runs_ok _ _ fun hk hz => ?_⟩
    have h3 := h2 hk
    have h4 : "key-size".toList ∈ g.kind.params := by
      revert hk
      cases g.kind <;> decide
    have := congrArg BitVec.toNat hz
    rw [BitVec.toNat_ofNat, Nat.mod_eq_of_lt (h1 _ h4).2] at this
    have h5 : val "key-size".toList = 0 := this
    omega
  rw [this, ok_bind]
  simp only [if_neg hp]
  rfl

/-- The first group with a match lacks a parameter. -/
theorem run_missing (x86 : Bool) (clock : Clock) (prog : Str) (u : Usage) (h : u.Ok) (hp : u.pattern ≠ "list".toList) (val : Str → Nat) (gs gs' : List Group) (g : Group)
    (hgs : groups x86 = gs ++ g :: gs')
    (hg : ∀ g ∈ gs, ∀ n ∈ declare (decide (opt "advanced".toList ∈ u.global)) g, hits u.pattern n = true →
      (∀ q ∈ g.kind.params, Given u.inputs q (val q) ∧ val q < 2 ^ 64) ∧ (isKdf g.kind = true → 0 < val "key-size".toList))
    (n : Str) (hn : n ∈ declare (decide (opt "advanced".toList ∈ u.global)) g) (hh : hits u.pattern n = true) (pre post : List Str) (q : Str)
    (hq : g.kind.params = pre ++ q :: post) (hpre : ∀ q ∈ pre, Given u.inputs q (val q) ∧ val q < 2 ^ 64) (ho : Omitted u.inputs q) :
    run x86 clock (u.argv prog) = .failed (some ("Error. Missing --".toList ++ q ++ " parameter of ".toList ++ (u.pattern ++ " command".toList) ++ ".".toList)) := by
  obtain ⟨a1, a3, v, adv, d1, c1, d3, c3, hv, hadv, e⟩ := run_line x86 clock prog u h
  have e1 : decide (opt "advanced".toList ∈ u.global) = adv := by rw [Bool.eq_iff_iff, decide_eq_true_eq]; exact hadv.symm
  rw [e1] at hg hn
  have hm := parameter_omitted a3 _ c3 _ _ h.inputs h.rest d3 q ho
  have hi := invoke_err clock a3 (optionsOf a1) g.kind u.pattern (declare adv g) hp (fun q => BitVec.ofNat 64 (val q)) n hn hh pre post q _ hq
    (fun q' hq' => parameter_given a3 _ _ h.inputs h.rest d3 q' (params_eq g.kind q' (by rw [hq]; exact List.mem_append_left _ hq')) _ (hpre q' hq').1 (hpre q' hq').2) hm
  rw [e, hgs, primitive_err clock adv a3 (optionsOf a1) u.pattern hp (fun q => BitVec.ofNat 64 (val q)) gs gs' g _ (fun g hgm n hn hh => by
    obtain ⟨h1, h2⟩ := hg g hgm n hn hh
    refine ⟨fun q hq => parameter_given a3 _ _ h.inputs h.rest d3 q (params_eq _ q hq) _ (h1 q hq).1 (h1 q hq).2, runs_ok _ _ fun hk hz => ?_⟩
    have h3 := h2 hk
    have h4 : "key-size".toList ∈ g.kind.params := by
      revert hk
      cases g.kind <;> decide
    have := congrArg BitVec.toNat hz
    rw [BitVec.toNat_ofNat, Nat.mod_eq_of_lt (h1 _ h4).2] at this
    have h5 : val "key-size".toList = 0 := this
    omega) hi]
  rfl

/-! ### The names -/

theorem hits_iff {p n : Str} : hits p n = true ↔ patternMatchStar p n = some true := by unfold hits; simp

/-- The documented patterns match what begins like them, and no other group. -/
def docOk (x86 adv : Bool) : Bool :=
  documented.all fun d => d.1 == "mac-*" || (groups x86).all fun g => (declare adv g).all fun n =>
    (hits d.1.toList n == d.1.toList.dropLast.isPrefixOf n) && (!hits d.1.toList n || decide (g.kind.params = d.2.map String.toList))

set_option maxRecDepth 100000 in
theorem docOk_true (x86 adv : Bool) : docOk x86 adv = true := by
  cases x86 <;> cases adv <;> decide +kernel

theorem doc_ok (x86 adv : Bool) (d : String × List String) (hd : d ∈ documented) (hm : d.1 ≠ "mac-*") (g : Group) (hg : g ∈ groups x86) (n : Str) (hn : n ∈ declare adv g) :
    (hits d.1.toList n = true ↔ d.1.toList.dropLast <+: n) ∧ (hits d.1.toList n = true → g.kind.params = d.2.map String.toList) := by
  have h := docOk_true x86 adv
  unfold docOk at h
  rw [List.all_eq_true] at h
  have h1 := h d hd
  rw [Bool.or_eq_true] at h1
  rcases h1 with h1 | h1
  · exact absurd (by simpa using h1) hm
  rw [List.all_eq_true] at h1
  have h2 := h1 g hg
  rw [List.all_eq_true] at h2
  have h3 := h2 n hn
  rw [Bool.and_eq_true] at h3
  obtain ⟨h4, h5⟩ := h3
  constructor
  · rw [← List.isPrefixOf_iff_prefix, ← eq_of_beq h4]
  · intro hh
    rw [hh] at h5
    simpa using h5

/-- The first group with a match is that of the pattern. -/
def firstOk (x86 adv : Bool) : Bool :=
  documented.zipIdx.all fun (d, i) =>
    (((groups x86).take i).all fun g => (declare adv g).all fun n => !hits d.1.toList n) &&
      match (groups x86)[i]? with
      | none => false
      | some g => (declare adv g).any (hits d.1.toList) && decide (g.kind.params = d.2.map String.toList)

set_option maxRecDepth 100000 in
theorem firstOk_true (x86 adv : Bool) : firstOk x86 adv = true := by
  cases x86 <;> cases adv <;> decide +kernel

theorem first_ok (x86 adv : Bool) (d : String × List String) (hd : d ∈ documented) :
    ∃ gs g gs', groups x86 = gs ++ g :: gs' ∧ (∀ g ∈ gs, ∀ n ∈ declare adv g, hits d.1.toList n = false) ∧ (∃ n ∈ declare adv g, hits d.1.toList n = true) ∧
      g.kind.params = d.2.map String.toList := by
  have h := firstOk_true x86 adv
  unfold firstOk at h
  rw [List.all_eq_true] at h
  obtain ⟨i, hi, he⟩ := List.mem_iff_getElem.mp hd
  have h1 := h (d, i) (List.mem_zipIdx_iff_getElem?.mpr (by rw [List.getElem?_eq_getElem hi, he]))
  simp only [Bool.and_eq_true] at h1
  obtain ⟨h1, h2⟩ := h1
  cases hg : (groups x86)[i]? with
  | none => rw [hg] at h2; exact nomatch h2
  | some g =>
    rw [hg] at h2
    simp only [Bool.and_eq_true, decide_eq_true_eq] at h2
    obtain ⟨h2, h3⟩ := h2
    obtain ⟨hlt, hge⟩ := List.getElem?_eq_some_iff.mp hg
    refine ⟨(groups x86).take i, g, (groups x86).drop (i + 1), ?_, ?_, ?_, h3⟩
    · rw [← hge, ← List.drop_eq_getElem_cons hlt, List.take_append_drop]
    · intro g' hg' n hn
      rw [List.all_eq_true] at h1
      have := h1 g' hg'
      rw [List.all_eq_true] at this
      simpa using this n hn
    · rw [List.any_eq_true] at h2
      exact h2

/-- No name ends with another one, none has a star. -/
def namesOk (x86 adv : Bool) : Bool :=
  (listed x86 adv).all fun p => !p.contains '*' && !p.isEmpty && decide (p ≠ "list".toList) && !['-'].isPrefixOf p && (listed x86 adv).all fun n => !p.isSuffixOf n || decide (p = n)

set_option maxRecDepth 100000 in
theorem namesOk_true (x86 adv : Bool) : namesOk x86 adv = true := by
  cases x86 <;> cases adv <;> decide +kernel

theorem name_ok (x86 adv : Bool) (p : Str) (hp : p ∈ listed x86 adv) : p ≠ "list".toList ∧ isCommand p ∧ ∀ n ∈ listed x86 adv, hits p n = true ↔ n = p := by
  have h := namesOk_true x86 adv
  unfold namesOk at h
  rw [List.all_eq_true] at h
  have h1 := h p hp
  simp only [Bool.and_eq_true, List.all_eq_true, decide_eq_true_eq] at h1
  obtain ⟨⟨⟨⟨h1, h2⟩, h3⟩, h4⟩, h5⟩ := h1
  have hne : p ≠ [] := by rintro rfl; simp at h2
  have hs : '*' ∉ p := by simpa using h1
  refine ⟨h3, dash_command.mp (by simpa using h4), fun n hn => ?_⟩
  rw [hits_iff, match_plain p n hne hs]
  constructor
  · rintro ⟨⟨u, hu⟩, -⟩
    have := h5 n hn
    rw [Bool.or_eq_true] at this
    rcases this with h | h
    · rw [Bool.not_eq_true', ← Bool.not_eq_true, List.isSuffixOf_iff_suffix] at h
      exact absurd ⟨u, hu.symm⟩ h
    · exact (of_decide_eq_true h).symm
  · rintro rfl
    refine ⟨⟨[], rfl⟩, fun u v h => ?_⟩
    have := congrArg List.length h
    simp only [List.length_append] at this
    exact List.length_eq_zero_iff.mp (by omega)

set_option maxRecDepth 100000 in
theorem listed_nodup (x86 adv : Bool) : (listed x86 adv).Nodup := by
  cases x86 <;> cases adv <;> decide +kernel

theorem glob_prefix {p n : Str} (hs : '*' ∉ p) : Glob (p ++ ['*']) n ↔ p <+: n := by
  rw [glob_lit hs]
  constructor
  · rintro ⟨v, rfl, -⟩; exact ⟨v, rfl⟩
  · rintro ⟨v, rfl⟩; exact ⟨v, rfl, glob_any v⟩

end Milo.App
