import Verif.Proof.AppArgs
/- The command line application: whole runs. -/
namespace Milo.App
open Spec.App

theorem match_total (p m : Str) : ∃ b, patternMatchStar p m = some b := by
  unfold patternMatchStar
  by_cases h1 : p = ['*']
  · exact ⟨true, if_pos h1⟩
  by_cases h2 : p = [] ∧ m = []
  · exact ⟨true, by rw [if_neg h1, if_pos h2]⟩
  by_cases h3 : p = [] ∧ m ≠ []
  · exact ⟨false, by rw [if_neg h1, if_neg h2, if_pos h3]⟩
  rw [if_neg h1, if_neg h2, if_neg h3]
  obtain ⟨b, hb, -⟩ := loop_ok p m (p.length + 1) 0 0 (Nat.zero_le _) (by omega) (Nat.zero_le _)
  exact ⟨b, hb⟩

def hits (pattern name : Str) : Bool := patternMatchStar pattern name == some true

theorem matched_eq (pattern name : Str) : matched pattern name = .ok (hits pattern name) := by
  unfold matched hits
  obtain ⟨b, hb⟩ := match_total pattern name
  rw [hb]
  cases b <;> rfl

theorem mapM_ok {α β : Type} (f : α → M β) (g : α → β) (l : List α) (h : ∀ x ∈ l, f x = .ok (g x)) : l.mapM f = .ok (l.map g) := by
  induction l with
  | nil => rfl
  | cons x l ih =>
    rw [List.mapM_cons, h x (.head _), ih fun y hy => h y (.tail _ hy)]
    rfl

theorem mapM_err {α β : Type} (f : α → M β) (g : α → β) (l l' : List α) (x : α) (e : Err) (h : ∀ y ∈ l, f y = .ok (g y)) (hx : f x = .error e) :
    (l ++ x :: l').mapM f = .error e := by
  induction l with
  | nil => rw [List.nil_append, List.mapM_cons, hx]; rfl
  | cons y l ih =>
    rw [List.cons_append, List.mapM_cons, h y (.head _), ih fun y hy => h y (.tail _ hy)]
    rfl

/-- The entry of a benchmark that was run. -/
def entryOf (clock : Clock) (o : Options) (k : Kind) (val : Str → BitVec 64) (name : Str) : Entry :=
  ⟨name, k.params.map fun q => (q, val q), o, metrics o (clock name (k.params.map val)) (o.repeatsTime * k.bytes (k.params.map val))⟩

/-- The benchmarks of a kind can be run: a derived key has at least one byte. -/
def Runs (k : Kind) (val : Str → BitVec 64) : Prop := k.touches (k.params.map val) = .ok ()

theorem zip_map (l : List Str) (val : Str → BitVec 64) : l.zip (l.map val) = l.map fun q => (q, val q) := by
  induction l with
  | nil => rfl
  | cons x l ih => rw [List.map_cons, List.zip_cons_cons, ih]; rfl

theorem invokeLoop_ok (clock : Clock) (o : Options) (k : Kind) (pattern : Str) (val : Str → BitVec 64) (ht : Runs k val) (names : List Str) :
    invokeLoop clock o k pattern (k.params.map val) names = .ok ((names.filter (hits pattern)).map (entryOf clock o k val)) := by
  induction names with
  | nil => rfl
  | cons x l ih =>
    rw [invokeLoop, matched_eq, List.filter_cons]
    show (if hits pattern x = true then _ else _ : M _) = _
    cases hx : hits pattern x with
    | true =>
      simp only [if_true]
      unfold Runs at ht
      rw [ht, ih]
      show Except.ok _ = _
      rw [zip_map]
      rfl
    | false => simp only [Bool.false_eq_true, if_false]; exact ih

theorem invoke_ok (clock : Clock) (a : Args) (o : Options) (k : Kind) (pattern : Str) (names : List Str) (hl : pattern ≠ "list".toList) (val : Str → BitVec 64)
    (h : ∀ n ∈ names, hits pattern n = true → (∀ q ∈ k.params, parameter a q = .ok (val q)) ∧ Runs k val) :
    invoke clock a o k pattern names = .ok ([], (names.filter (hits pattern)).map (entryOf clock o k val)) := by
  unfold invoke
  rw [if_neg hl, mapM_ok (matched pattern) (hits pattern) names fun x _ => matched_eq pattern x]
  show (if (names.map (hits pattern)).any id = true then _ else _ : M _) = _
  cases hb : (names.map (hits pattern)).any id with
  | true =>
    obtain ⟨b, hb1, hb2⟩ := List.any_eq_true.mp hb
    obtain ⟨n, hn, rfl⟩ := List.mem_map.mp hb1
    obtain ⟨h1, h2⟩ := h n hn hb2
    simp only [if_true]
    unfold parse
    rw [mapM_ok (parameter a) val k.params h1]
    show (invokeLoop clock o k pattern (k.params.map val) names >>= _ : M _) = _
    rw [invokeLoop_ok clock o k pattern val h2]
    rfl
  | false =>
    simp only [Bool.false_eq_true, if_false]
    have : names.filter (hits pattern) = [] := by
      rw [List.filter_eq_nil_iff]
      intro n hn hc
      rw [List.any_eq_false] at hb
      exact hb _ (List.mem_map.mpr ⟨n, hn, rfl⟩) hc
    rw [this]
    rfl

theorem invoke_err (clock : Clock) (a : Args) (o : Options) (k : Kind) (pattern : Str) (names : List Str) (hl : pattern ≠ "list".toList) (val : Str → BitVec 64)
    (n : Str) (hn : n ∈ names) (hh : hits pattern n = true) (pre post : List Str) (q : Str) (e : Err) (hp : k.params = pre ++ q :: post)
    (h1 : ∀ q ∈ pre, parameter a q = .ok (val q)) (h2 : parameter a q = .error e) :
    invoke clock a o k pattern names = .error e := by
  unfold invoke
  rw [if_neg hl, mapM_ok (matched pattern) (hits pattern) names fun x _ => matched_eq pattern x]
  show (if (names.map (hits pattern)).any id = true then _ else _ : M _) = _
  rw [if_pos (List.any_eq_true.mpr ⟨_, List.mem_map.mpr ⟨n, hn, rfl⟩, hh⟩)]
  unfold parse
  rw [hp, mapM_err (parameter a) val pre post q e h1 h2]
  rfl

theorem primitive_ok (clock : Clock) (adv : Bool) (a : Args) (o : Options) (pattern : Str) (hl : pattern ≠ "list".toList) (val : Str → BitVec 64) (gs : List Group)
    (h : ∀ g ∈ gs, ∀ n ∈ declare adv g, hits pattern n = true → (∀ q ∈ g.kind.params, parameter a q = .ok (val q)) ∧ Runs g.kind val) :
    primitive clock adv a o pattern gs = .ok ([], gs.flatMap fun g => ((declare adv g).filter (hits pattern)).map (entryOf clock o g.kind val)) := by
  induction gs with
  | nil => rfl
  | cons g gs ih =>
    rw [primitive, invoke_ok clock a o g.kind pattern (declare adv g) hl val (h g (.head _)), ih fun g hg => h g (.tail _ hg)]
    rfl

theorem primitive_err (clock : Clock) (adv : Bool) (a : Args) (o : Options) (pattern : Str) (hl : pattern ≠ "list".toList) (val : Str → BitVec 64) (gs gs' : List Group) (g : Group) (e : Err)
    (h : ∀ g ∈ gs, ∀ n ∈ declare adv g, hits pattern n = true → (∀ q ∈ g.kind.params, parameter a q = .ok (val q)) ∧ Runs g.kind val)
    (hg : invoke clock a o g.kind pattern (declare adv g) = .error e) :
    primitive clock adv a o pattern (gs ++ g :: gs') = .error e := by
  induction gs with
  | nil => rw [List.nil_append, primitive, hg]; rfl
  | cons g' gs ih =>
    rw [List.cons_append, primitive, invoke_ok clock a o g'.kind pattern (declare adv g') hl val (h g' (.head _)), ih fun g hg => h g (.tail _ hg)]
    rfl

theorem primitive_list (clock : Clock) (adv : Bool) (a : Args) (o : Options) (gs : List Group) :
    primitive clock adv a o "list".toList gs = .ok (gs.flatMap (declare adv), []) := by
  induction gs with
  | nil => rfl
  | cons g gs ih =>
    rw [primitive, ih]
    unfold invoke
    rw [if_pos rfl]
    rfl

/-! ### Up to the benchmarks -/

theorem dump_ok (a : Args) (h : a.args ≠ []) : ∃ s, dump a = .ok s := by
  have key : ∀ (l : List Str) (s : Str), (l ≠ [] ∨ s ≠ []) → l.foldl (fun s x => s ++ x ++ [' ']) s ≠ [] := by
    intro l
    induction l with
    | nil => intro s h; rcases h with h | h; exact absurd rfl h; exact h
    | cons x l ih => intro s _; exact ih _ (.inr (by simp))
  unfold dump
  simp only [if_neg (key a.args [] (.inl h))]
  exact ⟨_, rfl⟩

theorem top_ok (a : Args) (h : a.commands ≠ []) : ∃ c, top a = .ok c := by
  unfold top
  cases hc : a.commands with
  | nil => exact absurd hc h
  | cons c l => exact ⟨c, rfl⟩

theorem paramArg_ub (a : Args) (h : a.commands ≠ []) (name : Str) (l : List Str) : paramArg a name l ≠ .error .ub := by
  obtain ⟨c, hc⟩ := top_ok a h
  induction l with
  | nil => rw [paramArg, missing, hc]; exact fun h => nomatch h
  | cons x l ih =>
    rw [paramArg]
    split
    · split
      · exact fun h => nomatch h
      · exact ih
    · rw [missing, hc]; exact fun h => nomatch h

theorem parameter_ub (a : Args) (h : a.commands ≠ []) (name : Str) : parameter a name ≠ .error .ub := by
  obtain ⟨c, hc⟩ := top_ok a h
  unfold parameter
  have := paramArg_ub a h name (a.args.drop a.cur)
  cases hp : paramArg a name (a.args.drop a.cur) with
  | error e =>
    rw [hp] at this
    show (Except.error e : M _) ≠ _
    exact fun h => this (by cases h; rfl)
  | ok x =>
    show (match findFirstOf x '=' 0 with | none => _ | some pos => _ : M (BitVec 64)) ≠ _
    rw [hc]
    split
    · exact fun h => nomatch h
    · split
      · exact fun h => nomatch h
      · split
        · exact fun h => nomatch h
        · exact fun h => nomatch h

/-- The value of a parameter with a default. -/
def getOr (a : Args) (name : Str) (d : BitVec 64) : BitVec 64 :=
  match parameter a name with
  | .ok n => n
  | .error _ => d

theorem parameterOr_eq (a : Args) (h : a.commands ≠ []) (name : Str) (d : BitVec 64) : parameterOr a name d = .ok (getOr a name d) := by
  have := parameter_ub a h name
  unfold parameterOr getOr
  cases hp : parameter a name with
  | ok n => rfl
  | error e =>
    cases e with
    | ub => exact absurd hp this
    | logic t => rfl
    | outOfRange => rfl
    | badFunctionCall => rfl

theorem ok_bind {α β : Type} (x : α) (f : α → M β) : ((Except.ok x : M α) >>= f) = f x := rfl

/-- The options of the benchmarks, from the arguments after `benchmark`. -/
def optionsOf (a : Args) : Options :=
  ⟨getOr a "cpu-clock".toList 0 * 1000000, getOr a "repeats-warm".toList 128,
    if getOr a "repeats-time".toList 1024 = 0 then 1 else getOr a "repeats-time".toList 1024⟩

theorem benchmark_eq (x86 : Bool) (clock : Clock) (v : Option (List Str)) (adv : Bool) (a : Args) (h : a.commands ≠ []) :
    benchmark x86 clock v adv a = (do
      let (a', c) ← command a
      if c = "primitive".toList then do
        let (a'', pattern) ← command a'
        let (ns, es) ← primitive clock adv a'' (optionsOf a) pattern (groups x86)
        if pattern = "list".toList then pure (.names ns) else pure (.result v es)
      else .error .badFunctionCall) := by
  unfold benchmark
  rw [parameterOr_eq a h, parameterOr_eq a h, parameterOr_eq a h]
  simp only [ok_bind]
  unfold optionsOf
  rfl

theorem ends_command (c : Str) (l : List Str) (h : isCommand c) : Ends (c :: l) := fun x hx ⟨y, hy⟩ => by
  simp only [List.head?_cons, Option.some.injEq] at hx
  subst hx
  exact h _ hy

theorem cmd_benchmark : isCommand "benchmark".toList := fun y h => by
  have := congrArg List.head? h
  simp at this

theorem cmd_primitive : isCommand "primitive".toList := fun y h => by
  have := congrArg List.head? h
  simp at this

theorem run_eq (x86 : Bool) (clock : Clock) (prog : Str) (args : List Str) (h : args ≠ []) (a0 : Args) (h0 : a0 = ⟨args, 0, ["milo application".toList]⟩) :
    run x86 clock (prog :: args) = caught (do
      let (a, c) ← command a0
      if c = "benchmark".toList then benchmark x86 clock (if option a0 "verbose".toList then some a0.args else none) (option a0 "advanced".toList) a
      else if c = "version".toList then pure .version
      else .error .outOfRange) := by
  have e : mkArgs (prog :: args) = .ok a0 := by rw [h0]; rfl
  obtain ⟨s, hs⟩ := dump_ok a0 (by rw [h0]; exact h)
  unfold run
  rw [e, ok_bind, hs, ok_bind]
  rfl

theorem run_benchmark (x86 : Bool) (clock : Clock) (prog : Str) (args : List Str) (h : args ≠ []) (a0 a1 : Args) (h0 : a0 = ⟨args, 0, ["milo application".toList]⟩)
    (h1 : command a0 = .ok (a1, "benchmark".toList)) :
    run x86 clock (prog :: args) = caught (benchmark x86 clock (if option a0 "verbose".toList then some a0.args else none) (option a0 "advanced".toList) a1) := by
  rw [run_eq x86 clock prog args h a0 h0, h1, ok_bind]
  show caught (if _ then _ else _) = _
  rw [if_pos rfl]

theorem benchmark_primitive (x86 : Bool) (clock : Clock) (v : Option (List Str)) (adv : Bool) (a1 a2 a3 : Args) (pattern : Str) (h : a1.commands ≠ [])
    (h2 : command a1 = .ok (a2, "primitive".toList)) (h3 : command a2 = .ok (a3, pattern)) :
    benchmark x86 clock v adv a1 = (do
        let (ns, es) ← primitive clock adv a3 (optionsOf a1) pattern (groups x86)
        if pattern = "list".toList then pure (.names ns) else pure (.result v es)) := by
  rw [benchmark_eq x86 clock v adv a1 h, h2, ok_bind]
  show (if _ then _ else _) = _
  rw [if_pos rfl, h3, ok_bind]

/-- A run up to the loop over the groups: the arguments in the state of the parser. -/
theorem run_line (x86 : Bool) (clock : Clock) (prog : Str) (l : Usage) (h : l.Ok) :
    ∃ a1 a3 v adv, a1.args.drop a1.cur = l.timing ++ "primitive".toList :: (l.unused ++ l.pattern :: (l.inputs ++ l.rest)) ∧ a1.commands ≠ [] ∧
      a3.args.drop a3.cur = l.inputs ++ l.rest ∧ a3.commands.head? = some (l.pattern ++ " command".toList) ∧
      v = (if opt "verbose".toList ∈ l.global then some (l.argv prog).tail else none) ∧ (adv = true ↔ opt "advanced".toList ∈ l.global) ∧
      run x86 clock (l.argv prog) = caught (do
        let (ns, es) ← primitive clock adv a3 (optionsOf a1) l.pattern (groups x86)
        if l.pattern = "list".toList then pure (.names ns) else pure (.result v es)) := by
  obtain ⟨args, hargs⟩ : ∃ args, args = l.global ++ "benchmark".toList :: (l.timing ++ "primitive".toList :: (l.unused ++ l.pattern :: (l.inputs ++ l.rest))) := ⟨_, rfl⟩
  obtain ⟨a0, ha0⟩ : ∃ a0 : Args, a0 = ⟨args, 0, ["milo application".toList]⟩ := ⟨_, rfl⟩
  have hd0 : a0.args.drop a0.cur = l.global ++ "benchmark".toList :: (l.timing ++ "primitive".toList :: (l.unused ++ l.pattern :: (l.inputs ++ l.rest))) := by
    rw [ha0, ← hargs]; rfl
  obtain ⟨e1, d1⟩ := command_eq a0 l.global "benchmark".toList _ h.global cmd_benchmark hd0
  generalize ha1 : (⟨a0.args, a0.cur + l.global.length + 1, ("benchmark".toList ++ " command".toList) :: a0.commands⟩ : Args) = a1 at e1
  have hd1 : a1.args.drop a1.cur = l.timing ++ "primitive".toList :: (l.unused ++ l.pattern :: (l.inputs ++ l.rest)) := by rw [← ha1]; exact d1
  have hc1 : a1.commands ≠ [] := by rw [← ha1]; simp
  obtain ⟨e2, d2⟩ := command_eq a1 l.timing "primitive".toList _ h.timing cmd_primitive hd1
  generalize ha2 : (⟨a1.args, a1.cur + l.timing.length + 1, ("primitive".toList ++ " command".toList) :: a1.commands⟩ : Args) = a2 at e2
  have hd2 : a2.args.drop a2.cur = l.unused ++ l.pattern :: (l.inputs ++ l.rest) := by rw [← ha2]; exact d2
  obtain ⟨e3, d3⟩ := command_eq a2 l.unused l.pattern _ h.unused h.pattern hd2
  generalize ha3 : (⟨a2.args, a2.cur + l.unused.length + 1, (l.pattern ++ " command".toList) :: a2.commands⟩ : Args) = a3 at e3
  have hd3 : a3.args.drop a3.cur = l.inputs ++ l.rest := by rw [← ha3]; exact d3
  have ho : ∀ name, (option a0 name = true ↔ opt name ∈ l.global) := fun name => by
    unfold option
    rw [hd0]
    exact optionLoop_eq name _ _ h.global (ends_command _ _ cmd_benchmark)
  have hv : l.argv prog = prog :: args := by rw [hargs]; rfl
  refine ⟨a1, a3, if option a0 "verbose".toList then some a0.args else none, option a0 "advanced".toList, hd1, hc1, hd3, by rw [← ha3]; rfl, ?_, ho _, ?_⟩
  · have h0 : a0.args = args := by rw [ha0]
    rw [h0, hv]
    simp only [ho]
    rfl
  rw [hv, run_benchmark x86 clock prog args (by rw [hargs]; simp) a0 a1 ha0 e1, benchmark_primitive x86 clock _ _ a1 a2 a3 l.pattern hc1 e2 e3]

end Milo.App
