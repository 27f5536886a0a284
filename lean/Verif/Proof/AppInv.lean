import Verif.Proof.AppEnds
/- The command line application: what the entries of a run are. -/
namespace Milo.App
open Spec.App

/-- An entry as the groups make them. -/
structure Made (x86 : Bool) (clock : Clock) (e : Entry) : Prop where
  name : ∃ g ∈ groups x86, e.name ∈ declare true g ∧ e.input.map Prod.fst = (g.kind.params.take e.input.length)
  repeats : e.options.repeatsTime ≠ 0
  metrics : ∃ k ps, e.metrics = App.metrics e.options (clock e.name ps) (e.options.repeatsTime * Kind.bytes k ps)
  counted : ∃ g ∈ groups x86, e.name ∈ declare true g ∧ ∃ ps, ps.length = g.kind.params.length ∧ e.input = g.kind.params.zip ps ∧
    e.metrics = App.metrics e.options (clock e.name ps) (e.options.repeatsTime * g.kind.bytes ps)

theorem zip_fst (l : List Str) (ps : List (BitVec 64)) : (l.zip ps).map Prod.fst = l.take (l.zip ps).length := by
  induction l generalizing ps with
  | nil => rfl
  | cons x l ih =>
    cases ps with
    | nil => rfl
    | cons p ps => simp only [List.zip_cons_cons, List.map_cons, List.length_cons, List.take_succ_cons, ih]

theorem bind_ok {α β : Type} {x : M α} {f : α → M β} {y : β} (h : (x >>= f) = .ok y) : ∃ a, x = .ok a ∧ f a = .ok y := by
  cases x with
  | error e => exact nomatch h
  | ok a => exact ⟨a, rfl, h⟩

theorem parse_length (a : Args) (names : List Str) (ps : List (BitVec 64)) (h : parse a names = .ok ps) : ps.length = names.length := by
  unfold parse at h
  induction names generalizing ps with
  | nil => cases h; rfl
  | cons n l ih =>
    rw [List.mapM_cons] at h
    obtain ⟨p, -, h⟩ := bind_ok h
    obtain ⟨ps', h1, h⟩ := bind_ok h
    cases h
    rw [List.length_cons, List.length_cons, ih ps' h1]

theorem invokeLoop_made (x86 : Bool) (clock : Clock) (o : Options) (ho : o.repeatsTime ≠ 0) (g : Group) (hg : g ∈ groups x86) (pattern : Str) (ps : List (BitVec 64))
    (hps : ps.length = g.kind.params.length) (names : List Str) (hn : ∀ n ∈ names, n ∈ declare true g) (es : List Entry) (h : invokeLoop clock o g.kind pattern ps names = .ok es) : ∀ e ∈ es, Made x86 clock e := by
  induction names generalizing es with
  | nil => cases h; intro e he; exact nomatch he
  | cons n l ih =>
    rw [invokeLoop, matched_eq, ok_bind] at h
    split at h
    · obtain ⟨_, -, h⟩ := bind_ok h
      obtain ⟨l', hl', h⟩ := bind_ok h
      cases h
      intro e he
      rcases List.mem_cons.mp he with rfl | he
      · exact ⟨⟨g, hg, hn n (.head _), zip_fst _ _⟩, ho, ⟨g.kind, ps, rfl⟩, g, hg, hn n (.head _), ps, hps, rfl, rfl⟩
      · exact ih (fun n hn' => hn n (.tail _ hn')) l' hl' e he
    · exact ih (fun n hn' => hn n (.tail _ hn')) es h

theorem declare_true {adv : Bool} {g : Group} {n : Str} (h : n ∈ declare adv g) : n ∈ declare true g := by
  cases adv with
  | true => exact h
  | false => exact List.mem_append_left _ h

theorem invoke_made (x86 : Bool) (clock : Clock) (a : Args) (o : Options) (ho : o.repeatsTime ≠ 0) (g : Group) (hg : g ∈ groups x86) (pattern : Str) (names ns : List Str)
    (hn : ∀ n ∈ names, n ∈ declare true g) (es : List Entry) (h : invoke clock a o g.kind pattern names = .ok (ns, es)) : ∀ e ∈ es, Made x86 clock e := by
  unfold invoke at h
  split at h
  · cases h; intro e he; exact nomatch he
  · obtain ⟨bs, -, h⟩ := bind_ok h
    split at h
    · obtain ⟨ps, hps, h⟩ := bind_ok h
      obtain ⟨es', h1, h⟩ := bind_ok h
      cases h
      exact invokeLoop_made x86 clock o ho g hg pattern ps (parse_length a _ ps hps) names hn es h1
    · cases h; intro e he; exact nomatch he

theorem primitive_made (x86 : Bool) (clock : Clock) (adv : Bool) (a : Args) (o : Options) (ho : o.repeatsTime ≠ 0) (pattern : Str) (gs : List Group) (hgs : ∀ g ∈ gs, g ∈ groups x86)
    (ns : List Str) (es : List Entry) (h : primitive clock adv a o pattern gs = .ok (ns, es)) : ∀ e ∈ es, Made x86 clock e := by
  induction gs generalizing ns es with
  | nil => cases h; intro e he; exact nomatch he
  | cons g gs ih =>
    rw [primitive] at h
    obtain ⟨⟨n1, e1⟩, h1, h⟩ := bind_ok h
    obtain ⟨⟨n2, e2⟩, h2, h⟩ := bind_ok h
    cases h
    intro e he
    rcases List.mem_append.mp he with he | he
    · exact invoke_made x86 clock a o ho g (hgs g (.head _)) pattern _ n1 (fun n hn => declare_true hn) e1 h1 e he
    · exact ih (fun g hg => hgs g (.tail _ hg)) n2 e2 h2 e he

theorem options_repeats (a : Args) : (optionsOf a).repeatsTime ≠ 0 := by
  unfold optionsOf
  simp only
  split
  · decide
  · assumption

theorem benchmark_made (x86 : Bool) (clock : Clock) (v : Option (List Str)) (adv : Bool) (a : Args) (hc : a.commands ≠ []) (v' : Option (List Str)) (es : List Entry)
    (h : benchmark x86 clock v adv a = .ok (.result v' es)) : v' = v ∧ ∀ e ∈ es, Made x86 clock e := by
  rw [benchmark_eq x86 clock v adv a hc] at h
  obtain ⟨⟨a1, c1⟩, -, h⟩ := bind_ok h
  simp only at h
  split at h
  · obtain ⟨⟨a2, c2⟩, -, h⟩ := bind_ok h
    obtain ⟨⟨ns, es'⟩, h1, h⟩ := bind_ok h
    simp only at h
    split at h
    · exact nomatch h
    · cases h
      exact ⟨rfl, primitive_made x86 clock adv a2 _ (options_repeats a) c2 _ (fun g hg => hg) ns es h1⟩
  · exact nomatch h

theorem caught_done {x : M Output} {o : Output} (h : caught x = .done o) : x = .ok o := by
  cases x with
  | ok o' => cases h; rfl
  | error e => cases e <;> exact nomatch h

theorem run_made (x86 : Bool) (clock : Clock) (argv : List Str) (v : Option (List Str)) (es : List Entry) (h : run x86 clock argv = .done (.result v es)) :
    (v = none ∨ v = some argv.tail) ∧ ∀ e ∈ es, Made x86 clock e := by
  cases argv with
  | nil => exact nomatch h
  | cons prog args =>
    by_cases hn : args = []
    · subst hn; exact nomatch h
    · rw [run_eq x86 clock prog args hn _ rfl] at h
      have h := caught_done h
      obtain ⟨⟨a1, c1⟩, h1, h⟩ := bind_ok h
      simp only at h
      split at h
      · obtain ⟨rfl, hm⟩ := benchmark_made x86 clock _ _ a1 ((command_some _).2 a1 c1 h1).2 v es h
        refine ⟨?_, hm⟩
        split
        · exact .inr rfl
        · exact .inl rfl
      · split at h <;> exact nomatch h

/-! ### Names -/

theorem invokeLoop_names (clock : Clock) (o : Options) (k : Kind) (pattern : Str) (ps : List (BitVec 64)) (names : List Str) (es : List Entry)
    (h : invokeLoop clock o k pattern ps names = .ok es) : (es.map Entry.name).Sublist names := by
  induction names generalizing es with
  | nil => cases h; exact .slnil
  | cons n l ih =>
    rw [invokeLoop, matched_eq, ok_bind] at h
    split at h
    · obtain ⟨_, -, h⟩ := bind_ok h
      obtain ⟨l', hl', h⟩ := bind_ok h
      cases h
      exact (ih l' hl').cons_cons n
    · exact (ih es h).cons n

theorem invoke_names (clock : Clock) (a : Args) (o : Options) (k : Kind) (pattern : Str) (names ns : List Str) (es : List Entry)
    (h : invoke clock a o k pattern names = .ok (ns, es)) : (es.map Entry.name).Sublist names := by
  unfold invoke at h
  split at h
  · cases h; exact List.nil_sublist _
  · obtain ⟨bs, -, h⟩ := bind_ok h
    split at h
    · obtain ⟨ps, hps, h⟩ := bind_ok h
      obtain ⟨es', h1, h⟩ := bind_ok h
      cases h
      exact invokeLoop_names clock o k pattern ps names es h1
    · cases h; exact List.nil_sublist _

theorem primitive_names (clock : Clock) (adv : Bool) (a : Args) (o : Options) (pattern : Str) (gs : List Group) (ns : List Str) (es : List Entry)
    (h : primitive clock adv a o pattern gs = .ok (ns, es)) : (es.map Entry.name).Sublist (gs.flatMap (declare adv)) := by
  induction gs generalizing ns es with
  | nil => cases h; exact .slnil
  | cons g gs ih =>
    rw [primitive] at h
    obtain ⟨⟨n1, e1⟩, h1, h⟩ := bind_ok h
    obtain ⟨⟨n2, e2⟩, h2, h⟩ := bind_ok h
    cases h
    rw [List.map_append, List.flatMap_cons]
    exact (invoke_names clock a o g.kind pattern _ n1 e1 h1).append (ih n2 e2 h2)

theorem benchmark_names (x86 : Bool) (clock : Clock) (v : Option (List Str)) (adv : Bool) (a : Args) (hc : a.commands ≠ []) (v' : Option (List Str)) (es : List Entry)
    (h : benchmark x86 clock v adv a = .ok (.result v' es)) : (es.map Entry.name).Sublist ((groups x86).flatMap (declare adv)) := by
  rw [benchmark_eq x86 clock v adv a hc] at h
  obtain ⟨⟨a1, c1⟩, -, h⟩ := bind_ok h
  simp only at h
  split at h
  · obtain ⟨⟨a2, c2⟩, -, h⟩ := bind_ok h
    obtain ⟨⟨ns, es'⟩, h1, h⟩ := bind_ok h
    simp only at h
    split at h
    · exact nomatch h
    · cases h
      exact primitive_names clock adv a2 _ c2 _ ns es h1
  · exact nomatch h

theorem run_names (x86 : Bool) (clock : Clock) (argv : List Str) (v : Option (List Str)) (es : List Entry) (h : run x86 clock argv = .done (.result v es)) :
    ∃ adv, (es.map Entry.name).Sublist ((groups x86).flatMap (declare adv)) := by
  cases argv with
  | nil => exact nomatch h
  | cons prog args =>
    by_cases hn : args = []
    · subst hn; exact nomatch h
    · rw [run_eq x86 clock prog args hn _ rfl] at h
      have h := caught_done h
      obtain ⟨⟨a1, c1⟩, h1, h⟩ := bind_ok h
      simp only at h
      split at h
      · exact ⟨_, benchmark_names x86 clock _ _ a1 ((command_some _).2 a1 c1 h1).2 v es h⟩
      · split at h <;> exact nomatch h

end Milo.App
