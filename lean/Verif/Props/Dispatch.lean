import Verif.Spec.Dispatch
import Verif.Props.Cipher
import Verif.Props.Hash
import Verif.Proof.KernelRfl
/- C42, C43: which class of an algorithm is run. -/
namespace Milo.Dispatch
open Spec.Dispatch Props

/-! ### Lemmas -/

private theorem bit_eq (r : BitVec 32) (n : Nat) (hn : n < 32) : bit r n = r.getLsbD n := by
  unfold bit
  have h : 1#32 <<< n = BitVec.twoPow 32 n := by
    rw [BitVec.twoPow_eq]
  rw [h, BitVec.and_twoPow]
  cases hb : r.getLsbD n
  · simp
  · simp only [if_true, bne_iff_ne, ne_eq]
    intro h0
    have := congrArg BitVec.toNat h0
    rw [BitVec.toNat_twoPow, Nat.mod_eq_of_lt (Nat.pow_lt_pow_right (by omega) hn)] at this
    have := Nat.two_pow_pos n
    simp at *

private theorem has_eq (m : Machine) (ha : m.asm = true) (e : Ext) : (readInfo m).has e = true ↔ Reports m.cpuid e := by
  have e1 : (1 ≤ (m.cpuid 0 0).eax) ↔ 1 ≤ (m.cpuid 0 0).eax.toNat := by rw [BitVec.le_def]; rfl
  have e7 : (7 ≤ (m.cpuid 0 0).eax) ↔ 7 ≤ (m.cpuid 0 0).eax.toNat := by rw [BitVec.le_def]; rfl
  have i0 : (readInfo m).f0 = if 1 ≤ (m.cpuid 0 0).eax then m.cpuid 1 0 else ⟨0, 0, 0, 0⟩ := by
    unfold readInfo cpuid
    simp only [ha, if_true]
    split <;> split <;> rfl
  have i1 : (readInfo m).f1 = if 7 ≤ (m.cpuid 0 0).eax then m.cpuid 7 0 else ⟨0, 0, 0, 0⟩ := by
    unfold readInfo cpuid
    simp only [ha, if_true]
    split <;> split <;> rfl
  cases e <;> simp only [Info.has, Reports, i0, i1, ← e1, ← e7, bit_eq, Nat.reduceLT, Bool.and_eq_true] <;> split <;> simp_all

private theorem has_zero (e : Ext) : ({} : Info).has e = false := by cases e <;> rfl

private theorem has_noasm (m : Machine) (ha : m.asm = false) (e : Ext) : (readInfo m).has e = false := by
  have : readInfo m = {} := by
    unfold readInfo cpuid
    simp only [ha]
    rfl
  rw [this, has_zero]

private theorem em_false {es : List Ext} (e : Ext) {p : Prop} (h : e ∈ es → p) : es.contains e = false ∨ p := by
  by_cases he : e ∈ es
  · exact .inr (h he)
  · exact .inl (by simpa using he)

private theorem iseCheck_iff (i : Info) (r : ArchReq) :
    iseCheck i r = true ↔ ∃ ise, r.x86_64 = some ise ∧ ∀ es, ise = some es → ∀ e ∈ es, i.has e = true := by
  unfold iseCheck
  cases hr : r.x86_64 with
  | none => simp
  | some ise =>
    cases ise with
    | none => simp
    | some es =>
      simp only [Option.some.injEq, exists_eq_left', forall_eq', List.all_cons, List.all_nil, Bool.and_eq_true, Bool.or_eq_true, Bool.not_eq_true', Bool.and_true]
      constructor
      · rintro h e he
        have : es.contains e = true := List.contains_iff_mem.2 he
        cases e <;> simp_all
      · intro h
        refine ⟨?_, ?_, ?_, ?_, ?_, ?_, ?_, ?_, ?_, ?_, ?_⟩ <;>
          (first | exact (em_false _ (h _)))
/-- What `check` accepts is met by the processor. -/
private theorem check_met (m : Machine) (p : Phase) (r : ArchReq) (h : check m p r = true) :
    m.x86_64 = true ∧ ∃ ise, r.x86_64 = some ise ∧ ∀ es, ise = some es → ∀ e ∈ es, Reports m.cpuid e := by
  unfold check at h
  split at h
  · next hx =>
    refine ⟨hx, ?_⟩
    obtain ⟨ise, h1, h2⟩ := (iseCheck_iff _ _).1 h
    refine ⟨ise, h1, fun es he e hm => ?_⟩
    have h3 := h2 es he e hm
    cases p with
    | zero => exact absurd h3 (by rw [show seen m _ = {} from rfl, has_zero]; decide)
    | early => exact absurd h3 (by rw [show seen m _ = {} from rfl, has_zero]; decide)
    | done =>
      rw [seen] at h3
      cases ha : m.asm with
      | true => exact (has_eq m ha e).1 h3
      | false => rw [has_noasm m ha] at h3; exact absurd h3 (by decide)
  · exact absurd h (by decide)

private theorem met_check (m : Machine) (ha : m.asm = true) (r : ArchReq) (hx : m.x86_64 = true) (ise : Option (List Ext)) (h1 : r.x86_64 = some ise)
    (h2 : ∀ es, ise = some es → ∀ e ∈ es, Reports m.cpuid e) : check m .done r = true := by
  unfold check
  rw [if_pos hx]
  exact (iseCheck_iff _ _).2 ⟨ise, h1, fun es he e hm => (has_eq m ha e).2 (h2 es he e hm)⟩

private theorem query_append {α β : Type} (f : Opt α → Option β) (a b : List (Opt α)) : query f (a ++ b) = (query f a).or (query f b) := by
  induction a with
  | nil => rfl
  | cons o os ih =>
    simp only [List.cons_append, query]
    split <;> simp_all

private theorem query_none {α β : Type} (f : Opt α → Option β) (a : List (Opt α)) (h : ∀ o ∈ a, f o = none) : query f a = none := by
  induction a with
  | nil => rfl
  | cons o os ih =>
    simp only [query]
    rw [h o (by simp)]
    exact ih fun o ho => h o (by simp [ho])

/-- `chooseHook` is the first class that needs nothing or passes the check. -/
private theorem chooseHook_some {α : Type} (ck : ArchReq → Bool) : ∀ (cs : List (Cand α)) (c : Class α), chooseHook ck cs = some c →
    ∃ pre post, cs = pre ++ some c :: post ∧ (c.arch = none ∨ ∃ r, c.arch = some r ∧ ck r = true) ∧
      ∀ x, some x ∈ pre → ∃ r, x.arch = some r ∧ ck r = false
  | [], c, h => by simp [chooseHook] at h
  | none :: cs, c, h => by
    obtain ⟨pre, post, h1, h2, h3⟩ := chooseHook_some ck cs c h
    exact ⟨none :: pre, post, by simp [h1], h2, fun x hx => h3 x (by simpa using hx)⟩
  | some d :: cs, c, h => by
    unfold chooseHook at h
    split at h
    · next ha =>
      cases h
      exact ⟨[], cs, rfl, .inl ha, fun x hx => by cases hx⟩
    · next r ha =>
      split at h
      · next hc =>
        cases h
        exact ⟨[], cs, rfl, .inr ⟨r, ha, hc⟩, fun x hx => by cases hx⟩
      · next hc =>
        obtain ⟨pre, post, h1, h2, h3⟩ := chooseHook_some ck cs c h
        refine ⟨some d :: pre, post, by simp [h1], h2, fun x hx => ?_⟩
        rcases List.mem_cons.1 hx with hx | hx
        · cases hx
          exact ⟨r, ha, by simpa using hc⟩
        · exact h3 x hx

private theorem chooseHook_total {α : Type} (ck : ArchReq → Bool) : ∀ (cs : List (Cand α)) (a : α), portable a ∈ cs → ∃ c, chooseHook ck cs = some c
  | [], a, h => by cases h
  | none :: cs, a, h => chooseHook_total ck cs a (by rcases List.mem_cons.1 h with h | h; (· cases h); exact h)
  | some d :: cs, a, h => by
    unfold chooseHook
    split
    · exact ⟨_, rfl⟩
    · next r ha =>
      split
      · exact ⟨_, rfl⟩
      · refine chooseHook_total ck cs a ?_
        rcases List.mem_cons.1 h with h | h
        · cases h
          cases ha
        · exact h

private theorem assert_of_portable {α : Type} (cs : List (Cand α)) (a : α) (h : portable a ∈ cs) : chooseAssert cs = true := by
  unfold chooseAssert
  rw [Bool.and_eq_true, List.any_eq_true]
  refine ⟨by simpa using List.length_pos_of_mem h, portable a, h, rfl⟩

/-! ### C43 -/

/-- C43, lists of candidates, also the user's own: the compile-time check accepts a list exactly if some class is chosen whatever the machine supports. -/
theorem C43_check_sound {α : Type} (cs : List (Cand α)) : chooseAssert cs = true ↔ ∀ check : ArchReq → Bool, ∃ c, chooseHook check cs = some c := by
  constructor
  · intro h check
    unfold chooseAssert at h
    rw [Bool.and_eq_true, List.any_eq_true] at h
    obtain ⟨-, c, hm, hc⟩ := h
    induction cs with
    | nil => cases hm
    | cons d cs ih =>
      cases d with
      | none =>
        rcases List.mem_cons.1 hm with rfl | hm
        · cases hc
        · exact ih hm
      | some d =>
        unfold chooseHook
        cases hd : d.arch with
        | none => exact ⟨d, rfl⟩
        | some r =>
          simp only
          split
          · exact ⟨d, rfl⟩
          · refine ih ?_
            rcases List.mem_cons.1 hm with rfl | hm
            · simp only [hd] at hc; cases hc
            · exact hm
  · intro h
    obtain ⟨c, hc⟩ := h fun _ => false
    unfold chooseAssert
    rw [Bool.and_eq_true, List.any_eq_true]
    have key : ∀ cs : List (Cand α), chooseHook (fun _ => false) cs = some c → some c ∈ cs ∧ c.arch = none := by
      intro cs
      induction cs with
      | nil => intro h; cases h
      | cons d cs ih =>
        intro h
        cases d with
        | none => exact ⟨List.mem_cons_of_mem _ (ih h).1, (ih h).2⟩
        | some d =>
          unfold chooseHook at h
          cases hd : d.arch with
          | none => simp only [hd, Option.some.injEq] at h; subst h; exact ⟨List.mem_cons_self .., hd⟩
          | some r => simp only [hd, Bool.false_eq_true, if_false] at h; exact ⟨List.mem_cons_of_mem _ (ih h).1, (ih h).2⟩
    obtain ⟨hm, ha⟩ := key cs hc
    exact ⟨by simpa using List.length_pos_of_mem hm, _, hm, by simp [ha]⟩

example : chooseAssert [none, some ⟨some ⟨some (some [.avx_2])⟩, ()⟩] = false ∧ chooseAssert [none, some ⟨some ⟨some (some [.avx_2])⟩, 1⟩, portable 2] = true := by decide


/-- C43: among several options of one kind the first given is used, whatever the other options and the default are. `solver` picks out the kind. -/
theorem C43_first_option_wins {α β : Type} (solver : Opt α → Option β) (pre post : List (Opt α)) (o default : Opt α) (v : β)
    (hpre : ∀ x ∈ pre, solver x = none) (ho : solver o = some v) : queryDefault solver default (pre ++ o :: post) = some v := by
  unfold queryDefault
  rw [List.append_assoc, query_append, query_none solver pre hpre, Option.none_or, List.cons_append]
  simp only [query, ho]

/-- C43: the default applies if no option of the kind is given. -/
theorem C43_default {α β : Type} (solver : Opt α → Option β) (os : List (Opt α)) (default : Opt α) (v : β)
    (hos : ∀ x ∈ os, solver x = none) (hd : solver default = some v) : queryDefault solver default os = some v := by
  unfold queryDefault
  rw [query_append, query_none solver os hos, Option.none_or]
  simp only [query, hd]

example : queryDefault Opt.digestSize? (.digestSize 32) [.other "x", .implRuntime (portable ()), .digestSize 16, .digestSize 8] = some 16 :=
  C43_first_option_wins Opt.digestSize? [.other "x", .implRuntime (portable ())] [.digestSize 8] (.digestSize 16) _ 16 (by simp [Opt.digestSize?]) rfl

/-- The value of the first option of a kind, if one is given. -/
private theorem query_total {α β : Type} (f : Opt α → Option β) (os : List (Opt α)) (d : Opt α) (v : β) (hd : f d = some v) :
    queryDefault f d os = some ((query f os).getD v) := by
  unfold queryDefault
  rw [query_append]
  simp only [query, hd]
  cases query f os <;> rfl

/-- `invoke`, with the queries evaluated. -/
private theorem invoke_eq {α : Type} (m : Machine) (p : Phase) (ce : Bool) (cpl : Class α) (cpls run : List (Cand α)) (os : List (Opt α)) :
    invoke m p ce (some cpl :: cpls) run os =
      (if chooseAssert ((query Opt.runtime? os).getD none :: run) then
        if ce then some (((query Opt.cpltime? os).getD none).getD cpl)
        else ((query Opt.enforce? os).getD none).or
          (if p = .zero then none else chooseHook (check m p) ((query Opt.runtime? os).getD none :: run))
      else none) := by
  unfold invoke
  rw [query_total _ _ _ none rfl, query_total _ _ _ none rfl, query_total _ _ _ none rfl]
  simp only [List.head?_cons, Option.bind_eq_bind, Option.bind_some]
  split
  · split
    · cases (query Opt.cpltime? os).getD none <;> rfl
    · cases (query Opt.enforce? os).getD none <;> rfl
  · rfl

/-- C43: once the program's variables are initialised, on every machine and with every option, some class is run, if the portable one is listed. Missing: before
the initialisation (`C43_before_initialisation_wrong`). -/
theorem C43_selection_total_partial {α : Type} (m : Machine) (p : Phase) (hp : p ≠ .zero) (ce : Bool) (a b : α) (cpls run : List (Cand α)) (hr : portable b ∈ run)
    (os : List (Opt α)) : ∃ c, invoke m p ce (portable a :: cpls) run os = some c := by
  rw [portable, invoke_eq, if_pos (assert_of_portable _ b (List.mem_cons_of_mem _ hr)), if_neg hp]
  obtain ⟨c, hc⟩ := chooseHook_total (check m p) ((query Opt.runtime? os).getD none :: run) b (List.mem_cons_of_mem _ hr)
  rw [hc]
  cases ce
  · cases (query Opt.enforce? os).getD none <;> exact ⟨_, rfl⟩
  · exact ⟨_, rfl⟩

/-- C43: every algorithm of the library lists a portable class, so one is run (missing: before the initialisation). -/
theorem C43_library_total_partial (m : Machine) (p : Phase) (hp : p ≠ .zero) (ce : Bool) :
    (∀ os, ∃ c, invoke m p ce chachaCpltime (chachaRuntime m) os = some c) ∧ (∀ os a, ∃ c, shaInvoke m p ce os a = some c) ∧
      ∀ os, ∃ c, polyInvoke m p ce os = some c := by
  refine ⟨fun os => ?_, fun os a => ?_, fun os => ?_⟩
  · exact C43_selection_total_partial m p hp ce .sw .sw [] (chachaRuntime m) (by simp [chachaRuntime]) os
  · cases a
    · exact C43_selection_total_partial m p hp ce .sw .sw [] (sha1Runtime m) (by simp [sha1Runtime]) os
    · exact C43_selection_total_partial m p hp ce .sw .sw [] (sha256Runtime m) (by simp [sha256Runtime]) os
    · exact C43_selection_total_partial m p hp ce .sw .sw [] (sha256Runtime m) (by simp [sha256Runtime]) os
    all_goals exact C43_selection_total_partial m p hp ce .sw .sw [] [portable .sw] (by simp) os
  · exact C43_selection_total_partial m p hp ce () () [] [portable ()] (by simp) []

/-- C43 fails for code that runs before the variable holding the choice is initialised (a static object whose constructor hashes, say): the call goes through
a null pointer, whatever the machine, unless an option enforces a class. -/
theorem C43_before_initialisation_wrong (m : Machine) :
    invoke m .zero false chachaCpltime (chachaRuntime m) [] = none ∧ (∀ a, shaInvoke m .zero false [] a = none) ∧ polyInvoke m .zero false [] = none := by
  have h : ∀ (α : Type) (a : α) (run : List (Cand α)), invoke m .zero false [portable a] run [] = none := by
    intro α a run
    rw [portable, invoke_eq]
    simp [query]
  refine ⟨h _ _ _, fun a => ?_, h _ _ _⟩
  cases a <;> exact h _ _ _

/-- C43: an enforced class is run at run time on every machine, even before initialisation, whatever it requires and whatever other options follow. -/
theorem C43_enforced {α : Type} (m : Machine) (p : Phase) (a b : α) (cpls run : List (Cand α)) (hr : portable b ∈ run) (pre post : List (Opt α)) (c : Class α)
    (hpre : ∀ x, Opt.implEnforce x ∉ pre) : invoke m p false (portable a :: cpls) run (pre ++ .implEnforce (some c) :: post) = some c := by
  rw [portable, invoke_eq, if_pos (assert_of_portable _ b (List.mem_cons_of_mem _ hr))]
  have : query Opt.enforce? (pre ++ .implEnforce (some c) :: post) = some (some c) := by
    rw [query_append, query_none, Option.none_or]
    · rfl
    · intro o ho
      cases o <;> first | rfl | exact absurd ho (hpre _)
  rw [this]
  simp

example (m : Machine) : invoke m .zero false chachaCpltime (chachaRuntime m) [.digestSize 3, .implEnforce (some chachaAvx2), .implEnforce (portable .sw)]
    = some chachaAvx2 := C43_enforced m .zero .sw .sw [] _ (by simp [chachaRuntime]) [.digestSize 3] _ _ (by simp)

/-- C43: in constant evaluation the class given by option `impl_cpltime` is used, else the first of the list, on every machine. -/
theorem C43_constant_evaluation {α : Type} (m : Machine) (p : Phase) (a b : α) (cpls run : List (Cand α)) (hr : portable b ∈ run) (pre post : List (Opt α))
    (c : Class α) (hpre : ∀ x, Opt.implCpltime x ∉ pre) :
    invoke m p true (portable a :: cpls) run (pre ++ .implCpltime (some c) :: post) = some c ∧
      invoke m p true (portable a :: cpls) run pre = portable a := by
  have h0 : query Opt.cpltime? pre = none := query_none _ _ fun o ho => by
    cases o <;> first | rfl | exact absurd ho (hpre _)
  constructor
  · rw [portable, invoke_eq, if_pos (assert_of_portable _ b (List.mem_cons_of_mem _ hr)), query_append, h0]
    rfl
  · rw [portable, invoke_eq, if_pos (assert_of_portable _ b (List.mem_cons_of_mem _ hr)), h0]
    rfl

/-- C43 fails for Poly1305: the options of the class are not passed on, an enforced class is not used. -/
theorem C43_poly1305_options_ignored (m : Machine) (p : Phase) (ce : Bool) (os : List (Opt Unit)) : polyInvoke m p ce os = polyInvoke m p ce [] := rfl

theorem C43_poly1305_enforced_wrong (m : Machine) (c : Class Unit) (hc : c.arch ≠ none) : polyInvoke m .done false [.implEnforce (some c)] ≠ some c := by
  intro h
  have : polyInvoke m .done false [] = some ⟨none, ()⟩ := rfl
  rw [C43_poly1305_options_ignored, this] at h
  cases h
  exact hc rfl

/-! ### C42 -/

/-- C42: a class that is run without being enforced by an option needs nothing, or each extension it declares is reported by the processor. For every machine,
every list of candidates and options, also before the features are read (then no class with requirements is chosen at all). -/
theorem C42_declared_reported {α : Type} (m : Machine) (p : Phase) (a : α) (cpls run : List (Cand α)) (os : List (Opt α))
    (hos : ∀ c, Opt.implEnforce (some c) ∉ os) (c : Class α) (h : invoke m p false (portable a :: cpls) run os = some c) :
    Met (Reports m.cpuid) m c := by
  have he : (query Opt.enforce? os).getD none = none := by
    clear h
    induction os with
    | nil => rfl
    | cons o os ih =>
      have ih := ih fun c hc => hos c (by simp [hc])
      cases o with
      | implEnforce d =>
        cases d with
        | none => rfl
        | some d => exact absurd (by simp) (hos d)
      | _ => exact ih
  rw [portable, invoke_eq, he] at h
  split at h
  · simp only [Bool.false_eq_true, if_false, Option.none_or] at h
    split at h
    · exact absurd h (by simp)
    · obtain ⟨pre, post, -, h2, -⟩ := chooseHook_some _ _ _ h
      rcases h2 with h2 | ⟨r, h2, h3⟩
      · exact .inl h2
      · obtain ⟨hx, ise, h4, h5⟩ := check_met m p r h3
        refine .inr ⟨hx, ise, ?_, h5⟩
        rw [h2, ← h4]
  · exact absurd h (by simp)

/-- C42: and the class is the first of the candidates whose requirements are met, an option `impl_runtime` coming before the library's list. -/
theorem C42_first_supported {α : Type} (m : Machine) (ha : m.asm = true) (a b : α) (cpls run : List (Cand α)) (hr : portable b ∈ run)
    (prefer : List (Cand α)) (hp : prefer.length ≤ 1) :
    ∃ c pre post, invoke m .done false (portable a :: cpls) run (prefer.map .implRuntime) = some c ∧ prefer ++ run = pre ++ some c :: post ∧
      Met (Reports m.cpuid) m c ∧ ∀ x, some x ∈ pre → ¬ Met (Reports m.cpuid) m x := by
  obtain ⟨c, hc⟩ := C43_selection_total_partial m .done (by decide) false a b cpls run hr (prefer.map .implRuntime)
  have hm := C42_declared_reported m .done a cpls run (prefer.map .implRuntime) (by simp) c hc
  have hc' := hc
  rw [portable, invoke_eq, if_pos (assert_of_portable _ b (List.mem_cons_of_mem _ hr))] at hc'
  have he : query Opt.enforce? (prefer.map .implRuntime) = (none : Option (Cand α)) := query_none _ _ fun o ho => by
    obtain ⟨x, -, rfl⟩ := List.mem_map.1 ho
    rfl
  simp only [he, Bool.false_eq_true, if_false, Option.getD_none, Option.none_or, reduceCtorEq] at hc'
  obtain ⟨pre, post, h1, -, h3⟩ := chooseHook_some _ _ _ hc'
  have key : ∀ x, some x ∈ pre → ¬ Met (Reports m.cpuid) m x := by
    intro x hx hmet
    obtain ⟨r, h4, h5⟩ := h3 x hx
    rcases hmet with h6 | ⟨hx, ise, h6, h7⟩
    · rw [h4] at h6; cases h6
    · rw [h4] at h6
      cases h6
      rw [met_check m ha _ hx ise rfl h7] at h5
      cases h5
  match prefer, hp with
  | [], _ =>
    cases pre with
    | nil =>
      simp only [List.nil_append, List.map_nil] at h1
      exact absurd (List.cons.inj h1).1 (by simp [query])
    | cons y pre =>
      have := (List.cons.inj h1).2
      exact ⟨c, pre, post, hc, this, hm, fun x hx => key x (by simp [hx])⟩
  | [x], _ => exact ⟨c, pre, post, hc, h1, hm, key⟩

/-- C42 with the operating system's part: the instructions declared can be executed, if the processor reports 256-bit registers only where the operating
system has enabled them. Missing: the condition, which the code does not test (`C42_os_not_asked_wrong`). -/
theorem C42_executable_partial {α : Type} (m : Machine) (hos : Reports m.cpuid .avx_1 ∨ Reports m.cpuid .avx_2 → (m.cpuid 1 0).ecx.getLsbD 27 ∧ m.ymm)
    (p : Phase) (a : α) (cpls run : List (Cand α)) (os : List (Opt α)) (he : ∀ c, Opt.implEnforce (some c) ∉ os) (c : Class α)
    (h : invoke m p false (portable a :: cpls) run os = some c) : Met (Usable m) m c := by
  rcases C42_declared_reported m p a cpls run os he c h with h | ⟨hx, ise, h1, h2⟩
  · exact .inl h
  · refine .inr ⟨hx, ise, h1, fun es hes e hm => ⟨h2 es hes e hm, fun ho => hos ?_⟩⟩
    have := h2 es hes e hm
    simp only [OsEnabled, List.mem_cons, List.not_mem_nil, or_false] at ho
    rcases ho with rfl | rfl
    · exact .inl this
    · exact .inr this

/-- C42 fails where the operating system has not enabled the 256-bit registers (an old kernel, `noxsave`, some hypervisors): the library neither looks at
OSXSAVE nor at XCR0, and runs code whose instructions fault. -/
theorem C42_os_not_asked_wrong : ∃ m : Machine, m.ymm = false ∧
    ∃ c, invoke m .done false chachaCpltime (chachaRuntime m) [] = some c ∧ c.content = .avx2 ∧ ¬ Met (Usable m) m c ∧
      ∃ c, invoke m .done false sha256Cpltime (sha256Runtime m) [] = some c ∧ c.content = .ni ∧ ¬ Met (Usable m) m c := by
  refine ⟨⟨true, true, full, false⟩, rfl, chachaAvx2, by decide +kernel, rfl, ?_, sha256Ni, by decide +kernel, rfl, ?_⟩
  · rintro (h | ⟨-, ise, h1, h2⟩)
    · cases h
    · cases h1
      exact absurd ((h2 _ rfl .avx_2 (by decide)).2 (by decide)).2 (by decide)
  · rintro (h | ⟨-, ise, h1, h2⟩)
    · cases h
    · cases h1
      exact absurd ((h2 _ rfl .avx_1 (by decide)).2 (by decide)).2 (by decide)

/-- A processor without AVX2, with SSSE3 and the SHA instructions (an Intel Goldmont, say). -/
private def goldmont : Machine :=
  ⟨true, true, fun leaf _ => if leaf = 0 then ⟨21, 0, 0, 0⟩ else if leaf = 1 then ⟨0, 0, 0x201, 0x06000000⟩ else if leaf = 7 then ⟨0, 0x20000000, 0, 0⟩ else
    ⟨0, 0, 0, 0⟩, false⟩

/-- Hypotheses of the theorems met: on that processor the next candidates are used. -/
example : invoke goldmont .done false chachaCpltime (chachaRuntime goldmont) [] = some chachaSsse3 ∧
    shaInvoke goldmont .done false [] .sha_1_160 = some sha1Ni ∧ shaInvoke goldmont .done false [] .sha_2_256 = portable .sw ∧
    shaInvoke goldmont .early false [] .sha_1_160 = portable .sw := by decide +kernel

example : Met (Usable goldmont) goldmont chachaSsse3 :=
  C42_executable_partial goldmont (by simp [Reports, goldmont]) .done .sw [] _ [] (by simp) _ (by decide +kernel : invoke goldmont .done false _ (chachaRuntime goldmont) [] = _)

/-- C42 for the library's own lists: with assembly code on x86-64, ChaCha runs the AVX2 class iff everything it declares is reported, else the SSSE3 class iff
that is, else the portable one; SHA-1 and SHA-224/SHA-256 run the SHA-instruction class iff everything it declares is reported. -/
theorem C42_library (m : Machine) (hx : m.x86_64 = true) (ha : m.asm = true) :
    (∃ c, invoke m .done false chachaCpltime (chachaRuntime m) [] = some c ∧
      (c.content = .avx2 ↔ ∀ e ∈ [Ext.sse_1, .sse_2, .sse_3, .ssse_3, .avx_1, .avx_2], Reports m.cpuid e) ∧
      (c.content = .sw ↔ ¬ ∀ e ∈ [Ext.sse_1, .sse_2, .sse_3, .ssse_3], Reports m.cpuid e)) ∧
    (∃ c, shaInvoke m .done false [] .sha_1_160 = some c ∧
      (c.content = .ni ↔ ∀ e ∈ [Ext.sse_1, .sse_2, .sse_3, .ssse_3, .sha_1], Reports m.cpuid e)) ∧
    ∀ a ∈ [ShaAlg.sha_2_224, .sha_2_256], ∃ c, shaInvoke m .done false [] a = some c ∧
      (c.content = .ni ↔ ∀ e ∈ [Ext.sse_1, .sse_2, .sse_3, .ssse_3, .avx_1, .sha_2], Reports m.cpuid e) := by
  have hb : ∀ {α : Type} (c : Class α), built m c = some c := fun c => by simp [built, hx, ha]
  have hck : ∀ (es : List Ext), check m .done ⟨some (some es)⟩ = true ↔ ∀ e ∈ es, Reports m.cpuid e := by
    intro es
    constructor
    · intro h
      obtain ⟨-, ise, h1, h2⟩ := check_met m .done _ h
      cases h1
      exact h2 es rfl
    · intro h
      exact met_check m ha _ hx _ rfl fun es' he => by cases he; exact h
  have run : ∀ {α : Type} (a : α) (cs : List (Cand α)), portable a ∈ cs → invoke m .done false [portable a] cs [] = chooseHook (check m .done) cs := by
    intro α a cs h
    rw [portable, invoke_eq, if_pos (assert_of_portable _ a (List.mem_cons_of_mem _ h))]
    rfl
  have ni : ∀ es, ∃ c, chooseHook (check m .done) [built m (needs es ShaClass.ni), portable .sw] = some c ∧ (c.content = .ni ↔ ∀ e ∈ es, Reports m.cpuid e) := by
    intro es
    rw [hb, ← hck]
    simp only [chooseHook, needs]
    cases check m .done ⟨some (some es)⟩ <;> simp [portable, chooseHook]
  refine ⟨?_, ?_, ?_⟩
  · rw [show chachaCpltime = [portable .sw] from rfl, run _ _ (by simp [chachaRuntime]), ← hck, ← hck]
    have himp : check m .done ⟨some (some [Ext.sse_1, .sse_2, .sse_3, .ssse_3, .avx_1, .avx_2])⟩ = true →
        check m .done ⟨some (some [Ext.sse_1, .sse_2, .sse_3, .ssse_3])⟩ = true := by
      rw [hck, hck]
      intro h e he
      exact h e (by simp only [List.mem_cons, List.not_mem_nil, or_false] at he ⊢; rcases he with he | he | he | he <;> simp [he])
    simp only [chachaRuntime, hb, chooseHook, chachaAvx2, chachaSsse3, needs]
    generalize check m .done ⟨some (some [Ext.sse_1, .sse_2, .sse_3, .ssse_3, .avx_1, .avx_2])⟩ = x at *
    generalize check m .done ⟨some (some [Ext.sse_1, .sse_2, .sse_3, .ssse_3])⟩ = y at *
    cases x <;> cases y <;> simp_all [portable, chooseHook]
  · rw [shaInvoke, show sha1Cpltime = [portable .sw] from rfl, run _ _ (by simp [sha1Runtime])]
    exact ni _
  · intro a hm
    simp only [List.mem_cons, List.not_mem_nil, or_false] at hm
    rcases hm with rfl | rfl <;>
      (rw [shaInvoke, show sha256Cpltime = [portable .sw] from rfl, run _ _ (by simp [sha256Runtime])]; exact ni _)

/-- C42: a library built without the assembly code, or for another architecture, offers only portable classes, and runs one on every machine, at every moment. -/
theorem C42_not_assembled (m : Machine) (hb : m.x86_64 = false ∨ m.asm = false) :
    (∀ c, some c ∈ chachaRuntime m → c = ⟨none, .sw⟩) ∧ (∀ c, some c ∈ sha1Runtime m → c = ⟨none, .sw⟩) ∧ (∀ c, some c ∈ sha256Runtime m → c = ⟨none, .sw⟩) ∧
    ∀ p, p ≠ Phase.zero → invoke m p false chachaCpltime (chachaRuntime m) [] = some ⟨none, .sw⟩ ∧ ∀ a, shaInvoke m p false [] a = some ⟨none, .sw⟩ := by
  have hb' : ∀ {α : Type} (c : Class α), built m c = none := fun c => by rcases hb with h | h <;> simp [built, h]
  refine ⟨fun c => ?_, fun c => ?_, fun c => ?_, fun p hp => ⟨?_, fun a => ?_⟩⟩
  · simp [chachaRuntime, hb', portable]
  · simp [sha1Runtime, hb', portable]
  · simp [sha256Runtime, hb', portable]
  · rw [chachaRuntime, hb', hb', show chachaCpltime = [portable .sw] from rfl, portable, invoke_eq, if_neg hp]
    rfl
  · cases a <;>
      (simp only [shaInvoke, sha1Runtime, sha256Runtime, hb', sha1Cpltime, sha256Cpltime, portable]; rw [invoke_eq, if_neg hp]; rfl)

example : (⟨true, false, full, true⟩ : Machine).asm = false ∧ shaInvoke ⟨true, false, full, true⟩ .done false [] .sha_2_256 = some ⟨none, .sw⟩ ∧
    shaInvoke ⟨true, true, full, true⟩ .done false [] .sha_2_256 = some sha256Ni := by decide +kernel

/-- C42: the assembly code of each class contains no instruction of an extension the class does not declare. -/
theorem C42_code_declared {V : Type} (k : ChaCha.Asm.Consts V) (q : Nat → V) (q0 q1 mask : V) (rk : Nat → V) :
    (∀ i ∈ ChaCha.Asm.blocksInit k q ++ ChaCha.Asm.doubleRound k ++ ChaCha.Asm.reload ++ ChaCha.Asm.transformBody k ++ ChaCha.Asm.generateBody k,
      ∀ e ∈ exts 4 i, e ∈ [Ext.sse_1, .sse_2, .sse_3, .ssse_3]) ∧
    (∀ i ∈ ChaCha.Asm.blocksInit k q ++ ChaCha.Asm.doubleRound k ++ ChaCha.Asm.reload ++ ChaCha.Asm.transformBodyAvx k ++ ChaCha.Asm.generateBodyAvx k,
      ∀ e ∈ exts 8 i, e ∈ [Ext.sse_1, .sse_2, .sse_3, .ssse_3, .avx_1, .avx_2]) ∧
    (∀ i ∈ Sha1.Asm.load q0 q1 mask ++ Sha1.Asm.block ++ Sha1.Asm.unload, ∀ e ∈ exts 4 i, e ∈ [Ext.sse_1, .sse_2, .sse_3, .ssse_3, .sha_1]) ∧
    (∀ i ∈ Sha256.Asm.load q0 q1 mask ++ Sha256.Asm.block rk ++ Sha256.Asm.unload, ∀ e ∈ exts 4 i,
      e ∈ [Ext.sse_1, .sse_2, .sse_3, .ssse_3, .avx_1, .sha_2]) := by
  have h : ∀ (lanes : Nat) (is : List (X86.Instr V)) (es : List Ext), is.all (fun i => (exts lanes i).all es.contains) = true →
      ∀ i ∈ is, ∀ e ∈ exts lanes i, e ∈ es := by
    intro lanes is es h i hi e he
    exact List.contains_iff_mem.1 (List.all_eq_true.1 (List.all_eq_true.1 h i hi) e he)
  exact ⟨h _ _ _ (by kernel_rfl), h _ _ _ (by kernel_rfl), h _ _ _ (by kernel_rfl), h _ _ _ (by kernel_rfl)⟩

/-! ### What is computed does not depend on the choice -/

/-- C42/C43: whatever the machine, the options (of the library's classes) and the moment, `chacha_20` computes RFC 8439's ChaCha20. -/
theorem C42_chacha_any_machine (m : Machine) (e : Endian) (p : Phase) (hp : p ≠ .zero) (ce : Bool) (os : List (Opt ChaChaClass)) (junk : Nat → X86.Vec)
    (pre : List Cipher.Call) (hpre : ∀ c ∈ pre, c.Ok) (key : List Byte) (hk : key.length = 32) (counter : BitVec 32) (nonce : List Byte) (hn : nonce.length = 12)
    (cs : List Cipher.Call) (hc : Texts cs) :
    ∃ o outs new, chachaRun m e p ce os junk (ciphering pre key (Spec.leBytes 4 counter.toNat ++ nonce) cs) = some (o, outs ++ new) ∧
      new = Spec.cipherOuts key (Spec.leBytes 4 counter.toNat ++ nonce) 0 cs := by
  obtain ⟨c, h⟩ := (C43_library_total_partial m p hp ce).1 os
  unfold chachaRun
  rw [h]
  obtain ⟨o, outs, new, h1, h2, -⟩ := C29_chacha20 ⟨e, ce, none⟩ (c.content.backend junk) pre hpre key hk counter nonce hn cs hc
  exact ⟨o, outs, new, h1, h2⟩

/-- C42/C43: likewise every hash function computes its standard, with the digest size of the first option `digest_size`. -/
theorem C42_hash_any_machine (m : Machine) (e : Endian) (p : Phase) (hp : p ≠ .zero) (ce : Bool) (os : List (Opt ShaClass)) (junk : Nat → X86.Vec) (a : ShaAlg)
    (ds : Nat) (hds : queryDefault Opt.digestSize? (.digestSize a.size) os = some ds) (hle : ds ≤ a.size) (pre : List Hash.Call) (hpre : ∀ c ∈ pre, c.Ok ds)
    (xs : List (List Byte)) (hx : ∀ x ∈ xs, x.length < 2 ^ 64) (dg : List (List Byte × Nat)) (hdg : ∀ d ∈ dg, min d.2 ds ≤ d.1.length) :
    ∃ outs, shaRun m e p ce os junk a (hashing pre xs dg) = some (outs ++ dg.map fun d => Spec.written ((shaSpec a xs.flatten).take ds) d.1 d.2) := by
  obtain ⟨c, h⟩ := (C43_library_total_partial m p hp ce).2.1 os a
  unfold shaRun
  rw [h, hds]
  obtain ⟨o, outs, h1⟩ := computes a ⟨e, ce, c.content.host junk⟩ ds hle pre hpre xs hx dg hdg
  refine ⟨outs, ?_⟩
  simp only [Option.bind_eq_bind, Option.bind_some, h1]
  rfl

example : ∃ outs, shaRun goldmont .little .done false [.implRuntime (portable .sw), .digestSize 28, .digestSize 40] (fun _ _ => 0) .sha_2_256
    (hashing [.finalize] [[0x61], [0x62, 0x63]] [(List.replicate 40 9, 28)])
    = some (outs ++ [Spec.written ((Spec.Sha.sha256 [0x61, 0x62, 0x63]).take 28) (List.replicate 40 9) 28]) :=
  C42_hash_any_machine goldmont .little .done (by decide) false _ _ .sha_2_256 28 rfl (by decide) _ (by simp [Hash.Call.Ok]) _ (by simp) _ (by simp)

end Milo.Dispatch
