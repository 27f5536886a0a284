import Verif.Proof.AppVar
/-
C75 members of an object are found again, C76 comparisons of values, C77 conversions of values: app/include/milo/app/type.h.
-/
namespace Milo.Props
open Milo.App Spec.Var

/-- C75: when each text is always used in the same form, and besides texts only names of one type, an object gives back what was last assigned, reports names never assigned to,
and has each name once: for every history, every standard library's hashes, numbers of buckets and orders. -/
theorem C75_partial (L : Lib) (form : Str → Bool) (kind : Key.Kind) (α : Type) (h : List (Key × α)) (t : Table α)
    (tidy : ∀ e ∈ h, Tidy form kind e.1) (run : t.Run L h) : Faithful L h t (Tidy form kind) :=
  tidy_faithful L form kind h t run tidy

instance (form : Str → Bool) (kind : Key.Kind) (k : Key) : Decidable (Tidy form kind k) := by cases k <;> unfold Tidy <;> infer_instance

/-- A library for the examples: no hash but that of the types. -/
def exLib (cached : Bool) : Lib :=
  ⟨fun s => BitVec.ofNat 64 s.length, id, id, fun _ => 0, fun b => if b then 1 else 0, fun k => match k with | .view => 1 | .string => 2 | .long => 3 | .ulong => 4 | .dbl => 5 | .bool => 6 | .array => 7 | .object => 8,
    cached, false⟩

/-- Two names, one assigned to twice. -/
def exHistory : List (Key × Nat) := [(.view "a".toList, 1), (.string "b".toList, 2), (.view "a".toList, 3)]

example : ∀ e ∈ exHistory, Tidy (fun s => s = "b".toList) .long e.1 := by decide

/-- Every history has a run. -/
theorem run_exists (L : Lib) {α : Type} (h : List (Key × α)) : ∃ t : Table α, t.Run L h := by
  have : ∀ r : List (Key × α), ∃ t : Table α, t.Run L r.reverse := by
    intro r
    induction r with
    | nil => exact ⟨_, .nil (b := 1) (by decide)⟩
    | cons e r ih =>
      obtain ⟨t, run⟩ := ih
      rw [List.reverse_cons]
      by_cases th : t.Throws L e.1
      · exact ⟨⟨1, (e.1, e.2) :: t.nodes⟩, .snoc run (.added th (by decide) (List.Perm.refl _))⟩
      · have : ∃ n ∈ t.nodes, t.Hits L e.1 n := by
          apply Classical.byContradiction
          intro c
          exact th fun n hn hit => c ⟨n, hn, hit⟩
        obtain ⟨n, hn, hit⟩ := this
        obtain ⟨pre, post, e'⟩ := List.append_of_mem hn
        obtain ⟨b, nodes⟩ := t
        simp only at e'
        subst e'
        exact ⟨_, .snoc run (.found hit)⟩
  have := this h.reverse
  rwa [List.reverse_reverse] at this

example : ∃ t : Table Nat, t.Run (exLib true) exHistory ∧ t.Reads (exLib true) (.view "a".toList) 3 ∧ ¬ t.Reads (exLib true) (.view "a".toList) 1 := by
  obtain ⟨t, run⟩ := run_exists (exLib true) exHistory
  have F := C75_partial (exLib true) (fun s => s = "b".toList) .long Nat exHistory t (by decide) run
  refine ⟨t, run, (F.reads _ (by decide) 3).mpr (by decide), fun c => absurd ((F.reads _ (by decide) 1).mp c) (by decide)⟩

/-- The hash of a text depends on its form: where `type_info::hash_code` of the twoPointZero types differ in the lower 63 bits, as they do in practice. -/
def FormsDiffer (L : Lib) : Prop := L.code .string <<< 1 ≠ L.code .view <<< 1

theorem hash_forms (L : Lib) (d : FormsDiffer L) (s : Str) : L.hash (.view s) ≠ L.hash (.string s) := by
  intro e
  simp only [Lib.hash, Key.kind] at e
  have := congrArg (L.text s ^^^ ·) e
  simp only [← BitVec.xor_assoc, BitVec.xor_self, BitVec.zero_xor] at this
  exact d this.symm

/-- C75, a library that compares hashes: what is stored under a literal is never found under the same text as a `std::string`. Both are then members, and print as the same
name. For every text and both orders. -/
theorem C75_forms_wrong (L : Lib) (cached : L.cached = true) (d : FormsDiffer L) (α : Type) (s : Str) (v w : α) (t : Table α) :
    (t.Run L [(.view s, v)] → t.Throws L (.string s)) ∧
    (t.Run L [(.string s, v)] → t.Throws L (.view s)) ∧
    (t.Run L [(.view s, v), (.string s, w)] → t.nodes.length = 2 ∧ ∀ n ∈ t.nodes, content n.1 = some (.text s) ∧ ∀ float, n.1.text float = some s) := by
  have ne := hash_forms L d s
  have one : ∀ (k : Key) (t : Table α), t.Run L [(k, v)] → t.nodes = [(k, v)] := by
    intro k t run
    generalize e : [(k, v)] = h at run
    cases run with
    | nil => cases e
    | @snoc h t0 _ k0 v0 run s =>
      have l : h = [] := by
        have := congrArg List.length e
        simp at this
        exact this
      subst l
      cases e
      have z : t0.nodes = [] := by
        generalize e : ([] : List (Key × α)) = h at run
        cases run with
        | nil => rfl
        | snoc _ _ => simp at e
      cases s with
      | found => simp at z
      | added _ _ perm => rw [z] at perm; exact List.perm_singleton.mp perm
  refine ⟨fun run n hn hit => ?_, fun run n hn hit => ?_, fun run => ?_⟩
  · rw [one _ _ run, List.mem_singleton] at hn
    subst hn
    have := hit.1
    rw [cached] at this
    exact ne this
  · rw [one _ _ run, List.mem_singleton] at hn
    subst hn
    have := hit.1
    rw [cached] at this
    exact ne this.symm
  · generalize e : [(Key.view s, v), (Key.string s, w)] = h at run
    cases run with
    | nil => cases e
    | @snoc h t0 _ k0 v0 run st =>
      obtain ⟨rfl, e2⟩ := List.append_inj' (s₁ := [(Key.view s, v)]) (t₁ := [(Key.string s, w)]) e rfl
      cases e2
      have z := one _ _ run
      cases st with
      | @found b pre post n hit =>
        have : n = (.view s, v) := List.mem_singleton.mp (by rw [← z]; simp)
        subst this
        have := hit.1
        rw [cached] at this
        exact absurd this ne
      | added _ _ perm =>
        rw [z] at perm
        refine ⟨perm.length_eq, fun n hn => ?_⟩
        have := perm.mem_iff.mp hn
        simp only [List.mem_cons, List.not_mem_nil, or_false] at this
        rcases this with rfl | rfl <;> exact ⟨rfl, fun _ => rfl⟩

example : FormsDiffer (exLib true) := by unfold FormsDiffer; decide

/-- C75, a library that only chooses the bucket by the hash: whether the text is found depends on the number of buckets, and so on the number of members. -/
theorem C75_buckets_wrong (L : Lib) (cached : L.cached = false) (d : FormsDiffer L) (α : Type) (s : Str) (v : α) :
    (∃ t : Table α, t.Run L [(.view s, v)] ∧ t.Throws L (.string s)) ∧ (∃ t : Table α, t.Run L [(.view s, v)] ∧ t.Reads L (.string s) v) := by
  have ne := hash_forms L d s
  have run : ∀ b, 0 < b → (Table.mk b [(Key.view s, v)]).Run L [(.view s, v)] := fun b hb =>
    .snoc (h := []) (.nil hb) (.added (fun n hn => by cases hn) hb (List.Perm.refl _))
  refine ⟨⟨_, run (2 ^ 64) (by decide), fun n hn hit => ?_⟩, ⟨_, run 1 (by decide), (.view s, v), List.mem_singleton.mpr rfl, ⟨?_, ?_⟩, rfl⟩⟩
  · rw [List.mem_singleton] at hn
    subst hn
    have := hit.1
    rw [cached] at this
    simp only [Bool.false_eq_true, if_false] at this
    rw [Nat.mod_eq_of_lt (BitVec.isLt _), Nat.mod_eq_of_lt (BitVec.isLt _)] at this
    exact ne (BitVec.eq_of_toNat_eq this)
  · rw [cached]; simp [Nat.mod_one]
  · split <;> simp [Key.compare, Key.compareText]

/-- C75: a name that is an array, an object or not a number is never found, and each assignment adds a member. -/
theorem C75_never_wrong (L : Lib) (α : Type) (k : Key) (hk : k = .array ∨ k = .object ∨ k = .dbl .nan) (h : List (Key × α)) (same : ∀ e ∈ h, e.1 = k) (t : Table α) (run : t.Run L h) :
    t.Throws L k ∧ t.nodes.length = h.length := by
  have no : ∀ (t : Table α) n, n.1 = k → ¬ t.Hits L k n := by
    intro t n e hit
    have := hit.2
    rw [e] at this
    rcases hk with rfl | rfl | rfl <;> (split at this <;> simp [Key.compare, Key.compareDbl, F64.eq] at this)
  have all : (∀ n ∈ t.nodes, n.1 = k) ∧ t.nodes.length = h.length := by
    induction run with
    | nil => simp [Table.empty]
    | @snoc h t t' k' v run st ih =>
      have ih := ih fun e he => same e (by simp [he])
      have e : k' = k := same (k', v) (by simp)
      subst e
      cases st with
      | @found b pre post n hit => exact absurd hit (no _ n (ih.1 n (by simp)))
      | added _ _ perm =>
        refine ⟨fun n hn => ?_, ?_⟩
        · rcases List.mem_cons.mp (perm.mem_iff.mp hn) with rfl | m
          · rfl
          · exact ih.1 n m
        · rw [perm.length_eq, List.length_cons, List.length_append, ih.2]; rfl
  exact ⟨fun n hn => no t n (all.1 n hn), all.2⟩

example : ∃ t : Table Nat, t.Run (exLib false) [(.array, 1), (.array, 2)] ∧ t.nodes.length = 2 := by
  obtain ⟨t, run⟩ := run_exists (exLib false) [(Key.array, 1), (Key.array, 2)]
  exact ⟨t, run, (C75_never_wrong _ _ .array (.inl rfl) _ (by decide) t run).2⟩

/-- C75 in full does not hold. -/
theorem C75_full_false : ¬ FoundAgain := by
  intro full
  obtain ⟨t, run⟩ := run_exists (exLib true) [(Key.view ['a'], 1)]
  have F := full (exLib true) Nat _ t (by simp [Named, content]) run
  have r := (F.reads (.string ['a']) (by simp [Named, content]) 1).mpr (by decide)
  obtain ⟨n, hn, hit, _⟩ := r
  exact (C75_forms_wrong (exLib true) rfl (by unfold FormsDiffer; decide) Nat ['a'] 1 1 t).1 run n hn hit

/-- C76: in all comparisons that are `Safe`, values are equal if and only if their contents are. -/
theorem C76_partial (a b : Key) (ha : Named a) (hb : Named b) (safe : Safe a b) : a.compare b = some (decide (content a = content b)) := by
  cases a with
  | array => exact absurd rfl ha
  | object => exact absurd rfl ha
  | view s => cases b <;> first | exact absurd rfl hb | (rename_i d; cases d) | skip
              all_goals simp_all [Key.compare, Key.compareText, Key.compareInt, Key.compareDbl, Key.compareBool, content, Named, beq_decide]
  | string s => cases b <;> first | exact absurd rfl hb | (rename_i d; cases d) | skip
                all_goals simp_all [Key.compare, Key.compareText, Key.compareInt, Key.compareDbl, Key.compareBool, content, Named, beq_decide]
  | bool c => cases b <;> first | exact absurd rfl hb | (rename_i d; cases d) | skip
              all_goals simp_all [Key.compare, Key.compareText, Key.compareInt, Key.compareDbl, Key.compareBool, content, Named, beq_decide]
  | long n =>
    cases b with
    | array => exact absurd rfl hb
    | object => exact absurd rfl hb
    | view s => simp [Key.compare, Key.compareText, content]
    | string s => simp [Key.compare, Key.compareText, content]
    | bool c => exact absurd safe id
    | long m =>
      simp only [Key.compare, Key.compareInt, ofInt_toInt, beq_decide, Option.some.injEq, decide_eq_decide, long_content]
    | ulong m =>
      simp only [Key.compare, Key.compareInt, ofInt_toNat, beq_decide, Option.some.injEq, decide_eq_decide, content, Content.number.injEq]
      simp only [Safe] at safe
      refine ⟨fun e => ?_, fun e => ?_⟩
      · subst e; rw [BitVec.toInt_eq_toNat_cond] at *; congr 1; have := n.isLt; split at safe <;> first | (split <;> omega) | omega
      · have := units_inj e; have := n.isLt; apply BitVec.eq_of_toNat_eq; rw [BitVec.toInt_eq_toNat_cond] at *; omega
    | dbl d =>
      obtain ⟨z, hz, lo, hi⟩ := safe
      obtain ⟨s, u, rfl, hs⟩ : ∃ s u, d = .fin s u ∧ signed s u = z * 2 ^ 1074 := by
        cases d with
        | nan => cases hz
        | inf => cases hz
        | fin s u => exact ⟨s, u, rfl, Content.number.inj (Option.some.inj hz)⟩
      simp only [Key.compare, Key.compareDbl, F64.toLong, trunc_whole s u z hs, Option.bind_some, if_pos (And.intro lo hi), Option.map_some, beq_decide, Option.some.injEq, decide_eq_decide]
      rw [hz]
      simp only [content, Option.some.injEq, Content.number.injEq]
      refine ⟨fun e => by rw [e, BitVec.toInt_ofInt, Int.bmod_eq_of_le (by omega) (by omega)], fun e => ?_⟩
      rw [← units_inj e, ofInt_toInt]
  | ulong n =>
    cases b with
    | array => exact absurd rfl hb
    | object => exact absurd rfl hb
    | view s => simp [Key.compare, Key.compareText, content]
    | string s => simp [Key.compare, Key.compareText, content]
    | bool c => exact absurd safe id
    | ulong m =>
      simp only [Key.compare, Key.compareInt, ofInt_toNat, beq_decide, Option.some.injEq, decide_eq_decide, ulong_content]
    | long m =>
      simp only [Key.compare, Key.compareInt, ofInt_toInt, beq_decide, Option.some.injEq, decide_eq_decide, content, Content.number.injEq]
      simp only [Safe] at safe
      refine ⟨fun e => ?_, fun e => ?_⟩
      · subst e; rw [BitVec.toInt_eq_toNat_cond] at *; congr 1; have := n.isLt; split at safe <;> first | (split <;> omega) | omega
      · have := units_inj e; have := n.isLt; apply BitVec.eq_of_toNat_eq; rw [BitVec.toInt_eq_toNat_cond] at *; omega
    | dbl d =>
      obtain ⟨z, hz, lo, hi⟩ := safe
      obtain ⟨s, u, rfl, hs⟩ : ∃ s u, d = .fin s u ∧ signed s u = z * 2 ^ 1074 := by
        cases d with
        | nan => cases hz
        | inf => cases hz
        | fin s u => exact ⟨s, u, rfl, Content.number.inj (Option.some.inj hz)⟩
      simp only [Key.compare, Key.compareDbl, F64.toULong, trunc_whole s u z hs, Option.bind_some, if_pos (And.intro lo hi), Option.map_some, beq_decide, Option.some.injEq, decide_eq_decide]
      rw [hz]
      simp only [content, Option.some.injEq, Content.number.injEq]
      refine ⟨fun e => by rw [e, BitVec.toNat_ofInt, Int.emod_eq_of_lt lo (by omega)]; rw [Int.toNat_of_nonneg lo], fun e => ?_⟩
      rw [← units_inj e, ofInt_toNat]
  | dbl d =>
    cases b with
    | array => exact absurd rfl hb
    | object => exact absurd rfl hb
    | view s => cases d <;> simp_all [Key.compare, Key.compareText, content, Named]
    | string s => cases d <;> simp_all [Key.compare, Key.compareText, content, Named]
    | bool c => exact absurd safe id
    | long m => exact congrArg some (eq_ofInt d _ safe ha)
    | ulong m => exact congrArg some (eq_ofInt d m.toNat safe ha)
    | dbl e =>
      cases d <;> cases e <;> first | exact absurd rfl ha | exact absurd rfl hb | skip
      · simp [Key.compare, Key.compareDbl, F64.eq, content, beq_decide]
      · simp [Key.compare, Key.compareDbl, F64.eq, content]
      · simp [Key.compare, Key.compareDbl, F64.eq, content]
      · rw [Key.compare, Key.compareDbl, eq_signed, Option.some.injEq, decide_eq_decide]; simp only [content, Option.some.injEq, Content.number.injEq, signed]


/-- 1.5 -/
def threeHalves : F64 := .fin false (3 * 2 ^ 1073)

/-- 2.0 -/
def twoPointZero : F64 := .fin false (2 * 2 ^ 1074)

example : Safe (.long 2) (.dbl twoPointZero) ∧ Named (.dbl twoPointZero) ∧ content (.long 2) = content (.dbl twoPointZero) := by
  refine ⟨⟨2, by decide +kernel, by decide, by decide⟩, by simp [Named, twoPointZero, content], by decide +kernel⟩

/-- C76: a double on the left of any signed number is equal to it only if it is a whole number next to it: off by at most half of the distance of doubles there. -/
theorem C76_rounded_partial (d : F64) (n : BitVec 64) (h : (Key.dbl d).compare (.long n) = some true) :
    ∃ m : Int, content (.dbl d) = some (.number (m * 2 ^ 1074)) ∧ 2 * (m - n.toInt).natAbs ≤ 2 ^ (Nat.log2 n.toInt.natAbs - 52) := by
  simp only [Key.compare, Key.compareInt, Option.some.injEq, F64.ofInt] at h
  cases d with
  | nan => cases h
  | inf => cases h
  | fin s u =>
    rw [eq_signed] at h
    have h := of_decide_eq_true h
    have near := round_near n.toInt.natAbs
    refine ⟨signed (decide (n.toInt < 0)) (F64.round n.toInt.natAbs), ?_, ?_⟩
    · simp only [content, Option.some.injEq, Content.number.injEq]
      change signed s u = _
      rw [h, ← one_eq]
      unfold signed
      split <;> simp [Int.neg_mul]
    · unfold signed
      generalize F64.round n.toInt.natAbs = r at *
      by_cases c : n.toInt < 0
      · simp only [c, decide_true, if_true]; omega
      · simp only [c, decide_false, Bool.false_eq_true, if_false]; omega

example : (Key.dbl (.fin false (9007199254740992 * 2 ^ 1074))).compare (.long 9007199254740993) = some true := by decide +kernel

/-- C76: with a fraction on the right the fraction is dropped, on the left it counts: the result depends on the order. For every signed number and every double that truncates to it. -/
theorem C76_fraction_wrong (n : BitVec 64) (d : F64) (f : Fractional d) (t : d.trunc = some n.toInt) :
    (Key.long n).compare (.dbl d) = some true ∧ (Key.dbl d).compare (.long n) = some false ∧ content (.long n) ≠ content (.dbl d) := by
  cases d with
  | nan => exact absurd f id
  | inf => exact absurd f id
  | fin s u =>
    simp only [Fractional] at f
    have lo := BitVec.le_toInt n
    have hi := BitVec.toInt_lt (x := n)
    refine ⟨?_, ?_, ?_⟩
    · simp only [Key.compare, Key.compareDbl, F64.toLong, t, Option.bind_some]
      rw [if_pos ⟨by simpa using lo, by simpa using hi⟩, Option.map_some, ofInt_toInt]
      simp
    · simp only [Key.compare, Key.compareInt, F64.ofInt, F64.eq]
      have : ¬ u = F64.round n.toInt.natAbs * F64.one := by
        intro e
        exact f (by rw [e]; exact Nat.mul_mod_left _ _)
      simp [this]
    · intro e
      simp only [content, Option.some.injEq, Content.number.injEq] at e
      have q : (n.toInt.natAbs * 2 ^ 1074 : Nat) = u := by
        have := congrArg Int.natAbs e
        rw [Int.natAbs_mul] at this
        have h : (2 ^ 1074 : Int).natAbs = 2 ^ 1074 := by rw [← one_eq]; rfl
        rw [h] at this
        rw [this]
        split <;> simp
      exact f (by rw [← q]; exact Nat.mul_mod_left _ _)

example : Fractional threeHalves ∧ threeHalves.trunc = some (BitVec.toInt (1 : BitVec 64)) := by
  constructor
  · unfold threeHalves Fractional; decide +kernel
  · decide +kernel

/-- C76: a number compared with a truth value: on the left it is equal to it, on the right not. -/
theorem C76_truth_wrong (b : Bool) :
    (Key.long (if b then 1 else 0)).compare (.bool b) = some true ∧ (Key.bool b).compare (.long (if b then 1 else 0)) = some false ∧
    (Key.ulong (if b then 1 else 0)).compare (.bool b) = some true ∧ (Key.bool b).compare (.ulong (if b then 1 else 0)) = some false := by
  cases b <;> decide

/-- C76: every negative number is equal to an unsigned one, in both orders. -/
theorem C76_signed_wrong (n : BitVec 64) (neg : n.toInt < 0) :
    (Key.long n).compare (.ulong n) = some true ∧ (Key.ulong n).compare (.long n) = some true ∧ content (.long n) ≠ content (.ulong n) := by
  refine ⟨by simp only [Key.compare, Key.compareInt, ofInt_toNat]; simp, by simp only [Key.compare, Key.compareInt, ofInt_toInt]; simp, fun e => ?_⟩
  simp only [content, Option.some.injEq, Content.number.injEq] at e
  have := units_inj e
  omega

example : (-1 : BitVec 64).toInt < 0 := by decide

/-- C76: a signed number compared with a double beyond its range, or with an infinity or what is not a number, is undefined behaviour. -/
theorem C76_undefined_wrong (n : BitVec 64) (d : F64) (far : ∀ z, d.trunc = some z → ¬ (-2 ^ 63 ≤ z ∧ z < 2 ^ 63)) : (Key.long n).compare (.dbl d) = none := by
  simp only [Key.compare, Key.compareDbl, F64.toLong]
  cases e : d.trunc with
  | none => rfl
  | some z => rw [Option.bind_some, if_neg (far z e)]; rfl

example : ∀ z, (F64.inf true).trunc = some z → ¬ (-2 ^ 63 ≤ z ∧ z < 2 ^ 63) := fun _ h => nomatch h

/-- C76: equality is not transitive: 2^53 + 1 equals the double 2^53, which equals 2^53. -/
theorem C76_transitive_false :
    ¬ ∀ a b c : Key, a.compare b = some true → b.compare c = some true → a.compare c = some true := by
  intro h
  have := h (.ulong 9007199254740992) (.dbl (.fin false (9007199254740992 * 2 ^ 1074))) (.ulong 9007199254740993) (by decide +kernel) (by decide +kernel)
  revert this; decide

/-- C76: arrays and objects are not equal to themselves. -/
theorem C76_reflexive_false : Key.array.compare .array = some false ∧ Key.object.compare .object = some false := ⟨rfl, rfl⟩

/-- C76 in full does not hold. -/
theorem C76_full_false : ¬ Compares := by
  intro full
  have := full (.long (-1)) (.ulong (-1)) (by simp [Named, content]) (by simp [Named, content])
  have w := C76_signed_wrong (-1) (by decide)
  rw [w.1, decide_eq_false w.2.2] at this
  cases this

/-- C77: to `size_t` and `bool` the numbers (and truth values) are converted, everything else is refused; a negative number becomes a large one. -/
theorem C77_partial (k : Key) :
    (k.toSize = match k with | .long n => .value n | .ulong n => .value n | _ => .refused) ∧
    (k.toBool = match k with | .long n => .value (decide (n ≠ 0)) | .ulong n => .value (decide (n ≠ 0)) | .bool b => .value b | _ => .refused) ∧
    k.toRef k.kind = .value k ∧
    ∀ (α : Type) (l : List α) (n : BitVec 64), (k = .long n ∨ k = .ulong n) → ∀ i : n.toNat < l.length, arrayAt l k = .value l[n.toNat] := by
  refine ⟨?_, ?_, by simp [Key.toRef], ?_⟩
  · cases k <;> rfl
  · cases k <;> simp [Key.toBool, bne, beq_decide]
  · rintro α l n (rfl | rfl) i <;> simp [arrayAt, Key.toSize, List.getElem?_eq_getElem i]

example : arrayAt [10, 20, 30] (.long 1) = .value 20 := by decide

/-- C77: by reference a value of every other type is read through a null pointer, and the exception prepared for it is never thrown. -/
theorem C77_reference_wrong (want : Key.Kind) (k : Key) (h : k.kind ≠ want) : k.toRef want = .undefined := by simp [Key.toRef, h]

example : (Key.view "a".toList).kind ≠ .string := by decide

/-- C77: an array is read beyond its end for every index that is too large, and for every negative one. -/
theorem C77_index_wrong (α : Type) (l : List α) (k : Key) (n : BitVec 64) (hk : k = .long n ∨ k = .ulong n) (far : l.length ≤ n.toNat) : arrayAt l k = .undefined := by
  rcases hk with rfl | rfl <;> simp [arrayAt, Key.toSize, List.getElem?_eq_none far]

example : arrayAt [1, 2, 3] (.long (-1)) = .undefined := C77_index_wrong Nat _ _ (-1) (.inl rfl) (by decide)

/-- C77 in full does not hold. -/
theorem C77_full_false : ¬ Refuses := by
  rintro ⟨_, _, h, _⟩
  have := h .string (.view ['a'])
  rw [C77_reference_wrong _ _ (by decide), if_neg (by decide)] at this
  cases this

end Milo.Props
