import Verif.Spec.AppVar
/- Values of the application: comparisons, and objects as maps. -/
namespace Milo.App
open Spec.Var

theorem beq_decide {β : Type} [BEq β] [LawfulBEq β] (a b : β) [Decidable (a = b)] : (a == b) = decide (a = b) := by
  rw [Bool.eq_iff_iff]; simp

theorem units_pos : (0 : Int) < 2 ^ 1074 := by decide +kernel

theorem units_inj {a b : Int} (h : a * 2 ^ 1074 = b * 2 ^ 1074) : a = b := Int.eq_of_mul_eq_mul_right (Int.ne_of_gt units_pos) h

theorem long_content (n m : BitVec 64) : content (.long n) = content (.long m) ↔ n = m := by
  simp only [content, Option.some.injEq, Content.number.injEq]
  exact ⟨fun h => BitVec.eq_of_toInt_eq (units_inj h), fun h => by rw [h]⟩

theorem ulong_content (n m : BitVec 64) : content (.ulong n) = content (.ulong m) ↔ n = m := by
  simp only [content, Option.some.injEq, Content.number.injEq]
  exact ⟨fun h => BitVec.eq_of_toNat_eq (by have := units_inj h; omega), fun h => by rw [h]⟩

theorem ofInt_toInt (n : BitVec 64) : BitVec.ofInt 64 n.toInt = n := BitVec.ofInt_toInt

theorem ofInt_toNat (n : BitVec 64) : BitVec.ofInt 64 (n.toNat : Int) = n := by simp [BitVec.ofInt_natCast]

theorem tidy_compare (form : Str → Bool) (kind : Key.Kind) (a b : Key) (ha : Tidy form kind a) (hb : Tidy form kind b) :
    a.compare b = some (decide (a = b)) ∧ (content a = content b ↔ a = b) := by
  cases a <;> cases b <;> simp only [Tidy] at ha hb <;>
    simp_all [Key.compare, Key.compareText, Key.compareInt, Key.compareBool, content, -BitVec.ofInt_toInt]
  · exact beq_decide _ _
  · intro h; subst h; simp_all
  · intro h; subst h; simp_all
  · exact beq_decide _ _
  · rename_i n m
    rw [BitVec.ofInt_toInt]
    have := long_content n m
    exact ⟨beq_decide _ _, by simpa [content] using this⟩
  · rename_i n m
    have := ulong_content n m
    exact ⟨beq_decide _ _, by simpa [content] using this⟩
  · exact beq_decide _ _

theorem latest_snoc {α : Type} (h : List (Key × α)) (k : Key) (v : α) (k' : Key) :
    latest (h ++ [(k, v)]) k' = if content k = content k' then some v else latest h k' := by
  unfold latest
  rw [List.filter_append]
  by_cases e : content k = content k'
  · simp [e]
  · simp [e]

section
variable {α : Type} (L : Lib) (form : Str → Bool) (kind : Key.Kind)

/-- With tidy names the map is hit exactly by the name itself. -/
theorem tidy_hits (t : Table α) (k : Key) (n : Key × α) (hk : Tidy form kind k) (hn : Tidy form kind n.1) : t.Hits L k n ↔ n.1 = k := by
  have e1 := (tidy_compare form kind n.1 k hn hk).1
  have e2 := (tidy_compare form kind k n.1 hk hn).1
  unfold Table.Hits
  rw [e1, e2]
  constructor
  · rintro ⟨_, h⟩
    split at h <;> simp at h
    · exact h
    · exact h.symm
  · rintro h
    subst h
    constructor
    · split <;> rfl
    · simp

structure TidyInv (h : List (Key × α)) (t : Table α) : Prop where
  tidy : ∀ n ∈ t.nodes, Tidy form kind n.1
  once : (t.nodes.map Prod.fst).Nodup
  found : ∀ k, Tidy form kind k → ∀ v, (k, v) ∈ t.nodes ↔ latest h k = some v

theorem unique_value {l : List (Key × α)} (h : (l.map Prod.fst).Nodup) {k : Key} {v w : α} (hv : (k, v) ∈ l) (hw : (k, w) ∈ l) : v = w := by
  induction l with
  | nil => cases hv
  | cons n l ih =>
    rw [List.map_cons, List.nodup_cons] at h
    rcases List.mem_cons.mp hv with e | e <;> rcases List.mem_cons.mp hw with e' | e'
    · exact congrArg Prod.snd (e.trans e'.symm)
    · exact absurd (List.mem_map_of_mem (f := Prod.fst) e') (by rw [← e] at h; exact h.1)
    · exact absurd (List.mem_map_of_mem (f := Prod.fst) e) (by rw [← e'] at h; exact h.1)
    · exact ih h.2 e e'

theorem tidyInv_step (h : List (Key × α)) (t t' : Table α) (k : Key) (v : α) (hk : Tidy form kind k) (I : TidyInv form kind h t) (s : Table.Assigns L k v t t') :
    TidyInv form kind (h ++ [(k, v)]) t' := by
  have cont : ∀ k', Tidy form kind k' → (content k = content k' ↔ k = k') := fun k' hk' => (tidy_compare form kind k k' hk hk').2
  cases s with
  | @found b pre post n hit =>
    have hn : Tidy form kind n.1 := I.tidy n (by simp)
    have e : n.1 = k := (tidy_hits L form kind _ k n hk hn).mp hit
    have keys : (pre ++ (n.1, v) :: post).map Prod.fst = (pre ++ n :: post).map Prod.fst := by simp
    have on : ((pre ++ (n.1, v) :: post).map Prod.fst).Nodup := by rw [keys]; exact I.once
    refine ⟨?_, on, ?_⟩
    · intro m hm
      have : m.1 ∈ (pre ++ n :: post).map Prod.fst := by rw [← keys]; exact List.mem_map_of_mem hm
      obtain ⟨m', hm', e'⟩ := List.mem_map.mp this
      rw [← e']; exact I.tidy m' hm'
    · intro k' hk' w
      rw [latest_snoc]
      by_cases ek : k = k'
      · rw [if_pos ((cont k' hk').mpr ek)]
        have hin : (k', v) ∈ pre ++ (n.1, v) :: post := by rw [e, ek]; simp
        constructor
        · intro hw; rw [unique_value on hin hw]
        · intro hw; cases hw; exact hin
      · rw [if_neg (fun c => ek ((cont k' hk').mp c)), ← I.found k' hk' w]
        have n1 : (k', w) ≠ (n.1, v) := fun c => ek (by rw [← e]; exact (congrArg Prod.fst c).symm)
        have n2 : (k', w) ≠ n := fun c => ek (by rw [← e, ← c])
        simp [n1, n2]
  | @added _ b nodes miss hb perm =>
    have fresh : k ∉ t.nodes.map Prod.fst := by
      intro hm
      obtain ⟨n, hn, e⟩ := List.mem_map.mp hm
      exact miss n hn ((tidy_hits L form kind t k n hk (I.tidy n hn)).mpr e)
    refine ⟨?_, ?_, ?_⟩
    · intro m hm
      rcases List.mem_cons.mp (perm.mem_iff.mp hm) with e | e
      · rw [e]; exact hk
      · exact I.tidy m e
    · have := (perm.map Prod.fst).nodup_iff.mpr (by rw [List.map_cons, List.nodup_cons]; exact ⟨fresh, I.once⟩)
      exact this
    · intro k' hk' w
      rw [latest_snoc, perm.mem_iff, List.mem_cons, I.found k' hk' w]
      by_cases ek : k = k'
      · rw [if_pos ((cont k' hk').mpr ek)]
        subst ek
        have : latest h k ≠ some w := fun c => fresh (List.mem_map_of_mem (f := Prod.fst) ((I.found k hk w).mpr c))
        constructor
        · rintro (e | e)
          · cases e; rfl
          · exact absurd e this
        · intro e; cases e; exact .inl rfl
      · rw [if_neg (fun c => ek ((cont k' hk').mp c))]
        constructor
        · rintro (e | e)
          · exact absurd (congrArg Prod.fst e).symm ek
          · exact e
        · exact .inr

theorem tidyInv_run (h : List (Key × α)) (t : Table α) (r : Table.Run L h t) (tidy : ∀ e ∈ h, Tidy form kind e.1) : TidyInv form kind h t := by
  induction r with
  | nil hb => exact ⟨by simp [Table.empty], by simp [Table.empty], by simp [Table.empty, latest]⟩
  | @snoc h t t' k v r s ih =>
    exact tidyInv_step L form kind h t t' k v (tidy (k, v) (by simp)) (ih fun e he => tidy e (by simp [he])) s

theorem members_run (h : List (Key × α)) (t : Table α) (r : Table.Run L h t) (tidy : ∀ e ∈ h, Tidy form kind e.1) (c : Key) : c ∈ t.nodes.map Prod.fst ↔ c ∈ h.map Prod.fst := by
  induction r with
  | nil hb => simp [Table.empty]
  | @snoc h t t' k v r s ih =>
    have ih := ih fun e he => tidy e (by simp [he])
    have hk := tidy (k, v) (by simp)
    have I := tidyInv_run L form kind h t r fun e he => tidy e (by simp [he])
    rw [List.map_append, List.mem_append]
    cases s with
    | @found b pre post n hit =>
      have e : n.1 = k := (tidy_hits L form kind _ k n hk (I.tidy n (by simp))).mp hit
      have keys : (pre ++ (n.1, v) :: post).map Prod.fst = (pre ++ n :: post).map Prod.fst := by simp
      rw [keys, ih]
      constructor
      · exact .inl
      · rintro (m | m)
        · exact m
        · rw [← ih]; simp at m; simp [m, e]
    | @added _ b nodes miss hb perm =>
      rw [(perm.map Prod.fst).mem_iff, List.map_cons, List.mem_cons, ih]
      simp [or_comm]

theorem tidy_faithful (h : List (Key × α)) (t : Table α) (r : Table.Run L h t) (tidy : ∀ e ∈ h, Tidy form kind e.1) : Faithful L h t (Tidy form kind) := by
  have I := tidyInv_run L form kind h t r tidy
  have reads : ∀ k, Tidy form kind k → ∀ v, t.Reads L k v ↔ latest h k = some v := by
    intro k hk v
    rw [← I.found k hk v]
    constructor
    · rintro ⟨n, hn, hit, e⟩
      have := (tidy_hits L form kind t k n hk (I.tidy n hn)).mp hit
      rw [← this, ← e]; exact hn
    · intro hm
      exact ⟨(k, v), hm, (tidy_hits L form kind t k (k, v) hk hk).mpr rfl, rfl⟩
  have inj : ∀ a b, Tidy form kind a → Tidy form kind b → content a = content b → a = b := fun a b ha hb => (tidy_compare form kind a b ha hb).2.mp
  refine ⟨reads, ?_, ?_, ?_⟩
  · intro k hk
    constructor
    · intro th
      cases e : latest h k with
      | none => rfl
      | some v =>
        obtain ⟨n, hn, hit, _⟩ := (reads k hk v).mpr e
        exact absurd hit (th n hn)
    · intro e n hn hit
      have := (reads k hk n.2).mp ⟨n, hn, hit, rfl⟩
      rw [e] at this; cases this
  · have key : ∀ l : List (Key × α), (∀ n ∈ l, Tidy form kind n.1) → (l.map Prod.fst).Nodup → (l.map fun n => content n.1).Nodup := by
      intro l
      induction l with
      | nil => simp
      | cons n l ih =>
        intro ht hd
        rw [List.map_cons, List.nodup_cons] at hd ⊢
        refine ⟨fun hm => ?_, ih (fun m hm => ht m (by simp [hm])) hd.2⟩
        obtain ⟨m, hm, e⟩ := List.mem_map.mp hm
        have := inj m.1 n.1 (ht m (by simp [hm])) (ht n (by simp)) e
        exact hd.1 (by rw [← this]; exact List.mem_map_of_mem hm)
    exact key t.nodes I.tidy I.once
  · intro c
    have := members_run L form kind h t r tidy
    have e1 : t.nodes.map (fun n => content n.1) = (t.nodes.map Prod.fst).map content := by simp
    have e2 : h.map (fun n => content n.1) = (h.map Prod.fst).map content := by simp
    rw [e1, e2, List.mem_map, List.mem_map]
    simp only [this]

end

theorem round_small {n : Nat} (h : n < 2 ^ 53) : F64.round n = n := by unfold F64.round; rw [if_pos h]

theorem one_eq : (F64.one : Int) = 2 ^ 1074 := by unfold F64.one; exact Int.natCast_pow 2 1074

theorem one_pos : 0 < F64.one := by decide +kernel

/-- A signed magnitude. -/
def signed (s : Bool) (u : Nat) : Int := if s then -(u : Int) else u

theorem signed_eq (s t : Bool) (u v : Nat) : signed s u = signed t v ↔ u = v ∧ (s = t ∨ u = 0) := by
  unfold signed; cases s <;> cases t <;> simp <;> omega

theorem eq_signed (s t : Bool) (u v : Nat) : F64.eq (.fin s u) (.fin t v) = decide (signed s u = signed t v) := by
  unfold F64.eq
  rw [Bool.eq_iff_iff]
  simp [signed_eq]

theorem ofInt_signed (z : Int) (h : z.natAbs < 2 ^ 53) : ∃ s u, F64.ofInt z = .fin s u ∧ signed s u = z * 2 ^ 1074 := by
  refine ⟨_, _, rfl, ?_⟩
  rw [round_small h, ← one_eq]
  unfold signed
  by_cases hz : z < 0
  · simp only [hz, decide_true, if_true]
    rw [Int.natCast_mul, ← Int.neg_mul]
    congr 1
    omega
  · simp only [hz, decide_false, Bool.false_eq_true, if_false]
    rw [Int.natCast_mul]
    congr 1
    omega

theorem eq_ofInt (d : F64) (z : Int) (h : z.natAbs < 2 ^ 53) (hd : Named (.dbl d)) : F64.eq d (F64.ofInt z) = decide (content (.dbl d) = some (.number (z * 2 ^ 1074))) := by
  obtain ⟨s, u, e, hs⟩ := ofInt_signed z h
  rw [e]
  cases d with
  | nan => simp [Named, content] at hd
  | inf n => simp [F64.eq, content]
  | fin t v =>
    rw [eq_signed, hs, decide_eq_decide]
    simp only [content, signed, Option.some.injEq, Content.number.injEq]

/-- Truncation of a whole number. -/
theorem trunc_whole (s : Bool) (u : Nat) (z : Int) (h : signed s u = z * 2 ^ 1074) : F64.trunc (.fin s u) = some z := by
  rw [← one_eq] at h
  unfold signed at h
  unfold F64.trunc
  have p := one_pos
  cases s
  · simp only [Bool.false_eq_true, if_false] at h ⊢
    rw [Int.natCast_ediv, h, Int.mul_ediv_cancel _ (by omega)]
  · simp only [if_true] at h ⊢
    have : (u : Int) = (-z) * F64.one := by rw [Int.neg_mul, ← h, Int.neg_neg]
    rw [Int.natCast_ediv, this, Int.mul_ediv_cancel _ (by omega), Int.neg_neg]

/-- Rounding is to nearest: off by at most half of the distance of the 53-bit numbers there. -/
theorem round_near (n : Nat) : 2 * F64.round n ≤ 2 * n + 2 ^ (Nat.log2 n - 52) ∧ 2 * n ≤ 2 * F64.round n + 2 ^ (Nat.log2 n - 52) := by
  unfold F64.round
  by_cases h : n < 2 ^ 53
  · rw [if_pos h]; exact ⟨Nat.le_add_right _ _, Nat.le_add_right _ _⟩
  · rw [if_neg h]
    simp only
    have hp : 0 < 2 ^ (Nat.log2 n - 52) := Nat.two_pow_pos _
    generalize 2 ^ (Nat.log2 n - 52) = p at *
    have e := Nat.div_add_mod n p
    rw [Nat.mul_comm] at e
    generalize n / p = q at *
    split
    · rename_i c
      rw [Nat.add_mul, Nat.one_mul]
      have := Nat.mod_lt n hp
      omega
    · rename_i c
      have : 2 * (n % p) ≤ p := by omega
      omega

end Milo.App

namespace Milo.App

/-- The number of units of a rounded integer has at most 53 significant bits. -/
theorem F64.round_precise (n : Nat) (h : n < 2 ^ 64) : ∃ m e, m < 2 ^ 53 ∧ e < 64 ∧ F64.round n = m * 2 ^ e := by
  unfold F64.round
  by_cases hs : n < 2 ^ 53
  · exact ⟨n, 0, hs, by omega, by rw [if_pos hs, Nat.pow_zero, Nat.mul_one]⟩
  · rw [if_neg hs]
    have hn : n ≠ 0 := by omega
    have h1 : Nat.log2 n < 64 := (Nat.log2_lt hn).mpr h
    have h2 : n < 2 ^ (Nat.log2 n + 1) := Nat.lt_log2_self
    have h3 : 53 ≤ Nat.log2 n := by
      rcases Nat.lt_or_ge (Nat.log2 n) 53 with c | c
      · exact absurd ((Nat.log2_lt hn).mp c) hs
      · exact c
    have hq : n / 2 ^ (Nat.log2 n - 52) < 2 ^ 53 := by
      rw [Nat.div_lt_iff_lt_mul (Nat.two_pow_pos _), ← Nat.pow_add]
      have : 53 + (Nat.log2 n - 52) = Nat.log2 n + 1 := by omega
      rw [this]; exact h2
    simp only
    generalize Nat.log2 n = l at *
    generalize n / 2 ^ (l - 52) = q at *
    split
    · by_cases hm : q + 1 < 2 ^ 53
      · exact ⟨q + 1, l - 52, hm, by omega, rfl⟩
      · refine ⟨2 ^ 52, l - 52 + 1, by omega, by omega, ?_⟩
        have : q + 1 = 2 ^ 52 * 2 := by omega
        rw [this, Nat.pow_succ 2 (l - 52), Nat.mul_assoc, Nat.mul_comm 2]
    · exact ⟨q, l - 52, hq, by omega, rfl⟩

/-- The `double` an integer of 64 bits is converted to is one. -/
theorem F64.ofInt_precise (z : Int) (h : z.natAbs < 2 ^ 64) : (F64.ofInt z).Precise := by
  obtain ⟨m, e, hm, he, hr⟩ := F64.round_precise z.natAbs h
  refine ⟨m, e + 1074, hm, by omega, ?_⟩
  show F64.round z.natAbs * F64.one = _
  rw [hr, Nat.mul_assoc, Nat.pow_add]
  rfl

/-- Numbers of 53 bits are as well, numbers of 54 bits need not be: 2^53 - 1 and 2^53 + 1. -/
example : (F64.fin false (2 ^ 53 - 1)).Precise ∧ ¬(F64.fin false (2 ^ 53 + 1)).Precise := by
  refine ⟨⟨2 ^ 53 - 1, 0, by omega, by omega, by omega⟩, ?_⟩
  rintro ⟨m, e, hm, -, h⟩
  cases e with
  | zero => omega
  | succ e => rw [Nat.pow_succ 2 e, ← Nat.mul_assoc] at h; omega

end Milo.App
