import Verif.Proof.AppJson
/- What is found where in the application's output. -/
namespace Milo.App
open Spec.Json

/-- The members of a name. -/
def Members.values (k : Str) : Members → List Var
  | .nil => []
  | .cons m v l => if m = k then v :: l.values k else l.values k

theorem filter_denote (k : Str) (l : Members) : l.denote.filter (fun m => m.1 = k) = (l.values k).map fun v => (k, v.denote) := by
  match l with
  | .nil => rfl
  | .cons m v l =>
    have ih := filter_denote k l
    rw [Members.denote, Members.values]
    by_cases c : m = k
    · rw [List.filter_cons_of_pos (by simpa using c), if_pos c, List.map_cons, ih, c]
    · rw [List.filter_cons_of_neg (by simpa using c), if_neg c, ih]

/-- A number under a name and a path. -/
def MAt (l : Members) (k : Str) (path : List Str) (t : Str) : Prop := ∃ v, l.values k = [v] ∧ At v.denote path (.num t)

theorem at_obj {l : Members} {k : Str} {path : List Str} {t : Str} : At (Var.obj l).denote (k :: path) (.num t) ↔ MAt l k path t := by
  constructor
  · intro h
    cases h with
    | member h1 h2 =>
      rw [filter_denote] at h1
      match hv : l.values k, h1 with
      | [v], h1 =>
        rw [List.map_cons, List.map_nil] at h1
        injection h1 with h1
        injection h1 with _ h1
        exact ⟨v, hv, h1 ▸ h2⟩
  · rintro ⟨v, h1, h2⟩
    refine .member (v := v.denote) ?_ h2
    rw [filter_denote, h1]
    rfl

theorem sameMembers_none : ∀ {l m : Members}, SameMembers l m → ∀ k, (l.values k).length = (m.values k).length
  | _, _, .nil, _ => rfl
  | _, _, .cons m hv hl, k => by
    rw [Members.values, Members.values]
    have := sameMembers_none hl k
    split <;> simp [this]
  | _, _, .swap a b v w l, k => by
    simp only [Members.values]
    split <;> split <;> rfl
  | _, _, .trans h1 h2, k => (sameMembers_none h1 k).trans (sameMembers_none h2 k)

mutual

theorem same_at : ∀ {v w : Var}, Same v w → ∀ (path : List Str) (t : Str), At v.denote path (.num t) → At w.denote path (.num t)
  | _, _, .str _, _, _, h => h
  | _, _, .nat _, _, _, h => h
  | _, _, .int _, _, _, h => h
  | _, _, .bool _, _, _, h => h
  | _, _, .dbl _, _, _, h => h
  | _, _, .arr h', path, t, h => by cases h
  | _, _, .obj h', path, t, h => by
    cases path with
    | nil => cases h
    | cons k path => exact at_obj.mpr (sameMembers_at h' k path t (at_obj.mp h))

theorem sameMembers_at : ∀ {l m : Members}, SameMembers l m → ∀ (k : Str) (path : List Str) (t : Str), MAt l k path t → MAt m k path t
  | _, _, .nil, _, _, _, h => h
  | _, _, .cons (v' := v') (l := l) (l' := l') m hv hl, k, path, t, h => by
    obtain ⟨x, h1, h2⟩ := h
    rw [Members.values] at h1
    by_cases c : m = k
    · rw [if_pos c] at h1
      injection h1 with h1 h3
      subst h1
      have h4 := sameMembers_none hl k
      rw [h3] at h4
      refine ⟨v', ?_, same_at hv path t h2⟩
      rw [Members.values, if_pos c, List.eq_nil_of_length_eq_zero h4.symm]
    · rw [if_neg c] at h1
      obtain ⟨y, h3, h4⟩ := sameMembers_at hl k path t ⟨x, h1, h2⟩
      exact ⟨y, by rw [Members.values, if_neg c, h3], h4⟩
  | _, _, .swap a b v w l, k, path, t, h => by
    obtain ⟨x, h1, h2⟩ := h
    refine ⟨x, ?_, h2⟩
    simp only [Members.values] at h1 ⊢
    by_cases c1 : a = k
    · by_cases c2 : b = k
      · rw [if_pos c1, if_pos c2] at h1
        injection h1 with _ h1
        exact nomatch h1
      · rw [if_pos c1, if_neg c2] at *
        exact h1
    · by_cases c2 : b = k
      · rw [if_neg c1, if_pos c2] at *
        exact h1
      · rw [if_neg c1, if_neg c2] at *
        exact h1
  | _, _, .trans h1 h2, k, path, t, h => sameMembers_at h2 k path t (sameMembers_at h1 k path t h)

end

theorem values_members (k : Str) (l : List (Str × Var)) : (members l).values k = (l.filter fun p => p.1 = k).map Prod.snd := by
  induction l with
  | nil => rfl
  | cons p l ih =>
    obtain ⟨m, v⟩ := p
    rw [members, Members.values, ih]
    by_cases c : m = k
    · rw [if_pos c, List.filter_cons_of_pos (by simpa using c), List.map_cons]
    · rw [if_neg c, List.filter_cons_of_neg (by simpa using c)]

theorem filter_unique {α : Type} (l : List (Str × α)) (hn : (l.map Prod.fst).Nodup) (k : Str) (v : α) (h : (k, v) ∈ l) : l.filter (fun p => p.1 = k) = [(k, v)] := by
  induction l with
  | nil => exact nomatch h
  | cons p l ih =>
    rw [List.map_cons, List.nodup_cons] at hn
    rcases List.mem_cons.mp h with rfl | h
    · rw [List.filter_cons_of_pos (by simp)]
      congr 1
      refine List.filter_eq_nil_iff.mpr fun q hq hc => hn.1 ?_
      have hc : q.1 = k := of_decide_eq_true hc
      have hm := List.mem_map_of_mem (f := Prod.fst) hq
      rw [hc] at hm
      exact hm
    · rw [List.filter_cons_of_neg (fun hc => hn.1 ?_), ih hn.2 h]
      have hc : p.1 = k := of_decide_eq_true hc
      rw [hc]
      exact List.mem_map_of_mem (f := Prod.fst) h

/-- A member of an object all of whose names are different. -/
theorem at_members (l : List (Str × Var)) (hn : (l.map Prod.fst).Nodup) (k : Str) (v : Var) (h : (k, v) ∈ l) {path : List Str} {t : Str} (hv : At v.denote path (.num t)) :
    At (Var.obj (members l)).denote (k :: path) (.num t) := by
  refine at_obj.mpr ⟨v, ?_, hv⟩
  rw [values_members, filter_unique l hn k v h]
  rfl

theorem at_nat (n : Nat) : At (Var.nat n).denote [] (.num (digits n)) := .here _
theorem at_dbl (d : Dbl) : At (Var.dbl d).denote [] (.num d.text) := .here _

mutual

theorem same_refl : ∀ v : Var, Same v v
  | .str s => .str s
  | .nat n => .nat n
  | .int z => .int z
  | .bool b => .bool b
  | .dbl d => .dbl d
  | .arr l => .arr (sameElems_refl l)
  | .obj l => .obj (sameMembers_refl l)

theorem sameElems_refl : ∀ l : Elems, SameElems l l
  | .nil => .nil
  | .cons v l => .cons (same_refl v) (sameElems_refl l)

theorem sameMembers_refl : ∀ l : Members, SameMembers l l
  | .nil => .nil
  | .cons k v l => .cons k (same_refl v) (sameMembers_refl l)

end

end Milo.App
