import Verif.Proof.Copies
import Verif.Proof.Memory
/- The kdf classes in constant evaluation, whose views own heap memory. -/
namespace Milo.Copies
open Spec.Copies

/-! ### What an operation on the views of one object does to the heap -/

/-- The memory blocks views own. -/
def ptrs (vs : List HView) : List Nat := vs.filterMap (·.cell)

/-- Block numbers in use are below `next`. -/
def Heap.Ok (hp : Heap) : Prop := ∀ p, hp.cells p ≠ none → p < hp.next

/-- The blocks `old` were freed and the blocks `new` allocated, nothing else changed. -/
structure Trade (hp : Heap) (old : List Nat) (hp' : Heap) (new : List Nat) : Prop where
  ok : hp'.Ok
  le : hp.next ≤ hp'.next
  fresh : ∀ p ∈ new, hp.next ≤ p
  nodup : new.Nodup
  alive : ∀ p ∈ new, hp'.cells p ≠ none
  gone : ∀ p ∈ old, hp'.cells p = none
  frame : ∀ p, p ∉ old → p ∉ new → hp'.cells p = hp.cells p

theorem Trade.refl {hp : Heap} (h : hp.Ok) : Trade hp [] hp [] :=
  ⟨h, Nat.le_refl _, by simp, List.nodup_nil, by simp, by simp, fun _ _ _ => rfl⟩

theorem Trade.comp {hp hp1 hp2 : Heap} {o1 n1 o2 n2 : List Nat} (h1 : Trade hp o1 hp1 n1) (h2 : Trade hp1 o2 hp2 n2)
    (hlt1 : ∀ p ∈ o1, p < hp.next) (hlt2 : ∀ p ∈ o2, p < hp.next) : Trade hp (o1 ++ o2) hp2 (n1 ++ n2) where
  ok := h2.ok
  le := Nat.le_trans h1.le h2.le
  fresh p hp' := by
    rcases List.mem_append.mp hp' with h | h
    · exact h1.fresh p h
    · exact Nat.le_trans h1.le (h2.fresh p h)
  nodup := by
    rw [List.nodup_append]
    refine ⟨h1.nodup, h2.nodup, fun a ha b hb hab => ?_⟩
    subst hab
    have := h1.ok a (h1.alive a ha)
    have := h2.fresh a hb
    omega
  alive p hp' := by
    rcases List.mem_append.mp hp' with h | h
    · have ha := h1.alive p h
      have hf := h1.fresh p h
      rw [h2.frame p (fun hc => by have := hlt2 p hc; omega) (fun hc => by have := h1.ok p ha; have := h2.fresh p hc; omega)]
      exact ha
    · exact h2.alive p h
  gone p hp' := by
    by_cases ho : p ∈ o2
    · exact h2.gone p ho
    · have h : p ∈ o1 := by
        rcases List.mem_append.mp hp' with h | h
        · exact h
        · exact absurd h ho
      rw [h2.frame p ho (fun hc => by have := hlt1 p h; have := h1.le; have := h2.fresh p hc; omega)]
      exact h1.gone p h
  frame p ho hn := by
    rw [List.mem_append, not_or] at ho hn
    rw [h2.frame p ho.2 hn.2, h1.frame p ho.1 hn.1]

theorem read_of_cells {hp hp' : Heap} {v : HView} (h : ∀ p ∈ ptrs [v], hp'.cells p = hp.cells p) : v.read hp' = v.read hp := by
  unfold HView.read
  cases hv : v.cell with
  | none => rfl
  | some p => simp only [h p (by simp [ptrs, hv])]

theorem alloc_trade {hp : Heap} (h : hp.Ok) (bs : List Byte) : Trade hp [] (HView.alloc hp bs).1 (ptrs [(HView.alloc hp bs).2]) := by
  refine ⟨?_, by simp [HView.alloc], by simp [HView.alloc, ptrs], by simp [HView.alloc, ptrs], ?_, by simp, ?_⟩
  · intro p hc
    simp only [HView.alloc, put] at hc ⊢
    by_cases hp' : p = hp.next
    · omega
    · rw [if_neg hp'] at hc
      have := h p hc
      omega
  · simp [HView.alloc, ptrs, put]
  · intro p _ hn
    simp only [HView.alloc, ptrs, List.filterMap_cons, List.filterMap_nil, List.mem_singleton] at hn
    simp [HView.alloc, put, hn]

theorem alloc_read (hp : Heap) (bs : List Byte) : (HView.alloc hp bs).2.read (HView.alloc hp bs).1 = some bs := by
  simp [HView.alloc, HView.read, put, rdN]

theorem free_trade {hp : Heap} (h : hp.Ok) {v : HView} (hv : ∀ p ∈ ptrs [v], hp.cells p ≠ none) :
    ∃ hp', HView.free hp v = some hp' ∧ Trade hp (ptrs [v]) hp' [] ∧ hp'.next = hp.next := by
  unfold HView.free
  cases hc : v.cell with
  | none => exact ⟨hp, rfl, by simpa [ptrs, hc] using Trade.refl h, rfl⟩
  | some p =>
    have hp' := hv p (by simp [ptrs, hc])
    cases hx : hp.cells p with
    | none => exact absurd hx hp'
    | some bs =>
      refine ⟨⟨hp.next, put hp.cells p none⟩, by simp [hx], ⟨?_, Nat.le_refl _, by simp, List.nodup_nil, by simp, ?_, ?_⟩, rfl⟩
      · intro q hq
        simp only [put] at hq
        by_cases hqp : q = p
        · simp [hqp] at hq
        · rw [if_neg hqp] at hq
          exact h q hq
      · intro q hq
        simp only [ptrs, List.filterMap_cons, hc, List.filterMap_nil, List.mem_singleton] at hq
        simp [put, hq]
      · intro q hq _
        simp only [ptrs, List.filterMap_cons, hc, List.filterMap_nil, List.mem_singleton] at hq
        simp [put, hq]

/-- All views can be read, with these contents. -/
def Holds (hp : Heap) (vs : List HView) (bs : List (List Byte)) : Prop := vs.mapM (fun v => v.read hp) = some bs

theorem holds_cons {hp : Heap} {v : HView} {vs : List HView} {bs : List (List Byte)} :
    Holds hp (v :: vs) bs ↔ ∃ b bs', bs = b :: bs' ∧ v.read hp = some b ∧ Holds hp vs bs' := by
  unfold Holds
  simp only [List.mapM_cons, Option.bind_eq_bind, Option.pure_def]
  cases v.read hp with
  | none => simp
  | some b =>
    cases vs.mapM (fun v => v.read hp) with
    | none => simp
    | some bs' => simp [eq_comm]

theorem ptrs_cons (v : HView) (vs : List HView) : ptrs (v :: vs) = ptrs [v] ++ ptrs vs := by
  simp only [ptrs, List.filterMap_cons, List.filterMap_nil]
  cases v.cell <;> rfl

theorem holds_congr {hp hp' : Heap} {vs : List HView} {bs : List (List Byte)} (h : ∀ p ∈ ptrs vs, hp'.cells p = hp.cells p)
    (hh : Holds hp vs bs) : Holds hp' vs bs := by
  unfold Holds at *
  rw [← hh]
  clear hh
  induction vs with
  | nil => rfl
  | cons v vs ih =>
    rw [ptrs_cons] at h
    simp only [List.mapM_cons]
    rw [read_of_cells fun p hp => h p (List.mem_append_left _ hp), ih fun p hp => h p (List.mem_append_right _ hp)]

theorem copyNew_trade {hp : Heap} (h : hp.Ok) {v : HView} {b : List Byte} (hv : v.read hp = some b) :
    ∃ hp' v', HView.copyNew hp v = some (hp', v') ∧ Trade hp [] hp' (ptrs [v']) ∧ v'.read hp' = some b :=
  ⟨_, _, by simp [HView.copyNew, hv], alloc_trade h b, alloc_read hp b⟩

theorem copyAll_trade {vs : List HView} : ∀ {hp : Heap} {bs : List (List Byte)}, hp.Ok → Holds hp vs bs → (∀ p ∈ ptrs vs, p < hp.next) →
    ∃ hp' vs', copyAll hp vs = some (hp', vs') ∧ Trade hp [] hp' (ptrs vs') ∧ Holds hp' vs' bs := by
  induction vs with
  | nil =>
    intro hp bs hok hh _
    have : bs = [] := by simpa [Holds] using hh.symm
    subst this
    exact ⟨hp, [], rfl, Trade.refl hok, rfl⟩
  | cons v vs ih =>
    intro hp bs hok hh hlt
    obtain ⟨b, bs', rfl, hb, hh'⟩ := holds_cons.mp hh
    obtain ⟨hp1, v', e1, t1, r1⟩ := copyNew_trade hok hb
    rw [ptrs_cons] at hlt
    have hlt1 : ∀ p ∈ ptrs vs, p < hp.next := fun p hp => hlt p (List.mem_append_right _ hp)
    obtain ⟨hp2, vs', e2, t2, r2⟩ := ih t1.ok (holds_congr (fun p hp' => t1.frame p (by simp) fun hc => by
        have := hlt1 p hp'; have := t1.fresh p hc; omega) hh') (fun p hp' => Nat.lt_of_lt_of_le (hlt1 p hp') t1.le)
    refine ⟨hp2, v' :: vs', by simp [copyAll, e1, e2], ?_, ?_⟩
    · rw [ptrs_cons]
      exact Trade.comp t1 t2 (by simp) (by simp)
    · refine holds_cons.mpr ⟨b, bs', rfl, ?_, r2⟩
      rw [← r1]
      refine read_of_cells fun p hp' => t2.frame p (by simp) fun hc => ?_
      have := t1.ok p (t1.alive p hp')
      have := t2.fresh p hc
      omega

theorem freeAll_trade {vs : List HView} : ∀ {hp : Heap}, hp.Ok → (∀ p ∈ ptrs vs, hp.cells p ≠ none) → (ptrs vs).Nodup →
    ∃ hp', freeAll hp vs = some hp' ∧ Trade hp (ptrs vs) hp' [] := by
  induction vs with
  | nil => intro hp hok _ _; exact ⟨hp, rfl, Trade.refl hok⟩
  | cons v vs ih =>
    intro hp hok ha hn
    rw [ptrs_cons] at ha hn
    rw [List.nodup_append] at hn
    obtain ⟨hp1, e1, t1, n1⟩ := free_trade hok fun p hp => ha p (List.mem_append_left _ hp)
    have ha1 : ∀ p ∈ ptrs vs, hp1.cells p ≠ none := fun p hp' => by
      rw [t1.frame p (fun hc => hn.2.2 p hc p hp' rfl) (by simp)]
      exact ha p (List.mem_append_right _ hp')
    obtain ⟨hp2, e2, t2⟩ := ih t1.ok ha1 hn.2.1
    refine ⟨hp2, by simp [freeAll, e1, e2], ?_⟩
    rw [ptrs_cons]
    exact Trade.comp t1 t2 (fun p hp' => hok p (ha p (List.mem_append_left _ hp'))) (fun p hp' => hok p (ha p (List.mem_append_right _ hp')))

theorem assignAll_trade : ∀ {ds vs : List HView} {hp : Heap} {bs : List (List Byte)}, ds.length = vs.length → hp.Ok → Holds hp vs bs →
    (∀ p ∈ ptrs ds, hp.cells p ≠ none) → (ptrs ds).Nodup → (∀ p ∈ ptrs vs, p < hp.next) → (∀ p ∈ ptrs vs, p ∉ ptrs ds) →
    ∃ hp' ds', assignAll hp ds vs = some (hp', ds') ∧ Trade hp (ptrs ds) hp' (ptrs ds') ∧ Holds hp' ds' bs ∧ ds'.length = ds.length := by
  intro ds
  induction ds with
  | nil =>
    intro vs hp bs hl hok hh _ _ _ _
    have : vs = [] := by cases vs <;> simp_all
    subst this
    have : bs = [] := by simpa [Holds] using hh.symm
    subst this
    exact ⟨hp, [], rfl, Trade.refl hok, rfl, rfl⟩
  | cons d ds ih =>
    intro vs hp bs hl hok hh ha hn hlt hdis
    cases vs with
    | nil => simp at hl
    | cons v vs =>
    obtain ⟨b, bs', rfl, hb, hh'⟩ := holds_cons.mp hh
    rw [ptrs_cons d] at ha hn
    rw [ptrs_cons v] at hlt
    rw [ptrs_cons v, ptrs_cons d] at hdis
    rw [List.nodup_append] at hn
    have ltd : ∀ p ∈ ptrs [d], p < hp.next := fun p hp' => hok p (ha p (List.mem_append_left _ hp'))
    have ltds : ∀ p ∈ ptrs ds, p < hp.next := fun p hp' => hok p (ha p (List.mem_append_right _ hp'))
    obtain ⟨hp1, e1, t1, n1⟩ := free_trade hok fun p hp => ha p (List.mem_append_left _ hp)
    have hv1 : ∀ p ∈ ptrs [v] ++ ptrs vs, hp1.cells p = hp.cells p := fun p hp' =>
      t1.frame p (fun hc => hdis p hp' (List.mem_append_left _ hc)) (by simp)
    obtain ⟨hp2, d', e2, t2, r2⟩ := copyNew_trade t1.ok (v := v) (b := b) (by
      rw [← hb]; exact read_of_cells fun p hp' => hv1 p (List.mem_append_left _ hp'))
    have t12 : Trade hp (ptrs [d]) hp2 (ptrs [d']) := by simpa using Trade.comp t1 t2 ltd (by simp)
    have h2 : ∀ p, p < hp.next → p ∉ ptrs [d] → hp2.cells p = hp.cells p := fun p hp' hd =>
      t12.frame p hd fun hc => by have := t12.fresh p hc; omega
    obtain ⟨hp3, ds', e3, t3, r3, l3⟩ := ih (vs := vs) (by simpa using hl) t12.ok
      (holds_congr (fun p hp' => h2 p (hlt p (List.mem_append_right _ hp')) fun hc =>
        hdis p (List.mem_append_right _ hp') (List.mem_append_left _ hc)) hh')
      (fun p hp' => by
        rw [h2 p (ltds p hp') fun hc => hn.2.2 p hc p hp' rfl]
        exact ha p (List.mem_append_right _ hp'))
      hn.2.1 (fun p hp' => Nat.lt_of_lt_of_le (hlt p (List.mem_append_right _ hp')) t12.le)
      (fun p hp' hc => hdis p (List.mem_append_right _ hp') (List.mem_append_right _ hc))
    refine ⟨hp3, d' :: ds', by simp [assignAll, HView.copyAssign, e1, e2, e3], ?_, ?_, by simp [l3]⟩
    · rw [ptrs_cons d, ptrs_cons d']
      exact Trade.comp t12 t3 ltd ltds
    · refine holds_cons.mpr ⟨b, bs', rfl, ?_, r3⟩
      rw [← r2]
      refine read_of_cells fun p hp' => t3.frame p (fun hc => ?_) fun hc => ?_
      · have := ltds p hc
        have := t12.fresh p hp'
        omega
      · have := t12.ok p (t12.alive p hp')
        have := t3.fresh p hc
        omega

theorem retain_trade {hp : Heap} (h : hp.Ok) (m : Mem) {d : HView} {s : Span} {b : List Byte} (hs : s.read m = some b)
    (hd : ∀ p ∈ ptrs [d], hp.cells p ≠ none) :
    ∃ hp' d', HView.retain hp m d s = some (hp', d') ∧ Trade hp (ptrs [d]) hp' (ptrs [d']) ∧ d'.read hp' = some b := by
  have t1 := alloc_trade h b
  have hlt : ∀ p ∈ ptrs [d], p < hp.next := fun p hp' => h p (hd p hp')
  have hne : ∀ p ∈ ptrs [d], p ∉ ptrs [(HView.alloc hp b).2] := fun p hp' hc => by
    have := hlt p hp'; have := t1.fresh p hc; omega
  obtain ⟨hp2, e2, t2, -⟩ := free_trade t1.ok (v := d) fun p hp' => by
    rw [t1.frame p (by simp) (hne p hp')]
    exact hd p hp'
  refine ⟨hp2, (HView.alloc hp b).2, ?_, by simpa using Trade.comp t1 t2 (by simp) hlt, ?_⟩
  · have e3 : HView.free hp2 HView.null = some hp2 := rfl
    simp only [HView.retain, HView.fromSpan, hs, HView.moveAssign, e2, e3, Option.bind_eq_bind, Option.bind_some, Option.pure_def]
  · rw [read_of_cells (hp := (HView.alloc hp b).1) fun p hp' => t2.frame p (fun hc => hne p hc hp') (by simp), alloc_read]

theorem retainAll_trade (m : Mem) : ∀ {ds : List HView} {ss : List Span} {hp : Heap} {bs : List (List Byte)}, ds.length = ss.length → hp.Ok →
    ss.mapM (fun s => s.read m) = some bs → (∀ p ∈ ptrs ds, hp.cells p ≠ none) → (ptrs ds).Nodup →
    ∃ hp' ds', retainAll m hp ds ss = some (hp', ds') ∧ Trade hp (ptrs ds) hp' (ptrs ds') ∧ Holds hp' ds' bs ∧ ds'.length = ds.length := by
  intro ds
  induction ds with
  | nil =>
    intro ss hp bs hl hok hh _ _
    have : ss = [] := by cases ss <;> simp_all
    subst this
    have : bs = [] := by simpa using hh.symm
    subst this
    exact ⟨hp, [], rfl, Trade.refl hok, rfl, rfl⟩
  | cons d ds ih =>
    intro ss hp bs hl hok hh ha hn
    cases ss with
    | nil => simp at hl
    | cons s ss =>
    simp only [List.mapM_cons, Option.bind_eq_bind, Option.pure_def] at hh
    cases hs : s.read m with
    | none => rw [hs] at hh; simp at hh
    | some b =>
    cases hss : ss.mapM (fun s => s.read m) with
    | none => rw [hs, hss] at hh; simp at hh
    | some bs' =>
    rw [hs, hss] at hh
    simp only [Option.bind_some, Option.some.injEq] at hh
    subst hh
    rw [ptrs_cons d] at ha hn
    rw [List.nodup_append] at hn
    have ltd : ∀ p ∈ ptrs [d], p < hp.next := fun p hp' => hok p (ha p (List.mem_append_left _ hp'))
    have ltds : ∀ p ∈ ptrs ds, p < hp.next := fun p hp' => hok p (ha p (List.mem_append_right _ hp'))
    obtain ⟨hp2, d', e2, t12, r2⟩ := retain_trade hok m hs fun p hp => ha p (List.mem_append_left _ hp)
    obtain ⟨hp3, ds', e3, t3, r3, l3⟩ := ih (ss := ss) (by simpa using hl) t12.ok hss
      (fun p hp' => by
        rw [t12.frame p (fun hc => hn.2.2 p hc p hp' rfl) fun hc => by have := ltds p hp'; have := t12.fresh p hc; omega]
        exact ha p (List.mem_append_right _ hp'))
      hn.2.1
    refine ⟨hp3, d' :: ds', by simp [retainAll, e2, e3], ?_, ?_, by simp [l3]⟩
    · rw [ptrs_cons d, ptrs_cons d']
      exact Trade.comp t12 t3 ltd ltds
    · refine holds_cons.mpr ⟨b, bs', rfl, ?_, r3⟩
      rw [← r2]
      refine read_of_cells fun p hp' => t3.frame p (fun hc => ?_) fun hc => ?_
      · have := ltds p hc
        have := t12.fresh p hp'
        omega
      · have := t12.ok p (t12.alive p hp')
        have := t3.fresh p hc
        omega


/-! ### All objects of a program -/

/-- What the views of a class must satisfy. -/
structure ViewLaws (V : Viewed) : Prop where
  count : ∀ a, (V.views a).length = V.count
  setSet : ∀ s b c, V.setViews (V.setViews s b) c = V.setViews s c
  fresh : V.setViews V.K.fresh (List.replicate V.count []) = V.K.fresh
  initSame : ∀ s s' m a, V.setViews s = V.setViews s' → V.K.init s m a = V.K.init s' m a
  init : ∀ s m a s', V.K.init s m a = some s' → ∃ bs, (V.views a).mapM (fun v => v.read m) = some bs ∧ V.setViews s' bs = s'
  derive : ∀ s m key n s' out bs, V.K.derive s m key n = some (s', out) → V.setViews s bs = s → V.setViews s' bs = s'

/-- Every block belongs to exactly one live object, once. -/
structure Owned {V : Viewed} (hp : Heap) (sl : Nat → Option (HObj V)) : Prop where
  ok : hp.Ok
  nodup : ∀ i x, sl i = some x → (ptrs x.views).Nodup
  alive : ∀ i x, sl i = some x → ∀ p ∈ ptrs x.views, hp.cells p ≠ none
  apart : ∀ i j x y, sl i = some x → sl j = some y → ∀ p, p ∈ ptrs x.views → p ∈ ptrs y.views → i = j
  owner : ∀ p, hp.cells p ≠ none → ∃ i x, sl i = some x ∧ p ∈ ptrs x.views

theorem Owned.lt {V : Viewed} {hp : Heap} {sl : Nat → Option (HObj V)} (h : Owned hp sl) {i : Nat} {x : HObj V} (hi : sl i = some x) :
    ∀ p ∈ ptrs x.views, p < hp.next := fun p hp' => h.ok p (h.alive i x hi p hp')

/-- The blocks object `i` (alive or not) owns. -/
def owns {V : Viewed} (x : Option (HObj V)) : List Nat := match x with
  | none => []
  | some x => ptrs x.views

/-- An operation on the views of one object. -/
theorem Owned.trade {V : Viewed} {hp hp' : Heap} {sl : Nat → Option (HObj V)} (h : Owned hp sl) (i : Nat) {new : List Nat}
    (x' : Option (HObj V)) (t : Trade hp (owns (sl i)) hp' new) (hx : owns x' = new) : Owned hp' (put sl i x') where
  ok := t.ok
  nodup k x hk := by
    by_cases hki : k = i
    · subst hki
      rw [put_same] at hk
      subst hk
      have := t.nodup
      rw [← hx] at this
      exact this
    · rw [put_other hki] at hk
      exact h.nodup k x hk
  alive k x hk p hp1 := by
    by_cases hki : k = i
    · subst hki
      rw [put_same] at hk
      subst hk
      exact t.alive p (hx ▸ hp1)
    · rw [put_other hki] at hk
      rw [t.frame p (fun hc => ?_) (fun hc => ?_)]
      · exact h.alive k x hk p hp1
      · cases hs : sl i with
        | none => rw [hs] at hc; simp [owns] at hc
        | some y =>
          rw [hs] at hc
          exact hki (h.apart k i x y hk hs p hp1 hc)
      · have := h.lt hk p hp1
        have := t.fresh p hc
        omega
  apart k j x y hk hj p hp1 hp2 := by
    by_cases hki : k = i <;> by_cases hji : j = i
    · omega
    · subst hki
      rw [put_same] at hk
      rw [put_other hji] at hj
      subst hk
      have := h.lt hj p hp2
      have := t.fresh p (hx ▸ hp1)
      omega
    · subst hji
      rw [put_same] at hj
      rw [put_other hki] at hk
      subst hj
      have := h.lt hk p hp1
      have := t.fresh p (hx ▸ hp2)
      omega
    · rw [put_other hki] at hk
      rw [put_other hji] at hj
      exact h.apart k j x y hk hj p hp1 hp2
  owner p hc := by
    by_cases hn : p ∈ new
    · cases x' with
      | none => simp only [owns] at hx; rw [← hx] at hn; simp at hn
      | some x' => exact ⟨i, x', put_same, by rw [← hx] at hn; exact hn⟩
    · by_cases ho : p ∈ owns (sl i)
      · exact absurd (t.gone p ho) hc
      · rw [t.frame p ho hn] at hc
        obtain ⟨k, x, hk, hpk⟩ := h.owner p hc
        have hki : k ≠ i := by rintro rfl; rw [hk] at ho; exact ho hpk
        exact ⟨k, x, by rw [put_other hki]; exact hk, hpk⟩

/-- One slot: the state of an object used alone, apart from the views; the content of the views. -/
def HSlotOk (V : Viewed) (m0 m : Mem) (hp : Heap) (x : Option (HObj V)) : Option (Life (Kdf.Call V.K.Args)) → Prop
  | none => x = none
  | some l => ∃ s o x', x = some x' ∧ runCalls (Kdf.exec V.K) (V.K.fresh, m0) l.past = some ((s, m), o) ∧ x'.views.length = V.count ∧
      V.setViews s = V.setViews x'.st ∧ (l.moved = false → ∃ bs, Holds hp x'.views bs ∧ V.setViews s bs = s)

def HeapInv (V : Viewed) (m0 : Mem) (w : World (Kdf.Call V.K.Args)) (st : (Mem × Heap) × (Nat → Option (HObj V))) : Prop :=
  (∃ o, runCalls (Kdf.exec V.K) (V.K.fresh, m0) w.env = some ((V.K.fresh, st.1.1), o)) ∧ Owned st.1.2 st.2 ∧
    ∀ k, HSlotOk V m0 st.1.1 st.1.2 (st.2 k) (w.life k)

theorem holds_null (hp : Heap) (n : Nat) : Holds hp (List.replicate n HView.null) (List.replicate n []) := by
  induction n with
  | zero => rfl
  | succ n ih =>
    rw [List.replicate_succ, List.replicate_succ]
    exact holds_cons.mpr ⟨[], _, rfl, by simp [HView.read, HView.null, rdN], ih⟩

theorem ptrs_null (n : Nat) : ptrs (List.replicate n HView.null) = [] := by
  induction n with
  | zero => rfl
  | succ n ih => rw [List.replicate_succ, ptrs_cons, ih]; rfl

/-- The other slots do not notice. -/
theorem HSlotOk.frame {V : Viewed} {m0 m : Mem} {hp hp' : Heap} {x : Option (HObj V)} {l : Option (Life (Kdf.Call V.K.Args))}
    (h : HSlotOk V m0 m hp x l) (hf : ∀ p ∈ owns x, hp'.cells p = hp.cells p) : HSlotOk V m0 m hp' x l := by
  cases l with
  | none => exact h
  | some l =>
    obtain ⟨s, o, x', rfl, hr, hl, hs, hv⟩ := h
    refine ⟨s, o, x', rfl, hr, hl, hs, fun hm => ?_⟩
    obtain ⟨bs, hb, hset⟩ := hv hm
    exact ⟨bs, holds_congr hf hb, hset⟩

theorem Owned.others {V : Viewed} {hp hp' : Heap} {sl : Nat → Option (HObj V)} (h : Owned hp sl) {i k : Nat} (hk : k ≠ i) {new : List Nat}
    (t : Trade hp (owns (sl i)) hp' new) : ∀ p ∈ owns (sl k), hp'.cells p = hp.cells p := by
  intro p hp1
  cases hs : sl k with
  | none => rw [hs] at hp1; simp [owns] at hp1
  | some x =>
    rw [hs] at hp1
    refine t.frame p (fun hc => ?_) (fun hc => ?_)
    · cases hi : sl i with
      | none => rw [hi] at hc; simp [owns] at hc
      | some y =>
        rw [hi] at hc
        exact hk (h.apart k i x y hs hi p hp1 hc)
    · have := h.lt hs p hp1
      have := t.fresh p hc
      omega

/-- Ownership passes from object `j` to the new object `i`. -/
theorem Owned.handOver {V : Viewed} {hp : Heap} {sl : Nat → Option (HObj V)} (h : Owned hp sl) {i j : Nat} (hij : i ≠ j) (hi : sl i = none) {y y' : HObj V}
    (hj : sl j = some y) (hy : ptrs y'.views = []) : Owned hp (put (put sl i (some y)) j (some y')) := by
  -- every block has the same owner as before, `j`'s being `i`'s now
  have key : ∀ k x, put (put sl i (some y)) j (some y') k = some x → ∀ p ∈ ptrs x.views, (k = i ∧ x = y) ∨ (k ≠ i ∧ k ≠ j ∧ sl k = some x) := by
    intro k x hk p hp'
    by_cases hkj : k = j
    · subst hkj
      rw [put_same] at hk
      cases hk
      rw [hy] at hp'
      simp at hp'
    · rw [put_other hkj] at hk
      by_cases hki : k = i
      · subst hki
        rw [put_same] at hk
        cases hk
        exact Or.inl ⟨rfl, rfl⟩
      · rw [put_other hki] at hk
        exact Or.inr ⟨hki, hkj, hk⟩
  refine ⟨h.ok, fun k x hk => ?_, fun k x hk p hp' => ?_, fun k k' x x' hk hk' p hp1 hp2 => ?_, fun p hc => ?_⟩
  · by_cases hkj : k = j
    · subst hkj
      rw [put_same] at hk
      cases hk
      rw [hy]
      exact List.nodup_nil
    · rw [put_other hkj] at hk
      by_cases hki : k = i
      · subst hki
        rw [put_same] at hk
        cases hk
        exact h.nodup j y hj
      · rw [put_other hki] at hk
        exact h.nodup k x hk
  · rcases key k x hk p hp' with ⟨rfl, rfl⟩ | ⟨-, -, h1⟩
    · exact h.alive j x hj p hp'
    · exact h.alive k x h1 p hp'
  · rcases key k x hk p hp1 with ⟨rfl, rfl⟩ | ⟨a1, a2, h1⟩ <;> rcases key k' x' hk' p hp2 with ⟨rfl, rfl⟩ | ⟨b1, b2, h2⟩
    · rfl
    · exact absurd (h.apart j k' x x' hj h2 p hp1 hp2).symm b2
    · exact absurd (h.apart k j x x' h1 hj p hp1 hp2) a2
    · exact h.apart k k' x x' h1 h2 p hp1 hp2
  · obtain ⟨k, x, hk, hp'⟩ := h.owner p hc
    by_cases hkj : k = j
    · subst hkj
      rw [hj] at hk
      cases hk
      exact ⟨i, y, by rw [put_other hij, put_same], hp'⟩
    · have hki : k ≠ i := by rintro rfl; rw [hi] at hk; exact absurd hk (by simp)
      exact ⟨k, x, by rw [put_other hkj, put_other hki]; exact hk, hp'⟩

/-- The state changes, the views do not. -/
theorem Owned.sameViews {V : Viewed} {hp : Heap} {sl : Nat → Option (HObj V)} (h : Owned hp sl) {i : Nat} {x x' : HObj V}
    (hi : sl i = some x) (hv : x'.views = x.views) : Owned hp (put sl i (some x')) := by
  have key : ∀ k z, put sl i (some x') k = some z → ∃ z', sl k = some z' ∧ z'.views = z.views := by
    intro k z hk
    by_cases hki : k = i
    · subst hki
      rw [put_same] at hk
      cases hk
      exact ⟨x, hi, hv.symm⟩
    · rw [put_other hki] at hk
      exact ⟨z, hk, rfl⟩
  refine ⟨h.ok, fun k z hk => ?_, fun k z hk => ?_, fun k k' z z' hk hk' => ?_, fun p hc => ?_⟩
  · obtain ⟨z', h1, h2⟩ := key k z hk
    rw [← h2]; exact h.nodup k z' h1
  · obtain ⟨z', h1, h2⟩ := key k z hk
    rw [← h2]; exact h.alive k z' h1
  · obtain ⟨y, h1, h2⟩ := key k z hk
    obtain ⟨y', h1', h2'⟩ := key k' z' hk'
    rw [← h2, ← h2']; exact h.apart k k' y y' h1 h1'
  · obtain ⟨k, z, hk, hp'⟩ := h.owner p hc
    by_cases hki : k = i
    · subst hki
      rw [hi] at hk
      cases hk
      exact ⟨k, x', put_same, by rw [hv]; exact hp'⟩
    · exact ⟨k, z, by rw [put_other hki]; exact hk, hp'⟩

theorem mapM_length {α β : Type} {f : α → Option β} : ∀ {xs : List α} {ys : List β}, xs.mapM f = some ys → ys.length = xs.length := by
  intro xs
  induction xs with
  | nil => intro ys h; have : ys = [] := by simpa using h.symm
           subst this; rfl
  | cons x xs ih =>
    intro ys h
    simp only [List.mapM_cons, Option.bind_eq_bind, Option.pure_def] at h
    cases hx : f x with
    | none => rw [hx] at h; simp at h
    | some y =>
      cases hxs : xs.mapM f with
      | none => rw [hx, hxs] at h; simp at h
      | some ys' =>
        rw [hx, hxs] at h
        simp only [Option.bind_some, Option.some.injEq] at h
        subst h
        simp [ih hxs]

theorem isPoke_eq {A : Type} {c : Kdf.Call A} (h : isPoke c = true) : ∃ b x, c = .poke b x := by
  cases c <;> simp [isPoke] at h
  exact ⟨_, _, rfl⟩

theorem heap_step {V : Viewed} (L : ViewLaws V) (m0 : Mem) :
    ∀ w (st : (Mem × Heap) × (Nat → Option (HObj V))) op, HeapInv V m0 w st → Legal (kdfRules V.K m0) (Answered (kdfRules V.K m0)) w op →
      ∃ st', (heapKdf V).step st op = some (st', expect (kdfRules V.K m0) w op) ∧ HeapInv V m0 (after w op) st' := by
  rintro w ⟨⟨m, hp⟩, sl⟩ op ⟨⟨oe, he⟩, hown, hs⟩ hl
  dsimp only at he hown hs
  have hsource : ∀ j, Source (kdfRules V.K m0) w j → ∃ l s o x bs, w.life j = some l ∧ sl j = some x ∧
      runCalls (Kdf.exec V.K) (V.K.fresh, m0) l.past = some ((s, m), o) ∧ x.views.length = V.count ∧ V.setViews s = V.setViews x.st ∧
      Holds hp x.views bs ∧ V.setViews s bs = s := by
    rintro j ⟨l, hj, hm, -⟩
    have := hs j
    rw [hj] at this
    obtain ⟨s, o, x, hx, hr, hc, hsv, hv⟩ := this
    obtain ⟨bs, hb, hset⟩ := hv hm
    exact ⟨l, s, o, x, bs, hj, hx, hr, hc, hsv, hb, hset⟩
  have hdead : ∀ i, w.life i = none → sl i = none := by
    intro i hi
    have := hs i
    rw [hi] at this
    exact this
  have hlive : ∀ i, w.life i ≠ none → ∃ l s o x, w.life i = some l ∧ sl i = some x ∧
      runCalls (Kdf.exec V.K) (V.K.fresh, m0) l.past = some ((s, m), o) ∧ x.views.length = V.count ∧ V.setViews s = V.setViews x.st ∧
      (l.moved = false → ∃ bs, Holds hp x.views bs ∧ V.setViews s bs = s) := by
    intro i hi
    have := hs i
    cases hw : w.life i with
    | none => exact absurd hw hi
    | some l =>
      rw [hw] at this
      obtain ⟨s, o, x, hx, hr, hc, hsv, hv⟩ := this
      exact ⟨l, s, o, x, rfl, hx, hr, hc, hsv, hv⟩
  cases op with
  | new i =>
    have hi := hdead i hl
    let x : HObj V := ⟨V.K.fresh, List.replicate V.count HView.null⟩
    have t : Trade hp (owns (sl i)) hp [] := by rw [hi]; exact Trade.refl hown.ok
    refine ⟨(((m, hp), put sl i (some x)) : (Mem × Heap) × (Nat → Option (HObj V))), by simp [ObjClass.step, hi, heapKdf, expect, x], ⟨oe, he⟩,
      hown.trade i (some x) t (by simp [owns, x, ptrs_null]), fun k => ?_⟩
    by_cases hk : k = i
    · subst hk
      simp only [after, put_same]
      exact ⟨V.K.fresh, oe, x, rfl, he, by simp [x], rfl, fun _ => ⟨_, holds_null hp _, L.fresh⟩⟩
    · simp only [after, put_other hk]; exact hs k
  | copy i j =>
    obtain ⟨l, s, o, y, bs, hj, hy, hr, hc, hsv, hb, hset⟩ := hsource j hl.2
    have hi := hdead i hl.1
    obtain ⟨hp', vs, e, t, hb'⟩ := copyAll_trade hown.ok hb (hown.lt hy)
    have hlen : vs.length = V.count := by
      have h1 : bs.length = vs.length := mapM_length hb'
      have h2 : bs.length = y.views.length := mapM_length hb
      omega
    let x : HObj V := ⟨y.st, vs⟩
    have t' : Trade hp (owns (sl i)) hp' (ptrs vs) := by rw [hi]; exact t
    refine ⟨(((m, hp'), put sl i (some x)) : (Mem × Heap) × (Nat → Option (HObj V))), by simp [ObjClass.step, hi, hy, heapKdf, expect, e, x], ⟨oe, he⟩,
      hown.trade i (some x) t' rfl, fun k => ?_⟩
    by_cases hk : k = i
    · subst hk
      simp only [after, put_same, hj]
      exact ⟨s, o, x, rfl, hr, hlen, hsv, fun _ => ⟨bs, hb', hset⟩⟩
    · simp only [after, put_other hk]; exact (hs k).frame (hown.others hk t')
  | move i j =>
    obtain ⟨l, s, o, y, bs, hj, hy, hr, hc, hsv, hb, hset⟩ := hsource j hl.2
    have hi := hdead i hl.1
    have hij : i ≠ j := by rintro rfl; rw [hl.1] at hj; exact absurd hj (by simp)
    let y' : HObj V := ⟨y.st, List.replicate V.count HView.null⟩
    have e1 : (y.views.map fun v => (HView.moveNew v).1) = y.views := by simp [HView.moveNew]
    have e2 : (y.views.map fun v => (HView.moveNew v).2) = List.replicate V.count HView.null := by
      rw [← hc]; simp [HView.moveNew, List.map_const']
    refine ⟨(((m, hp), put (put sl i (some y)) j (some y')) : (Mem × Heap) × (Nat → Option (HObj V))),
      by simp only [ObjClass.step, hi, hy, heapKdf, expect, e1, e2]; rfl, ⟨oe, he⟩, ?_, fun k => ?_⟩
    · exact hown.handOver hij hi hy (by simp [y', ptrs_null])
    · by_cases hk : k = j
      · subst hk
        simp only [after, put_same, hj]
        exact ⟨s, o, y', rfl, hr, by simp [y'], hsv, fun h => absurd h (by simp)⟩
      · simp only [after, put_other hk]
        by_cases hk' : k = i
        · subst hk'
          simp only [put_same, hj]
          exact ⟨s, o, y, rfl, hr, hc, hsv, fun _ => ⟨bs, hb, hset⟩⟩
        · simp only [put_other hk']; exact hs k
  | assign i j =>
    obtain ⟨l, s, o, y, bs, hj, hy, hr, hc, hsv, hb, hset⟩ := hsource j hl.2
    obtain ⟨l', s', o', x, hi, hx, hr', hc', hsv', hv'⟩ := hlive i hl.1
    by_cases hij : i = j
    · subst hij
      have : put sl i (some x) = sl := by
        funext k
        by_cases hk : k = i
        · subst hk; rw [put_same, hx]
        · rw [put_other hk]
      have hw : put w.life i (w.life i) = w.life := by
        funext k
        by_cases hk : k = i
        · subst hk; rw [put_same]
        · rw [put_other hk]
      refine ⟨(((m, hp), put sl i (some x)) : (Mem × Heap) × (Nat → Option (HObj V))), by simp [ObjClass.step, hx, heapKdf, expect], ⟨oe, he⟩, ?_, fun k => ?_⟩
      · dsimp only; rw [this]; exact hown
      · simp only [after, hw, this]; exact hs k
    · obtain ⟨hp', vs, e, t, hb', hlen⟩ := assignAll_trade (ds := x.views) (vs := y.views) (by omega) hown.ok hb (hown.alive i x hx) (hown.nodup i x hx)
        (hown.lt hy) (fun p h1 h2 => hij (hown.apart i j x y hx hy p h2 h1))
      let x' : HObj V := ⟨y.st, vs⟩
      have t' : Trade hp (owns (sl i)) hp' (ptrs vs) := by rw [hx]; exact t
      refine ⟨(((m, hp'), put sl i (some x')) : (Mem × Heap) × (Nat → Option (HObj V))), by simp [ObjClass.step, hx, hy, heapKdf, expect, hij, e, x'], ⟨oe, he⟩,
        hown.trade i (some x') t' rfl, fun k => ?_⟩
      by_cases hk : k = i
      · subst hk
        simp only [after, put_same, hj]
        exact ⟨s, o, x', rfl, hr, by simp only [x']; omega, hsv, fun _ => ⟨bs, hb', hset⟩⟩
      · simp only [after, put_other hk]; exact (hs k).frame (hown.others hk t')
  | drop i =>
    obtain ⟨l', s', o', x, hi, hx, hr', hc', hsv', hv'⟩ := hlive i hl
    obtain ⟨hp', e, t⟩ := freeAll_trade hown.ok (hown.alive i x hx) (hown.nodup i x hx)
    have t' : Trade hp (owns (sl i)) hp' [] := by rw [hx]; exact t
    refine ⟨(((m, hp'), put sl i none) : (Mem × Heap) × (Nat → Option (HObj V))), by simp [ObjClass.step, hx, heapKdf, expect, e], ⟨oe, he⟩,
      hown.trade i none t' rfl, fun k => ?_⟩
    by_cases hk : k = i
    · subst hk
      simp only [after, put_same]
      rfl
    · simp only [after, put_other hk]; exact (hs k).frame (hown.others hk t')
  | call i c =>
    obtain ⟨hne, l, hi, hrev, ha⟩ := hl
    obtain ⟨l', s, o, x, hi', hx, hr, hc, hsv, hv⟩ := hlive i (by rw [hi]; simp)
    rw [hi] at hi'
    cases hi'
    have hans : (kdfRules V.K m0).answer l.past c = (Kdf.exec V.K (s, m) c).map (·.2) := alone_eq hr
    unfold Answered at ha
    rw [hans] at ha
    cases c with
    | poke b content => simp [kdfRules, isPoke] at hne
    | init a =>
      cases hin : V.K.init s m a with
      | none => simp [Kdf.exec, hin] at ha
      | some s' =>
        obtain ⟨bs, hbs, hset⟩ := L.init s m a s' hin
        obtain ⟨hp', vs, e, t, hb', hlen⟩ := retainAll_trade m (ds := x.views) (ss := V.views a) (by rw [L.count, hc]) hown.ok hbs
          (hown.alive i x hx) (hown.nodup i x hx)
        let x' : HObj V := ⟨s', vs⟩
        have t' : Trade hp (owns (sl i)) hp' (ptrs vs) := by rw [hx]; exact t
        have hin' : V.K.init x.st m a = some s' := by rw [← L.initSame s x.st m a hsv]; exact hin
        have hex : Kdf.exec V.K (s, m) (.init a) = some ((s', m), []) := by simp [Kdf.exec, hin]
        refine ⟨(((m, hp'), put sl i (some x')) : (Mem × Heap) × (Nat → Option (HObj V))), ?_, ⟨oe, he⟩, hown.trade i (some x') t' rfl, fun k => ?_⟩
        · simp [ObjClass.step, hx, heapKdf, expect, e, hin', x', hi, hans, hex]
        · by_cases hk : k = i
          · subst hk
            simp only [after, put_same, hi, Option.map_some]
            exact ⟨s', o ++ [], x', rfl, runCalls_snoc hr hex, by simp only [x']; omega, rfl, fun _ => ⟨bs, hb', hset⟩⟩
          · simp only [after, put_other hk]; exact (hs k).frame (hown.others hk t')
    | derive r =>
      have hm : l.moved = false := by
        cases hmm : l.moved with
        | false => rfl
        | true => exact absurd (hrev hmm) (by simp [kdfRules, isInit])
      obtain ⟨bs, hb, hset⟩ := hv hm
      cases hd : Kdf.deriveReq V.K s m r with
      | none => simp [Kdf.exec, hd] at ha
      | some p =>
        obtain ⟨s', out⟩ := p
        have hset' : V.setViews s' bs = s' := by
          cases r with
          | ptr dst n =>
            cases hk : V.K.derive s m dst n with
            | none => simp [Kdf.deriveReq, hk] at hd
            | some q =>
              obtain ⟨q1, q2⟩ := q
              simp [Kdf.deriveReq, hk] at hd
              rw [← hd.1]
              exact L.derive _ _ _ _ _ _ _ hk hset
          | cont c n =>
            cases hk : V.K.derive s m (c.resize n).1.data (c.resize n).2 with
            | none => simp [Kdf.deriveReq, hk] at hd
            | some q =>
              obtain ⟨q1, q2⟩ := q
              simp [Kdf.deriveReq, hk] at hd
              rw [← hd.1]
              exact L.derive _ _ _ _ _ _ _ hk hset
        have hex : Kdf.exec V.K (s, m) (.derive r) = some ((s', m), [out]) := by simp [Kdf.exec, hd]
        have hst : V.setViews x.st bs = s := by rw [← hsv]; exact hset
        let x' : HObj V := ⟨s', x.views⟩
        refine ⟨(((m, hp), put sl i (some x')) : (Mem × Heap) × (Nat → Option (HObj V))), ?_, ⟨oe, he⟩, ?_, fun k => ?_⟩
        · have hb2 : x.views.mapM (fun v => v.read hp) = some bs := hb
          simp [ObjClass.step, hx, heapKdf, expect, hi, hans, hex, hb2, hst, hd, x']
        · exact hown.sameViews hx rfl
        · by_cases hk : k = i
          · subst hk
            simp only [after, put_same, hi, Option.map_some]
            exact ⟨s', o ++ [out], x', rfl, runCalls_snoc hr hex, hc, rfl, fun _ => ⟨bs, hb, hset'⟩⟩
          · simp only [after, put_other hk]; exact hs k
  | env c =>
    obtain ⟨b, content, rfl⟩ := isPoke_eq hl.1
    have hex : ∀ s, Kdf.exec V.K (s, m) (.poke b content) = some ((s, poke m (.poke b content : Kdf.Call V.K.Args)), []) := fun _ => rfl
    refine ⟨(((poke m (.poke b content : Kdf.Call V.K.Args), hp), sl) : (Mem × Heap) × (Nat → Option (HObj V))), rfl, ⟨oe ++ [], runCalls_snoc he (hex _)⟩, hown, fun k => ?_⟩
    have := hs k
    simp only [after]
    cases hw : w.life k with
    | none => rw [hw] at this; exact this
    | some l =>
      rw [hw] at this
      obtain ⟨s, o, x, hx, hr, hc, hsv, hv⟩ := this
      exact ⟨s, o ++ [], x, hx, runCalls_snoc hr (hex _), hc, hsv, hv⟩

theorem heap_run {V : Viewed} (L : ViewLaws V) (m0 : Mem) (ops : List (Op (Kdf.Call V.K.Args))) (ha : Allowed (kdfRules V.K m0) (Answered (kdfRules V.K m0)) World.start ops) :
    ∃ m hp sl, (heapKdf V).run ((m0, Heap.empty) : Mem × Heap) ops = some (((m, hp), sl), expected (kdfRules V.K m0) World.start ops) ∧
      ((∀ i, (worldAfter World.start ops).life i = none) → ∀ p, hp.cells p = none) := by
  have hstart : HeapInv V m0 (World.start : World (Kdf.Call V.K.Args)) ((m0, Heap.empty), fun _ => none) := by
    refine ⟨⟨[], rfl⟩, ⟨?_, ?_, ?_, ?_, ?_⟩, fun _ => rfl⟩
    · intro p h; exact absurd rfl h
    · intro i x h; exact absurd h (by simp)
    · intro i x h; exact absurd h (by simp)
    · intro i j x y h; exact absurd h (by simp)
    · intro p h; exact absurd rfl h
  obtain ⟨⟨⟨m, hp⟩, sl⟩, h1, h2⟩ := run_ok (T := heapKdf V) (kdfRules V.K m0) (HeapInv V m0) (heap_step L m0) ops World.start _ hstart ha
  refine ⟨m, hp, sl, h1, fun hall p => ?_⟩
  obtain ⟨-, hown, hs⟩ := h2
  cases hc : hp.cells p with
  | none => rfl
  | some b =>
    obtain ⟨i, x, hi, -⟩ := hown.owner p (by rw [hc]; simp)
    have := hs i
    rw [hall i] at this
    exact absurd (hi.symm.trans this) (by simp)

end Milo.Copies
