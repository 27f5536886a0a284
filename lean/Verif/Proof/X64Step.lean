import Verif.Proof.X64Sim
/- One instruction, and straight-line vector code, on the machine. -/
namespace Milo.X64
open Memory X86

theorem wr1_eq {α : Type} {l l' : List α} {i : Nat} {v : α} (h : wr1 l i v = some l') : i < l.length ∧ l' = l.set i v := by
  unfold wr1 at h
  split at h
  · exact ⟨by assumption, (Option.some.inj h).symm⟩
  · simp at h

theorem getD_set {α : Type} (l : List α) (i j : Nat) (v z : α) (h : i < l.length) : (l.set i v).getD j z = if j = i then v else l.getD j z := by
  simp only [List.getD_eq_getElem?_getD, List.getElem?_set]
  by_cases e : i = j
  · subst e; simp [h]
  · rw [if_neg e, if_neg (fun h => e h.symm)]

theorem not_misaligned {a : W64} {n : Nat} (h : a.toNat % n = 0) : ¬ (true && a.toNat % n != 0) = true := by
  rw [h]; simp

section
variable {E : Env} {M : Machine} {cd cs : Nat} {st : St Vec (Option (List Byte))} {s : State}

theorem sim_setX (sim : Sim E cd cs st s) (d : Nat) (v v' : Vec) (hv : LEq E.lanes v' v) (xs : List Vec) (hx : wr1 st.x d v = some xs) :
    Sim E cd cs { st with x := xs } (setV s d v') := by
  obtain ⟨hd, rfl⟩ := wr1_eq hx
  refine { sim with xl := by simp [sim.xl], x := fun i hi => ?_ }
  show LEq E.lanes (if i = d then v' else s.v i) ((st.x.set d v).getD i zvec)
  rw [getD_set _ _ _ _ _ hd]
  split
  · exact hv
  · exact sim.x i hi

/-- Writing slot `j`. -/
theorem slot_write (ok : E.Ok M) (sim : Sim E cd cs st s) (j : Nat) (hj : j < 22) (hS : E.slots = true) (v : Vec) :
    ∃ m', M.write s (E.F + BitVec.ofNat 64 (4 * E.lanes * j)) (vecBytes E.lanes v) = some { s with mem := m' } ∧
      LEq E.lanes (ofDb (bytesAt m' (E.F + BitVec.ofNat 64 (4 * E.lanes * j)) (4 * E.lanes))) v ∧
      (∀ i, i < 22 → i ≠ j → bytesAt m' (E.F + BitVec.ofNat 64 (4 * E.lanes * i)) (4 * E.lanes) = bytesAt s.mem (E.F + BitVec.ofNat 64 (4 * E.lanes * i)) (4 * E.lanes)) ∧
      (∀ a, ¬ Area E.F E.size a → m' a = s.mem a) := by
  have hw := lanes_width ok
  have hlen : (vecBytes E.lanes v).length = 4 * E.lanes := ChaCha.Asm.vecBytes_length v
  refine ⟨_, write_eq fun i hi => (ok.slotsRW _ (slot_area ok j i hj hS (hlen ▸ hi))).2, ?_, ?_, ?_⟩
  · have := bytesAt_putBytes s.mem (E.F + BitVec.ofNat 64 (4 * E.lanes * j)) (vecBytes E.lanes v) (by rw [hlen]; rcases hw with h | h <;> rw [h] <;> omega)
    rw [hlen] at this
    rw [this]
    intro k hk
    exact ofDb_vecBytes v k hk
  · intro i hi hij
    apply bytesAt_putBytes_ne
    · rcases hw with h | h <;> rw [h] <;> omega
    · rw [hlen]; rcases hw with h | h <;> rw [h] <;> omega
    · rw [hlen]; rcases hw with h | h <;> rw [h] <;> omega
  · intro a ha
    apply putBytes_out
    intro h
    obtain ⟨u, hu, -, rfl⟩ := h.off
    rw [hlen] at hu
    exact ha (slot_area ok j u hj hS hu)

theorem sim_temp (ok : E.Ok M) (sim : Sim E cd cs st s) (i r : Nat) (hi : i < E.nT) (v : Vec) (hv : LEq E.lanes (s.v r) v) (ts : List Vec)
    (ht : wr1 st.temp i v = some ts) : ∃ s', ins M s (.vstore E.r.k true (slot E.r.k i) r) = some s' ∧ Sim E cd cs { st with temp := ts } s' ∧ s'.g = s.g := by
  obtain ⟨hS, hi6⟩ := slots_of_T hi
  obtain ⟨m', e, h1, h2, h3⟩ := slot_write ok sim i (by omega) hS (s.v r)
  obtain ⟨hl, rfl⟩ := wr1_eq ht
  refine ⟨{ s with mem := m' }, ?_, ?_, rfl⟩
  · show (if _ then _ else _) = _
    have : (addr M s (slot E.r.k i)) = E.F + BitVec.ofNat 64 (4 * E.lanes * i) := by simp only [addr, slot, sim.gp]; rfl
    rw [this, if_neg]
    · exact e
    · have hw := lanes_width ok
      have := aligned_off E.F (4 * E.lanes * i) (4 * E.lanes) (by rcases hw with h | h <;> rw [h] <;> omega) (ok.fAl hS) (Nat.mul_mod_right _ _)
      exact not_misaligned this
  · refine { sim with tl := by simp [sim.tl], t := fun k hk => ?_, b := fun k hk => ?_, mem := ?_, frame := fun a ha hd => ?_ }
    · show LEq _ _ ((st.temp.set i v).getD k zvec)
      rw [getD_set _ _ _ _ _ hl]
      split
      · next h => subst h; exact h1.trans hv
      · next h => rw [show bytesAt _ _ _ = _ from h2 k (by have := (slots_of_T hk).2; omega) h]; exact sim.t k hk
    · rw [show bytesAt _ _ _ = _ from h2 (6 + k) (by have := (slots_of_B hk).2; omega) (by omega)]; exact sim.b k hk
    · obtain ⟨L, a1, a2, a3, a4⟩ := sim.mem
      refine ⟨L, a1, a2, fun k hk => ?_, fun k hk => ?_⟩
      · rw [← a3 k hk]
        exact h3 _ fun h => ok.fd _ h ((area_off _ _ _ (by have := ok.hd; omega)).mpr hk)
      · rw [← a4 k hk]
        exact h3 _ fun h => ok.fs _ h ((area_off _ _ _ (by have := ok.hs; omega)).mpr hk)
    · rw [← sim.frame a ha hd]
      exact h3 a ha

theorem sim_base (ok : E.Ok M) (sim : Sim E cd cs st s) (i r : Nat) (hi : i < E.nB) (v : Vec) (hv : LEq E.lanes (s.v r) v) (ts : List Vec)
    (ht : wr1 st.base i v = some ts) : ∃ s', ins M s (.vstore E.r.k true (slot E.r.k (6 + i)) r) = some s' ∧ Sim E cd cs { st with base := ts } s' ∧ s'.g = s.g := by
  obtain ⟨hS, hi6⟩ := slots_of_B hi
  obtain ⟨m', e, h1, h2, h3⟩ := slot_write ok sim (6 + i) (by omega) hS (s.v r)
  obtain ⟨hl, rfl⟩ := wr1_eq ht
  refine ⟨{ s with mem := m' }, ?_, ?_, rfl⟩
  · show (if _ then _ else _) = _
    have : (addr M s (slot E.r.k (6 + i))) = E.F + BitVec.ofNat 64 (4 * E.lanes * (6 + i)) := by simp only [addr, slot, sim.gp]; rfl
    rw [this, if_neg]
    · exact e
    · have hw := lanes_width ok
      have := aligned_off E.F (4 * E.lanes * (6 + i)) (4 * E.lanes) (by rcases hw with h | h <;> rw [h] <;> omega) (ok.fAl hS) (Nat.mul_mod_right _ _)
      exact not_misaligned this
  · refine { sim with bl := by simp [sim.bl], t := fun k hk => ?_, b := fun k hk => ?_, mem := ?_, frame := fun a ha hd => ?_ }
    · rw [show bytesAt _ _ _ = _ from h2 k (by have := (slots_of_T hk).2; omega) (by have := (slots_of_T hk).2; omega)]; exact sim.t k hk
    · show LEq _ _ ((st.base.set i v).getD k zvec)
      rw [getD_set _ _ _ _ _ hl]
      split
      · next h => subst h; exact h1.trans hv
      · next h => rw [show bytesAt _ _ _ = _ from h2 (6 + k) (by have := (slots_of_B hk).2; omega) (by omega)]; exact sim.b k hk
    · obtain ⟨L, a1, a2, a3, a4⟩ := sim.mem
      refine ⟨L, a1, a2, fun k hk => ?_, fun k hk => ?_⟩
      · rw [← a3 k hk]
        exact h3 _ fun h => ok.fd _ h ((area_off _ _ _ (by have := ok.hd; omega)).mpr hk)
      · rw [← a4 k hk]
        exact h3 _ fun h => ok.fs _ h ((area_off _ _ _ (by have := ok.hs; omega)).mpr hk)
    · rw [← sim.frame a ha hd]
      exact h3 a ha

theorem vecBytes_congr {n : Nat} {u v : Vec} (h : LEq n u v) : vecBytes n u = vecBytes n v := by
  unfold vecBytes
  rw [List.flatMap_def, List.flatMap_def]
  congr 1
  exact List.map_congr_left fun j hj => by rw [h j (List.mem_range.mp hj)]

theorem getD_write (L bs : List Byte) (o i : Nat) (h : o + bs.length ≤ L.length) :
    (L.take o ++ bs ++ L.drop (o + bs.length)).getD i 0 = if o ≤ i ∧ i < o + bs.length then bs.getD (i - o) 0 else L.getD i 0 := by
  simp only [List.getD_eq_getElem?_getD]
  congr 1
  rw [List.append_assoc, List.getElem?_append]
  simp only [List.length_take, Nat.min_eq_left (show o ≤ L.length by omega)]
  by_cases h1 : i < o
  · rw [if_pos h1, if_neg (by omega), List.getElem?_take_of_lt h1]
  · rw [if_neg h1, List.getElem?_append]
    by_cases h2 : i < o + bs.length
    · rw [if_pos (by omega), if_pos (by omega)]
    · rw [if_neg (by omega), if_neg (by omega), List.getElem?_drop, show o + bs.length + (i - o - bs.length) = i by omega]

theorem sim_dst (ok : E.Ok M) (sim : Sim E cd cs st s) (k r Wd : Nat) (hk : k + 4 * E.lanes ≤ Wd) (hW : cd + Wd ≤ E.Nd) (v : Vec) (hv : LEq E.lanes (s.v r) v) :
    ∃ s', ins M s (.vstore E.r.k false (.reg E.r.dst (BitVec.ofNat 64 k)) r) = some s' ∧
      Sim E cd cs { st with mem := (simd E.lanes).store st.mem (st.dst + k) v } s' ∧ s'.g = s.g := by
  have hlen : (vecBytes E.lanes (s.v r)).length = 4 * E.lanes := ChaCha.Asm.vecBytes_length _
  have hd := ok.hd
  have hin : ∀ i, i < 4 * E.lanes → Area E.D E.Nd (E.D + BitVec.ofNat 64 (cd + k) + BitVec.ofNat 64 i) := fun i hi => by
    rw [BitVec.add_assoc, ← BitVec.ofNat_add]
    exact (area_off _ _ _ (by omega)).mpr (by omega)
  have ea : addr M s (.reg E.r.dst (BitVec.ofNat 64 k)) = E.D + BitVec.ofNat 64 (cd + k) := by
    simp only [addr, sim.gd]
    rw [BitVec.add_assoc, ← BitVec.ofNat_add]
  refine ⟨{ s with mem := putBytes s.mem (E.D + BitVec.ofNat 64 (cd + k)) (vecBytes E.lanes (s.v r)) }, ?_, ?_, rfl⟩
  · show M.write s (addr M s (.reg E.r.dst (BitVec.ofNat 64 k))) (vecBytes E.lanes (s.v r)) = _
    rw [ea]
    exact write_eq (bs := vecBytes E.lanes (s.v r)) fun i hi => ok.dW _ (hin i (hlen ▸ hi))
  · have hout : ∀ a, ¬ Area E.D E.Nd a → putBytes s.mem (E.D + BitVec.ofNat 64 (cd + k)) (vecBytes E.lanes (s.v r)) a = s.mem a := fun a ha => by
      apply putBytes_out
      intro h
      obtain ⟨u, hu, -, rfl⟩ := h.off
      exact ha (hin u (hlen ▸ hu))
    obtain ⟨L, a1, a2, a3, a4⟩ := sim.mem
    have hdl := ok.dLen
    have hsl := ok.sLen
    have e : (simd E.lanes).store st.mem (st.dst + k) v = some (L.take (E.dOff + cd + k) ++ vecBytes E.lanes (s.v r) ++ L.drop (E.dOff + cd + k + (vecBytes E.lanes (s.v r)).length)) := by
      show st.mem.bind _ = _
      rw [a1, sim.dst, ← vecBytes_congr hv, Option.bind_some, wrN_some _ _ _ (by rw [hlen]; omega)]
    have hval : ∀ i, i < E.Nd → putBytes s.mem (E.D + BitVec.ofNat 64 (cd + k)) (vecBytes E.lanes (s.v r)) (E.D + BitVec.ofNat 64 i)
        = (L.take (E.dOff + cd + k) ++ vecBytes E.lanes (s.v r) ++ L.drop (E.dOff + cd + k + (vecBytes E.lanes (s.v r)).length)).getD (E.dOff + i) 0 := fun i hi => by
      rw [getD_write _ _ _ _ (by rw [hlen]; omega)]
      by_cases c : cd + k ≤ i ∧ i < cd + k + 4 * E.lanes
      · rw [if_pos (by rw [hlen]; omega)]
        obtain ⟨u, rfl⟩ : ∃ u, i = cd + k + u := ⟨i - (cd + k), by omega⟩
        rw [BitVec.ofNat_add (cd + k) u, ← BitVec.add_assoc, putBytes_in u (by rw [hlen]; omega) (by omega)]
        congr 1; omega
      · rw [if_neg (by rw [hlen]; omega), ← a3 i hi]
        apply putBytes_out
        rw [area_sub_off _ _ _ _ (by omega) (by rw [hlen]; omega), hlen]
        exact c
    have hll : (L.take (E.dOff + cd + k) ++ vecBytes E.lanes (s.v r) ++ L.drop (E.dOff + cd + k + (vecBytes E.lanes (s.v r)).length)).length = E.len := by
      rw [List.length_append, List.length_append, List.length_take, List.length_drop, hlen]; omega
    have hsrc : ∀ j, j < E.Ns → putBytes s.mem (E.D + BitVec.ofNat 64 (cd + k)) (vecBytes E.lanes (s.v r)) (E.S + BitVec.ofNat 64 j)
        = (L.take (E.dOff + cd + k) ++ vecBytes E.lanes (s.v r) ++ L.drop (E.dOff + cd + k + (vecBytes E.lanes (s.v r)).length)).getD (E.sOff + j) 0 := fun j hj => by
      by_cases c : Area E.D E.Nd (E.S + BitVec.ofNat 64 j)
      · obtain ⟨u, hu, hu', eu⟩ := c.off
        rw [eu, hval u hu, (ok.coh u j hu hj).mp eu.symm]
      · rw [hout _ c, a4 j hj, getD_write _ _ _ _ (by rw [hlen]; omega), if_neg]
        intro h
        have hlt : E.sOff + j - E.dOff < E.Nd := by rw [hlen] at h; omega
        have := (ok.coh (E.sOff + j - E.dOff) j hlt hj).mpr (by omega)
        rw [← this] at c
        exact c ((area_off _ _ _ (by omega)).mpr hlt)
    refine { sim with mem := ⟨_, e, hll, hval, hsrc⟩, t := fun i hi => ?_, b := fun i hi => ?_, frame := fun a ha hda => ?_ }
    · have hs := slots_of_T hi
      rw [show bytesAt _ _ _ = bytesAt s.mem (E.F + BitVec.ofNat 64 (4 * E.lanes * i)) (4 * E.lanes) from
        bytesAt_congr fun u hu => hout _ (ok.fd _ (slot_area ok i u (by omega) hs.1 hu))]
      exact sim.t i hi
    · have hs := slots_of_B hi
      rw [show bytesAt _ _ _ = bytesAt s.mem (E.F + BitVec.ofNat 64 (4 * E.lanes * (6 + i))) (4 * E.lanes) from
        bytesAt_congr fun u hu => hout _ (ok.fd _ (slot_area ok (6 + i) u (by omega) hs.1 hu))]
      exact sim.b i hi
    · rw [← sim.frame a ha hda]
      exact hout a hda

/-- The general registers an instruction of the vector code leaves alone. -/
def Keeps (E : Env) (s s' : State) : Prop := ∀ q, q ≠ E.r.dst → q ≠ E.r.src → s'.g q = s.g q

theorem Keeps.of_eq {s s' : State} (h : s'.g = s.g) : Keeps E s s' := fun q _ _ => by rw [h]

theorem LEq4 (ok : E.Ok M) {u v : Vec} (h : LEq E.lanes u v) : LEq 4 u v := fun j hj => h j (by have := lanes_ge ok; omega)

theorem step_mov_x (ok : E.Ok M) (sim : Sim E cd cs st s) (Wd Ws : Nat) (d : Nat) (b : Src Ref) (hi : insOk E Wd Ws (.mov (.x d) b) = true) (hs : cs + Ws ≤ E.Ns)
    (st' : St Vec (Option (List Byte))) (h : step (simd E.lanes) st (mapI E.val (.mov (.x d) b)) = some st') :
    ∃ s', ins M s (lowerE E.r (.mov (.x d) b)) = some s' ∧ Sim E cd cs st' s' ∧ s'.g = s.g := by
  have fin : ∀ v v' : Vec, LEq E.lanes v' v → X86.put (simd E.lanes) st v (.x d) = some st' → Sim E cd cs st' (setV s d v') := by
    intro v v' hv hp
    simp only [put, Option.bind_eq_bind, Option.bind_eq_some_iff] at hp
    obtain ⟨xs, h1, h2⟩ := hp
    cases h2
    exact sim_setX sim d v v' hv xs h1
  simp only [mapI, step, Option.bind_eq_bind, Option.bind_eq_some_iff] at h
  obtain ⟨⟨v, m⟩, hg, hp⟩ := h
  have other : ∀ al, srcOk E al Ws b = true → (∀ i, b ≠ .x i) → ∀ a, srcOpnd E.r b = some (.m a) →
      ∃ s', ins M s (.vload E.r.k al d a) = some s' ∧ Sim E cd cs st' s' ∧ s'.g = s.g := by
    intro al hb hx a ha
    obtain ⟨rfl, o, ho, -, hm⟩ := get_mem ok sim al Ws b hb hs v m hg
    rw [ha] at ho
    cases ho
    obtain ⟨v', e, hv⟩ := hm a rfl
    refine ⟨_, ?_, fin v _ ((merge_lanes _ (s.v d) v').trans hv) hp, rfl⟩
    show (readVec M s E.lanes al (addr M s a)).bind _ = _
    rw [e]
    rfl
  cases b with
  | x i =>
    simp only [insOk, Bool.and_eq_true, decide_eq_true_eq] at hi
    obtain ⟨rfl, o, ho, hx, -⟩ := get_mem ok sim true Ws (.x i) hi.2 hs v m hg
    obtain ⟨-, hv⟩ := hx i rfl
    exact ⟨_, rfl, fin v _ ((merge_lanes _ (s.v d) (s.v i)).trans hv) hp, rfl⟩
  | temp i =>
    simp only [insOk, Bool.and_eq_true, decide_eq_true_eq] at hi
    exact other true hi.2 (fun i => by simp) _ rfl
  | base i =>
    simp only [insOk, Bool.and_eq_true, decide_eq_true_eq] at hi
    exact other true hi.2 (fun i => by simp) _ rfl
  | src k =>
    simp only [insOk, Bool.and_eq_true, decide_eq_true_eq] at hi
    exact other false hi.2 (fun i => by simp) _ rfl
  | const r =>
    cases r with
    | ro off =>
      simp only [insOk, Bool.and_eq_true, decide_eq_true_eq] at hi
      exact other true hi.2 (fun i => by simp) _ rfl
    | state off =>
      simp only [insOk, Bool.and_eq_true, decide_eq_true_eq] at hi
      simp only [mapSrc, X86.get, Option.some.injEq, Prod.mk.injEq] at hg
      obtain ⟨rfl, rfl⟩ := hg
      have hq := ok.hq
      have hin : ∀ i, i < 16 → Area E.Q E.Nq (E.Q + BitVec.ofNat 64 off + BitVec.ofNat 64 i) := fun i hi => by
        rw [BitVec.add_assoc, ← BitVec.ofNat_add]
        exact (area_off _ _ _ (by omega)).mpr (by omega)
      have e : ∀ n, n = 4 → readVec M s n false (addr M s (.reg E.r.st (BitVec.ofNat 64 off))) = some (ofDb (bytesAt E.m0 (E.Q + BitVec.ofNat 64 off) 16)) := by
        rintro n rfl
        simp only [addr, sim.gq]
        rw [readVec_eq (by simp) fun i hi => ok.qR _ (hin i hi)]
        rw [show bytesAt s.mem (E.Q + BitVec.ofNat 64 off) (4 * 4) = bytesAt E.m0 (E.Q + BitVec.ofNat 64 off) 16 from
          bytesAt_congr fun i hi => sim.frame _ (fun h => ok.fq _ h (hin i hi)) (fun h => ok.dq _ h (hin i hi))]
      have hv := ok.vSt off hi.2
      rw [show lowerE E.r (.mov (.x d) (.const (.state off))) = if E.r.k = .vex256 then .vbroadcasti128 d (.reg E.r.st (BitVec.ofNat 64 off))
        else .vload E.r.k false d (.reg E.r.st (BitVec.ofNat 64 off)) from rfl]
      split
      · refine ⟨setV s d fun j => ofDb (bytesAt E.m0 (E.Q + BitVec.ofNat 64 off) 16) (j % 4), ?_, fin _ _ (fun j hj => (hv j hj).symm) hp, rfl⟩
        show (readVec M s 4 false _).bind _ = _
        rw [e 4 rfl]
        rfl
      · next hk =>
        have hl : E.lanes = 4 := by
          have := ok.kind
          unfold Env.lanes
          cases h : E.r.k <;> simp_all [Kind.lanes]
        refine ⟨_, ?_, fin _ _ ((merge_lanes E.r.k (s.v d) (ofDb (bytesAt E.m0 (E.Q + BitVec.ofNat 64 off) 16))).trans fun j hj => ?_) hp, rfl⟩
        · show (readVec M s E.r.k.lanes false _).bind _ = _
          rw [e E.r.k.lanes hl]
          rfl
        · have hj' : j < E.lanes := hj
          show _ = E.val (.state off) j
          rw [hv j hj, Nat.mod_eq_of_lt (by omega)]
    | state32 off =>
      simp only [insOk, Bool.and_eq_true, decide_eq_true_eq] at hi
      simp only [mapSrc, X86.get, Option.some.injEq, Prod.mk.injEq] at hg
      obtain ⟨rfl, rfl⟩ := hg
      have hq := ok.hq
      have hin : ∀ i, i < 4 → Area E.Q E.Nq (E.Q + BitVec.ofNat 64 off + BitVec.ofNat 64 i) := fun i hi => by
        rw [BitVec.add_assoc, ← BitVec.ofNat_add]
        exact (area_off _ _ _ (by omega)).mpr (by omega)
      have hv := ok.vSt32 off hi.1.2
      refine ⟨setV s d (Kind.sse.merge (s.v d) (vec4 (ofBytes .little 4 (bytesAt E.m0 (E.Q + BitVec.ofNat 64 off) 4)) 0 0 0)), ?_, fin _ _ ?_ hp, rfl⟩
      · show (M.read s (addr M s _) 4).bind _ = _
        simp only [addr, sim.gq]
        rw [read_eq fun i hi => ok.qR _ (hin i hi)]
        rw [show bytesAt s.mem (E.Q + BitVec.ofNat 64 off) 4 = bytesAt E.m0 (E.Q + BitVec.ofNat 64 off) 4 from
          bytesAt_congr fun i hi => sim.frame _ (fun h => ok.fq _ h (hin i hi)) (fun h => ok.dq _ h (hin i hi))]
        rfl
      · rw [hi.2]
        exact (merge_lanes .sse _ _).trans hv.symm

theorem binKind_lanes (k : Kind) (hk : k ≠ .vex128) (d a : Nat) : (binKind k d a).lanes = k.lanes := by
  unfold binKind
  split
  · next h => rw [h.1]; rfl
  · rfl

theorem step_ok (ok : E.Ok M) (sim : Sim E cd cs st s) (Wd Ws : Nat) (i : Instr Ref) (he : encodable E.r.k i = true) (hi : insOk E Wd Ws i = true)
    (hd : cd + Wd ≤ E.Nd) (hs : cs + Ws ≤ E.Ns) (st' : St Vec (Option (List Byte))) (h : step (simd E.lanes) st (mapI E.val i) = some st') :
    ∃ s', ins M s (lower E.r i) = some s' ∧ Sim E (cd + useDst i) (cs + useSrc i) st' s' ∧ Keeps E s s' := by
  have hw := lanes_width ok
  unfold lower
  rw [if_pos he]
  have fin : ∀ (d : Nat) (v v' : Vec), LEq E.lanes v' v → X86.put (simd E.lanes) st v (.x d) = some st' → Sim E cd cs st' (setV s d v') := by
    intro d v v' hv hp
    simp only [put, Option.bind_eq_bind, Option.bind_eq_some_iff] at hp
    obtain ⟨xs, h1, h2⟩ := hp
    cases h2
    exact sim_setX sim d v v' hv xs h1
  cases i with
  | mov d b =>
    cases d with
    | x d =>
      obtain ⟨s', e, sim', hg⟩ := step_mov_x ok sim Wd Ws d b hi hs st' h
      exact ⟨s', e, sim', .of_eq hg⟩
    | temp i =>
      cases b with
      | x r =>
        simp only [insOk, Bool.and_eq_true, decide_eq_true_eq] at hi
        simp only [mapI, mapSrc, step, X86.get, X86.put, rd1_getD zvec (sim.xl ▸ hi.2), Option.bind_eq_bind, Option.bind_some, Option.pure_def, Option.bind_eq_some_iff] at h
        obtain ⟨ts, h1, h2⟩ := h
        cases h2
        obtain ⟨s', e, sim', hg⟩ := sim_temp ok sim i r hi.1 _ (sim.x r hi.2) ts h1
        exact ⟨s', e, sim', .of_eq hg⟩
      | _ => simp [insOk] at hi
    | base i =>
      cases b with
      | x r =>
        simp only [insOk, Bool.and_eq_true, decide_eq_true_eq] at hi
        simp only [mapI, mapSrc, step, X86.get, X86.put, rd1_getD zvec (sim.xl ▸ hi.2), Option.bind_eq_bind, Option.bind_some, Option.pure_def, Option.bind_eq_some_iff] at h
        obtain ⟨ts, h1, h2⟩ := h
        cases h2
        obtain ⟨s', e, sim', hg⟩ := sim_base ok sim i r hi.1 _ (sim.x r hi.2) ts h1
        exact ⟨s', e, sim', .of_eq hg⟩
      | _ => simp [insOk] at hi
    | dst k =>
      cases b with
      | x r =>
        simp only [insOk, Bool.and_eq_true, decide_eq_true_eq] at hi
        simp only [mapI, mapSrc, step, X86.get, X86.put, rd1_getD zvec (sim.xl ▸ hi.2), Option.bind_eq_bind, Option.bind_some, Option.pure_def, Option.some.injEq] at h
        subst h
        obtain ⟨s', e, sim', hg⟩ := sim_dst ok sim k r Wd hi.1.1 hd _ (sim.x r hi.2)
        exact ⟨s', e, sim', .of_eq hg⟩
      | _ => simp [insOk] at hi
  | bin o d a b =>
    simp only [insOk, Bool.and_eq_true, decide_eq_true_eq] at hi
    simp only [mapI, step, rd1_getD zvec (sim.xl ▸ hi.1.2), Option.bind_eq_bind, Option.bind_some, Option.bind_eq_some_iff] at h
    obtain ⟨⟨v, m⟩, hg, hp⟩ := h
    obtain ⟨rfl, op, ho, hx, hm⟩ := get_mem ok sim _ Ws b hi.2 hs v m hg
    have hkl : (binKind E.r.k d a).lanes = E.lanes := binKind_lanes _ ok.kind d a
    have key : ∃ v', opndVal M s (binKind E.r.k d a) op = some v' ∧ LEq E.lanes v' v := by
      cases op with
      | x i =>
        cases b with
        | x j =>
          obtain ⟨e, hv⟩ := hx j rfl
          cases e
          exact ⟨_, rfl, hv⟩
        | const r => cases r <;> simp [srcOpnd] at ho
        | _ => simp [srcOpnd] at ho
      | m adr =>
        obtain ⟨v', e, hv⟩ := hm adr rfl
        refine ⟨v', ?_, hv⟩
        simp only [opndVal]
        rw [hkl]
        by_cases c : binKind E.r.k d a = .sse
        · have : E.r.k = .sse := by
            unfold binKind at c
            split at c
            · simp at c
            · exact c
          rw [this] at e
          rw [c]
          exact e
        · rw [decide_eq_false c]
          unfold readVec at e ⊢
          split at e
          · simp at e
          · rw [Bool.false_and, if_neg Bool.false_ne_true]
            exact e
    obtain ⟨v', e, hv⟩ := key
    refine ⟨setV s d ((binKind E.r.k d a).merge (s.v d) (X86.bin o (s.v a) v')), ?_, fin d _ _ ?_ hp, .of_eq rfl⟩
    · unfold lowerE
      simp only [ho]
      show (opndVal M s _ op).bind _ = _
      rw [e]
      rfl
    · rw [← hkl]
      refine (merge_lanes _ _ _).trans ?_
      rw [hkl]
      exact bin_congr hw o (sim.x a hi.1.2) hv
  | unImm o d a n =>
    simp only [insOk, Bool.and_eq_true, decide_eq_true_eq] at hi
    simp only [mapI, step, rd1_getD zvec (sim.xl ▸ hi.2), Option.bind_eq_bind, Option.bind_some] at h
    exact ⟨_, rfl, fin d _ _ ((merge_lanes _ _ _).trans (unImm_congr hw o (sim.x a hi.2) n)) h, .of_eq rfl⟩
  | binImm o d a b n =>
    simp only [insOk, Bool.and_eq_true, decide_eq_true_eq] at hi
    simp only [mapI, step, rd1_getD zvec (sim.xl ▸ hi.1.2), rd1_getD zvec (sim.xl ▸ hi.2), Option.bind_eq_bind, Option.bind_some] at h
    refine ⟨_, rfl, fin d _ _ ((merge_lanes _ _ _).trans (binImm_congr hw o (fun h => ?_) (sim.x a hi.1.2) (sim.x b hi.2) n)) h, .of_eq rfl⟩
    subst h
    simp only [encodable, decide_eq_true_eq] at he
    unfold Env.lanes
    rw [he]
    rfl
  | rnds2 d b =>
    simp only [insOk, Bool.and_eq_true, decide_eq_true_eq] at hi
    simp only [encodable, decide_eq_true_eq] at he
    have h4 : E.lanes = 4 := by unfold Env.lanes; rw [he]; rfl
    simp only [mapI, step, rd1_getD zvec (sim.xl ▸ hi.1), rd1_getD zvec (sim.xl ▸ hi.2), rd1_getD zvec (show 0 < st.x.length by rw [sim.xl]; omega), Option.bind_eq_bind, Option.bind_some] at h
    refine ⟨_, rfl, fin d _ _ ?_ h, .of_eq rfl⟩
    rw [h4]
    refine (merge_lanes .sse _ _).trans ?_
    have x0 := sim.x 0 (by omega)
    have xd := sim.x d hi.1
    have xb := sim.x b hi.2
    rw [h4] at x0 xd xb
    exact rnds2_congr xd xb x0
  | addDst n =>
    simp only [insOk, Bool.and_eq_true, decide_eq_true_eq] at hi
    simp only [mapI, step, Option.some.injEq] at h
    subst h
    refine ⟨_, rfl, { sim with dst := ?_, gd := ?_, gs := ?_, gq := ?_, gp := ?_ }, fun q h1 h2 => if_neg h1⟩
    · show st.dst + n = _
      rw [sim.dst]
      simp only [useDst]
      omega
    · show (if E.r.dst = E.r.dst then _ else _) = _
      rw [if_pos rfl, sim.gd, BitVec.add_assoc, ← BitVec.ofNat_add]
      rfl
    · exact (if_neg (Ne.symm ok.rds)).trans sim.gs
    · exact (if_neg (Ne.symm ok.rdq)).trans sim.gq
    · exact (if_neg (Ne.symm ok.rdp)).trans sim.gp
  | addSrc n =>
    simp only [insOk, Bool.and_eq_true, decide_eq_true_eq] at hi
    simp only [mapI, step, Option.some.injEq] at h
    subst h
    refine ⟨_, rfl, { sim with src := ?_, gd := ?_, gs := ?_, gq := ?_, gp := ?_ }, fun q h1 h2 => if_neg h2⟩
    · show st.src + n = _
      rw [sim.src]
      simp only [useSrc]
      omega
    · exact (if_neg ok.rds).trans sim.gd
    · show (if E.r.src = E.r.src then _ else _) = _
      rw [if_pos rfl, sim.gs, BitVec.add_assoc, ← BitVec.ofNat_add]
      rfl
    · exact (if_neg (Ne.symm ok.rsq)).trans sim.gq
    · exact (if_neg (Ne.symm ok.rsp)).trans sim.gp

end

/-- Instructions in sequence. -/
def insAll (M : Machine) (s : State) : List Ins → Option State
  | [] => some s
  | i :: is => (ins M s i).bind fun s => insAll M s is

theorem useDst_le {E : Env} {Wd Ws : Nat} {i : Instr Ref} (h : insOk E Wd Ws i = true) : useDst i ≤ Wd ∧ useSrc i ≤ Ws := by
  cases i <;> simp only [useDst, useSrc, Nat.zero_le, and_self, and_true, true_and]
  all_goals
    simp only [insOk, Bool.and_eq_true, decide_eq_true_eq] at h
    exact h.1

theorem run_ok {E : Env} {M : Machine} (ok : E.Ok M) (p : List (Instr Ref)) {cd cs : Nat} {st : St Vec (Option (List Byte))} {s : State} (sim : Sim E cd cs st s) (Wd Ws : Nat)
    (hp : progOk E Wd Ws p = true) (hd : cd + Wd ≤ E.Nd) (hs : cs + Ws ≤ E.Ns) (st' : St Vec (Option (List Byte)))
    (h : exec (simd E.lanes) st (p.map (mapI E.val)) = some st') :
    ∃ s', insAll M s (p.map (lower E.r)) = some s' ∧ Sim E (cd + usedDst p) (cs + usedSrc p) st' s' ∧ Keeps E s s' := by
  induction p generalizing cd cs st s Wd Ws with
  | nil =>
    simp only [List.map_nil, exec, Option.some.injEq] at h
    subst h
    exact ⟨s, rfl, sim, fun _ _ _ => rfl⟩
  | cons i p ih =>
    simp only [progOk, Bool.and_eq_true] at hp
    simp only [List.map_cons, exec, Option.bind_eq_bind, Option.bind_eq_some_iff] at h
    obtain ⟨st1, h1, h2⟩ := h
    obtain ⟨s1, e1, sim1, k1⟩ := step_ok ok sim Wd Ws i hp.1.1 hp.1.2 hd hs st1 h1
    have hu := useDst_le hp.1.2
    obtain ⟨s', e2, sim2, k2⟩ := ih sim1 _ _ hp.2 (by omega) (by omega) h2
    refine ⟨s', ?_, ?_, fun q a b => (k2 q a b).trans (k1 q a b)⟩
    · simp only [List.map_cons, insAll, e1, Option.bind_some]
      exact e2
    · simp only [usedDst, usedSrc]
      rw [← Nat.add_assoc, ← Nat.add_assoc]
      exact sim2

end Milo.X64
