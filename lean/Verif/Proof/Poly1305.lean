import Verif.Proof.PolyArith
import Verif.Proof.MacLawful
/- Poly1305: the class computes RFC 8439 (on the key words the host's byte order gives it). -/
namespace Milo.Poly1305
open Memory

/-- The `i`-th little-endian word of a block. -/
def word (b : List Byte) (i : Nat) : W32 := ofBytes .little 4 ((b.drop (i * 4)).take 4)

theorem loadLe_word (h : Host) (src : List Byte) (i : Nat) (hi : i * 4 + 4 ≤ src.length) :
    loadLe h false 4 (p := 1) src i = some (word src i) := by
  rw [loadLe_eq h false ⟨by omega, by omega, .inl ⟨4, by omega⟩⟩ (by simp [Swappable]), image_bytes', rdN_some _ _ _ (by omega)]
  rfl

theorem word_take (src : List Byte) (n i : Nat) (hi : i * 4 + 4 ≤ n) : word (src.take n) i = word src i := by
  unfold word
  rw [List.drop_take, List.take_take, Nat.min_eq_left (by omega)]

theorem word_toNat (b : List Byte) (i : Nat) (hi : i * 4 + 4 ≤ b.length) : (word b i).toNat = leNat ((b.drop (i * 4)).take 4) := by
  unfold word
  rw [ofBytes_toNat _ _ _ (by simp; omega), spec_leNat]

/-- A block as a number, from its four words. -/
theorem leNat_words (b : List Byte) (hb : b.length = 16) :
    leNat b = (word b 0).toNat + 2 ^ 32 * (word b 1).toNat + 2 ^ 64 * (word b 2).toNat + 2 ^ 96 * (word b 3).toNat := by
  have key : ∀ (n : Nat) (l : List Byte), n ≤ l.length → leNat l = leNat (l.take n) + 256 ^ n * leNat (l.drop n) := by
    intro n l hl
    conv => lhs; rw [← List.take_append_drop n l]
    rw [leNat_append]; simp [Nat.min_eq_left hl]
  rw [word_toNat _ _ (by omega), word_toNat _ _ (by omega), word_toNat _ _ (by omega), word_toNat _ _ (by omega)]
  rw [key 4 b (by omega), key 4 (b.drop 4) (by simp; omega), key 4 ((b.drop 4).drop 4) (by simp; omega),
    key 4 (((b.drop 4).drop 4).drop 4) (by simp; omega)]
  simp only [List.drop_drop]
  have : b.drop (4 + 4 + 4 + 4) = [] := List.drop_of_length_le (by omega)
  simp only [Nat.zero_mul, List.drop_zero, Nat.reduceAdd, Nat.reduceMul] at this ⊢
  rw [this]
  simp only [leNat]
  norm_num
  omega

/-- `addStep` without the loads. -/
def addPure (add : W32) (a : Acc) (m0 m1 m2 m3 : W32) : Acc :=
  let t0 := u64 m0 + a.a0
  let t1 := u64 m1 + (a.a1 + t0 >>> 32)
  let t2 := u64 m2 + (a.a2 + t1 >>> 32)
  let t3 := u64 m3 + (a.a3 + t2 >>> 32)
  ⟨u64 (u32 t0), u64 (u32 t1), u64 (u32 t2), u64 (u32 t3), a.a4 + u64 (u32 (t3 >>> 32) + add)⟩

theorem addStep_eq (h : Host) (add : W32) (a : Acc) (src : List Byte) (hs : 16 ≤ src.length) :
    addStep h add a src = some (addPure add a (word src 0) (word src 1) (word src 2) (word src 3)) := by
  unfold addStep
  rw [loadLe_word _ _ _ (by omega), loadLe_word _ _ _ (by omega), loadLe_word _ _ _ (by omega), loadLe_word _ _ _ (by omega)]
  rfl

theorem addPure_val (add : W32) (hadd : add.toNat ≤ 1) (a : Acc) (ha : Limbs 4 a) (m0 m1 m2 m3 : W32) :
    Limbs 6 (addPure add a m0 m1 m2 m3) ∧ val5 (addPure add a m0 m1 m2 m3)
      = val5 a + (m0.toNat + 2 ^ 32 * m1.toNat + 2 ^ 64 * m2.toNat + 2 ^ 96 * m3.toNat) + 2 ^ 128 * add.toNat := by
  obtain ⟨l0, l1, l2, l3, l4⟩ := ha
  obtain ⟨a0, a1, a2, a3, a4⟩ := a
  simp only at l0 l1 l2 l3 l4
  have i0 := m0.isLt
  have i1 := m1.isLt
  have i2 := m2.isLt
  have i3 := m3.isLt
  unfold addPure
  simp only
  have h0 : (u64 m0 + a0).toNat = m0.toNat + a0.toNat := by rw [add_toNat, u64_toNat]; rw [u64_toNat]; omega
  generalize u64 m0 + a0 = t0 at h0 ⊢
  have step : ∀ (m : W32) (x t : W64), x.toNat < 2 ^ 32 → t.toNat < 2 ^ 34 →
      (u64 m + (x + t >>> 32)).toNat = m.toNat + (x.toNat + t.toNat / 2 ^ 32) := by
    intro m x t hx ht
    have := m.isLt
    rw [add_toNat, add_toNat, u64_toNat, shr_toNat]
    · rw [shr_toNat]; omega
    · rw [add_toNat, u64_toNat, shr_toNat] <;> (try rw [shr_toNat]) <;> omega
  have h1 := step m1 a1 t0 l1 (by omega)
  generalize u64 m1 + (a1 + t0 >>> 32) = t1 at h1 ⊢
  have h2 := step m2 a2 t1 l2 (by omega)
  generalize u64 m2 + (a2 + t1 >>> 32) = t2 at h2 ⊢
  have h3 := step m3 a3 t2 l3 (by omega)
  generalize u64 m3 + (a3 + t2 >>> 32) = t3 at h3 ⊢
  have hx : (u32 (t3 >>> 32) + add).toNat = t3.toNat / 2 ^ 32 + add.toNat := by
    rw [BitVec.toNat_add]
    have : (u32 (t3 >>> 32)).toNat = t3.toNat / 2 ^ 32 := by
      simp only [u32, BitVec.toNat_setWidth]; rw [shr_toNat]; omega
    rw [this]; omega
  have h4 : (a4 + u64 (u32 (t3 >>> 32) + add)).toNat = a4.toNat + (t3.toNat / 2 ^ 32 + add.toNat) := by
    rw [add_toNat, u64_toNat, hx]; rw [u64_toNat, hx]; omega
  generalize a4 + u64 (u32 (t3 >>> 32) + add) = t4 at h4 ⊢
  refine ⟨⟨?_, ?_, ?_, ?_, ?_⟩, ?_⟩
  · show (u64 (u32 t0)).toNat < _; rw [lo_toNat]; omega
  · show (u64 (u32 t1)).toNat < _; rw [lo_toNat]; omega
  · show (u64 (u32 t2)).toNat < _; rw [lo_toNat]; omega
  · show (u64 (u32 t3)).toNat < _; rw [lo_toNat]; omega
  · show t4.toNat ≤ _; omega
  · unfold val5
    simp only [lo_toNat]
    omega

/-! ### The backend -/

def ofL : List W32 → Acc
  | [a0, a1, a2, a3, a4] => ⟨u64 a0, u64 a1, u64 a2, u64 a3, u64 a4⟩
  | _ => ⟨0, 0, 0, 0, 0⟩

def toL (a : Acc) : List W32 := [u32 a.a0, u32 a.a1, u32 a.a2, u32 a.a3, u32 a.a4]

theorem u32_u64 (x : W32) : u32 (u64 x) = x := by
  simp only [u32, u64, BitVec.setWidth_setWidth_of_le x (show 32 ≤ 64 by omega), BitVec.setWidth_eq]

theorem toL_ofL (l : List W32) (hl : l.length = 5) : toL (ofL l) = l := by
  obtain ⟨a, b, c, d, e, rfl⟩ := list5 l hl
  simp only [ofL, toL, u32_u64]

/-- One block. -/
def stepAcc (h : Host) (k : List W32) (add : W32) (a : Acc) (blk : List Byte) : Acc := ((addStep h add a blk).bind (mulStep k)).getD a

def Norm (a : Acc) : Prop := ofL (toL a) = a

theorem mulStep_some (k : List W32) (hk : k.length = 8) (a : Acc) : ∃ a', mulStep k a = some a' ∧ Norm a' := by
  obtain ⟨k0, k1, k2, k3, k4, k5, k6, k7, rfl⟩ := list8 k hk
  refine ⟨_, rfl, ?_⟩
  unfold Norm toL ofL
  simp only [u32_u64]

theorem stepAcc_norm (h : Host) (k : List W32) (hk : k.length = 8) (add : W32) (a : Acc) (ha : Norm a) (blk : List Byte) :
    Norm (stepAcc h k add a blk) := by
  unfold stepAcc
  cases hs : addStep h add a blk with
  | none => exact ha
  | some b =>
    obtain ⟨c, e, n⟩ := mulStep_some k hk b
    simp only [Option.bind_some, e, Option.getD_some]
    exact n

theorem stepAcc_eq (h : Host) (k : List W32) (hk : k.length = 8) (add : W32) (a : Acc) (src : List Byte) (hs : 16 ≤ src.length) :
    (addStep h add a src).bind (mulStep k) = some (stepAcc h k add a (src.take 16)) := by
  unfold stepAcc
  rw [addStep_eq _ _ _ _ hs, addStep_eq _ _ _ (src.take 16) (by simp; omega)]
  rw [word_take _ _ _ (by omega), word_take _ _ _ (by omega), word_take _ _ _ (by omega), word_take _ _ _ (by omega)]
  simp only [Option.bind_some]
  obtain ⟨c, e, n⟩ := mulStep_some k hk (addPure add a (word src 0) (word src 1) (word src 2) (word src 3))
  rw [e]; rfl

/-- One block, on the member array. -/
def comp (h : Host) (k : List W32) (add : W32) (st : List W32) (blk : List Byte) : List W32 := toL (stepAcc h k add (ofL st) blk)

theorem process_eq (h : Host) (k : List W32) (hk : k.length = 8) (add : W32) (n : Nat) (st : List W32) (hst : st.length = 5) (src : List Byte)
    (hl : n * 16 ≤ src.length) :
    process h k add n st src = some ((Spec.chunks 16 (src.take (n * 16))).foldl (comp h k add) st) := by
  have hloop := blocksLoop_eq 16 (by omega) (processLoop h k add) (stepAcc h k add) (fun r src => rfl) (by
    intro n r src hs
    have e := stepAcc_eq h k hk add r src hs
    show (addStep h add r src).bind _ = _
    cases ha : addStep h add r src with
    | none => rw [ha] at e; simp at e
    | some b =>
      rw [ha, Option.bind_some] at e
      rw [Option.bind_some, e]
      show (advance src 16).bind _ = _
      rw [advance_eq _ _ hs]; rfl) n (ofL st) src hl
  have fold : ∀ (cs : List (List Byte)) (st : List W32), st.length = 5 →
      toL (cs.foldl (stepAcc h k add) (ofL st)) = cs.foldl (comp h k add) st := by
    intro cs
    induction cs with
    | nil => intro st hst; simp only [List.foldl_nil]; exact toL_ofL st hst
    | cons c cs ih =>
      intro st hst
      simp only [List.foldl_cons]
      rw [← ih (comp h k add st c) rfl]
      have : ofL (comp h k add st c) = stepAcc h k add (ofL st) c := by
        unfold comp
        apply stepAcc_norm h k hk
        unfold Norm
        rw [toL_ofL st hst]
      rw [this]
  rw [← fold _ st hst]
  obtain ⟨a, b, c, d, e, rfl⟩ := list5 st hst
  unfold process
  show (processLoop h k add n (ofL [a, b, c, d, e]) src).bind _ = _
  rw [hloop]
  rfl

theorem blocks_ok (h : Host) (k : List W32) (hk : k.length = 8) (add : W32) :
    BlocksOk 16 (fun st : List W32 => st.length = 5) (comp h k add) (process h k add) where
  pos := by omega
  wf := fun st b _ _ => rfl
  eq := fun n st src hst hl => process_eq h k hk add n st hst src hl

/-! ### Values -/

def valL (st : List W32) : Nat := val5 (ofL st)

structure Bounded (st : List W32) : Prop where
  len : st.length = 5
  limbs : Limbs 4 (ofL st)

theorem comp_val (h : Host) (k : List W32) (r : Nat) (hk : KeyOk k r) (add : W32) (hadd : add.toNat ≤ 1) (st : List W32) (hst : Bounded st)
    (blk : List Byte) (hb : blk.length = 16) :
    Bounded (comp h k add st blk) ∧
      valL (comp h k add st blk) % Spec.Poly1305.p = (valL st + leNat blk + 2 ^ 128 * add.toNat) * r % Spec.Poly1305.p := by
  have hk8 : k.length = 8 := by obtain ⟨_, _, _, _, _, _, _, _, rfl, _⟩ := hk.ex; rfl
  have e := stepAcc_eq h k hk8 add (ofL st) blk (by omega)
  rw [List.take_of_length_le (by omega), addStep_eq _ _ _ _ (by omega), Option.bind_some] at e
  obtain ⟨l6, v6⟩ := addPure_val add hadd (ofL st) hst.limbs (word blk 0) (word blk 1) (word blk 2) (word blk 3)
  rw [← leNat_words blk hb] at v6
  obtain ⟨a', e', l4, v4⟩ := mulStep_eq k r hk _ l6
  rw [e'] at e
  have e2 : stepAcc h k add (ofL st) blk = a' := (Option.some.inj e).symm
  have hn : ofL (comp h k add st blk) = a' := by
    have : Norm (stepAcc h k add (ofL st) blk) := by
      apply stepAcc_norm h k hk8
      unfold Norm
      rw [toL_ofL st hst.len]
    unfold comp
    rw [this, e2]
  refine ⟨⟨rfl, ?_⟩, ?_⟩
  · rw [hn]; exact l4
  · unfold valL
    rw [hn, v4, v6]

theorem fold_val (h : Host) (k : List W32) (r : Nat) (hk : KeyOk k r) (cs : List (List Byte)) (hcs : ∀ c ∈ cs, c.length = 16)
    (st : List W32) (hst : Bounded st) (acc : Nat) (hacc : valL st % Spec.Poly1305.p = acc % Spec.Poly1305.p) :
    Bounded (cs.foldl (comp h k 1#32) st) ∧
      valL (cs.foldl (comp h k 1#32) st) % Spec.Poly1305.p = cs.foldl (Spec.Poly1305.absorb r) acc % Spec.Poly1305.p := by
  induction cs generalizing st acc with
  | nil => exact ⟨hst, hacc⟩
  | cons c cs ih =>
    simp only [List.foldl_cons]
    have hc := hcs c List.mem_cons_self
    obtain ⟨b, v⟩ := comp_val h k r hk 1#32 (by decide) st hst c hc
    apply ih (fun c hc => hcs c (List.mem_cons_of_mem _ hc)) _ b
    rw [v]
    unfold Spec.Poly1305.absorb
    rw [Nat.mod_mod]
    have e : Spec.leNat (c ++ [1]) = leNat c + 2 ^ 128 := by
      rw [spec_leNat, leNat_append, hc]; rfl
    rw [e]
    have h2 : (valL st + leNat c + 2 ^ 128 * BitVec.toNat 1#32) = valL st + (leNat c + 2 ^ 128) := by
      rw [show BitVec.toNat 1#32 = 1 from rfl]; omega
    rw [h2, Nat.mul_mod, Nat.add_mod, hacc, ← Nat.add_mod, ← Nat.mul_mod]

/-! ### The final reduction -/

theorem and_allOnes32 (x : W64) : (x &&& 0xffffffff#64).toNat = x.toNat % 2 ^ 32 := by
  rw [BitVec.toNat_and]
  exact Nat.and_two_pow_sub_one_eq_mod x.toNat 32

/-- Four words as a number. -/
def val4 : List W32 → Nat
  | [a, b, c, d] => a.toNat + 2 ^ 32 * b.toNat + 2 ^ 64 * c.toNat + 2 ^ 96 * d.toNat
  | _ => 0

theorem carry_some (acc s : List W32) (ha : acc.length = 5) (hs : s.length = 4) : ∃ out, carry acc s = some out ∧ out.length = 5 := by
  obtain ⟨a, b, c, d, e, rfl⟩ := list5 acc ha
  match s, hs with
  | [s0, s1, s2, s3], _ => exact ⟨_, rfl, rfl⟩

theorem carry_val (acc s : List W32) (ha : Bounded acc) (hs : s.length = 4) :
    ∃ out, carry acc s = some out ∧ out.length = 5 ∧ val4 (out.take 4) = (valL acc % Spec.Poly1305.p + val4 s) % 2 ^ 128 := by
  obtain ⟨len, l0, l1, l2, l3, l4⟩ := ha
  obtain ⟨c0, c1, c2, c3, c4, rfl⟩ := list5 acc len
  match s, hs with
  | [s0, s1, s2, s3], _ =>
    refine ⟨_, rfl, rfl, ?_⟩
    simp only [ofL, u64_toNat] at l0 l1 l2 l3 l4
    simp only [valL, ofL, val5, u64_toNat]
    have h0 : (u64 c0 + 5#64).toNat = c0.toNat + 5 := by
      rw [add_toNat, u64_toNat]
      · rfl
      · rw [u64_toNat]; show _ + 5 < _; omega
    generalize u64 c0 + 5#64 = t0 at h0 ⊢
    have step : ∀ (m : W32) (t : W64), t.toNat < 2 ^ 34 → (u64 m + t >>> 32).toNat = m.toNat + t.toNat / 2 ^ 32 := by
      intro m t ht
      have := m.isLt
      rw [add_toNat, u64_toNat, shr_toNat]; rw [u64_toNat, shr_toNat]; omega
    have h1 := step c1 t0 (by omega)
    generalize u64 c1 + t0 >>> 32 = t1 at h1 ⊢
    have h2 := step c2 t1 (by omega)
    generalize u64 c2 + t1 >>> 32 = t2 at h2 ⊢
    have h3 := step c3 t2 (by omega)
    generalize u64 c3 + t2 >>> 32 = t3 at h3 ⊢
    have hg : ((u64 c4 + t3 >>> 32) >>> 2).toNat = (c4.toNat + t3.toNat / 2 ^ 32) / 4 := by
      rw [shr_toNat, step c4 t3 (by omega)]
      rfl
    generalize (u64 c4 + t3 >>> 32) >>> 2 = g at hg ⊢
    have hg1 : g.toNat = 0 ∨ g.toNat = 1 := by omega
    rw [show Spec.Poly1305.p = 1361129467683753853853498429727072845819 from rfl]
    -- the selected words
    have sel : ∃ x0 x1 x2 x3 : Nat, x0 < 2 ^ 32 ∧ x1 < 2 ^ 32 ∧ x2 < 2 ^ 32 ∧ x3 < 2 ^ 32 ∧
        (((t0 &&& -g) ||| (u64 c0 &&& ~~~(-g))) &&& 0xffffffff#64).toNat = x0 ∧
        (((t1 &&& -g) ||| (u64 c1 &&& ~~~(-g))) &&& 0xffffffff#64).toNat = x1 ∧
        (((t2 &&& -g) ||| (u64 c2 &&& ~~~(-g))) &&& 0xffffffff#64).toNat = x2 ∧
        (((t3 &&& -g) ||| (u64 c3 &&& ~~~(-g))) &&& 0xffffffff#64).toNat = x3 ∧
        (x0 + 2 ^ 32 * x1 + 2 ^ 64 * x2 + 2 ^ 96 * x3) =
          (c0.toNat + 2 ^ 32 * c1.toNat + 2 ^ 64 * c2.toNat + 2 ^ 96 * c3.toNat + 2 ^ 128 * c4.toNat) % 1361129467683753853853498429727072845819 % 2 ^ 128 := by
      refine ⟨_, _, _, _, ?_, ?_, ?_, ?_, rfl, rfl, rfl, rfl, ?_⟩
      · rw [and_allOnes32]; omega
      · rw [and_allOnes32]; omega
      · rw [and_allOnes32]; omega
      · rw [and_allOnes32]; omega
      · have hV : c0.toNat + 2 ^ 32 * c1.toNat + 2 ^ 64 * c2.toNat + 2 ^ 96 * c3.toNat + 2 ^ 128 * c4.toNat
            < 2 * 1361129467683753853853498429727072845819 := by omega
        have ones : ∀ c : W64, c &&& 18446744073709551615#64 = c := fun c => BitVec.and_allOnes
        rcases hg1 with hg1 | hg1
        · have : g = 0#64 := BitVec.eq_of_toNat_eq hg1
          rw [hg1] at hg
          subst this
          have e : ∀ t c : W64, (((t &&& -0#64) ||| (c &&& ~~~(-0#64))) &&& 0xffffffff#64).toNat = c.toNat % 2 ^ 32 := by
            intro t c
            rw [← and_allOnes32]
            congr 1
            simp [ones]
          rw [e, e, e, e]
          simp only [u64_toNat]
          rw [Nat.mod_eq_of_lt (b := 1361129467683753853853498429727072845819)] <;> omega
        · have : g = 1#64 := BitVec.eq_of_toNat_eq hg1
          rw [hg1] at hg
          subst this
          have e : ∀ t c : W64, (((t &&& -1#64) ||| (c &&& ~~~(-1#64))) &&& 0xffffffff#64).toNat = t.toNat % 2 ^ 32 := by
            intro t c
            rw [← and_allOnes32]
            congr 1
            simp [ones]
          rw [e, e, e, e]
          have hge : 1361129467683753853853498429727072845819 ≤
            c0.toNat + 2 ^ 32 * c1.toNat + 2 ^ 64 * c2.toNat + 2 ^ 96 * c3.toNat + 2 ^ 128 * c4.toNat := by omega
          rw [Nat.mod_eq_sub_mod hge, Nat.mod_eq_of_lt (b := 1361129467683753853853498429727072845819)] <;> omega
    obtain ⟨x0, x1, x2, x3, b0, b1, b2, b3, e0, e1, e2, e3, ex⟩ := sel
    generalize (((t0 &&& -g) ||| (u64 c0 &&& ~~~(-g))) &&& 0xffffffff#64) = y0 at e0 ⊢
    generalize (((t1 &&& -g) ||| (u64 c1 &&& ~~~(-g))) &&& 0xffffffff#64) = y1 at e1 ⊢
    generalize (((t2 &&& -g) ||| (u64 c2 &&& ~~~(-g))) &&& 0xffffffff#64) = y2 at e2 ⊢
    generalize (((t3 &&& -g) ||| (u64 c3 &&& ~~~(-g))) &&& 0xffffffff#64) = y3 at e3 ⊢
    have i0 := s0.isLt
    have i1 := s1.isLt
    have i2 := s2.isLt
    have i3 := s3.isLt
    have f0 : (y0 + u64 s0).toNat = x0 + s0.toNat := by rw [add_toNat, u64_toNat, e0]; rw [u64_toNat]; omega
    generalize y0 + u64 s0 = z0 at f0 ⊢
    have step2 : ∀ (y : W64) (m : W32) (t : W64), y.toNat < 2 ^ 32 → t.toNat < 2 ^ 34 →
        (y + (u64 m + t >>> 32)).toNat = y.toNat + (m.toNat + t.toNat / 2 ^ 32) := by
      intro y m t hy ht
      have := m.isLt
      rw [add_toNat, step m t ht]; rw [step m t ht]; omega
    have f1 := step2 y1 s1 z0 (by omega) (by omega)
    generalize y1 + (u64 s1 + z0 >>> 32) = z1 at f1 ⊢
    have f2 := step2 y2 s2 z1 (by omega) (by omega)
    generalize y2 + (u64 s2 + z1 >>> 32) = z2 at f2 ⊢
    have f3 := step2 y3 s3 z2 (by omega) (by omega)
    generalize y3 + (u64 s3 + z2 >>> 32) = z3 at f3 ⊢
    show val4 [u32 z0, u32 z1, u32 z2, u32 z3] = (_ + val4 [s0, s1, s2, s3]) % _
    unfold val4
    simp only [u32, BitVec.toNat_setWidth]
    generalize (c0.toNat + 2 ^ 32 * c1.toNat + 2 ^ 64 * c2.toNat + 2 ^ 96 * c3.toNat + 2 ^ 128 * c4.toNat) %
      1361129467683753853853498429727072845819 = V at ex ⊢
    omega

end Milo.Poly1305
