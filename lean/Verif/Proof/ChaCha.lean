import Verif.Proof.Window
import Verif.Proof.Sched
import Verif.Proof.Sha1
import Verif.Proof.SpecBytes
import Verif.Model.ChaCha
import Verif.Spec.ChaCha
/- The portable ChaCha backend, and `update_block_prod_xor` over any lawful backend. -/
namespace Milo.ChaCha
open Memory
open Sha1 (bitRotl)

theorem list16 {α} (l : List α) (h : l.length = 16) : ∃ a0 a1 a2 a3 a4 a5 a6 a7 a8 a9 a10 a11 a12 a13 a14 a15,
    l = [a0, a1, a2, a3, a4, a5, a6, a7, a8, a9, a10, a11, a12, a13, a14, a15] := by
  match l, h with
  | [a0, a1, a2, a3, a4, a5, a6, a7, a8, a9, a10, a11, a12, a13, a14, a15], _ => exact ⟨a0, a1, a2, a3, a4, a5, a6, a7, a8, a9, a10, a11, a12, a13, a14, a15, rfl⟩

theorem qr_length (s : List W32) (a b c d : Nat) : (Spec.ChaCha.qr s a b c d).length = s.length := by simp [Spec.ChaCha.qr]

theorem rd1_getD (s : List W32) (i : Nat) (h : i < s.length) : rd1 s i = some (s.getD i 0) := by
  simp [rd1, h]

theorem getD_set_self (s : List W32) (i : Nat) (x : W32) (h : i < s.length) : (s.set i x).getD i 0 = x := by simp [h]
theorem getD_set_ne (s : List W32) (i j : Nat) (x : W32) (h : i ≠ j) : (s.set i x).getD j 0 = s.getD j 0 := by simp [h]

theorem add_eq (s : List W32) (a b : Nat) (ha : a < s.length) (hb : b < s.length) : add s a b = some (s.set a (s.getD a 0 + s.getD b 0)) := by
  unfold add
  rw [rd1_getD s a ha, rd1_getD s b hb]
  simp [wr1, ha]

theorem xrot_eq (s : List W32) (d a n : Nat) (hn : n < 32) (hd : d < s.length) (ha : a < s.length) :
    xrot s d a n = some (s.set d ((s.getD d 0 ^^^ s.getD a 0).rotateLeft n)) := by
  unfold xrot
  rw [rd1_getD s d hd, rd1_getD s a ha, ← Sha1.rotl_eq _ _ hn]
  simp [wr1, hd]

theorem round_eq (a b c d : Nat) (s : List W32) (ha : a < s.length) (hb : b < s.length) (hc : c < s.length) (hd : d < s.length)
    (hab : a ≠ b) (hac : a ≠ c) (had : a ≠ d) (hbc : b ≠ c) (hbd : b ≠ d) (hcd : c ≠ d) :
    round a b c d s = some (Spec.ChaCha.qr s a b c d) := by
  have hba := hab.symm
  have hca := hac.symm
  have hda := had.symm
  have hcb := hbc.symm
  have hdb := hbd.symm
  have hdc := hcd.symm
  unfold round
  rw [add_eq s a b ha hb]; simp only [Option.bind_eq_bind, Option.bind_some]
  rw [xrot_eq _ d a 16 (by omega) (by simpa) (by simpa)]; simp only [Option.bind_some]
  rw [add_eq _ c d (by simpa) (by simpa)]; simp only [Option.bind_some]
  rw [xrot_eq _ b c 12 (by omega) (by simpa) (by simpa)]; simp only [Option.bind_some]
  rw [add_eq _ a b (by simpa) (by simpa)]; simp only [Option.bind_some]
  rw [xrot_eq _ d a 8 (by omega) (by simpa) (by simpa)]; simp only [Option.bind_some]
  rw [add_eq _ c d (by simpa) (by simpa)]; simp only [Option.bind_some]
  rw [xrot_eq _ b c 7 (by omega) (by simpa) (by simpa)]
  simp only [getD_set_self, getD_set_ne, List.length_set, ha, hb, hc, hd, hab, hac, had, hbc, hbd, hcd, hba, hca, hda, hcb, hdb, hdc, ne_eq,
    not_false_eq_true, Spec.ChaCha.qr, Spec.ChaCha.quarter]
  congr 1
  apply List.ext_getElem?
  intro i
  simp only [List.getElem?_set, List.length_set]
  by_cases h1 : a = i
  · subst h1; simp [hba, hca, hda]
  by_cases h2 : b = i
  · subst h2; simp [hab, hcb, hdb]
  by_cases h3 : c = i
  · subst h3; simp [hac, hbc, hdc]
  by_cases h4 : d = i
  · subst h4; simp [had, hbd, hcd]
  simp [h1, h2, h3, h4]

theorem doubleRound_eq (j : Nat) (s : List W32) (h : s.length = 16) : doubleRound j s = some (Spec.ChaCha.inner s) := by
  unfold doubleRound Spec.ChaCha.inner
  have r : ∀ (a b c d : Nat) (s : List W32), s.length = 16 → a < 16 → b < 16 → c < 16 → d < 16 → a ≠ b → a ≠ c → a ≠ d → b ≠ c → b ≠ d → c ≠ d →
      round a b c d s = some (Spec.ChaCha.qr s a b c d) := fun a b c d s hs h1 h2 h3 h4 => round_eq a b c d s (hs ▸ h1) (hs ▸ h2) (hs ▸ h3) (hs ▸ h4)
  rw [r 0 4 8 12 _ (by simp [qr_length, h]) (by decide) (by decide) (by decide) (by decide) (by decide) (by decide) (by decide) (by decide) (by decide) (by decide)]; simp only [Option.bind_eq_bind, Option.bind_some]
  rw [r 1 5 9 13 _ (by simp [qr_length, h]) (by decide) (by decide) (by decide) (by decide) (by decide) (by decide) (by decide) (by decide) (by decide) (by decide)]; simp only [Option.bind_eq_bind, Option.bind_some]
  rw [r 2 6 10 14 _ (by simp [qr_length, h]) (by decide) (by decide) (by decide) (by decide) (by decide) (by decide) (by decide) (by decide) (by decide) (by decide)]; simp only [Option.bind_eq_bind, Option.bind_some]
  rw [r 3 7 11 15 _ (by simp [qr_length, h]) (by decide) (by decide) (by decide) (by decide) (by decide) (by decide) (by decide) (by decide) (by decide) (by decide)]; simp only [Option.bind_eq_bind, Option.bind_some]
  rw [r 0 5 10 15 _ (by simp [qr_length, h]) (by decide) (by decide) (by decide) (by decide) (by decide) (by decide) (by decide) (by decide) (by decide) (by decide)]; simp only [Option.bind_eq_bind, Option.bind_some]
  rw [r 1 6 11 12 _ (by simp [qr_length, h]) (by decide) (by decide) (by decide) (by decide) (by decide) (by decide) (by decide) (by decide) (by decide) (by decide)]; simp only [Option.bind_eq_bind, Option.bind_some]
  rw [r 2 7 8 13 _ (by simp [qr_length, h]) (by decide) (by decide) (by decide) (by decide) (by decide) (by decide) (by decide) (by decide) (by decide) (by decide)]; simp only [Option.bind_eq_bind, Option.bind_some]
  rw [r 3 4 9 14 _ (by simp [qr_length, h]) (by decide) (by decide) (by decide) (by decide) (by decide) (by decide) (by decide) (by decide) (by decide) (by decide)]

theorem inner_length (s : List W32) : (Spec.ChaCha.inner s).length = s.length := by simp [Spec.ChaCha.inner, qr_length]

theorem rounds_length (n : Nat) (s : List W32) : ((List.range n).foldl (fun s _ => Spec.ChaCha.inner s) s).length = s.length := by
  induction n with
  | zero => rfl
  | succ n ih => rw [List.range_succ, List.foldl_append, List.foldl_cons, List.foldl_nil, inner_length, ih]

/-- The state after the rounds and the addition, per RFC 8439. -/
def keyW (s : List W32) : List W32 := List.zipWith (· + ·) s ((List.range 10).foldl (fun s _ => Spec.ChaCha.inner s) s)

theorem keyW_length (s : List W32) : (keyW s).length = s.length := by simp [keyW, rounds_length]

theorem keyWords_eq (s : List W32) (h : s.length = 16) : keyWords s = some (keyW s) := by
  have e1 : forM' doubleRound 10 0 s = some ((List.range 10).foldl (fun s _ => Spec.ChaCha.inner s) s) := by
    have := forM'_inv doubleRound (fun n => (List.range n).foldl (fun s _ => Spec.ChaCha.inner s) s) 10 0 (fun j _ _ => by
      rw [doubleRound_eq _ _ (by rw [rounds_length, h]), List.range_succ, List.foldl_append, List.foldl_cons, List.foldl_nil])
    exact this
  unfold keyWords keyW
  rw [e1]
  have hl := rounds_length 10 s
  generalize (List.range 10).foldl (fun s _ => Spec.ChaCha.inner s) s = t at hl ⊢
  obtain ⟨a0, a1, a2, a3, a4, a5, a6, a7, a8, a9, a10, a11, a12, a13, a14, a15, rfl⟩ := list16 s h
  obtain ⟨b0, b1, b2, b3, b4, b5, b6, b7, b8, b9, b10, b11, b12, b13, b14, b15, rfl⟩ := list16 t (hl.trans h)
  simp [forM', addBase, rd1, wr1, BitVec.add_comm]

/-! ### Bytes of the key stream -/

/-- The state for the block `n` blocks further on. -/
def ctr (st : List W32) (n : Nat) : List W32 := st.set 12 (st.getD 12 0 + BitVec.ofNat 32 n)

/-- Byte `i` of the key stream starting at state `st`. -/
def stream (st : List W32) (i : Nat) : Byte := (Spec.ChaCha.core (ctr st (i / 64))).getD (i % 64) 0

theorem ctr_length (st : List W32) (n : Nat) : (ctr st n).length = st.length := by simp [ctr]

theorem ctr_ctr (st : List W32) (a b : Nat) (h : 12 < st.length) : ctr (ctr st a) b = ctr st (a + b) := by
  simp [ctr, h, BitVec.add_assoc, BitVec.ofNat_add]

theorem ctr_zero (st : List W32) (h : 12 < st.length) : ctr st 0 = st := by
  apply List.ext_getElem?
  intro i
  simp only [ctr, List.getElem?_set]
  by_cases hi : 12 = i
  · subst hi; simp [h]
  · simp [hi]

theorem bump_eq (st : List W32) (n : Nat) (h : 12 < st.length) : bump st n = some (ctr st n) := by
  unfold bump
  rw [rd1_getD st 12 h]
  simp [wr1, h, ctr]

theorem stream_ctr (st : List W32) (g i : Nat) (h : 12 < st.length) : stream (ctr st g) i = stream st (64 * g + i) := by
  unfold stream
  rw [ctr_ctr st _ _ h, Nat.mul_add_div (by omega), Nat.mul_add_mod]

theorem flatMap_get {α β : Type} (l : List α) (f : α → List β) (z j b : Nat) (hf : ∀ x, (f x).length = z) (hb : b < z) :
    (l.flatMap f)[z * j + b]? = l[j]?.bind fun x => (f x)[b]? := by
  induction l generalizing j with
  | nil => simp
  | cons x l ih =>
    rw [List.flatMap_cons]
    cases j with
    | zero => rw [List.getElem?_append_left (by rw [hf]; omega)]; simp
    | succ j =>
      rw [List.getElem?_append_right (by rw [hf, Nat.mul_succ]; omega), hf, show z * (j + 1) + b - z = z * j + b by rw [Nat.mul_succ]; omega, ih]
      simp

/-- Byte `b` of word `j` of block `i`. -/
theorem stream_word (st : List W32) (i j b : Nat) (hs : st.length = 16) (hj : j < 16) (hb : b < 4) :
    (toLE 4 ((keyW (ctr st i)).getD j 0).toNat)[b]? = some (stream st (64 * i + 4 * j + b)) := by
  unfold stream
  rw [show (64 * i + 4 * j + b) / 64 = i by omega, show (64 * i + 4 * j + b) % 64 = 4 * j + b by omega]
  have hl : (keyW (ctr st i)).length = 16 := by rw [keyW_length, ctr_length, hs]
  have e : Spec.ChaCha.core (ctr st i) = (keyW (ctr st i)).flatMap fun w => Spec.leBytes 4 w.toNat := rfl
  have e2 := flatMap_get (keyW (ctr st i)) (fun w => Spec.leBytes 4 w.toNat) 4 j b (fun x => by simp [Spec.leBytes]) hb
  rw [e]
  generalize (keyW (ctr st i)).flatMap (fun w => Spec.leBytes 4 w.toNat) = fl at e2 ⊢
  simp only [List.getD_eq_getElem?_getD]
  rw [e2, List.getElem?_eq_getElem (show j < (keyW (ctr st i)).length by omega)]
  simp only [Option.bind_some, Option.getD_some, spec_leBytes]
  rw [List.getElem?_eq_getElem (by simpa using hb)]
  rfl

theorem toLE_xor (n a b : Nat) : toLE n (a ^^^ b) = List.zipWith (· ^^^ ·) (toLE n a) (toLE n b) := by
  induction n generalizing a b with
  | zero => rfl
  | succ n ih =>
    simp only [toLE, List.zipWith_cons_cons]
    rw [← ih]
    congr 1
    · apply BitVec.eq_of_toNat_eq; simp [Nat.xor_mod_two_pow (n := 8)]
    · rw [show (256 : Nat) = 2 ^ 8 from rfl, Nat.xor_div_two_pow]

/-! ### Word accesses at an offset -/

theorem at_storLe4 (h : Host) (mem : List Byte) (off j : Nat) (x : W32) (hl : off + 4 * j + 4 ≤ mem.length) :
    (at_ mem off fun d => storLe h (v := 4) (p := 1) d j x) = wrN mem (off + 4 * j) (toLE 4 x.toNat) := by
  rw [at_eq _ _ _ (by omega), storLe_eq h ⟨by omega, by omega, .inl ⟨4, by omega⟩⟩ (by simp [Swappable]), image_bytes']
  have hb : (toBytes .little (n := 4) x).length = 4 := by simp
  rw [wrN_some _ _ _ (by rw [hb]; simp; omega), wrN_some _ _ _ (by simp; omega)]
  simp only [Option.map_some]
  rw [ofImage_bytes' _ _ _ (by simp; omega), hb]
  rw [List.take_drop, List.drop_drop]
  congr 1
  rw [Nat.mul_comm j 4, toLE_length]
  have : mem.take (off + 4 * j) = mem.take off ++ (mem.take (off + 4 * j)).drop off := by
    conv => lhs; rw [← List.take_append_drop off (mem.take (off + 4 * j))]
    rw [List.take_take, Nat.min_eq_left (by omega)]
  conv => rhs; rw [this]
  rw [show off + (4 * j + 4) = off + 4 * j + 4 by omega]
  simp only [List.append_assoc]
  rfl

theorem loadLe4_at (h : Host) (mem : List Byte) (off j : Nat) (hl : off + 4 * j + 4 ≤ mem.length) :
    (advance mem off).bind (fun s => loadLe h false 4 (p := 1) s j) = (rdN mem (off + 4 * j) 4).map (ofBytes .little 4) := by
  rw [advance_eq _ _ (by omega)]
  simp only [Option.bind_some]
  rw [loadLe_eq h false ⟨by omega, by omega, .inl ⟨4, by omega⟩⟩ (by simp [Swappable]), image_bytes', rdN_some _ _ _ (by simp; omega),
    rdN_some _ _ _ (by omega), List.drop_drop, Nat.mul_comm j 4]

/-! ### The portable backend -/

/-- The bytes of a xored word. -/
theorem xor_word (x : W32) (bs : List Byte) (hb : bs.length = 4) : toLE 4 (x ^^^ ofBytes .little 4 bs).toNat = List.zipWith (· ^^^ ·) (toLE 4 x.toNat) bs := by
  rw [BitVec.toNat_xor, toLE_xor]
  congr 1
  have := toBytes_ofBytes .little 4 bs hb
  exact this

theorem transformWord_step (h : Host) (st : List W32) (hs : st.length = 16) (mem0 : List Byte) (dst src n i j : Nat) (ho : NoOverlap dst src (64 * n))
    (hsl : src + 64 * n ≤ mem0.length) (hdl : dst + 64 * n ≤ mem0.length) (hi : i < n) (hj : j < 16) (mem : List Byte)
    (u : Upd mem0 dst (fun k => mem0.getD (src + k) 0 ^^^ stream st k) (fun k => k < 64 * i + 4 * j) mem) :
    ∃ mem', transformWord h (keyW (ctr st i)) (dst + 64 * i) (src + 64 * i) j mem = some mem' ∧
      Upd mem0 dst (fun k => mem0.getD (src + k) 0 ^^^ stream st k) (fun k => k < 64 * i + 4 * (j + 1)) mem' := by
  have hl : (keyW (ctr st i)).length = 16 := by rw [keyW_length, ctr_length, hs]
  have hr := u.read src (64 * n) (64 * i + 4 * j) 4 ho (fun k hk => by omega) (by omega) (fun k h1 h2 => by omega) hsl
  have hld := loadLe4_at h mem (src + 64 * i) j (by rw [u.1]; omega)
  rw [show src + 64 * i + 4 * j = src + (64 * i + 4 * j) by omega, hr] at hld
  have hb : ((mem0.drop (src + (64 * i + 4 * j))).take 4).length = 4 := by simp; omega
  obtain ⟨mem', e, u'⟩ := u.write (64 * i + 4 * j)
    (toLE 4 ((keyW (ctr st i)).getD j 0 ^^^ ofBytes .little 4 ((mem0.drop (src + (64 * i + 4 * j))).take 4)).toNat)
    (fun b hbl => by
      rw [toLE_length] at hbl
      rw [xor_word _ _ hb, List.getElem?_zipWith, stream_word st i j b hs hj hbl, List.getElem?_take_of_lt hbl, List.getElem?_drop,
        List.getElem?_eq_getElem (by omega)]
      simp only [List.getD_eq_getElem?_getD]
      rw [show src + (64 * i + 4 * j + b) = src + (64 * i + 4 * j) + b by omega, List.getElem?_eq_getElem (by omega)]
      simp [BitVec.xor_comm])
    (by simp; omega)
  refine ⟨mem', ?_, u'.congr (fun k => by rw [toLE_length]; omega)⟩
  unfold transformWord
  rw [rd1_getD _ _ (by omega)]
  simp only [Option.bind_eq_bind, Option.bind_some]
  cases ha : advance mem (src + 64 * i) with
  | none => rw [ha] at hld; simp at hld
  | some s =>
    rw [ha] at hld
    simp only [Option.bind_some, Option.map_some] at hld ⊢
    rw [hld]
    simp only [Option.bind_some]
    rw [at_storLe4 h mem _ _ _ (by rw [u.1]; omega), show dst + 64 * i + 4 * j = dst + (64 * i + 4 * j) by omega]
    exact e

/-- A counted loop with an invariant. -/
theorem forM'_exists {σ : Type} (f : Nat → σ → Option σ) (P : Nat → σ → Prop) (n i : Nat) (s : σ) (hs : P i s)
    (h : ∀ j s, i ≤ j → j < i + n → P j s → ∃ s', f j s = some s' ∧ P (j + 1) s') : ∃ s', forM' f n i s = some s' ∧ P (i + n) s' := by
  induction n generalizing i s with
  | zero => exact ⟨s, rfl, hs⟩
  | succ n ih =>
    obtain ⟨s1, e1, p1⟩ := h i s (Nat.le_refl _) (by omega) hs
    obtain ⟨s2, e2, p2⟩ := ih (i + 1) s1 p1 (fun j s h1 h2 => h j s (by omega) (by omega))
    exact ⟨s2, by simp only [forM', e1, Option.bind_eq_bind, Option.bind_some]; exact e2, by rw [show i + (n + 1) = i + 1 + n by omega]; exact p2⟩

theorem sw_transform (h : Host) (st : List W32) (hs : st.length = 16) (mem : List Byte) (dst src n : Nat) (ho : NoOverlap dst src (64 * n))
    (hsl : src + 64 * n ≤ mem.length) (hdl : dst + 64 * n ≤ mem.length) :
    (sw h).transform n st mem dst src = some (n, xored mem dst src (stream st) (64 * n)) := by
  obtain ⟨s', e, he, hu⟩ := forM'_exists (transformBlock h dst src) (fun i s => s.1 = ctr st i ∧
      Upd mem dst (fun k => mem.getD (src + k) 0 ^^^ stream st k) (fun k => k < 64 * i) s.2) n 0 (st, mem)
    ⟨(ctr_zero st (by omega)).symm, (Upd.start mem dst _).congr (by simp)⟩ (by
      rintro i ⟨base, m⟩ - hi ⟨hb, hu⟩
      simp only at hb hu
      subst hb
      obtain ⟨m', e1, u1⟩ := forM'_exists (transformWord h (keyW (ctr st i)) (dst + 64 * i) (src + 64 * i)) (fun j m =>
        Upd mem dst (fun k => mem.getD (src + k) 0 ^^^ stream st k) (fun k => k < 64 * i + 4 * j) m) 16 0 m hu
        (fun j m _ hj u => transformWord_step h st hs mem dst src n i j ho hsl hdl (by omega) (by omega) m u)
      refine ⟨(ctr st (i + 1), m'), ?_, rfl, u1⟩
      unfold transformBlock
      simp only
      rw [keyWords_eq _ (by rw [ctr_length, hs])]
      simp only [Option.bind_eq_bind, Option.bind_some, e1]
      rw [bump_eq _ _ (by rw [ctr_length]; omega), ctr_ctr _ _ _ (by omega)]
      rfl)
  simp only [Nat.zero_add] at hu
  rw [Upd.xored_iff _ _ _ _ _ hdl] at hu
  have hc : copyState st = some st := by
    unfold copyState
    rw [rdN_some _ _ _ (by omega), List.drop_zero, List.take_of_length_le (by omega)]
  show (copyState st).bind _ = _
  rw [hc]
  simp only [Option.bind_some, e, Option.bind_eq_bind]
  rw [hu]; rfl

theorem sw_generate (h : Host) (st : List W32) (hs : st.length = 16) (buf : List Byte) (n : Nat) (hl : 64 * n ≤ buf.length) :
    (sw h).generate n st buf = some (n, (List.range (64 * n)).map (stream st) ++ buf.drop (64 * n)) := by
  obtain ⟨s', e, he, hu⟩ := forM'_exists (generateBlock h) (fun i s => s.1 = ctr st i ∧
      Upd buf 0 (stream st) (fun k => k < 64 * i) s.2) n 0 (st, buf)
    ⟨(ctr_zero st (by omega)).symm, (Upd.start buf 0 _).congr (by simp)⟩ (by
      rintro i ⟨base, m⟩ - hi ⟨hb, hu⟩
      simp only at hb hu
      subst hb
      have hk : (keyW (ctr st i)).length = 16 := by rw [keyW_length, ctr_length, hs]
      obtain ⟨m', e1, u1⟩ := forM'_exists (generateWord h (keyW (ctr st i)) (64 * i)) (fun j m =>
        Upd buf 0 (stream st) (fun k => k < 64 * i + 4 * j) m) 16 0 m hu
        (fun j m _ hj u => by
          obtain ⟨mem', e, u'⟩ := u.write (64 * i + 4 * j) (toLE 4 ((keyW (ctr st i)).getD j 0).toNat)
            (fun b hbl => by
              rw [toLE_length] at hbl
              rw [stream_word st i j b hs (by omega) hbl])
            (by simp; omega)
          refine ⟨mem', ?_, u'.congr (fun k => by rw [toLE_length]; omega)⟩
          unfold generateWord
          rw [rd1_getD _ _ (by omega)]
          simp only [Option.bind_eq_bind, Option.bind_some]
          rw [at_storLe4 h m _ _ _ (by rw [u.1]; omega), show 64 * i + 4 * j = 0 + (64 * i + 4 * j) by omega]
          exact e)
      refine ⟨(ctr st (i + 1), m'), ?_, rfl, u1⟩
      unfold generateBlock
      simp only
      rw [keyWords_eq _ (by rw [ctr_length, hs])]
      simp only [Option.bind_eq_bind, Option.bind_some, e1]
      rw [bump_eq _ _ (by rw [ctr_length]; omega), ctr_ctr _ _ _ (by omega)]
      rfl)
  simp only [Nat.zero_add] at hu
  have hd := hu.done (by omega)
  have hc : copyState st = some st := by
    unfold copyState
    rw [rdN_some _ _ _ (by omega), List.drop_zero, List.take_of_length_le (by omega)]
  show (copyState st).bind _ = _
  rw [hc]
  simp only [Option.bind_some, e, Option.bind_eq_bind]
  rw [hd]; simp

end Milo.ChaCha
