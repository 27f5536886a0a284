import Verif.Proof.ChaChaAsmBody
/- The assembly backends of ChaCha: the memory they leave, and that they are lawful. -/
namespace Milo.ChaCha.Asm
open Memory X86

section
variable {lanes : Nat}

/-- A register loaded from `mem` at `off`. -/
def ldv (lanes : Nat) (mem : List Byte) (off : Nat) : Vec := fun j =>
  if j < lanes then ofBytes .little 4 ((((mem.drop off).take (4 * lanes)).drop (4 * j)).take 4) else 0

theorem vecBytes_length (v : Vec) : (vecBytes lanes v).length = 4 * lanes := by
  unfold vecBytes
  simp [List.length_flatMap, List.map_const', Nat.mul_comm]

theorem vecBytes_get (v : Vec) (j b : Nat) (hj : j < lanes) (hb : b < 4) : (vecBytes lanes v)[4 * j + b]? = (toLE 4 (v j).toNat)[b]? := by
  unfold vecBytes
  rw [flatMap_get _ _ 4 j b (fun x => by simp) hb, List.getElem?_range hj]
  rfl

theorem Upd.loadVec {mem0 : List Byte} {dst : Nat} {out : Nat → Byte} {D : Nat → Prop} {m : List Byte} (u : Upd mem0 dst out D m)
    (src n k : Nat) (ho : NoOverlap dst src n) (hD : ∀ j, D j → j < n) (hk : k + 4 * lanes ≤ n) (hn : ∀ j, k ≤ j → j < k + 4 * lanes → ¬ D j)
    (hl : src + n ≤ mem0.length) : (simd lanes).load (some m) (src + k) = (ldv lanes mem0 (src + k), some m) := by
  show X86.loadVec lanes (some m) (src + k) = _
  unfold X86.loadVec ldv
  rw [Option.bind_some, u.read src n k (4 * lanes) ho hD hk hn hl]

theorem Upd.storeVec {mem0 : List Byte} {dst : Nat} {out : Nat → Byte} {D : Nat → Prop} {m : List Byte} (u : Upd mem0 dst out D m)
    (k : Nat) (v : Vec) (hv : ∀ j b, j < lanes → b < 4 → (toLE 4 (v j).toNat)[b]? = some (out (k + 4 * j + b))) (hl : dst + k + 4 * lanes ≤ mem0.length) :
    ∃ m', (simd lanes).store (some m) (dst + k) v = some m' ∧ Upd mem0 dst out (fun j => D j ∨ (k ≤ j ∧ j < k + 4 * lanes)) m' := by
  obtain ⟨m', e, u'⟩ := u.write k (vecBytes lanes v) (fun i hi => by
    rw [vecBytes_length] at hi
    have := vecBytes_get v (i / 4) (i % 4) (by omega : i / 4 < lanes) (by omega)
    rw [show 4 * (i / 4) + i % 4 = i by omega] at this
    rw [this, hv _ _ (by omega) (by omega), show k + 4 * (i / 4) + i % 4 = k + i by omega]) (by rw [vecBytes_length]; omega)
  exact ⟨m', e, by rw [vecBytes_length] at u'; exact u'⟩

/-- The bytes of a register xored with a loaded one. -/
theorem xor_loaded (v : Vec) (mem0 : List Byte) (off : Nat) (ks : Nat → Byte) (k j b : Nat) (hj : j < lanes) (hb : b < 4) (hl : off + 4 * lanes ≤ mem0.length)
    (hv : (toLE 4 (v j).toNat)[b]? = some (ks (k + 4 * j + b))) :
    (toLE 4 ((simd lanes).bin .pxor v (ldv lanes mem0 off) j).toNat)[b]? = some (mem0.getD (off + 4 * j + b) 0 ^^^ ks (k + 4 * j + b)) := by
  have e : (simd lanes).bin .pxor v (ldv lanes mem0 off) j = v j ^^^ ofBytes .little 4 ((((mem0.drop off).take (4 * lanes)).drop (4 * j)).take 4) := by
    show v j ^^^ ldv lanes mem0 off j = _
    unfold ldv
    rw [if_pos hj]
  rw [e, xor_word _ _ (by simp; omega), List.getElem?_zipWith, hv, List.getElem?_take_of_lt hb, List.getElem?_drop, List.getElem?_take_of_lt (by omega),
    List.getElem?_drop, ← Nat.add_assoc, List.getElem?_eq_getElem (by omega)]
  simp only [List.getD_eq_getElem?_getD]
  rw [List.getElem?_eq_getElem (by omega)]
  simp [BitVec.xor_comm]

theorem xor4_upd {mem0 : List Byte} {dst src N : Nat} {ks : Nat → Byte} {D : Nat → Prop} {m : List Byte}
    (u : Upd mem0 dst (fun k => mem0.getD (src + k) 0 ^^^ ks k) D m) (ho : NoOverlap dst src N) (hD : ∀ j, D j → j < N)
    (hsl : src + N ≤ mem0.length) (hdl : dst + N ≤ mem0.length) (O o0 o1 o2 o3 : Nat) (v0 v1 v2 v3 : Vec)
    (h0 : O + o0 + 4 * lanes ≤ N) (h1 : O + o1 + 4 * lanes ≤ N) (h2 : O + o2 + 4 * lanes ≤ N) (h3 : O + o3 + 4 * lanes ≤ N)
    (n0 : ∀ k, O + o0 ≤ k → k < O + o0 + 4 * lanes → ¬ D k) (n1 : ∀ k, O + o1 ≤ k → k < O + o1 + 4 * lanes → ¬ D k)
    (n2 : ∀ k, O + o2 ≤ k → k < O + o2 + 4 * lanes → ¬ D k) (n3 : ∀ k, O + o3 ≤ k → k < O + o3 + 4 * lanes → ¬ D k)
    (k0 : ∀ j b, j < lanes → b < 4 → (toLE 4 (v0 j).toNat)[b]? = some (ks (O + o0 + 4 * j + b)))
    (k1 : ∀ j b, j < lanes → b < 4 → (toLE 4 (v1 j).toNat)[b]? = some (ks (O + o1 + 4 * j + b)))
    (k2 : ∀ j b, j < lanes → b < 4 → (toLE 4 (v2 j).toNat)[b]? = some (ks (O + o2 + 4 * j + b)))
    (k3 : ∀ j b, j < lanes → b < 4 → (toLE 4 (v3 j).toNat)[b]? = some (ks (O + o3 + 4 * j + b))) :
    ∃ m', xor4 (simd lanes) (some m) (dst + O) (src + O) o0 o1 o2 o3 v0 v1 v2 v3 = some m' ∧
      Upd mem0 dst (fun k => mem0.getD (src + k) 0 ^^^ ks k) (fun k => (((D k ∨ (O + o0 ≤ k ∧ k < O + o0 + 4 * lanes)) ∨
        (O + o1 ≤ k ∧ k < O + o1 + 4 * lanes)) ∨ (O + o2 ≤ k ∧ k < O + o2 + 4 * lanes)) ∨ (O + o3 ≤ k ∧ k < O + o3 + 4 * lanes)) m' := by
  have w : ∀ (o : Nat) (v : Vec), O + o + 4 * lanes ≤ N → (∀ j b, j < lanes → b < 4 → (toLE 4 (v j).toNat)[b]? = some (ks (O + o + 4 * j + b))) →
      ∀ j b, j < lanes → b < 4 → (toLE 4 ((simd lanes).bin .pxor v (ldv lanes mem0 (src + (O + o))) j).toNat)[b]?
        = some ((fun k => mem0.getD (src + k) 0 ^^^ ks k) (O + o + 4 * j + b)) := by
    intro o v hov hv j b hj hb
    rw [xor_loaded v mem0 (src + (O + o)) ks (O + o) j b hj hb (by omega) (hv j b hj hb)]
    rw [show src + (O + o) + 4 * j + b = src + (O + o + 4 * j + b) by omega]
  unfold xor4
  simp only [Nat.add_assoc src O, Nat.add_assoc dst O]
  rw [Upd.loadVec u src N (O + o0) ho hD h0 n0 hsl]
  dsimp only
  rw [Upd.loadVec u src N (O + o1) ho hD h1 n1 hsl]
  dsimp only
  rw [Upd.loadVec u src N (O + o2) ho hD h2 n2 hsl]
  dsimp only
  rw [Upd.loadVec u src N (O + o3) ho hD h3 n3 hsl]
  dsimp only
  obtain ⟨m0, e0, u0⟩ := Upd.storeVec u (O + o0) _ (w o0 v0 h0 k0) (by omega)
  obtain ⟨m1, e1, u1⟩ := Upd.storeVec u0 (O + o1) _ (w o1 v1 h1 k1) (by omega)
  obtain ⟨m2, e2, u2⟩ := Upd.storeVec u1 (O + o2) _ (w o2 v2 h2 k2) (by omega)
  obtain ⟨m3, e3, u3⟩ := Upd.storeVec u2 (O + o3) _ (w o3 v3 h3 k3) (by omega)
  exact ⟨m3, by rw [e0, e1, e2, e3], u3⟩

theorem stor4_upd {mem0 : List Byte} {dst N : Nat} {ks : Nat → Byte} {D : Nat → Prop} {m : List Byte}
    (u : Upd mem0 dst ks D m) (hdl : dst + N ≤ mem0.length) (O o0 o1 o2 o3 : Nat) (v0 v1 v2 v3 : Vec)
    (h0 : O + o0 + 4 * lanes ≤ N) (h1 : O + o1 + 4 * lanes ≤ N) (h2 : O + o2 + 4 * lanes ≤ N) (h3 : O + o3 + 4 * lanes ≤ N)
    (k0 : ∀ j b, j < lanes → b < 4 → (toLE 4 (v0 j).toNat)[b]? = some (ks (O + o0 + 4 * j + b)))
    (k1 : ∀ j b, j < lanes → b < 4 → (toLE 4 (v1 j).toNat)[b]? = some (ks (O + o1 + 4 * j + b)))
    (k2 : ∀ j b, j < lanes → b < 4 → (toLE 4 (v2 j).toNat)[b]? = some (ks (O + o2 + 4 * j + b)))
    (k3 : ∀ j b, j < lanes → b < 4 → (toLE 4 (v3 j).toNat)[b]? = some (ks (O + o3 + 4 * j + b))) :
    ∃ m', stor4 (simd lanes) (some m) (dst + O) o0 o1 o2 o3 v0 v1 v2 v3 = some m' ∧
      Upd mem0 dst ks (fun k => (((D k ∨ (O + o0 ≤ k ∧ k < O + o0 + 4 * lanes)) ∨
        (O + o1 ≤ k ∧ k < O + o1 + 4 * lanes)) ∨ (O + o2 ≤ k ∧ k < O + o2 + 4 * lanes)) ∨ (O + o3 ≤ k ∧ k < O + o3 + 4 * lanes)) m' := by
  unfold stor4
  simp only [Nat.add_assoc dst O]
  obtain ⟨m0, e0, u0⟩ := Upd.storeVec u (O + o0) _ k0 (by omega)
  obtain ⟨m1, e1, u1⟩ := Upd.storeVec u0 (O + o1) _ k1 (by omega)
  obtain ⟨m2, e2, u2⟩ := Upd.storeVec u1 (O + o2) _ k2 (by omega)
  obtain ⟨m3, e3, u3⟩ := Upd.storeVec u2 (O + o3) _ k3 (by omega)
  exact ⟨m3, by rw [e0, e1, e2, e3], u3⟩

/-! ### Rows -/

/-- Lane `l` of register `j` of four. -/
def pick4 (a b c d : Vec) (l : Nat) : Nat → W32
  | 0 => a l
  | 1 => b l
  | 2 => c l
  | _ => d l

theorem rowHH_lane (a b c d : Vec) (j : Nat) (hj : j < 8) : rowHH (simd lanes) a b c d j = pick4 a b c d (j / 4 * 4 + 3) (j % 4) := by
  interval_cases j <;> rfl
theorem rowLH_lane (a b c d : Vec) (j : Nat) (hj : j < 8) : rowLH (simd lanes) a b c d j = pick4 a b c d (j / 4 * 4 + 2) (j % 4) := by
  interval_cases j <;> rfl
theorem rowHL_lane (a b c d : Vec) (j : Nat) (hj : j < 8) : rowHL (simd lanes) a b c d j = pick4 a b c d (j / 4 * 4 + 1) (j % 4) := by
  interval_cases j <;> rfl
theorem rowLL_lane (a b c d : Vec) (j : Nat) (hj : j < 8) : rowLL (simd lanes) a b c d j = pick4 a b c d (j / 4 * 4 + 0) (j % 4) := by
  interval_cases j <;> rfl

theorem top_lane (a b : Vec) (j : Nat) (hj : j < 8) : top (simd lanes) a b j = if j < 4 then a (4 + j) else b j := by
  interval_cases j <;> rfl
theorem low_lane (a b : Vec) (j : Nat) (hj : j < 8) : low (simd lanes) a b j = if j < 4 then a j else b (j - 4) := by
  interval_cases j <;> rfl

/-! ### The stores of an iteration -/

/-- Words `w i` of `lanes` blocks: lane `l` holds the key stream block `B + (lanes - 1 - l)`. -/
def Words (lanes : Nat) (st : List W32) (B : Nat) (w : Nat → Vec) : Prop :=
  ∀ i l, i < 16 → l < lanes → w i l = (keyW (ctr st (B + (lanes - 1 - l)))).getD i 0

theorem Words.byte {st : List W32} {B : Nat} {w : Nat → Vec} (hw : Words lanes st B w) (hs : st.length = 16) (i l b : Nat) (hi : i < 16) (hl : l < lanes) (hb : b < 4) :
    (toLE 4 (w i l).toNat)[b]? = some (stream st (64 * (B + (lanes - 1 - l)) + 4 * i + b)) := by
  rw [hw i l hi hl]
  exact stream_word st _ i b hs hi hb

theorem Words.row4 {st : List W32} {B : Nat} {w : Nat → Vec} (hw : Words lanes st B w) (hs : st.length = 16) (v : Vec) (i l n p : Nat)
    (hi : i + n ≤ 16) (hl : l < lanes) (hv : ∀ j, j < n → v j = w (i + j) l) (hp : p = 64 * (B + (lanes - 1 - l)) + 4 * i) (j b : Nat) (hj : j < n) (hb : b < 4) :
    (toLE 4 (v j).toNat)[b]? = some (stream st (p + 4 * j + b)) := by
  rw [hv j hj, hw.byte hs (i + j) l b (by omega) hl hb, hp]
  congr 2; omega

theorem row_words (w : Nat → Vec) (i l j : Nat) (hj : j < 4) : pick4 (w i) (w (i + 1)) (w (i + 2)) (w (i + 3)) l j = w (i + j) l := by
  interval_cases j <;> rfl

end

section
variable {st : List W32} {B : Nat} {w : Nat → Vec}

theorem rowHH4 (i j : Nat) (hj : j < 4) : rowHH (simd 4) (w i) (w (i + 1)) (w (i + 2)) (w (i + 3)) j = w (i + j) 3 := by
  rw [rowHH_lane _ _ _ _ j (by omega), show j / 4 * 4 + 3 = 3 by omega, show j % 4 = j by omega, row_words _ _ _ _ hj]
theorem rowLH4 (i j : Nat) (hj : j < 4) : rowLH (simd 4) (w i) (w (i + 1)) (w (i + 2)) (w (i + 3)) j = w (i + j) 2 := by
  rw [rowLH_lane _ _ _ _ j (by omega), show j / 4 * 4 + 2 = 2 by omega, show j % 4 = j by omega, row_words _ _ _ _ hj]
theorem rowHL4 (i j : Nat) (hj : j < 4) : rowHL (simd 4) (w i) (w (i + 1)) (w (i + 2)) (w (i + 3)) j = w (i + j) 1 := by
  rw [rowHL_lane _ _ _ _ j (by omega), show j / 4 * 4 + 1 = 1 by omega, show j % 4 = j by omega, row_words _ _ _ _ hj]
theorem rowLL4 (i j : Nat) (hj : j < 4) : rowLL (simd 4) (w i) (w (i + 1)) (w (i + 2)) (w (i + 3)) j = w (i + j) 0 := by
  rw [rowLL_lane _ _ _ _ j (by omega), show j / 4 * 4 + 0 = 0 by omega, show j % 4 = j by omega, row_words _ _ _ _ hj]

theorem coreT_upd (hw : Words 4 st B w) (hs : st.length = 16) {mem0 : List Byte} {dst src N : Nat} {D : Nat → Prop} {m : List Byte}
    (u : Upd mem0 dst (fun k => mem0.getD (src + k) 0 ^^^ stream st k) D m) (ho : NoOverlap dst src N) (hD : ∀ j, D j → j < N)
    (hsl : src + N ≤ mem0.length) (hdl : dst + N ≤ mem0.length) (hN : 64 * B + 256 ≤ N) (off : Nat) (hoff : off < 4)
    (hn : ∀ k, 64 * B ≤ k → k < 64 * B + 256 → (k - 64 * B) / 16 % 4 = off → ¬ D k) :
    ∃ m', coreT (simd 4) (some m) (dst + 64 * B) (src + 64 * B) off (w (4 * off)) (w (4 * off + 1)) (w (4 * off + 2)) (w (4 * off + 3)) = some m' ∧
      Upd mem0 dst (fun k => mem0.getD (src + k) 0 ^^^ stream st k) (fun k => D k ∨ (64 * B ≤ k ∧ k < 64 * B + 256 ∧ (k - 64 * B) / 16 % 4 = off)) m' := by
  unfold coreT
  obtain ⟨m', e, u'⟩ := xor4_upd (lanes := 4) u ho hD hsl hdl (64 * B) (16 * (off + 0)) (16 * (off + 4)) (16 * (off + 8)) (16 * (off + 12)) _ _ _ _
    (by omega) (by omega) (by omega) (by omega)
    (fun k h1 h2 => hn k (by omega) (by omega) (by omega)) (fun k h1 h2 => hn k (by omega) (by omega) (by omega))
    (fun k h1 h2 => hn k (by omega) (by omega) (by omega)) (fun k h1 h2 => hn k (by omega) (by omega) (by omega))
    (hw.row4 hs _ (4 * off) 3 4 _ (by omega) (by omega) (fun j hj => rowHH4 _ j hj) (by omega))
    (hw.row4 hs _ (4 * off) 2 4 _ (by omega) (by omega) (fun j hj => rowLH4 _ j hj) (by omega))
    (hw.row4 hs _ (4 * off) 1 4 _ (by omega) (by omega) (fun j hj => rowHL4 _ j hj) (by omega))
    (hw.row4 hs _ (4 * off) 0 4 _ (by omega) (by omega) (fun j hj => rowLL4 _ j hj) (by omega))
  refine ⟨m', e, u'.congr fun k => ?_⟩
  constructor
  · rintro ((((h | h) | h) | h) | h)
    · exact .inl h
    all_goals exact .inr (by omega)
  · rintro (h | h)
    · exact .inl (.inl (.inl (.inl h)))
    · by_cases c0 : k < 64 * B + 16 * (off + 1)
      · exact .inl (.inl (.inl (.inr (by omega))))
      by_cases c1 : k < 64 * B + 16 * (off + 5)
      · exact .inl (.inl (.inr (by omega)))
      by_cases c2 : k < 64 * B + 16 * (off + 9)
      · exact .inl (.inr (by omega))
      · exact .inr (by omega)

theorem coreG_upd (hw : Words 4 st B w) (hs : st.length = 16) {mem0 : List Byte} {dst N : Nat} {D : Nat → Prop} {m : List Byte}
    (u : Upd mem0 dst (stream st) D m) (hdl : dst + N ≤ mem0.length) (hN : 64 * B + 256 ≤ N) (off : Nat) (hoff : off < 4) :
    ∃ m', coreG (simd 4) (some m) (dst + 64 * B) off (w (4 * off)) (w (4 * off + 1)) (w (4 * off + 2)) (w (4 * off + 3)) = some m' ∧
      Upd mem0 dst (stream st) (fun k => D k ∨ (64 * B ≤ k ∧ k < 64 * B + 256 ∧ (k - 64 * B) / 16 % 4 = off)) m' := by
  unfold coreG
  obtain ⟨m', e, u'⟩ := stor4_upd (lanes := 4) u hdl (64 * B) (16 * (off + 0)) (16 * (off + 4)) (16 * (off + 8)) (16 * (off + 12)) _ _ _ _
    (by omega) (by omega) (by omega) (by omega)
    (hw.row4 hs _ (4 * off) 3 4 _ (by omega) (by omega) (fun j hj => rowHH4 _ j hj) (by omega))
    (hw.row4 hs _ (4 * off) 2 4 _ (by omega) (by omega) (fun j hj => rowLH4 _ j hj) (by omega))
    (hw.row4 hs _ (4 * off) 1 4 _ (by omega) (by omega) (fun j hj => rowHL4 _ j hj) (by omega))
    (hw.row4 hs _ (4 * off) 0 4 _ (by omega) (by omega) (fun j hj => rowLL4 _ j hj) (by omega))
  refine ⟨m', e, u'.congr fun k => ?_⟩
  constructor
  · rintro ((((h | h) | h) | h) | h)
    · exact .inl h
    all_goals exact .inr (by omega)
  · rintro (h | h)
    · exact .inl (.inl (.inl (.inl h)))
    · by_cases c0 : k < 64 * B + 16 * (off + 1)
      · exact .inl (.inl (.inl (.inr (by omega))))
      by_cases c1 : k < 64 * B + 16 * (off + 5)
      · exact .inl (.inl (.inr (by omega)))
      by_cases c2 : k < 64 * B + 16 * (off + 9)
      · exact .inl (.inr (by omega))
      · exact .inr (by omega)

theorem stores4T (hw : Words 4 st B w) (hs : st.length = 16) {mem0 : List Byte} {dst src N : Nat} {m : List Byte}
    (u : Upd mem0 dst (fun k => mem0.getD (src + k) 0 ^^^ stream st k) (fun k => k < 64 * B) m) (ho : NoOverlap dst src N)
    (hsl : src + N ≤ mem0.length) (hdl : dst + N ≤ mem0.length) (hN : 64 * B + 256 ≤ N) :
    ∃ m', coreT (simd 4) (coreT (simd 4) (coreT (simd 4) (coreT (simd 4) (some m)
        (dst + 64 * B) (src + 64 * B) 0 (w 0) (w 1) (w 2) (w 3)) (dst + 64 * B) (src + 64 * B) 1 (w 4) (w 5) (w 6) (w 7))
        (dst + 64 * B) (src + 64 * B) 2 (w 8) (w 9) (w 10) (w 11)) (dst + 64 * B) (src + 64 * B) 3 (w 12) (w 13) (w 14) (w 15) = some m' ∧
      Upd mem0 dst (fun k => mem0.getD (src + k) 0 ^^^ stream st k) (fun k => k < 64 * B + 256) m' := by
  obtain ⟨m0, e0, u0⟩ := coreT_upd hw hs u ho (by omega) hsl hdl hN 0 (by omega) (by omega)
  obtain ⟨m1, e1, u1⟩ := coreT_upd hw hs u0 ho (by omega) hsl hdl hN 1 (by omega) (by omega)
  obtain ⟨m2, e2, u2⟩ := coreT_upd hw hs u1 ho (by omega) hsl hdl hN 2 (by omega) (by omega)
  obtain ⟨m3, e3, u3⟩ := coreT_upd hw hs u2 ho (by omega) hsl hdl hN 3 (by omega) (by omega)
  refine ⟨m3, ?_, u3.congr fun k => by omega⟩
  rw [e0, e1, e2]
  exact e3

theorem stores4G (hw : Words 4 st B w) (hs : st.length = 16) {mem0 : List Byte} {dst N : Nat} {m : List Byte}
    (u : Upd mem0 dst (stream st) (fun k => k < 64 * B) m) (hdl : dst + N ≤ mem0.length) (hN : 64 * B + 256 ≤ N) :
    ∃ m', coreG (simd 4) (coreG (simd 4) (coreG (simd 4) (coreG (simd 4) (some m)
        (dst + 64 * B) 0 (w 0) (w 1) (w 2) (w 3)) (dst + 64 * B) 1 (w 4) (w 5) (w 6) (w 7))
        (dst + 64 * B) 2 (w 8) (w 9) (w 10) (w 11)) (dst + 64 * B) 3 (w 12) (w 13) (w 14) (w 15) = some m' ∧
      Upd mem0 dst (stream st) (fun k => k < 64 * B + 256) m' := by
  obtain ⟨m0, e0, u0⟩ := coreG_upd hw hs u hdl hN 0 (by omega)
  obtain ⟨m1, e1, u1⟩ := coreG_upd hw hs u0 hdl hN 1 (by omega)
  obtain ⟨m2, e2, u2⟩ := coreG_upd hw hs u1 hdl hN 2 (by omega)
  obtain ⟨m3, e3, u3⟩ := coreG_upd hw hs u2 hdl hN 3 (by omega)
  refine ⟨m3, ?_, u3.congr fun k => by omega⟩
  rw [e0, e1, e2]
  exact e3

/-! AVX2 -/

theorem topHH8 (i j : Nat) (hj : j < 8) : top (simd 8) (rowHH (simd 8) (w i) (w (i + 1)) (w (i + 2)) (w (i + 3)))
    (rowHH (simd 8) (w (i + 4)) (w (i + 5)) (w (i + 6)) (w (i + 7))) j = w (i + j) 7 := by
  interval_cases j <;> rfl
theorem lowHH8 (i j : Nat) (hj : j < 8) : low (simd 8) (rowHH (simd 8) (w i) (w (i + 1)) (w (i + 2)) (w (i + 3)))
    (rowHH (simd 8) (w (i + 4)) (w (i + 5)) (w (i + 6)) (w (i + 7))) j = w (i + j) 3 := by
  interval_cases j <;> rfl
theorem topLH8 (i j : Nat) (hj : j < 8) : top (simd 8) (rowLH (simd 8) (w i) (w (i + 1)) (w (i + 2)) (w (i + 3)))
    (rowLH (simd 8) (w (i + 4)) (w (i + 5)) (w (i + 6)) (w (i + 7))) j = w (i + j) 6 := by
  interval_cases j <;> rfl
theorem lowLH8 (i j : Nat) (hj : j < 8) : low (simd 8) (rowLH (simd 8) (w i) (w (i + 1)) (w (i + 2)) (w (i + 3)))
    (rowLH (simd 8) (w (i + 4)) (w (i + 5)) (w (i + 6)) (w (i + 7))) j = w (i + j) 2 := by
  interval_cases j <;> rfl
theorem topHL8 (i j : Nat) (hj : j < 8) : top (simd 8) (rowHL (simd 8) (w i) (w (i + 1)) (w (i + 2)) (w (i + 3)))
    (rowHL (simd 8) (w (i + 4)) (w (i + 5)) (w (i + 6)) (w (i + 7))) j = w (i + j) 5 := by
  interval_cases j <;> rfl
theorem lowHL8 (i j : Nat) (hj : j < 8) : low (simd 8) (rowHL (simd 8) (w i) (w (i + 1)) (w (i + 2)) (w (i + 3)))
    (rowHL (simd 8) (w (i + 4)) (w (i + 5)) (w (i + 6)) (w (i + 7))) j = w (i + j) 1 := by
  interval_cases j <;> rfl
theorem topLL8 (i j : Nat) (hj : j < 8) : top (simd 8) (rowLL (simd 8) (w i) (w (i + 1)) (w (i + 2)) (w (i + 3)))
    (rowLL (simd 8) (w (i + 4)) (w (i + 5)) (w (i + 6)) (w (i + 7))) j = w (i + j) 4 := by
  interval_cases j <;> rfl
theorem lowLL8 (i j : Nat) (hj : j < 8) : low (simd 8) (rowLL (simd 8) (w i) (w (i + 1)) (w (i + 2)) (w (i + 3)))
    (rowLL (simd 8) (w (i + 4)) (w (i + 5)) (w (i + 6)) (w (i + 7))) j = w (i + j) 0 := by
  interval_cases j <;> rfl

theorem slots8 (D : Nat → Prop) (B off k : Nat) (hoff : off < 2) :
    ((((((((D k ∨ (64 * B + 32 * (off + 0) ≤ k ∧ k < 64 * B + 32 * (off + 0) + 4 * 8)) ∨ (64 * B + 32 * (off + 8) ≤ k ∧ k < 64 * B + 32 * (off + 8) + 4 * 8)) ∨
      (64 * B + 32 * (off + 4) ≤ k ∧ k < 64 * B + 32 * (off + 4) + 4 * 8)) ∨ (64 * B + 32 * (off + 12) ≤ k ∧ k < 64 * B + 32 * (off + 12) + 4 * 8)) ∨
      (64 * B + 32 * (off + 2) ≤ k ∧ k < 64 * B + 32 * (off + 2) + 4 * 8)) ∨ (64 * B + 32 * (off + 10) ≤ k ∧ k < 64 * B + 32 * (off + 10) + 4 * 8)) ∨
      (64 * B + 32 * (off + 6) ≤ k ∧ k < 64 * B + 32 * (off + 6) + 4 * 8)) ∨ (64 * B + 32 * (off + 14) ≤ k ∧ k < 64 * B + 32 * (off + 14) + 4 * 8)) ↔
    (D k ∨ (64 * B ≤ k ∧ k < 64 * B + 512 ∧ (k - 64 * B) / 32 % 2 = off)) := by
  by_cases hd : D k
  · simp [hd]
  · simp only [hd, false_or]
    omega

theorem avoid8 {D : Nat → Prop} {B off o a b c d : Nat} (hn : ∀ k, 64 * B ≤ k → k < 64 * B + 512 → (k - 64 * B) / 32 % 2 = off → ¬ D k)
    (ho : o % 64 = 32 * off) (h5 : o + 32 ≤ 512) (hd : o + 32 ≤ a ∨ a + 32 ≤ o) (hdb : o + 32 ≤ b ∨ b + 32 ≤ o)
    (hdc : o + 32 ≤ c ∨ c + 32 ≤ o) (hdd : o + 32 ≤ d ∨ d + 32 ≤ o) (k : Nat) (h1 : 64 * B + o ≤ k) (h2 : k < 64 * B + o + 4 * 8) :
    ¬ ((((D k ∨ (64 * B + a ≤ k ∧ k < 64 * B + a + 4 * 8)) ∨ (64 * B + b ≤ k ∧ k < 64 * B + b + 4 * 8)) ∨ (64 * B + c ≤ k ∧ k < 64 * B + c + 4 * 8)) ∨
      (64 * B + d ≤ k ∧ k < 64 * B + d + 4 * 8)) := by
  rintro ((((h | h) | h) | h) | h)
  · exact hn k (by omega) (by omega) (by omega) h
  all_goals omega

set_option maxRecDepth 4000 in
theorem coreAT_upd (hw : Words 8 st B w) (hs : st.length = 16) {mem0 : List Byte} {dst src N : Nat} {D : Nat → Prop} {m : List Byte}
    (u : Upd mem0 dst (fun k => mem0.getD (src + k) 0 ^^^ stream st k) D m) (ho : NoOverlap dst src N) (hD : ∀ j, D j → j < N)
    (hsl : src + N ≤ mem0.length) (hdl : dst + N ≤ mem0.length) (hN : 64 * B + 512 ≤ N) (off : Nat) (hoff : off < 2)
    (hn : ∀ k, 64 * B ≤ k → k < 64 * B + 512 → (k - 64 * B) / 32 % 2 = off → ¬ D k) :
    ∃ m', coreAT (simd 8) (some m) (dst + 64 * B) (src + 64 * B) off (w (8 * off)) (w (8 * off + 1)) (w (8 * off + 2)) (w (8 * off + 3))
        (w (8 * off + 4)) (w (8 * off + 5)) (w (8 * off + 6)) (w (8 * off + 7)) = some m' ∧
      Upd mem0 dst (fun k => mem0.getD (src + k) 0 ^^^ stream st k) (fun k => D k ∨ (64 * B ≤ k ∧ k < 64 * B + 512 ∧ (k - 64 * B) / 32 % 2 = off)) m' := by
  unfold coreAT
  obtain ⟨m1, e1, u1⟩ := xor4_upd (lanes := 8) u ho hD hsl hdl (64 * B) (32 * (off + 0)) (32 * (off + 8)) (32 * (off + 4)) (32 * (off + 12)) _ _ _ _
    (by omega) (by omega) (by omega) (by omega)
    (fun k h1 h2 => hn k (by omega) (by omega) (by omega)) (fun k h1 h2 => hn k (by omega) (by omega) (by omega))
    (fun k h1 h2 => hn k (by omega) (by omega) (by omega)) (fun k h1 h2 => hn k (by omega) (by omega) (by omega))
    (hw.row4 hs _ (8 * off) 7 8 _ (by omega) (by omega) (fun j hj => topHH8 _ j hj) (by omega))
    (hw.row4 hs _ (8 * off) 3 8 _ (by omega) (by omega) (fun j hj => lowHH8 _ j hj) (by omega))
    (hw.row4 hs _ (8 * off) 5 8 _ (by omega) (by omega) (fun j hj => topHL8 _ j hj) (by omega))
    (hw.row4 hs _ (8 * off) 1 8 _ (by omega) (by omega) (fun j hj => lowHL8 _ j hj) (by omega))
  obtain ⟨m2, e2, u2⟩ := xor4_upd (lanes := 8) u1 ho (by
      rintro k ((((h | h) | h) | h) | h)
      · exact hD k h
      all_goals omega) hsl hdl (64 * B) (32 * (off + 2)) (32 * (off + 10)) (32 * (off + 6)) (32 * (off + 14)) _ _ _ _
    (by omega) (by omega) (by omega) (by omega)
    (avoid8 hn (by omega) (by omega) (by omega) (by omega) (by omega) (by omega)) (avoid8 hn (by omega) (by omega) (by omega) (by omega) (by omega) (by omega))
    (avoid8 hn (by omega) (by omega) (by omega) (by omega) (by omega) (by omega)) (avoid8 hn (by omega) (by omega) (by omega) (by omega) (by omega) (by omega))
    (hw.row4 hs _ (8 * off) 6 8 _ (by omega) (by omega) (fun j hj => topLH8 _ j hj) (by omega))
    (hw.row4 hs _ (8 * off) 2 8 _ (by omega) (by omega) (fun j hj => lowLH8 _ j hj) (by omega))
    (hw.row4 hs _ (8 * off) 4 8 _ (by omega) (by omega) (fun j hj => topLL8 _ j hj) (by omega))
    (hw.row4 hs _ (8 * off) 0 8 _ (by omega) (by omega) (fun j hj => lowLL8 _ j hj) (by omega))
  exact ⟨m2, by dsimp only; rw [e1, e2], u2.congr fun k => slots8 D B off k hoff⟩

set_option maxRecDepth 4000 in
theorem coreAG_upd (hw : Words 8 st B w) (hs : st.length = 16) {mem0 : List Byte} {dst N : Nat} {D : Nat → Prop} {m : List Byte}
    (u : Upd mem0 dst (stream st) D m) (hdl : dst + N ≤ mem0.length) (hN : 64 * B + 512 ≤ N) (off : Nat) (hoff : off < 2) :
    ∃ m', coreAG (simd 8) (some m) (dst + 64 * B) off (w (8 * off)) (w (8 * off + 1)) (w (8 * off + 2)) (w (8 * off + 3))
        (w (8 * off + 4)) (w (8 * off + 5)) (w (8 * off + 6)) (w (8 * off + 7)) = some m' ∧
      Upd mem0 dst (stream st) (fun k => D k ∨ (64 * B ≤ k ∧ k < 64 * B + 512 ∧ (k - 64 * B) / 32 % 2 = off)) m' := by
  unfold coreAG
  obtain ⟨m1, e1, u1⟩ := stor4_upd (lanes := 8) u hdl (64 * B) (32 * (off + 0)) (32 * (off + 8)) (32 * (off + 4)) (32 * (off + 12)) _ _ _ _
    (by omega) (by omega) (by omega) (by omega)
    (hw.row4 hs _ (8 * off) 7 8 _ (by omega) (by omega) (fun j hj => topHH8 _ j hj) (by omega))
    (hw.row4 hs _ (8 * off) 3 8 _ (by omega) (by omega) (fun j hj => lowHH8 _ j hj) (by omega))
    (hw.row4 hs _ (8 * off) 5 8 _ (by omega) (by omega) (fun j hj => topHL8 _ j hj) (by omega))
    (hw.row4 hs _ (8 * off) 1 8 _ (by omega) (by omega) (fun j hj => lowHL8 _ j hj) (by omega))
  obtain ⟨m2, e2, u2⟩ := stor4_upd (lanes := 8) u1 hdl (64 * B) (32 * (off + 2)) (32 * (off + 10)) (32 * (off + 6)) (32 * (off + 14)) _ _ _ _
    (by omega) (by omega) (by omega) (by omega)
    (hw.row4 hs _ (8 * off) 6 8 _ (by omega) (by omega) (fun j hj => topLH8 _ j hj) (by omega))
    (hw.row4 hs _ (8 * off) 2 8 _ (by omega) (by omega) (fun j hj => lowLH8 _ j hj) (by omega))
    (hw.row4 hs _ (8 * off) 4 8 _ (by omega) (by omega) (fun j hj => topLL8 _ j hj) (by omega))
    (hw.row4 hs _ (8 * off) 0 8 _ (by omega) (by omega) (fun j hj => lowLL8 _ j hj) (by omega))
  exact ⟨m2, by dsimp only; rw [e1, e2], u2.congr fun k => slots8 D B off k hoff⟩

theorem stores8T (hw : Words 8 st B w) (hs : st.length = 16) {mem0 : List Byte} {dst src N : Nat} {m : List Byte}
    (u : Upd mem0 dst (fun k => mem0.getD (src + k) 0 ^^^ stream st k) (fun k => k < 64 * B) m) (ho : NoOverlap dst src N)
    (hsl : src + N ≤ mem0.length) (hdl : dst + N ≤ mem0.length) (hN : 64 * B + 512 ≤ N) :
    ∃ m', coreAT (simd 8) (coreAT (simd 8) (some m)
        (dst + 64 * B) (src + 64 * B) 0 (w 0) (w 1) (w 2) (w 3) (w 4) (w 5) (w 6) (w 7))
        (dst + 64 * B) (src + 64 * B) 1 (w 8) (w 9) (w 10) (w 11) (w 12) (w 13) (w 14) (w 15) = some m' ∧
      Upd mem0 dst (fun k => mem0.getD (src + k) 0 ^^^ stream st k) (fun k => k < 64 * B + 512) m' := by
  obtain ⟨m0, e0, u0⟩ := coreAT_upd hw hs u ho (by omega) hsl hdl hN 0 (by omega) (by omega)
  obtain ⟨m1, e1, u1⟩ := coreAT_upd hw hs u0 ho (by omega) hsl hdl hN 1 (by omega) (by omega)
  refine ⟨m1, ?_, u1.congr fun k => by omega⟩
  rw [e0]
  exact e1

theorem stores8G (hw : Words 8 st B w) (hs : st.length = 16) {mem0 : List Byte} {dst N : Nat} {m : List Byte}
    (u : Upd mem0 dst (stream st) (fun k => k < 64 * B) m) (hdl : dst + N ≤ mem0.length) (hN : 64 * B + 512 ≤ N) :
    ∃ m', coreAG (simd 8) (coreAG (simd 8) (some m)
        (dst + 64 * B) 0 (w 0) (w 1) (w 2) (w 3) (w 4) (w 5) (w 6) (w 7))
        (dst + 64 * B) 1 (w 8) (w 9) (w 10) (w 11) (w 12) (w 13) (w 14) (w 15) = some m' ∧
      Upd mem0 dst (stream st) (fun k => k < 64 * B + 512) m' := by
  obtain ⟨m0, e0, u0⟩ := coreAG_upd hw hs u hdl hN 0 (by omega)
  obtain ⟨m1, e1, u1⟩ := coreAG_upd hw hs u0 hdl hN 1 (by omega)
  refine ⟨m1, ?_, u1.congr fun k => by omega⟩
  rw [e0]
  exact e1

end
end Milo.ChaCha.Asm
