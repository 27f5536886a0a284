import Verif.Proof.ChaCha
/- `update_block_prod_xor` and the ChaCha object over any lawful backend. -/
namespace Milo.ChaCha
open Memory

/-- What the object needs of a backend: it produces the key stream of RFC 8439, in units of `ratio` blocks, and tells (modulo `2^32`, the width of the
counter) how many blocks it did. -/
structure LawfulBackend (B : Backend) : Prop where
  pos : 1 ≤ B.ratio
  le : B.ratio ≤ 8
  transform : ∀ (n : Nat) (st : List W32) (mem : List Byte) (dst src : Nat), st.length = 16 → NoOverlap dst src (64 * B.ratio * n) →
    src + 64 * B.ratio * n ≤ mem.length → dst + 64 * B.ratio * n ≤ mem.length →
    ∃ d, B.transform n st mem dst src = some (d, xored mem dst src (stream st) (64 * B.ratio * n)) ∧ BitVec.ofNat 32 d = BitVec.ofNat 32 (B.ratio * n)
  generate : ∀ (n : Nat) (st : List W32) (buf : List Byte), st.length = 16 → 64 * B.ratio * n ≤ buf.length →
    ∃ d, B.generate n st buf = some (d, (List.range (64 * B.ratio * n)).map (stream st) ++ buf.drop (64 * B.ratio * n)) ∧
      BitVec.ofNat 32 d = BitVec.ofNat 32 (B.ratio * n)

theorem sw_lawful (h : Host) : LawfulBackend (sw h) where
  pos := Nat.le_refl _
  le := by show 1 ≤ 8; omega
  transform := fun n st mem dst src hs ho h1 h2 => by
    have e : 64 * (sw h).ratio * n = 64 * n := by show 64 * 1 * n = _; omega
    rw [e] at ho h1 h2 ⊢
    exact ⟨n, sw_transform h st hs mem dst src n ho h1 h2, by show _ = BitVec.ofNat 32 (1 * n); rw [Nat.one_mul]⟩
  generate := fun n st buf hs hl => by
    have e : 64 * (sw h).ratio * n = 64 * n := by show 64 * 1 * n = _; omega
    rw [e] at hl ⊢
    exact ⟨n, sw_generate h st hs buf n hl, by show _ = BitVec.ofNat 32 (1 * n); rw [Nat.one_mul]⟩

theorem bump_done (st : List W32) (d n : Nat) (h : 12 < st.length) (hd : BitVec.ofNat 32 d = BitVec.ofNat 32 n) : bump st d = some (ctr st n) := by
  rw [bump_eq st d h]
  simp only [ctr, hd]

/-! ### memory_xor -/

theorem load1_byte (h : Host) (bs : List Byte) (i : Nat) (hi : i < bs.length) : load h false (p := 1) 1 bs i = some (bs.getD i 0) := by
  have := load1 h false (p := 1) (by omega) bs i (by simpa using hi)
  rw [this]
  simp [hi]

theorem at_stor1 (h : Host) (mem : List Byte) (off i : Nat) (x : Byte) (hi : off + i < mem.length) :
    (at_ mem off fun d => stor h (v := 1) (p := 1) d i x) = wrN mem (off + i) [x] := by
  rw [at_eq _ _ _ (by omega), stor_eq h (compatible_one (by omega)), image_bytes', toBytes_one, wrN_some _ _ _ (by simp; omega), wrN_some _ _ _ (by simp; omega)]
  simp only [Option.map_some, Nat.mul_one]
  rw [ofImage_bytes' _ _ _ (by simp; omega), List.take_drop, List.drop_drop]
  congr 1
  have : mem.take (off + i) = mem.take off ++ (mem.take (off + i)).drop off := by
    conv => lhs; rw [← List.take_append_drop off (mem.take (off + i))]
    rw [List.take_take, Nat.min_eq_left (by omega)]
  conv => rhs; rw [this]
  simp only [List.append_assoc, Nat.add_assoc]

theorem xorMem_eq (h : Host) (mem : List Byte) (dst src n : Nat) (key : List Byte) (ho : NoOverlap dst src n) (hs : src + n ≤ mem.length)
    (hd : dst + n ≤ mem.length) (hk : n ≤ key.length) : xorMem h mem dst src key n = some (xored mem dst src (fun j => key.getD j 0) n) := by
  unfold xorMem
  obtain ⟨m, e, u⟩ := forM'_exists (fun i mem => do
      let s ← advance mem src
      let x ← load h false (p := 1) 1 s i
      let y ← load h false (p := 1) 1 key i
      at_ mem dst fun d => stor h (v := 1) (p := 1) d i (x ^^^ y))
    (fun i m => Upd mem dst (fun k => mem.getD (src + k) 0 ^^^ key.getD k 0) (fun k => k < i) m) n 0 mem
    ((Upd.start mem dst _).congr (by simp)) (by
      intro i m _ hi u
      obtain ⟨m', e', u'⟩ := u.write i [mem.getD (src + i) 0 ^^^ key.getD i 0] (fun j hj => by simp at hj; subst hj; rfl) (by simp; omega)
      refine ⟨m', ?_, u'.congr (fun k => by simp; omega)⟩
      have hg := u.get src n i ho (fun j hj => by omega) (by omega) (by omega)
      rw [advance_eq _ _ (by rw [u.1]; omega)]
      simp only [Option.bind_eq_bind, Option.bind_some]
      rw [load1_byte h _ i (by simp; rw [u.1]; omega), load1_byte h _ i (by omega)]
      simp only [Option.bind_some]
      rw [at_stor1 h m dst i _ (by rw [u.1]; omega), ← e', List.getD_eq_getElem?_getD, List.getElem?_drop, hg]
      simp)
  rw [e]
  congr 1
  rw [Nat.zero_add] at u
  exact (Upd.xored_iff _ _ _ _ _ hd _).mp u

/-! ### update_block_prod_xor -/

theorem _root_.Milo.NoOverlap.part {dst src n : Nat} (ho : NoOverlap dst src n) (a b : Nat) (h : a + b ≤ n) : NoOverlap (dst + a) (src + a) b := by
  unfold NoOverlap at *; omega

theorem _root_.Milo.NoOverlap.le {dst src n m : Nat} (ho : NoOverlap dst src n) (h : m ≤ n) : NoOverlap dst src m := by
  unfold NoOverlap at *; omega

/-- The state `st` and the buffer of an object that has used the first `pos` bytes of the key stream starting at state `st0`. -/
def StreamRep (B : Backend) (st0 st : List W32) (buf : List Byte) (fill pos : Nat) : Prop :=
  st0.length = 16 ∧ buf.length = 512 ∧ fill < 64 * B.ratio ∧ ∃ g, st = ctr st0 g ∧
    ((fill = 0 ∧ pos = 64 * g) ∨
     (0 < fill ∧ B.ratio ≤ g ∧ pos = 64 * (g - B.ratio) + fill ∧ ∀ i, i < 64 * B.ratio → buf.getD i 0 = stream st0 (64 * (g - B.ratio) + i)))

theorem xored_congr (mem : List Byte) (dst src n : Nat) (k1 k2 : Nat → Byte) (h : ∀ j, j < n → k1 j = k2 j) : xored mem dst src k1 n = xored mem dst src k2 n := by
  unfold xored
  congr 2
  apply List.map_congr_left
  intro j hj
  rw [h j (List.mem_range.mp hj)]

theorem fullBlocks_eq {B : Backend} (L : LawfulBackend B) (n : Nat) (st : List W32) (mem : List Byte) (dst src : Nat) (hst : st.length = 16)
    (ho : NoOverlap dst src (64 * B.ratio * n)) (hs : src + 64 * B.ratio * n ≤ mem.length) (hd : dst + 64 * B.ratio * n ≤ mem.length) :
    fullBlocks B n st mem dst src = some (ctr st (B.ratio * n), xored mem dst src (stream st) (64 * B.ratio * n)) := by
  unfold fullBlocks
  by_cases hn : n = 0
  · subst hn
    rw [if_neg (by simp), Nat.mul_zero, Nat.mul_zero, ctr_zero _ (by omega), xored_zero]; rfl
  · rw [if_pos hn]
    obtain ⟨d, e, he⟩ := L.transform n st mem dst src hst ho hs hd
    rw [e]
    simp only [Option.bind_eq_bind, Option.bind_some, bump_done st d _ (by omega) he]
    rfl

theorem prodRest_eq (h : Host) {B : Backend} (L : LawfulBackend B) (buf : List Byte) (st0 : List W32) (g : Nat) (mem : List Byte) (dst src n : Nat)
    (hst : st0.length = 16) (hb : buf.length = 512) (ho : NoOverlap dst src n) (hs : src + n ≤ mem.length) (hd : dst + n ≤ mem.length) :
    ∃ r, prodRest h B buf (ctr st0 g) mem dst src n = some r ∧ r.mem = xored mem dst src (fun j => stream st0 (64 * g + j)) n ∧
      StreamRep B st0 r.st r.buf r.fill (64 * g + n) := by
  have hpos := L.pos
  have hle := L.le
  have hdm := Nat.div_add_mod n (64 * B.ratio)
  have hmod := Nat.mod_lt n (show 0 < 64 * B.ratio by omega)
  unfold prodRest
  generalize hq : n / (64 * B.ratio) = q at hdm
  generalize hm : n % (64 * B.ratio) = m at hdm hmod
  simp only [hq, hm]
  generalize hw : 64 * B.ratio * q = w at hdm
  have hmul : 64 * (B.ratio * q) = w := by rw [← hw, Nat.mul_assoc]
  have ho1 : NoOverlap dst src w := ho.le (by omega)
  have hl12 : (ctr st0 g).length = 16 := by rw [ctr_length, hst]
  rw [fullBlocks_eq L q (ctr st0 g) mem dst src hl12 (hw ▸ ho1) (by omega) (by omega), hw]
  simp only [Option.bind_eq_bind, Option.bind_some]
  rw [Nat.mul_comm q, hw, ctr_ctr _ _ _ (by omega)]
  unfold lastBytes
  have hx1 : xored mem dst src (stream (ctr st0 g)) w = xored mem dst src (fun j => stream st0 (64 * g + j)) w :=
    xored_congr _ _ _ _ _ _ fun j _ => stream_ctr st0 g j (by omega)
  rw [hx1]
  by_cases hm0 : m = 0
  · rw [if_neg (by simpa using hm0)]
    refine ⟨_, rfl, ?_, hst, hb, by show m < _; omega, g + B.ratio * q, rfl, .inl ⟨hm0, by omega⟩⟩
    show xored mem dst src _ w = _
    rw [show n = w by omega]
  · rw [if_pos hm0]
    obtain ⟨d, e, he⟩ := L.generate 1 (ctr st0 (g + B.ratio * q)) buf (by rw [ctr_length, hst]) (by omega)
    rw [e]
    simp only [Option.bind_eq_bind, Option.bind_some]
    rw [bump_done _ d _ (by rw [ctr_length]; omega) he]
    simp only [Option.bind_some, Nat.mul_one]
    rw [ctr_ctr _ _ _ (by omega)]
    have hbuf : ∀ i, i < 64 * B.ratio → ((List.range (64 * B.ratio)).map (stream (ctr st0 (g + B.ratio * q))) ++ buf.drop (64 * B.ratio)).getD i 0
        = stream st0 (64 * (g + B.ratio * q) + i) := by
      intro i hi
      rw [List.getD_eq_getElem?_getD, List.getElem?_append_left (by simpa using hi), List.getElem?_map, List.getElem?_range hi]
      simp only [Option.map_some, Option.getD_some]
      exact stream_ctr st0 _ i (by omega)
    have ho2 : NoOverlap (dst + w) (src + w) m := ho.part _ _ (by omega)
    have hlen := xored_length mem dst src w (fun j => stream st0 (64 * g + j)) (by omega)
    rw [xorMem_eq h _ _ _ m _ ho2 (by omega) (by omega) (by simp; omega)]
    simp only [Option.bind_some]
    refine ⟨_, rfl, ?_, hst, by simp; omega, hmod, g + B.ratio * q + B.ratio, rfl, .inr ⟨by show 0 < m; omega, by omega, ?_, ?_⟩⟩
    · show xored _ _ _ _ _ = _
      rw [← hdm, ← xored_xored mem dst src w m _ (by rw [hdm]; exact ho) (by omega)]
      apply xored_congr
      intro j hj
      rw [hbuf j (by omega)]
      congr 1; omega
    · show _ = _ + m
      rw [Nat.add_sub_cancel]; omega
    · rw [Nat.add_sub_cancel]; exact hbuf

theorem prodXor_eq (h : Host) {B : Backend} (L : LawfulBackend B) (buf : List Byte) (fill : Nat) (st0 st : List W32) (pos : Nat) (mem : List Byte)
    (dst src n : Nat) (hr : StreamRep B st0 st buf fill pos) (ho : NoOverlap dst src n) (hs : src + n ≤ mem.length) (hd : dst + n ≤ mem.length) :
    ∃ r, prodXor h B buf fill st mem dst src n = some r ∧ r.mem = xored mem dst src (fun j => stream st0 (pos + j)) n ∧
      StreamRep B st0 r.st r.buf r.fill (pos + n) := by
  obtain ⟨hst, hb, hf, g, rfl, hc⟩ := hr
  have hle := L.le
  unfold prodXor
  rcases hc with ⟨rfl, rfl⟩ | ⟨hf0, hg, rfl, hbuf⟩
  · simp only [Nat.lt_irrefl, gt_iff_lt, if_false]
    exact prodRest_eq h L buf st0 g mem dst src n hst hb ho hs hd
  · simp only [gt_iff_lt, hf0, if_true]
    rw [if_neg (by omega)]
    generalize hR : 64 * B.ratio = R at *
    have hkey : ∀ t, t ≤ R - fill → xorMem h mem dst src (buf.drop fill) t = xorMem h mem dst src (buf.drop fill) t := fun _ _ => rfl
    rw [advance_eq _ _ (by omega)]
    simp only [Option.bind_eq_bind, Option.bind_some]
    have hx : ∀ t, t ≤ R - fill → t ≤ n → xorMem h mem dst src (buf.drop fill) t
        = some (xored mem dst src (fun j => stream st0 (64 * (g - B.ratio) + fill + j)) t) := by
      intro t h1 h2
      rw [xorMem_eq h mem dst src t _ (ho.le (by omega)) (by omega)
        (by omega) (by simp; omega)]
      congr 1
      apply xored_congr
      intro j hj
      rw [List.getD_eq_getElem?_getD, List.getElem?_drop, ← List.getD_eq_getElem?_getD, hbuf _ (by omega), Nat.add_assoc]
    rw [hx _ (Nat.min_le_left _ _) (Nat.min_le_right _ _)]
    simp only [Option.bind_some]
    by_cases ht : min (R - fill) n < R - fill
    · have : min (R - fill) n = n := by omega
      rw [this] at ht ⊢
      rw [if_pos ht]
      refine ⟨_, rfl, rfl, hst, hb, by show fill + n < _; omega, g, rfl, .inr ⟨by show 0 < fill + n; omega, hg, by show _ = _ + (fill + n); omega, by rw [hR]; exact hbuf⟩⟩
    · have : min (R - fill) n = R - fill := by omega
      rw [this] at ht ⊢
      rw [if_neg ht]
      have hlen := xored_length mem dst src (R - fill) (fun j => stream st0 (64 * (g - B.ratio) + fill + j)) (by omega)
      obtain ⟨r, e, hm, hrep⟩ := prodRest_eq h L buf st0 g _ (dst + (R - fill)) (src + (R - fill)) (n - (R - fill)) hst hb
        (ho.part _ _ (by omega)) (by rw [hlen]; omega) (by rw [hlen]; omega)
      refine ⟨r, e, ?_, ?_⟩
      · rw [hm]
        conv => rhs; rw [show n = (R - fill) + (n - (R - fill)) by omega]
        rw [← xored_xored mem dst src _ _ _ (by rw [show (R - fill) + (n - (R - fill)) = n by omega]; exact ho) (by omega)]
        apply xored_congr
        intro j _
        congr 1; omega
      · rw [show 64 * (g - B.ratio) + fill + n = 64 * g + (n - (R - fill)) by omega]
        exact hrep

end Milo.ChaCha
