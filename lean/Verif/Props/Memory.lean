import Verif.Proof.SpecBytes
/-
Property theorems C11-C13 (memory primitives).
-/
namespace Milo.Props
open Milo Memory

/-- Element and value widths of the library's integers, in bytes. -/
def IntWidth (n : Nat) : Prop := n = 1 ∨ n = 2 ∨ n = 4 ∨ n = 8

theorem IntWidth.compatible {v p : Nat} (hv : IntWidth v) (hp : IntWidth p) : Compatible v p := by
  rcases hv with rfl | rfl | rfl | rfl <;> rcases hp with rfl | rfl | rfl | rfl <;>
    exact ⟨by omega, by omega, by omega⟩

theorem IntWidth.pos {v : Nat} (hv : IntWidth v) : 0 < v := by rcases hv with rfl | rfl | rfl | rfl <;> omega

/-! ## C11 -/

/-- C11, loads: for every byte order, element width, value width, signedness of the element type, buffer and offset, the
constant-evaluation path and the `memcpy` path return the same value (and are out of bounds for the same offsets). -/
theorem C11_load_agree (e : Endian) {ni : Option (Nat → Nat → BitVec 32)} (sgp : Bool) {v p : Nat} (hv : IntWidth v) (hp : IntWidth p) (buf : List (Word p)) (off : Nat) :
    load ⟨e, true, ni⟩ sgp v buf off = load ⟨e, false, ni⟩ sgp v buf off ∧
    loadBe ⟨e, true, ni⟩ sgp v buf off = loadBe ⟨e, false, ni⟩ sgp v buf off ∧
    loadLe ⟨e, true, ni⟩ sgp v buf off = loadLe ⟨e, false, ni⟩ sgp v buf off := by
  have hc := hv.compatible hp
  refine ⟨?_, ?_, ?_⟩
  · rw [load_eq _ _ hc, load_eq _ _ hc]
  · rw [loadBe_eq _ _ hc hv, loadBe_eq _ _ hc hv]
  · rw [loadLe_eq _ _ hc hv, loadLe_eq _ _ hc hv]

theorem loadN_zero (h : Host) (sgp : Bool) {v p : Nat} (buf : List (Word p)) (off : Nat) (hb : off * v ≤ buf.length * p) :
    loadN h sgp v buf off 0 = some 0 := by
  have hz : ofBytes h.endian v (List.replicate v 0#8) = 0 := by
    cases h.endian <;> simp [ofBytes, leNat_replicate_zero]
  unfold loadN
  split
  · simp
  · simp only [Nat.mul_zero, Nat.min_zero, Nat.sub_zero]
    rw [rdN_some _ _ _ (by rw [image_length]; omega)]
    simp [hz]

/-- C11, loads of a limited number of elements. -/
theorem C11_load_count_agree (e : Endian) {ni : Option (Nat → Nat → BitVec 32)} (sgp : Bool) {v p : Nat} (hv : IntWidth v) (hp : IntWidth p) (buf : List (Word p))
    (off size : Nat) (hb : off * v ≤ buf.length * p) :
    loadN ⟨e, true, ni⟩ sgp v buf off size = loadN ⟨e, false, ni⟩ sgp v buf off size ∧
    loadBeN ⟨e, true, ni⟩ sgp v buf off size = loadBeN ⟨e, false, ni⟩ sgp v buf off size ∧
    loadLeN ⟨e, true, ni⟩ sgp v buf off size = loadLeN ⟨e, false, ni⟩ sgp v buf off size := by
  have hc := hv.compatible hp
  by_cases hs : 0 < size
  · refine ⟨?_, ?_, ?_⟩
    · rw [loadN_eq _ _ hc _ _ _ hs, loadN_eq _ _ hc _ _ _ hs]
    · rw [loadBeN_eq _ _ hc hv _ _ _ hs, loadBeN_eq _ _ hc hv _ _ _ hs]
    · rw [loadLeN_eq _ _ hc hv _ _ _ hs, loadLeN_eq _ _ hc hv _ _ _ hs]
  · have : size = 0 := by omega
    subst this
    have hz : ∀ (h : Host) (w : Word v), w = 0 → (bigof h w = 0 ∧ littleof h w = 0) := by
      rintro h w rfl
      have h0 : (0 : Word v) = ofBytes h.endian v (List.replicate v 0#8) := by
        cases h.endian <;> simp [ofBytes, leNat_replicate_zero]
      constructor
      · rw [h0, bigof_ofBytes h hv _ (by simp)]
        cases h.endian <;> simp [ofBytes, leNat_replicate_zero]
      · rw [h0, littleof_ofBytes h hv _ (by simp)]
        cases h.endian <;> simp [ofBytes, leNat_replicate_zero]
    refine ⟨?_, ?_, ?_⟩
    · rw [loadN_zero _ _ _ _ hb, loadN_zero _ _ _ _ hb]
    · unfold loadBeN
      rw [loadN_zero _ _ _ _ hb, loadN_zero _ _ _ _ hb]
      simp only [Option.map_some, (hz _ 0 rfl).1]
    · unfold loadLeN
      rw [loadN_zero _ _ _ _ hb, loadN_zero _ _ _ _ hb]
      simp only [Option.map_some, (hz _ 0 rfl).2]

/-- C11, stores. -/
theorem C11_stor_agree (e : Endian) {ni : Option (Nat → Nat → BitVec 32)} {v p : Nat} (hv : IntWidth v) (hp : IntWidth p) (buf : List (Word p)) (off : Nat) (val : Word v) :
    stor ⟨e, true, ni⟩ buf off val = stor ⟨e, false, ni⟩ buf off val ∧
    storBe ⟨e, true, ni⟩ buf off val = storBe ⟨e, false, ni⟩ buf off val ∧
    storLe ⟨e, true, ni⟩ buf off val = storLe ⟨e, false, ni⟩ buf off val := by
  have hc := hv.compatible hp
  refine ⟨?_, ?_, ?_⟩
  · rw [stor_eq _ hc, stor_eq _ hc]
  · rw [storBe_eq _ hc hv, storBe_eq _ hc hv]
  · rw [storLe_eq _ hc hv, storLe_eq _ hc hv]

theorem storN_zero (h : Host) {v p : Nat} (buf : List (Word p)) (off : Nat) (val : Word v) (hb : off * v ≤ buf.length * p) :
    storN h buf off val 0 = some buf := by
  unfold storN
  split
  · simp
  · simp only [Nat.mul_zero, Nat.min_zero, List.take_zero]
    rw [wrN_some _ _ _ (by rw [image_length]; simpa using hb)]
    simp [ofImage_image]

/-- C11, stores of a limited number of elements. -/
theorem C11_stor_count_agree (e : Endian) {ni : Option (Nat → Nat → BitVec 32)} {v p : Nat} (hv : IntWidth v) (hp : IntWidth p) (buf : List (Word p)) (off : Nat)
    (val : Word v) (size : Nat) (hb : off * v ≤ buf.length * p) :
    storN ⟨e, true, ni⟩ buf off val size = storN ⟨e, false, ni⟩ buf off val size ∧
    storBeN ⟨e, true, ni⟩ buf off val size = storBeN ⟨e, false, ni⟩ buf off val size ∧
    storLeN ⟨e, true, ni⟩ buf off val size = storLeN ⟨e, false, ni⟩ buf off val size := by
  have hc := hv.compatible hp
  by_cases hs : 0 < size
  · refine ⟨?_, ?_, ?_⟩
    · rw [storN_eq _ hc _ _ _ _ hs, storN_eq _ hc _ _ _ _ hs]
    · rw [storBeN_eq _ hc hv _ _ _ _ hs, storBeN_eq _ hc hv _ _ _ _ hs]
    · rw [storLeN_eq _ hc hv _ _ _ _ hs, storLeN_eq _ hc hv _ _ _ _ hs]
  · have : size = 0 := by omega
    subst this
    refine ⟨?_, ?_, ?_⟩
    · rw [storN_zero _ _ _ _ hb, storN_zero _ _ _ _ hb]
    · unfold storBeN; rw [storN_zero _ _ _ _ hb, storN_zero _ _ _ _ hb]
    · unfold storLeN; rw [storN_zero _ _ _ _ hb, storN_zero _ _ _ _ hb]

/-- C11, bulk operations on ranges inside the buffers: copy, fill, compare, initialise. -/
theorem C11_bulk_agree (e : Endian) {ni : Option (Nat → Nat → BitVec 32)} {p q : Nat} (hp : IntWidth p) (hq : IntWidth q) (dst : List (Word p)) (src : List (Word q))
    (val : Byte) (size : Nat) (hs : size ≤ src.length * q) (hd : size ≤ dst.length * p) :
    copy ⟨e, true, ni⟩ dst src size = copy ⟨e, false, ni⟩ dst src size ∧
    set ⟨e, true, ni⟩ dst val size = set ⟨e, false, ni⟩ dst val size ∧
    equal ⟨e, true, ni⟩ dst src size = equal ⟨e, false, ni⟩ dst src size ∧
    init ⟨e, true, ni⟩ dst src = init ⟨e, false, ni⟩ dst src ∧
    initBe ⟨e, true, ni⟩ dst src = initBe ⟨e, false, ni⟩ dst src ∧
    initLe ⟨e, true, ni⟩ dst src = initLe ⟨e, false, ni⟩ dst src := by
  refine ⟨?_, ?_, ?_, ?_, ?_, ?_⟩
  · rw [copy_eq _ hp.pos hq.pos _ _ _ hs hd, copy_eq _ hp.pos hq.pos _ _ _ hs hd]
  · rw [set_eq _ hp.pos _ _ _ hd, set_eq _ hp.pos _ _ _ hd]
  · rw [equal_eq _ hp.pos hq.pos _ _ _ hd hs, equal_eq _ hp.pos hq.pos _ _ _ hd hs]
  · rw [init_eq _ hp.pos hq.pos, init_eq _ hp.pos hq.pos]
  · rw [initBe_eq _ hp hq.pos, initBe_eq _ hp hq.pos]
  · rw [initLe_eq _ hp hq.pos, initLe_eq _ hp hq.pos]

/-- C11, byte swapping: the shift-and-mask version is the byte reversal the builtins perform. -/
theorem C11_swap_agree {n : Nat} (hn : IntWidth n) (a : Word n) :
    swapSw n a = swapBi n a ∧ Spec.leBytes n (swapSw n a).toNat = (Spec.leBytes n a.toNat).reverse := by
  refine ⟨swapSw_eq_swapBi hn a, ?_⟩
  rw [spec_leBytes, spec_leBytes, swapSw_bytes hn]

example : load ⟨.big, true, none⟩ true (p := 2) 4 [0xff80#16, 0x0102#16, 0x8003#16, 0x0405#16] 1 = some 0x80030405#32 := by decide
example : loadN ⟨.big, false, none⟩ true (p := 1) 4 [0xff#8, 0x80#8, 0x01#8] 0 3 = some 0xff800100#32 := by decide
example : stor ⟨.little, true, none⟩ (v := 2) (p := 8) [0x1111111111111111#64] 2 0xabcd#16 = some [0x1111abcd11111111#64] := by decide

/-! ## C12 -/

/-- C12, loads. On every host, `load_be`/`load_le` at a byte pointer give the big/little endian value of the `v` addressed
bytes. -/
theorem C12_load_value (h : Host) (sgp : Bool) {v : Nat} (hv : IntWidth v) (buf : List Byte) (off : Nat)
    (hb : off * v + v ≤ buf.length) :
    (∃ w, loadBe h sgp v (p := 1) buf off = some w ∧ w.toNat = Spec.beNat ((buf.drop (off * v)).take v)) ∧
    (∃ w, loadLe h sgp v (p := 1) buf off = some w ∧ w.toNat = Spec.leNat ((buf.drop (off * v)).take v)) := by
  have hc := hv.compatible (.inl rfl : IntWidth 1)
  have hl : ((buf.drop (off * v)).take v).length = v := by simp; omega
  constructor
  · refine ⟨_, ?_, ofBytes_toNat .big v _ hl⟩
    rw [loadBe_eq _ _ hc hv, image_bytes', rdN_some _ _ _ hb]; rfl
  · refine ⟨_, ?_, ofBytes_toNat .little v _ hl⟩
    rw [loadLe_eq _ _ hc hv, image_bytes', rdN_some _ _ _ hb]; rfl

/-- C12, loads from arrays of wider elements: the same, for the bytes the array occupies in memory. -/
theorem C12_load_value_wide (h : Host) (sgp : Bool) {v p : Nat} (hv : IntWidth v) (hp : IntWidth p) (buf : List (Word p)) (off : Nat)
    (hb : off * v + v ≤ buf.length * p) :
    (∃ w, loadBe h sgp v buf off = some w ∧ w.toNat = Spec.beNat (((image h.endian buf).drop (off * v)).take v)) ∧
    (∃ w, loadLe h sgp v buf off = some w ∧ w.toNat = Spec.leNat (((image h.endian buf).drop (off * v)).take v)) := by
  have hc := hv.compatible hp
  have hl : (((image h.endian buf).drop (off * v)).take v).length = v := by simp; omega
  constructor
  · refine ⟨_, ?_, ofBytes_toNat .big v _ hl⟩
    rw [loadBe_eq _ _ hc hv, rdN_some _ _ _ (by rw [image_length]; exact hb)]; rfl
  · refine ⟨_, ?_, ofBytes_toNat .little v _ hl⟩
    rw [loadLe_eq _ _ hc hv, rdN_some _ _ _ (by rw [image_length]; exact hb)]; rfl

/-- C12, stores. On every host the addressed bytes become the big/little endian bytes of the value and no other byte
changes. -/
theorem C12_stor_value (h : Host) {v : Nat} (hv : IntWidth v) (buf : List Byte) (off : Nat) (val : Word v)
    (hb : off * v + v ≤ buf.length) :
    storBe h (p := 1) buf off val
      = some (buf.take (off * v) ++ Spec.beBytes v val.toNat ++ buf.drop (off * v + v)) ∧
    storLe h (p := 1) buf off val
      = some (buf.take (off * v) ++ Spec.leBytes v val.toNat ++ buf.drop (off * v + v)) := by
  have hc := hv.compatible (.inl rfl : IntWidth 1)
  constructor
  · rw [storBe_eq _ hc hv, image_bytes', wrN_ofImage, wrN_some _ _ _ (by simpa using hb), toBytes_length, toBytes_big]
  · rw [storLe_eq _ hc hv, image_bytes', wrN_ofImage, wrN_some _ _ _ (by simpa using hb), toBytes_length, toBytes_little]

/-- C12: what one host stores, any host loads back. -/
theorem C12_store_then_load (h h' : Host) (sgp : Bool) {v : Nat} (hv : IntWidth v) (buf buf' : List Byte) (off : Nat) (val : Word v)
    (hb : off * v + v ≤ buf.length) :
    (storBe h (p := 1) buf off val = some buf' → loadBe h' sgp v (p := 1) buf' off = some val) ∧
    (storLe h (p := 1) buf off val = some buf' → loadLe h' sgp v (p := 1) buf' off = some val) := by
  have hc := hv.compatible (.inl rfl : IntWidth 1)
  have hbl : (Spec.beBytes v val.toNat).length = v := by simp [Spec.beBytes]
  have hll : (Spec.leBytes v val.toNat).length = v := by simp [Spec.leBytes]
  have ht : (buf.take (off * v)).length = off * v := by simp; omega
  obtain ⟨hs1, hs2⟩ := C12_stor_value h hv buf off val hb
  constructor
  · intro hs
    rw [hs1] at hs; cases hs
    rw [loadBe_eq _ _ hc hv, image_bytes', rdN_some _ _ _ (by simp [hbl]; omega), List.append_assoc, List.drop_left' ht,
      List.take_left' hbl, ← toBytes_big, Option.map_some, ofBytes_toBytes]
  · intro hs
    rw [hs2] at hs; cases hs
    rw [loadLe_eq _ _ hc hv, image_bytes', rdN_some _ _ _ (by simp [hll]; omega), List.append_assoc, List.drop_left' ht,
      List.take_left' hll, ← toBytes_little, Option.map_some, ofBytes_toBytes]

/-- C12, digests: `memory_copy_be`/`memory_copy_le` of an array of words to bytes writes the first `size` bytes of the
words' big/little endian representations, whatever the host and whether or not `size` is a multiple of the word size. -/
theorem C12_copy_words (h : Host) {q : Nat} (hq : IntWidth q) (dst : List Byte) (src : List (Word q)) (size : Nat)
    (hs : size ≤ src.length * q) (hd : size ≤ dst.length) :
    copyBe h (p := 1) dst src size
      = some ((src.flatMap fun w => Spec.beBytes q w.toNat).take size ++ dst.drop size) ∧
    copyLe h (p := 1) dst src size
      = some ((src.flatMap fun w => Spec.leBytes q w.toNat).take size ++ dst.drop size) := by
  have hb : (src.flatMap fun w => Spec.beBytes q w.toNat) = image .big src := by
    unfold image; congr 1; funext w; exact (toBytes_big w).symm
  have hl : (src.flatMap fun w => Spec.leBytes q w.toNat) = image .little src := by
    unfold image; congr 1; funext w; exact (toBytes_little w).symm
  rw [hb, hl]
  exact ⟨copyBe_eq h hq dst src size hs hd, copyLe_eq h hq dst src size hs hd⟩

example : storBe ⟨.little, false, none⟩ (v := 2) (p := 1) [1#8, 2#8, 3#8, 4#8, 5#8, 6#8] 1 0xabcd#16
    = some [1#8, 2#8, 0xab#8, 0xcd#8, 5#8, 6#8] := by decide

/-- C12, rotations (internal/bit.h): for every width and every amount that is allowed, `bit_rotl` and `bit_rotr` turn the bits around and lose none; they undo each other. -/
theorem C12_rotations {w : Nat} (x : BitVec w) (n : Nat) (h0 : 0 < n) (hn : n < w) :
    ∃ l r, rotl x n = some l ∧ rotr x n = some r ∧ (∀ i, i < w → l.getLsbD ((i + n) % w) = x.getLsbD i) ∧ (∀ i, i < w → r.getLsbD i = x.getLsbD ((i + n) % w)) ∧
      rotr l n = some x ∧ rotl r n = some x := by
  have hl : ∀ y : BitVec w, rotl y n = some (y <<< n ||| y >>> (w - n)) := fun y => by unfold rotl; rw [if_pos ⟨h0, hn⟩]
  have hr : ∀ y : BitVec w, rotr y n = some (y >>> n ||| y <<< (w - n)) := fun y => by unfold rotr; rw [if_pos ⟨h0, hn⟩]
  have bl : ∀ (y : BitVec w) i, i < w → (y <<< n ||| y >>> (w - n)).getLsbD ((i + n) % w) = y.getLsbD i := by
    intro y i hi
    rw [BitVec.getLsbD_or, BitVec.getLsbD_shiftLeft, BitVec.getLsbD_ushiftRight]
    by_cases hc : i + n < w
    · rw [Nat.mod_eq_of_lt hc, BitVec.getLsbD_of_ge y (w - n + (i + n)) (by omega), Nat.add_sub_cancel]
      simp [hc]
    · rw [Nat.mod_eq_sub_mod (by omega), Nat.mod_eq_of_lt (by omega), show w - n + (i + n - w) = i by omega]
      simp; intros; omega
  have br : ∀ (y : BitVec w) i, i < w → (y >>> n ||| y <<< (w - n)).getLsbD i = y.getLsbD ((i + n) % w) := by
    intro y i hi
    rw [BitVec.getLsbD_or, BitVec.getLsbD_shiftLeft, BitVec.getLsbD_ushiftRight]
    by_cases hc : i + n < w
    · rw [Nat.mod_eq_of_lt hc, Nat.add_comm n i]
      simp; intros; omega
    · rw [Nat.mod_eq_sub_mod (by omega), Nat.mod_eq_of_lt (by omega), BitVec.getLsbD_of_ge y (n + i) (by omega), show i - (w - n) = i + n - w by omega]
      simp [hi]; intros; omega
  refine ⟨_, _, hl x, hr x, bl x, br x, ?_, ?_⟩
  · rw [hr]
    refine congrArg some (BitVec.eq_of_getLsbD_eq fun i hi => ?_)
    rw [br _ i hi, bl x i hi]
  · rw [hl]
    refine congrArg some (BitVec.eq_of_getLsbD_eq fun i hi => ?_)
    have e : i = ((i + (w - n)) % w + n) % w := by
      rw [Nat.mod_add_mod, show i + (w - n) + n = i + w by omega, Nat.add_mod_right, Nat.mod_eq_of_lt hi]
    rw [e, bl _ _ (Nat.mod_lt _ (by omega)), br _ _ (Nat.mod_lt _ (by omega))]

example : rotl 0x80000001#32 4 = some 0x00000018#32 := by decide

/-! ## C13 -/

/-- C13. `memory_match` on byte containers is equality, and inspects exactly `min` of the two sizes bytes, whatever the
contents (no data-dependent early exit). -/
theorem C13_match_is_equality (h : Host) (a b : List Byte) :
    matchC h (p := 1) (q := 1) a b = some (decide (a = b), min a.length b.length) := by
  unfold matchC
  rw [matchPtr_eq h (by omega) (by omega) _ _ _ (by omega) (by omega)]
  simp only [Option.bind_eq_bind, Option.bind_some, image_bytes', Nat.mul_one]
  show some _ = some _
  congr 2
  by_cases hl : a.length = b.length
  · rw [hl, Nat.min_self, List.take_of_length_le (Nat.le_of_eq hl), List.take_length]; simp
  · have : a ≠ b := fun e => hl (by rw [e])
    simp [hl, this]

/-- C13 for containers of wider elements: same size in bytes and same object representation. -/
theorem C13_match_is_equality_wide (h : Host) {p q : Nat} (hp : IntWidth p) (hq : IntWidth q) (a : List (Word p)) (b : List (Word q)) :
    matchC h a b = some (decide (image h.endian a = image h.endian b), min (a.length * p) (b.length * q)) := by
  unfold matchC
  rw [matchPtr_eq h hp.pos hq.pos _ _ _ (by omega) (by omega)]
  simp only [Option.bind_eq_bind, Option.bind_some]
  show some _ = some _
  congr 2
  by_cases hl : a.length * p = b.length * q
  · rw [hl, Nat.min_self, List.take_of_length_le (by simp [hl]), List.take_of_length_le (by simp)]; simp
  · have : image h.endian a ≠ image h.endian b := fun e => hl (by have := congrArg List.length e; simpa using this)
    simp [hl, this]

/-- The ordinary comparison `memory_equal` is equality too. -/
theorem C13_equal_is_equality (h : Host) (a b : List Byte) :
    equalC h (p := 1) (q := 1) a b = some (decide (a = b)) := by
  unfold equalC
  by_cases hl : a.length = b.length
  · simp only [hl, if_true]
    rw [equal_eq h (by omega) (by omega) _ _ _ (by omega) (by omega)]
    simp only [image_bytes', Nat.mul_one]
    rw [List.take_of_length_le (Nat.le_of_eq hl), List.take_length]
  · have : a ≠ b := fun e => hl (by rw [e])
    simp [hl, this]

example : matchC ⟨.little, false, none⟩ (p := 1) (q := 1) [1#8, 2#8] [1#8, 3#8] = some (false, 2) := by decide
example : matchC ⟨.little, false, none⟩ (p := 1) (q := 1) [1#8, 2#8] [1#8, 2#8, 3#8] = some (false, 2) := by decide

end Milo.Props
