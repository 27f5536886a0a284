import Verif.Proof.ChaChaAsmMem
/- The assembly backends of ChaCha are lawful. -/
namespace Milo.ChaCha.Asm
open Memory X86

def zero : Vec := fun _ => 0

/-- What the loop needs of the code after the rounds. -/
def BodyOk (lanes : Nat) (k : Consts Vec) (body : Prog Vec) (st : List W32) (out : Nat → Byte) (srcStep : Nat) (mem0 : List Byte) (dst src N : Nat) : Prop :=
  ∀ (B : Nat) (x t bs : List Vec) (m : List Byte), x.length = 16 → t.length = 6 → bs.length = 16 → t[0]? = x[15]? → t[1]? = x[12]? →
    Words lanes st B (fun i => add (simd lanes) (x.getD i zero) (bs.getD i zero)) → 64 * B + 64 * lanes ≤ N → Upd mem0 dst out (fun j => j < 64 * B) m →
    ∃ x' t' m', exec (simd lanes) ⟨x, t, bs, some m, dst + 64 * B, src + srcStep * B⟩ body
        = some ⟨x', t', bs.set 12 (add (simd lanes) (bs.getD 12 zero) k.addAdvance), some m', dst + 64 * (B + lanes), src + srcStep * (B + lanes)⟩ ∧
      x'.length = 16 ∧ t'.length = 6 ∧ Upd mem0 dst out (fun j => j < 64 * (B + lanes)) m'

theorem of_shape {V M : Type} {o : Option (St V M)} {a b d e : Nat} {bs : List V} {m : M} (h : o.map shape = some (a, b, bs, m, d, e)) :
    ∃ x t, o = some ⟨x, t, bs, m, d, e⟩ ∧ x.length = a ∧ t.length = b := by
  cases o with
  | none => simp at h
  | some s =>
    obtain ⟨x, t, b', m', d', e'⟩ := s
    simp only [Option.map_some, shape, Option.some.injEq, Prod.mk.injEq] at h
    obtain ⟨rfl, rfl, rfl, rfl, rfl, rfl⟩ := h
    exact ⟨x, t, rfl, rfl, rfl⟩

theorem list6 {α} (l : List α) (h : l.length = 6) : ∃ a0 a1 a2 a3 a4 a5, l = [a0, a1, a2, a3, a4, a5] := by
  match l, h with
  | [a0, a1, a2, a3, a4, a5], _ => exact ⟨a0, a1, a2, a3, a4, a5, rfl⟩

theorem set12 {α : Type} (z b0 b1 b2 b3 b4 b5 b6 b7 b8 b9 b10 b11 b12 b13 b14 b15 : α) (f : α → α) :
    [b0, b1, b2, b3, b4, b5, b6, b7, b8, b9, b10, b11, b12, b13, b14, b15].set 12
      (f ([b0, b1, b2, b3, b4, b5, b6, b7, b8, b9, b10, b11, b12, b13, b14, b15].getD 12 z))
    = [b0, b1, b2, b3, b4, b5, b6, b7, b8, b9, b10, b11, f b12, b13, b14, b15] := rfl

theorem ssse3_transform_ok (st : List W32) (hs : st.length = 16) (mem0 : List Byte) (dst src N : Nat) (ho : NoOverlap dst src N)
    (hsl : src + N ≤ mem0.length) (hdl : dst + N ≤ mem0.length) (k : Consts Vec) :
    BodyOk 4 k (transformBody k) st (fun j => mem0.getD (src + j) 0 ^^^ stream st j) 64 mem0 dst src N := by
  intro B x t bs m hx ht hb q0 q1 hw hN u
  obtain ⟨m', e, u'⟩ := stores4T hw hs u ho hsl hdl hN
  obtain ⟨x0, x1, x2, x3, x4, x5, x6, x7, x8, x9, x10, x11, x12, x13, x14, x15, rfl⟩ := list16 x hx
  obtain ⟨b0, b1, b2, b3, b4, b5, b6, b7, b8, b9, b10, b11, b12, b13, b14, b15, rfl⟩ := list16 bs hb
  obtain ⟨t0, t1, t2, t3, t4, t5, rfl⟩ := list6 t ht
  simp only [List.getElem?_cons_zero, List.getElem?_cons_succ, Option.some.injEq] at q0 q1
  subst q0 q1
  have r := transformBody_run (simd 4) k x0 x1 x2 x3 x4 x5 x6 x7 x8 x9 x10 x11 t1 x13 x14 t0 t0 t1 t2 t3 t4 t5 b0 b1 b2 b3 b4 b5 b6 b7 b8 b9 b10 b11 b12 b13
    b14 b15 (some m) (dst + 64 * B) (src + 64 * B)
  simp only [List.getD_cons_zero, List.getD_cons_succ] at e
  rw [e] at r
  obtain ⟨x', t', r', hx', ht'⟩ := of_shape r
  exact ⟨x', t', m', by rw [set12 zero _ _ _ _ _ _ _ _ _ _ _ _ _ _ _ _ (fun b => add (simd 4) b k.addAdvance), show dst + 64 * (B + 4) = dst + 64 * B + 256 by omega, show src + 64 * (B + 4) = src + 64 * B + 256 by omega]; exact r', hx', ht',
    u'.congr fun j => by omega⟩

theorem ssse3_generate_ok (st : List W32) (hs : st.length = 16) (mem0 : List Byte) (dst src N : Nat)
    (hdl : dst + N ≤ mem0.length) (k : Consts Vec) : BodyOk 4 k (generateBody k) st (stream st) 0 mem0 dst src N := by
  intro B x t bs m hx ht hb q0 q1 hw hN u
  obtain ⟨m', e, u'⟩ := stores4G hw hs u hdl hN
  obtain ⟨x0, x1, x2, x3, x4, x5, x6, x7, x8, x9, x10, x11, x12, x13, x14, x15, rfl⟩ := list16 x hx
  obtain ⟨b0, b1, b2, b3, b4, b5, b6, b7, b8, b9, b10, b11, b12, b13, b14, b15, rfl⟩ := list16 bs hb
  obtain ⟨t0, t1, t2, t3, t4, t5, rfl⟩ := list6 t ht
  simp only [List.getElem?_cons_zero, List.getElem?_cons_succ, Option.some.injEq] at q0 q1
  subst q0 q1
  have r := generateBody_run (simd 4) k x0 x1 x2 x3 x4 x5 x6 x7 x8 x9 x10 x11 t1 x13 x14 t0 t0 t1 t2 t3 t4 t5 b0 b1 b2 b3 b4 b5 b6 b7 b8 b9 b10 b11 b12 b13
    b14 b15 (some m) (dst + 64 * B) (src + 0 * B)
  simp only [List.getD_cons_zero, List.getD_cons_succ] at e
  rw [e] at r
  obtain ⟨x', t', r', hx', ht'⟩ := of_shape r
  exact ⟨x', t', m', by rw [set12 zero _ _ _ _ _ _ _ _ _ _ _ _ _ _ _ _ (fun b => add (simd 4) b k.addAdvance), show dst + 64 * (B + 4) = dst + 64 * B + 256 by omega, show src + 0 * (B + 4) = src + 0 * B by omega]; exact r', hx', ht',
    u'.congr fun j => by omega⟩

theorem avx2_transform_ok (st : List W32) (hs : st.length = 16) (mem0 : List Byte) (dst src N : Nat) (ho : NoOverlap dst src N)
    (hsl : src + N ≤ mem0.length) (hdl : dst + N ≤ mem0.length) (k : Consts Vec) :
    BodyOk 8 k (transformBodyAvx k) st (fun j => mem0.getD (src + j) 0 ^^^ stream st j) 64 mem0 dst src N := by
  intro B x t bs m hx ht hb q0 q1 hw hN u
  obtain ⟨m', e, u'⟩ := stores8T hw hs u ho hsl hdl hN
  obtain ⟨x0, x1, x2, x3, x4, x5, x6, x7, x8, x9, x10, x11, x12, x13, x14, x15, rfl⟩ := list16 x hx
  obtain ⟨b0, b1, b2, b3, b4, b5, b6, b7, b8, b9, b10, b11, b12, b13, b14, b15, rfl⟩ := list16 bs hb
  obtain ⟨t0, t1, t2, t3, t4, t5, rfl⟩ := list6 t ht
  simp only [List.getElem?_cons_zero, List.getElem?_cons_succ, Option.some.injEq] at q0 q1
  subst q0 q1
  have r := transformAvx_run (simd 8) k x0 x1 x2 x3 x4 x5 x6 x7 x8 x9 x10 x11 t1 x13 x14 t0 t0 t1 t2 t3 t4 t5 b0 b1 b2 b3 b4 b5 b6 b7 b8 b9 b10 b11 b12 b13
    b14 b15 (some m) (dst + 64 * B) (src + 64 * B)
  simp only [List.getD_cons_zero, List.getD_cons_succ] at e
  rw [e] at r
  obtain ⟨x', t', r', hx', ht'⟩ := of_shape r
  exact ⟨x', t', m', by rw [set12 zero _ _ _ _ _ _ _ _ _ _ _ _ _ _ _ _ (fun b => add (simd 8) b k.addAdvance), show dst + 64 * (B + 8) = dst + 64 * B + 512 by omega, show src + 64 * (B + 8) = src + 64 * B + 512 by omega]; exact r', hx', ht',
    u'.congr fun j => by omega⟩

theorem avx2_generate_ok (st : List W32) (hs : st.length = 16) (mem0 : List Byte) (dst src N : Nat)
    (hdl : dst + N ≤ mem0.length) (k : Consts Vec) : BodyOk 8 k (generateBodyAvx k) st (stream st) 0 mem0 dst src N := by
  intro B x t bs m hx ht hb q0 q1 hw hN u
  obtain ⟨m', e, u'⟩ := stores8G hw hs u hdl hN
  obtain ⟨x0, x1, x2, x3, x4, x5, x6, x7, x8, x9, x10, x11, x12, x13, x14, x15, rfl⟩ := list16 x hx
  obtain ⟨b0, b1, b2, b3, b4, b5, b6, b7, b8, b9, b10, b11, b12, b13, b14, b15, rfl⟩ := list16 bs hb
  obtain ⟨t0, t1, t2, t3, t4, t5, rfl⟩ := list6 t ht
  simp only [List.getElem?_cons_zero, List.getElem?_cons_succ, Option.some.injEq] at q0 q1
  subst q0 q1
  have r := generateAvx_run (simd 8) k x0 x1 x2 x3 x4 x5 x6 x7 x8 x9 x10 x11 t1 x13 x14 t0 t0 t1 t2 t3 t4 t5 b0 b1 b2 b3 b4 b5 b6 b7 b8 b9 b10 b11 b12 b13
    b14 b15 (some m) (dst + 64 * B) (src + 0 * B)
  simp only [List.getD_cons_zero, List.getD_cons_succ] at e
  rw [e] at r
  obtain ⟨x', t', r', hx', ht'⟩ := of_shape r
  exact ⟨x', t', m', by rw [set12 zero _ _ _ _ _ _ _ _ _ _ _ _ _ _ _ _ (fun b => add (simd 8) b k.addAdvance), show dst + 64 * (B + 8) = dst + 64 * B + 512 by omega, show src + 0 * (B + 8) = src + 0 * B by omega]; exact r', hx', ht',
    u'.congr fun j => by omega⟩

/-! ### The loop -/

/-- The stack holds the states of blocks `B …`, one per lane, the first in the last lane. -/
def Blocks (lanes : Nat) (st : List W32) (B : Nat) (bs : List Vec) : Prop :=
  bs.length = 16 ∧ ∀ l, l < lanes → lane bs l = ctr st (B + (lanes - 1 - l))

theorem lane_getD (xs : List Vec) (l i : Nat) (h : i < xs.length) : xs.getD i zero l = (lane xs l).getD i 0 := by
  simp [lane, h]

theorem words_of {lanes : Nat} {st : List W32} {B : Nat} {bs x : List Vec} (hb : Blocks lanes st B bs) (hx : x.length = 16)
    (hl : ∀ l, l < lanes → lane x l = inners 10 (lane bs l)) : Words lanes st B (fun i => add (simd lanes) (x.getD i zero) (bs.getD i zero)) := by
  intro i l hi hl'
  show x.getD i zero l + bs.getD i zero l = _
  have hlen : (lane bs l).length = 16 := by simp [lane, hb.1]
  rw [← hb.2 l hl', lane_getD x l i (by omega), lane_getD bs l i (by rw [hb.1]; omega), hl l hl']
  unfold keyW
  have h2 : (inners 10 (lane bs l)).length = 16 := by unfold inners; rw [rounds_length, hlen]
  have e : (List.range 10).foldl (fun s _ => Spec.ChaCha.inner s) (lane bs l) = inners 10 (lane bs l) := rfl
  rw [e]
  generalize inners 10 (lane bs l) = y at h2 ⊢
  generalize lane bs l = z at hlen ⊢
  simp only [List.getD_eq_getElem?_getD, List.getElem?_zipWith]
  rw [List.getElem?_eq_getElem (by omega), List.getElem?_eq_getElem (by omega)]
  simp [BitVec.add_comm]

theorem Blocks.next {lanes : Nat} {k : Consts Vec} (g : Good lanes k) {st : List W32} {B : Nat} {bs : List Vec} (hs : st.length = 16)
    (hb : Blocks lanes st B bs) : Blocks lanes st (B + lanes) (bs.set 12 (add (simd lanes) (bs.getD 12 zero) k.addAdvance)) := by
  refine ⟨by simp [hb.1], fun l hl => ?_⟩
  have e : lane (bs.set 12 (add (simd lanes) (bs.getD 12 zero) k.addAdvance)) l = (lane bs l).set 12 ((lane bs l).getD 12 0 + BitVec.ofNat 32 lanes) := by
    unfold lane
    rw [List.map_set]
    congr 1
    show bs.getD 12 zero l + k.addAdvance l = _
    rw [g.advance l hl, lane_getD bs l 12 (by rw [hb.1]; omega)]
    rfl
  rw [e]
  have := ctr_ctr st (B + (lanes - 1 - l)) lanes (by omega)
  rw [show B + lanes + (lanes - 1 - l) = B + (lanes - 1 - l) + lanes by omega, ← this, hb.2 l hl]
  rfl

theorem reload_eq {lanes : Nat} (x t bs : List Vec) (hx : x.length = 16) (hb : bs.length = 16) (mem : Option (List Byte)) (dst src : Nat) :
    exec (simd lanes) ⟨x, t, bs, mem, dst, src⟩ reload = some ⟨bs, t, bs, mem, dst, src⟩ := by
  obtain ⟨x0, x1, x2, x3, x4, x5, x6, x7, x8, x9, x10, x11, x12, x13, x14, x15, rfl⟩ := list16 x hx
  obtain ⟨b0, b1, b2, b3, b4, b5, b6, b7, b8, b9, b10, b11, b12, b13, b14, b15, rfl⟩ := list16 bs hb
  exact reload_run ..

theorem blocksLoop_eq {lanes : Nat} {k : Consts Vec} (g : Good lanes k) {body : Prog Vec} {st : List W32} {out : Nat → Byte} {srcStep : Nat} {mem0 : List Byte}
    {dst src N : Nat} (hs : st.length = 16) (ok : BodyOk lanes k body st out srcStep mem0 dst src N) (n : Nat) (B : Nat) (t bs : List Vec) (m : List Byte)
    (ht : t.length = 6) (hb : Blocks lanes st B bs) (hN : 64 * (B + lanes * (n + 1)) ≤ N) (u : Upd mem0 dst out (fun j => j < 64 * B) m) :
    ∃ s m', blocksLoop (simd lanes) k body n ⟨bs, t, bs, some m, dst + 64 * B, src + srcStep * B⟩ = some s ∧ s.mem = some m' ∧
      Upd mem0 dst out (fun j => j < 64 * (B + lanes * (n + 1))) m' := by
  induction n generalizing B t bs m with
  | zero =>
    obtain ⟨x1, t1, e1, hx1, ht1, l1, q0, q1⟩ := roundsLoop_lanes g 10 bs t bs (some m) (dst + 64 * B) (src + srcStep * B) hb.1 ht (by omega)
    obtain ⟨x2, t2, m2, e2, hx2, ht2, u2⟩ := ok B x1 t1 bs m hx1 ht1 hb.1 q0 q1 (words_of hb hx1 l1) (by omega) u
    have e3 : blocksLoop (simd lanes) k body 0 ⟨bs, t, bs, some m, dst + 64 * B, src + srcStep * B⟩
        = exec (simd lanes) ⟨x1, t1, bs, some m, dst + 64 * B, src + srcStep * B⟩ body := by
      rw [blocksLoop, e1]
      rfl
    rw [e2] at e3
    exact ⟨_, m2, e3, rfl, u2.congr fun j => by omega⟩
  | succ n ih =>
    obtain ⟨x1, t1, e1, hx1, ht1, l1, q0, q1⟩ := roundsLoop_lanes g 10 bs t bs (some m) (dst + 64 * B) (src + srcStep * B) hb.1 ht (by omega)
    have hsp : lanes * (n + 1 + 1) = lanes + lanes * (n + 1) := by rw [Nat.mul_succ lanes (n + 1), Nat.add_comm]
    obtain ⟨x2, t2, m2, e2, hx2, ht2, u2⟩ := ok B x1 t1 bs m hx1 ht1 hb.1 q0 q1 (words_of hb hx1 l1) (by omega) u
    have hb2 := hb.next g hs
    obtain ⟨s, m', e3, hm, u3⟩ := ih (B + lanes) t2 _ m2 ht2 hb2 (by omega) u2
    refine ⟨s, m', ?_, hm, u3.congr fun j => by omega⟩
    rw [blocksLoop, e1, Option.bind_eq_bind, Option.bind_some, e2, Option.bind_some, reload_eq x2 t2 _ hx2 hb2.1]
    exact e3

theorem blocksInit_eq {lanes : Nat} {k : Consts Vec} (g : Good lanes k) (hl8 : lanes ≤ 8) (st : List W32) (hs : st.length = 16) (x t bs : List Vec) (hx : x.length = 16)
    (ht : t.length = 6) (hb : bs.length = 16) (mem : Option (List Byte)) (dst src : Nat) :
    ∃ bs', exec (simd lanes) ⟨x, t, bs, mem, dst, src⟩ (blocksInit k (quad st)) = some ⟨bs', t, bs', mem, dst, src⟩ ∧ Blocks lanes st 0 bs' := by
  obtain ⟨x0, x1, x2, x3, x4, x5, x6, x7, x8, x9, x10, x11, x12, x13, x14, x15, rfl⟩ := list16 x hx
  obtain ⟨b0, b1, b2, b3, b4, b5, b6, b7, b8, b9, b10, b11, b12, b13, b14, b15, rfl⟩ := list16 bs hb
  obtain ⟨t0, t1, t2, t3, t4, t5, rfl⟩ := list6 t ht
  obtain ⟨s0, s1, s2, s3, s4, s5, s6, s7, s8, s9, s10, s11, s12, s13, s14, s15, rfl⟩ := list16 st hs
  refine ⟨_, blocksInit_run .., rfl, fun l hl => ?_⟩
  have e : ∀ (st : List W32) (i c : Nat), c < 4 → (simd lanes).unImm .pshufd (quad st i) (0x55 * c) l = st.getD (4 * i + c) 0 := by
    intro st i c hc
    show st.getD (4 * i + (l / 4 * 4 + 0x55 * c / 4 ^ (l % 4) % 4) % 4) 0 = _
    have : 0x55 * c / 4 ^ (l % 4) % 4 = c := by
      have : l % 4 < 4 := Nat.mod_lt _ (by omega)
      generalize l % 4 = d at this
      interval_cases d <;> interval_cases c <;> rfl
    rw [this, show (l / 4 * 4 + c) % 4 = c by omega]
  have e0 := fun st i => e st i 0 (by omega)
  have e1 := fun st i => e st i 1 (by omega)
  have e2 := fun st i => e st i 2 (by omega)
  have e3 := fun st i => e st i 3 (by omega)
  simp only [Nat.mul_zero, Nat.mul_one, Nat.reduceMul] at e0 e1 e2 e3
  have ea : ∀ a b : Vec, add (simd lanes) a b l = a l + b l := fun _ _ => rfl
  simp only [lane, List.map_cons, List.map_nil, ea, e0, e1, e2, e3, g.init l hl, ctr, Nat.zero_add]
  rfl

theorem run_eq {lanes : Nat} {k : Consts Vec} (g : Good lanes k) (hl8 : lanes ≤ 8) {body : Prog Vec} {st : List W32} {out : Nat → Byte} {srcStep : Nat}
    {mem0 : List Byte} {dst src N : Nat} (hs : st.length = 16) (ok : BodyOk lanes k body st out srcStep mem0 dst src N) (junk : Nat → Vec) (n : Nat)
    (hN : 64 * (lanes * n) ≤ N) :
    ∃ s m', run (simd lanes) k (quad st) body n (entry junk mem0 dst src) = some s ∧ s.mem = some m' ∧ Upd mem0 dst out (fun j => j < 64 * (lanes * n)) m' := by
  cases n with
  | zero => exact ⟨_, mem0, rfl, rfl, (Upd.start mem0 dst out).congr fun j => by simp⟩
  | succ n =>
    obtain ⟨bs, e, hb⟩ := blocksInit_eq g hl8 st hs ((List.range 16).map junk) ((List.range 6).map fun i => junk (16 + i)) ((List.range 16).map fun i => junk (22 + i))
      (by simp) (by simp) (by simp) (some mem0) dst src
    obtain ⟨s, m', e2, hm, u⟩ := blocksLoop_eq g hs ok n 0 ((List.range 6).map fun i => junk (16 + i)) bs mem0 (by simp) hb (by omega)
      ((Upd.start mem0 dst out).congr fun j => by simp)
    refine ⟨s, m', ?_, hm, u.congr fun j => by rw [Nat.zero_add]⟩
    rw [run, entry, e]
    exact e2

theorem copyState_eq (st : List W32) (hs : st.length = 16) : copyState st = some st := by
  unfold copyState
  rw [rdN_some _ _ _ (by omega), List.drop_zero, List.take_of_length_le (by omega)]

theorem ret_mod (n lanes : Nat) : BitVec.ofNat 32 (n * lanes % 2 ^ 64) = BitVec.ofNat 32 (lanes * n) := by
  apply BitVec.eq_of_toNat_eq
  rw [BitVec.toNat_ofNat, BitVec.toNat_ofNat, Nat.mul_comm n]
  exact Nat.mod_mod_of_dvd _ (Nat.pow_dvd_pow 2 (by omega))

theorem backend_lawful {lanes : Nat} {k : Consts Vec} (g : Good lanes k) (h1 : 1 ≤ lanes) (hl8 : lanes ≤ 8) (tb gb : Prog Vec) (junk : Nat → Vec)
    (okT : ∀ st mem0 dst src N, st.length = 16 → NoOverlap dst src N → src + N ≤ mem0.length → dst + N ≤ mem0.length →
      BodyOk lanes k tb st (fun j => mem0.getD (src + j) 0 ^^^ stream st j) 64 mem0 dst src N)
    (okG : ∀ st mem0 dst src N, st.length = 16 → dst + N ≤ mem0.length → BodyOk lanes k gb st (stream st) 0 mem0 dst src N) :
    LawfulBackend (backend lanes k tb gb junk) where
  pos := h1
  le := hl8
  transform := fun n st mem dst src hs ho hsl hdl => by
    have hr : (backend lanes k tb gb junk).ratio = lanes := rfl
    rw [hr, Nat.mul_assoc] at ho hsl hdl ⊢
    obtain ⟨s, m', e, hm, u⟩ := run_eq g hl8 hs (okT st mem dst src _ hs ho hsl hdl) junk n (Nat.le_refl _)
    refine ⟨n * lanes % 2 ^ 64, ?_, ret_mod n lanes⟩
    rw [← (Upd.xored_iff mem dst src _ (stream st) hdl m').mp u]
    show (copyState st).bind _ = _
    rw [copyState_eq st hs, Option.bind_some, e, Option.bind_eq_bind, Option.bind_some, hm]
    rfl
  generate := fun n st buf hs hl => by
    have hr : (backend lanes k tb gb junk).ratio = lanes := rfl
    rw [hr, Nat.mul_assoc] at hl ⊢
    obtain ⟨s, m', e, hm, u⟩ := run_eq g hl8 hs (okG st buf 0 0 _ hs (by rw [Nat.zero_add]; exact hl)) junk n (Nat.le_refl _)
    refine ⟨n * lanes % 2 ^ 64, ?_, ret_mod n lanes⟩
    have hd := u.done (by rw [Nat.zero_add]; exact hl)
    rw [List.take_zero, List.nil_append, Nat.zero_add] at hd
    rw [← hd]
    show (copyState st).bind _ = _
    rw [copyState_eq st hs, Option.bind_some, e, Option.bind_eq_bind, Option.bind_some, hm]
    rfl

theorem ssse3_lawful (junk : Nat → Vec) : LawfulBackend (ssse3 junk) :=
  backend_lawful ssse3_good (by omega) (by omega) _ _ junk
    (fun st mem0 dst src N hs ho h1 h2 => ssse3_transform_ok st hs mem0 dst src N ho h1 h2 _)
    (fun st mem0 dst src N hs h => ssse3_generate_ok st hs mem0 dst src N h _)

theorem avx2_lawful (junk : Nat → Vec) : LawfulBackend (avx2 junk) :=
  backend_lawful avx2_good (by omega) (by omega) _ _ junk
    (fun st mem0 dst src N hs ho h1 h2 => avx2_transform_ok st hs mem0 dst src N ho h1 h2 _)
    (fun st mem0 dst src N hs h => avx2_generate_ok st hs mem0 dst src N h _)

end Milo.ChaCha.Asm
