import Verif.Proof.ShaAlg
import Verif.Spec.Resume
/- The SHA classes do what the steps of Spec.Resume do, call by call, in any order. -/
namespace Milo
open Memory Spec.Resume

/-- The class `H` does what the machine `M` does. -/
structure Follows (H : HashImpl) (M : Machine) {F : List Byte → List Byte} (L : Lawful H F) where
  Sim : H.σ → M.S → Prop
  fresh : Sim H.fresh M.fresh
  wf : ∀ o s, Sim o s → L.Wf o
  init : ∀ o, L.Wf o → Sim (H.init o) (M.start [])
  feed_nil : M.feed (M.start []) [] = M.start []
  feed_feed : ∀ x y, M.feed (M.feed (M.start []) x) y = M.feed (M.start []) (x ++ y)
  update : ∀ o s x, Sim o s → x.length < 2 ^ 64 → ∃ o', H.update o x = some o' ∧ Sim o' (M.feed s x)
  finalize : ∀ o s, Sim o s → ∃ o', H.finalize o = some o' ∧ Sim o' (M.close s)
  digest : ∀ o s dst n, Sim o s → min n H.digestSize ≤ dst.length → H.digest o dst n = some (Spec.written ((M.out s).take H.digestSize) dst n)
  length : ∀ o s, Sim o s → ((M.out s).take H.digestSize).length = H.digestSize

theorem zeros_eq (B L n last : Nat) (hL : L < B) (hlast : last = if n % B ≥ B - L then 2 * B else B) :
    (B - (n + 1 + L) % B) % B = last - L - (n % B + 1) := by
  have hmod := Nat.mod_lt n (show 0 < B by omega)
  have e : (n + 1 + L) % B = (n % B + 1 + L) % B := by
    rw [Nat.add_assoc, Nat.add_mod, Nat.add_assoc, Nat.add_mod (n % B) (1 + L) B, Nat.mod_mod]
  rw [e]
  by_cases hc : n % B ≥ B - L
  · rw [if_pos hc] at hlast
    have : (n % B + 1 + L) % B = n % B + 1 + L - B := by
      rw [Nat.mod_eq_sub_mod (by omega), Nat.mod_eq_of_lt (by omega)]
    rw [this, Nat.mod_eq_of_lt (by omega)]; omega
  · rw [if_neg hc] at hlast
    by_cases he : n % B + 1 + L = B
    · rw [he, Nat.mod_self, Nat.sub_zero, Nat.mod_self]; omega
    · have h1 : (n % B + 1 + L) % B = n % B + 1 + L := Nat.mod_eq_of_lt (by omega)
      rw [h1, Nat.mod_eq_of_lt (by omega)]; omega

/-- Lengths of the held part and the count agree. -/
theorem held_mod (B c h x : Nat) (e : c % B = h) : (c + x) % B = (h + x) % B := by
  subst e; simp

theorem feed_nil {σ : Type} (compress : σ → List Byte → σ) (B : Nat) (s : State σ) (h : s.held.length < B) : feed compress B s [] = s := by
  unfold feed
  rw [List.append_nil, Nat.div_eq_of_lt h]
  simp [chunks_nil]

theorem feed_feed {σ : Type} (compress : σ → List Byte → σ) (B : Nat) (hB : 0 < B) (s : State σ) (x y : List Byte) :
    feed compress B (feed compress B s x) y = feed compress B s (x ++ y) := by
  unfold feed
  rw [← List.append_assoc]
  generalize s.held ++ x = t
  have hle := Nat.div_mul_le_self t.length B
  have hl : (t.take (t.length / B * B)).length = t.length / B * B := by rw [List.length_take, Nat.min_eq_left hle]
  obtain ⟨e1, e2⟩ := absorbed_append B hB compress s.chain (t.take (t.length / B * B)) (tail B t ++ y) (by rw [hl, Nat.mul_mod_left])
  rw [← List.append_assoc, ← split_tail] at e1 e2
  unfold absorbed at e1
  rw [hl, Nat.mul_div_cancel _ hB, List.take_take, Nat.min_self] at e1
  simp only [State.mk.injEq]
  exact ⟨e1.symm, by rw [List.length_append]; omega, e2.symm⟩

theorem written_take (l dst : List Byte) (n ds : Nat) (hl : ds ≤ l.length) :
    Spec.written (l.take ds) dst n = (l.take (min n ds) ++ dst.drop (min n ds), min n ds) := by
  unfold Spec.written
  rw [List.take_take, List.length_take, Nat.min_eq_left hl]


namespace Sha1

/-- `finalize` leaves the count and the held bytes alone. -/
theorem finalize_keeps (h : Host) {blocks : Nat → List W32 → List Byte → Option (List W32)} (o o' : Obj) (ho : Wf o) (e : finalize h blocks o = some o') :
    o'.processed = o.processed ∧ o'.bufferSize = o.bufferSize ∧ o'.buffer.take o.bufferSize = o.buffer.take o.bufferSize := by
  have hsz := ho.size
  have hbl := ho.buffer
  unfold finalize at e
  generalize hls : 64 <<< (if o.bufferSize ≥ 56 then 1 else 0) = last at e
  have hle : last = 64 ∨ last = 128 := by rw [← hls]; split <;> simp
  have hfit : o.bufferSize + 1 + 8 ≤ last := by rw [← hls]; by_cases hc : o.bufferSize ≥ 56 <;> simp [hc] <;> omega
  have e1 := pad_stores o.buffer o.bufferSize (last - 8 - (o.bufferSize + 1)) (by omega)
  cases hw : wr1 o.buffer o.bufferSize 128#8 with
  | none => rw [hw] at e1; simp at e1
  | some b1 =>
    rw [hw] at e1
    simp only [Option.bind_some, Option.bind_eq_bind, hw, hls] at e1 e
    rw [e1] at e
    simp only [Option.bind_some] at e
    rw [at_storBe8 h _ _ 0 _ (by simp; omega)] at e
    simp only [Option.bind_some, Nat.mul_zero, Nat.add_zero] at e
    have hpl : (o.buffer.take o.bufferSize ++ [0x80#8] ++ List.replicate (last - 8 - (o.bufferSize + 1)) 0#8).length = last - 8 := by
      simp; omega
    rw [List.take_left' hpl] at e
    cases hx : blocks (last / 64) o.state _ with
    | none => rw [hx] at e; simp at e
    | some st =>
      rw [hx] at e
      simp only [Option.bind_some, Option.pure_def, Option.some.injEq] at e
      subst e
      refine ⟨rfl, rfl, ?_⟩
      simp only [List.append_assoc]
      skip
      rw [List.take_append_of_le_length (by simp only [List.length_take]; omega), List.take_take, Nat.min_self]

/-- The object is in the state of the machine. -/
structure Sim (o : Obj) (s : State (List W32)) : Prop where
  wf : Wf o
  chain : o.state = s.chain
  count : o.processed = BitVec.ofNat 64 s.count
  held : o.buffer.take o.bufferSize = s.held
  size : s.count % 64 = o.bufferSize

variable (h : Host) {blocks : Nat → List W32 → List Byte → Option (List W32)}

theorem sim_held (o : Obj) (s : State (List W32)) (w : Sim o s) : s.held.length = o.bufferSize := by
  rw [← w.held]; have := w.wf.buffer; have := w.wf.size; simp only [List.length_take]; omega

theorem sim_update (hb : BlocksOk 64 StateOk Spec.Sha.Sha1.compress blocks) (o : Obj) (s : State (List W32)) (x : List Byte) (w : Sim o s) (hx : x.length < 2 ^ 64) :
    ∃ o', update h blocks o x = some o' ∧ Sim o' (feed Spec.Sha.Sha1.compress 64 s x) := by
  have hl := sim_held o s w
  obtain ⟨o', e, w', p, r⟩ := update_gen h hb o w.wf o.state w.wf.state _ x (self_rep o w.wf)
  have hs := r.state
  have hd := r.data
  have hz := r.size
  rw [w.held] at hs hd hz
  rw [w.chain] at hs
  refine ⟨o', e, w', hs, ?_, hd, ?_⟩
  · show o'.processed = BitVec.ofNat 64 (s.count + x.length)
    rw [p, w.count, BitVec.ofNat_add]
  · show (s.count + x.length) % 64 = _
    rw [hz, List.length_append, hl]
    exact held_mod _ _ _ _ w.size

theorem sim_finalize (hb : BlocksOk 64 StateOk Spec.Sha.Sha1.compress blocks) (o : Obj) (s : State (List W32)) (w : Sim o s) :
    ∃ o', finalize h blocks o = some o' ∧ Sim o' (close Spec.Sha.Sha1.compress 64 8 s) := by
  obtain ⟨o', e, w', st⟩ := finalize_gen h hb o w.wf _ rfl
  obtain ⟨k1, k2, k3⟩ := finalize_keeps h o o' w.wf e
  refine ⟨o', e, w', ?_, ?_, ?_, ?_⟩
  · rw [st, w.held, w.chain]
    show _ = (Spec.chunks 64 (s.held ++ padding 64 8 s.count)).foldl Spec.Sha.Sha1.compress s.chain
    unfold padding
    rw [zeros_eq 64 8 s.count _ (by omega) rfl, w.size]
    rw [w.count, length_field]
    simp only [List.append_assoc]
  · rw [k1]; exact w.count
  · rw [k2, k3]; exact w.held
  · rw [k2]; exact w.size

def follows (hb : BlocksOk 64 StateOk Spec.Sha.Sha1.compress blocks) (ds size : Nat) (hd : ds ≤ size) (hs : size ≤ 20) :
    Follows (impl h blocks ds) (steps 4 Spec.Sha.Sha1.compress 64 8 Spec.Sha.Sha1.iv size) (lawful h hb ds (by omega)) where
  Sim := Sim
  fresh := ⟨⟨by simp [StateOk, impl], by simp [impl], by show 0 < 64; omega⟩, rfl, rfl, rfl, rfl⟩
  wf := fun _ _ w => w.wf
  init := fun o w => ⟨⟨rfl, w.buffer, by show 0 < 64; omega⟩, rfl, rfl, rfl, rfl⟩
  feed_nil := feed_nil _ _ _ (by show 0 < 64; omega)
  feed_feed := fun x y => feed_feed _ _ (by omega) _ x y
  update := fun o s x w hx => sim_update h hb o s x w hx
  finalize := fun o s w => sim_finalize h hb o s w
  digest := by
    intro o s dst n w hn
    have hst := w.wf.state
    have hn' : min n ds ≤ dst.length := hn
    have hc := copyBe_eq h (q := 4) (by simp [Swappable]) dst o.state (min n ds) (by rw [hst]; omega) hn
    have e : digest h ds o dst n = some ((image .big (p := 4) o.state).take (min n ds) ++ dst.drop (min n ds), min n ds) := by
      unfold digest; simp only; rw [hc]; rfl
    refine e.trans ?_
    have hlen : (Spec.Sha.output (n := 4) s.chain).length = 20 := by rw [image_big_length, ← w.chain, hst]
    show _ = some (Spec.written (((Spec.Sha.output (n := 4) s.chain).take size).take ds) dst n)
    rw [take_take_min _ _ _ hd, written_take _ _ _ _ (by omega), image_big, w.chain]
  length := by
    intro o s w
    have hst := w.wf.state
    have hlen : (Spec.Sha.output (n := 4) s.chain).length = 20 := by rw [image_big_length, ← w.chain, hst]
    show (((Spec.Sha.output (n := 4) s.chain).take size).take ds).length = ds
    rw [take_take_min _ _ _ hd, List.length_take]
    omega

end Sha1

namespace Sha256

/-- `finalize` leaves the count and the held bytes alone. -/
theorem finalize_keeps (h : Host) {blocks : Nat → List W32 → List Byte → Option (List W32)} (o o' : Obj) (ho : Wf o) (e : finalize h blocks o = some o') :
    o'.processed = o.processed ∧ o'.bufferSize = o.bufferSize ∧ o'.buffer.take o.bufferSize = o.buffer.take o.bufferSize := by
  have hsz := ho.size
  have hbl := ho.buffer
  unfold finalize at e
  generalize hls : 64 <<< (if o.bufferSize ≥ 56 then 1 else 0) = last at e
  have hle : last = 64 ∨ last = 128 := by rw [← hls]; split <;> simp
  have hfit : o.bufferSize + 1 + 8 ≤ last := by rw [← hls]; by_cases hc : o.bufferSize ≥ 56 <;> simp [hc] <;> omega
  have e1 := pad_stores o.buffer o.bufferSize (last - 8 - (o.bufferSize + 1)) (by omega)
  cases hw : wr1 o.buffer o.bufferSize 128#8 with
  | none => rw [hw] at e1; simp at e1
  | some b1 =>
    rw [hw] at e1
    simp only [Option.bind_some, Option.bind_eq_bind, hw, hls] at e1 e
    rw [e1] at e
    simp only [Option.bind_some] at e
    rw [at_storBe8 h _ _ 0 _ (by simp; omega)] at e
    simp only [Option.bind_some, Nat.mul_zero, Nat.add_zero] at e
    have hpl : (o.buffer.take o.bufferSize ++ [0x80#8] ++ List.replicate (last - 8 - (o.bufferSize + 1)) 0#8).length = last - 8 := by
      simp; omega
    rw [List.take_left' hpl] at e
    cases hx : blocks (last / 64) o.state _ with
    | none => rw [hx] at e; simp at e
    | some st =>
      rw [hx] at e
      simp only [Option.bind_some, Option.pure_def, Option.some.injEq] at e
      subst e
      refine ⟨rfl, rfl, ?_⟩
      simp only [List.append_assoc]
      skip
      rw [List.take_append_of_le_length (by simp only [List.length_take]; omega), List.take_take, Nat.min_self]

/-- The object is in the state of the machine. -/
structure Sim (o : Obj) (s : State (List W32)) : Prop where
  wf : Wf o
  chain : o.state = s.chain
  count : o.processed = BitVec.ofNat 64 s.count
  held : o.buffer.take o.bufferSize = s.held
  size : s.count % 64 = o.bufferSize

variable (h : Host) {blocks : Nat → List W32 → List Byte → Option (List W32)}

theorem sim_held (o : Obj) (s : State (List W32)) (w : Sim o s) : s.held.length = o.bufferSize := by
  rw [← w.held]; have := w.wf.buffer; have := w.wf.size; simp only [List.length_take]; omega

theorem sim_update (hb : BlocksOk 64 StateOk compress blocks) (o : Obj) (s : State (List W32)) (x : List Byte) (w : Sim o s) (hx : x.length < 2 ^ 64) :
    ∃ o', update h blocks o x = some o' ∧ Sim o' (feed compress 64 s x) := by
  have hl := sim_held o s w
  obtain ⟨o', e, w', p, r⟩ := update_gen h hb o w.wf o.state w.wf.state _ x (self_rep o w.wf)
  have hs := r.state
  have hd := r.data
  have hz := r.size
  rw [w.held] at hs hd hz
  rw [w.chain] at hs
  refine ⟨o', e, w', hs, ?_, hd, ?_⟩
  · show o'.processed = BitVec.ofNat 64 (s.count + x.length)
    rw [p, w.count, BitVec.ofNat_add]
  · show (s.count + x.length) % 64 = _
    rw [hz, List.length_append, hl]
    exact held_mod _ _ _ _ w.size

theorem sim_finalize (hb : BlocksOk 64 StateOk compress blocks) (o : Obj) (s : State (List W32)) (w : Sim o s) :
    ∃ o', finalize h blocks o = some o' ∧ Sim o' (close compress 64 8 s) := by
  obtain ⟨o', e, w', st⟩ := finalize_gen h hb o w.wf _ rfl
  obtain ⟨k1, k2, k3⟩ := finalize_keeps h o o' w.wf e
  refine ⟨o', e, w', ?_, ?_, ?_, ?_⟩
  · rw [st, w.held, w.chain]
    show _ = (Spec.chunks 64 (s.held ++ padding 64 8 s.count)).foldl compress s.chain
    unfold padding
    rw [zeros_eq 64 8 s.count _ (by omega) rfl, w.size]
    rw [w.count, length_field]
    simp only [List.append_assoc]
  · rw [k1]; exact w.count
  · rw [k2, k3]; exact w.held
  · rw [k2]; exact w.size

def follows (bits : Nat) (hb : BlocksOk 64 StateOk compress blocks) (ds size : Nat) (hd : ds ≤ size) (hs : size ≤ 32) (hb2 : bits = 224 ∨ bits = 256) (hbits : (iv bits).length = 8) :
    Follows (impl h blocks bits ds) (steps 4 compress 64 8 (iv bits) size) (lawful h hb bits ds hb2 (by omega)) where
  Sim := Sim
  fresh := ⟨⟨by simp [StateOk, impl], by simp [impl], by show 0 < 64; omega⟩, by show _ = List.replicate (iv bits).length 0; rw [hbits]; rfl, rfl, rfl, rfl⟩
  wf := fun _ _ w => w.wf
  init := fun o w => ⟨⟨hbits, w.buffer, by show 0 < 64; omega⟩, rfl, rfl, rfl, rfl⟩
  feed_nil := feed_nil _ _ _ (by show 0 < 64; omega)
  feed_feed := fun x y => feed_feed _ _ (by omega) _ x y
  update := fun o s x w hx => sim_update h hb o s x w hx
  finalize := fun o s w => sim_finalize h hb o s w
  digest := by
    intro o s dst n w hn
    have hst := w.wf.state
    have hn' : min n ds ≤ dst.length := hn
    have hc := copyBe_eq h (q := 4) (by simp [Swappable]) dst o.state (min n ds) (by rw [hst]; omega) hn
    have e : digest h ds o dst n = some ((image .big (p := 4) o.state).take (min n ds) ++ dst.drop (min n ds), min n ds) := by
      unfold digest; simp only; rw [hc]; rfl
    refine e.trans ?_
    have hlen : (Spec.Sha.output (n := 4) s.chain).length = 32 := by rw [image_big_length, ← w.chain, hst]
    show _ = some (Spec.written (((Spec.Sha.output (n := 4) s.chain).take size).take ds) dst n)
    rw [take_take_min _ _ _ hd, written_take _ _ _ _ (by omega), image_big, w.chain]
  length := by
    intro o s w
    have hst := w.wf.state
    have hlen : (Spec.Sha.output (n := 4) s.chain).length = 32 := by rw [image_big_length, ← w.chain, hst]
    show (((Spec.Sha.output (n := 4) s.chain).take size).take ds).length = ds
    rw [take_take_min _ _ _ hd, List.length_take]
    omega

end Sha256

namespace Sha512

/-- `finalize` leaves the count and the held bytes alone. -/
theorem finalize_keeps (h : Host) {blocks : Nat → List W64 → List Byte → Option (List W64)} (o o' : Obj) (ho : Wf o) (e : finalize h blocks o = some o') :
    count o' = count o ∧ o'.bufferSize = o.bufferSize ∧ o'.buffer.take o.bufferSize = o.buffer.take o.bufferSize := by
  have hsz := ho.size
  have hbl := ho.buffer
  unfold finalize at e
  generalize hls : 128 <<< (if o.bufferSize ≥ 112 then 1 else 0) = last at e
  have hle : last = 128 ∨ last = 256 := by rw [← hls]; split <;> simp
  have hfit : o.bufferSize + 1 + 16 ≤ last := by rw [← hls]; by_cases hc : o.bufferSize ≥ 112 <;> simp [hc] <;> omega
  have e1 := pad_stores o.buffer o.bufferSize (last - 16 - (o.bufferSize + 1)) (by omega)
  cases hw : wr1 o.buffer o.bufferSize 128#8 with
  | none => rw [hw] at e1; simp at e1
  | some b1 =>
    rw [hw] at e1
    simp only [Option.bind_some, Option.bind_eq_bind, hw, hls] at e1 e
    rw [e1] at e
    simp only [Option.bind_some] at e
    rw [at_storBe8 h _ _ 0 _ (by simp; omega)] at e
    simp only [Option.bind_some, Nat.mul_zero, Nat.add_zero] at e
    rw [at_storBe8 h _ _ 1 _ (by simp [Spec.beBytes]; omega)] at e
    simp only [Option.bind_some] at e
    have hpl : (o.buffer.take o.bufferSize ++ [0x80#8] ++ List.replicate (last - 16 - (o.bufferSize + 1)) 0#8).length = last - 16 := by
      simp; omega
    rw [List.take_left' hpl] at e
    have hb8 : ∀ x, (Spec.beBytes 8 x).length = 8 := fun x => by simp [Spec.beBytes]
    rw [List.take_left' (by rw [List.length_append, hpl, hb8])] at e
    cases hx : blocks (last / 128) o.state _ with
    | none => rw [hx] at e; simp at e
    | some st =>
      rw [hx] at e
      simp only [Option.bind_some, Option.pure_def, Option.some.injEq] at e
      subst e
      refine ⟨rfl, rfl, ?_⟩
      simp only [List.append_assoc]
      skip
      rw [List.take_append_of_le_length (by simp only [List.length_take]; omega), List.take_take, Nat.min_self]

/-- The object is in the state of the machine. -/
structure Sim (o : Obj) (s : State (List W64)) : Prop where
  wf : Wf o
  chain : o.state = s.chain
  count : count o = s.count % 2 ^ 128
  held : o.buffer.take o.bufferSize = s.held
  size : s.count % 128 = o.bufferSize

variable (h : Host) {blocks : Nat → List W64 → List Byte → Option (List W64)}

theorem sim_held (o : Obj) (s : State (List W64)) (w : Sim o s) : s.held.length = o.bufferSize := by
  rw [← w.held]; have := w.wf.buffer; have := w.wf.size; simp only [List.length_take]; omega

theorem sim_update (hb : BlocksOk 128 StateOk compress blocks) (o : Obj) (s : State (List W64)) (x : List Byte) (w : Sim o s) (hx : x.length < 2 ^ 64) :
    ∃ o', update h blocks o x = some o' ∧ Sim o' (feed compress 128 s x) := by
  have hl := sim_held o s w
  obtain ⟨o', e, w', p, r⟩ := update_gen h hb o w.wf o.state w.wf.state _ x (self_rep o w.wf)
  have hs := r.state
  have hd := r.data
  have hz := r.size
  rw [w.held] at hs hd hz
  rw [w.chain] at hs
  refine ⟨o', e, w', hs, ?_, hd, ?_⟩
  · show count o' = (s.count + x.length) % 2 ^ 128
    rw [p hx, w.count, Nat.mod_add_mod]
  · show (s.count + x.length) % 128 = _
    rw [hz, List.length_append, hl]
    exact held_mod _ _ _ _ w.size

theorem sim_finalize (hb : BlocksOk 128 StateOk compress blocks) (o : Obj) (s : State (List W64)) (w : Sim o s) :
    ∃ o', finalize h blocks o = some o' ∧ Sim o' (close compress 128 16 s) := by
  obtain ⟨o', e, w', st⟩ := finalize_gen h hb o w.wf _ rfl
  obtain ⟨k1, k2, k3⟩ := finalize_keeps h o o' w.wf e
  refine ⟨o', e, w', ?_, ?_, ?_, ?_⟩
  · rw [st, w.held, w.chain]
    show _ = (Spec.chunks 128 (s.held ++ padding 128 16 s.count)).foldl compress s.chain
    unfold padding
    rw [zeros_eq 128 16 s.count _ (by omega) rfl, w.size]
    rw [show Spec.beBytes 16 (8 * count o) = Spec.beBytes 16 (8 * s.count) from beBytes_mod _ _ _ (by rw [w.count]; omega)]
    simp only [List.append_assoc]
  · rw [k1]; exact w.count
  · rw [k2, k3]; exact w.held
  · rw [k2]; exact w.size

def follows (bits : Nat) (hb : BlocksOk 128 StateOk compress blocks) (ds size : Nat) (hd : ds ≤ size) (hs : size ≤ 64) (hb2 : bits = 224 ∨ bits = 256 ∨ bits = 384 ∨ bits = 512) (hbits : (iv bits).length = 8) :
    Follows (impl h blocks bits ds) (steps 8 compress 128 16 (iv bits) size) (lawful h hb bits ds hb2 (by omega)) where
  Sim := Sim
  fresh := ⟨fresh_wf, by show List.replicate 8 (0 : W64) = List.replicate (iv bits).length 0; rw [hbits], by show (0 : W64).toNat * 2 ^ 64 + (0 : W64).toNat = 0 % 2 ^ 128; decide, List.take_zero, rfl⟩
  wf := fun _ _ w => w.wf
  init := fun o w => ⟨⟨hbits, w.buffer, by show 0 < 128; omega⟩, rfl, by show (0 : W64).toNat * 2 ^ 64 + (0 : W64).toNat = 0 % 2 ^ 128; decide, List.take_zero, rfl⟩
  feed_nil := feed_nil _ _ _ (by show 0 < 128; omega)
  feed_feed := fun x y => feed_feed _ _ (by omega) _ x y
  update := fun o s x w hx => sim_update h hb o s x w hx
  finalize := fun o s w => sim_finalize h hb o s w
  digest := by
    intro o s dst n w hn
    have hst := w.wf.state
    have hn' : min n ds ≤ dst.length := hn
    have hc := copyBe_eq h (q := 8) (by simp [Swappable]) dst o.state (min n ds) (by rw [hst]; omega) hn
    have e : digest h ds o dst n = some ((image .big (p := 8) o.state).take (min n ds) ++ dst.drop (min n ds), min n ds) := by
      unfold digest; simp only; rw [hc]; rfl
    refine e.trans ?_
    have hlen : (Spec.Sha.output (n := 8) s.chain).length = 64 := by rw [image_big_length, ← w.chain, hst]
    show _ = some (Spec.written (((Spec.Sha.output (n := 8) s.chain).take size).take ds) dst n)
    rw [take_take_min _ _ _ hd, written_take _ _ _ _ (by omega), image_big, w.chain]
  length := by
    intro o s w
    have hst := w.wf.state
    have hlen : (Spec.Sha.output (n := 8) s.chain).length = 64 := by rw [image_big_length, ← w.chain, hst]
    show (((Spec.Sha.output (n := 8) s.chain).take size).take ds).length = ds
    rw [take_take_min _ _ _ hd, List.length_take]
    omega

end Sha512

end Milo
