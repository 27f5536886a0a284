import Verif.Proof.KdfLive
import Verif.Props.Kdf
/-
Property theorems C50 (the buffers that are retained), C27 (what is derived beyond 255 blocks): at run time every block is computed in the request that first needs it
from what the retained buffers hold then.
-/
namespace Milo.Props
open Milo

/-- C50 (PBKDF2), exactly: after any use of the object, `initialize`, then any requests and any changes of any buffers: every block is computed from the content the buffers
of input key and salt have at the time of the request that needs it. No limit on what is derived: the counter has 32 bits. -/
theorem C50_pbkdf2_live (h : Host) (hrt : h.consteval = false) (junk : Nat → Byte) (a : ShaAlg) (sizes : Nat → Nat) (m : Mem) (hm : Kdf.MemOk sizes m)
    (pre : List (Kdf.Call Pbkdf2.Args)) (hpre : ∀ c ∈ pre, Kdf.Call.Ok (pbkdf2Class h junk a a.size) sizes c) :
    ∃ outs, ∀ (ikm salt : Span) (it : W32), (∀ s ∈ [ikm, salt], s.size ≤ sizes s.buf ∧ s.size < 2 ^ 64) →
      ∀ cs : List (Kdf.Call Pbkdf2.Args), (∀ c ∈ cs, Kdf.Call.Ok (pbkdf2Class h junk a a.size) sizes c) → (∀ c ∈ cs, ∀ x, c ≠ .init x) →
      ∃ st, Kdf.run (pbkdf2Class h junk a a.size) m (pre ++ [.init ⟨ikm, salt, it⟩] ++ cs)
        = some (st, outs ++ Spec.live (fun m => Spec.pbkdf2More (hmacSpec a) a.size (bytesOf m ikm) (bytesOf m salt) (max it.toNat 1)) [] 1
            (Kdf.requests (Kdf.memAfter m pre) cs)) := by
  obtain ⟨M⟩ := hmacDefault h a
  have hb := size_bounds a
  have hd := macDigestSize h (.hmac a a.size) a.size
  have h1 : (MacAlg.impl h a.size (.hmac a a.size)).digestSize < 2 ^ 64 := by rw [hd]; omega
  have h2 : 0 < (MacAlg.impl h a.size (.hmac a a.size)).digestSize := by rw [hd]; omega
  obtain ⟨outs, hr⟩ := Kdf.run_live (Pbkdf2.live h hrt junk M h1 h2) (Pbkdf2.lawful h junk M h1 h2) rfl sizes m hm pre hpre
  refine ⟨outs, fun ikm salt it ha cs hc hl => ?_⟩
  obtain ⟨st, e⟩ := hr ⟨ikm, salt, it⟩ ha cs hc hl
  rw [hd] at e
  exact ⟨st, e⟩

/-- C50 (HKDF), exactly: the pseudorandom key is computed at `initialize`; every block of the key from the content the buffer of `info` has when it is computed. No limit on
what is derived (C27): the counter has 8 bits. -/
theorem C50_hkdf_live (h : Host) (hrt : h.consteval = false) (a : ShaAlg) (sizes : Nat → Nat) (m : Mem) (hm : Kdf.MemOk sizes m)
    (pre : List (Kdf.Call Hkdf.Args)) (hpre : ∀ c ∈ pre, Kdf.Call.Ok (hkdfClass h a a.size) sizes c) :
    ∃ outs, ∀ (ikm salt info : Span), (∀ s ∈ [ikm, salt, info], s.size ≤ sizes s.buf ∧ s.size < 2 ^ 64) →
      ∀ cs : List (Kdf.Call Hkdf.Args), (∀ c ∈ cs, Kdf.Call.Ok (hkdfClass h a a.size) sizes c) → (∀ c ∈ cs, ∀ x, c ≠ .init x) →
      ∃ st, Kdf.run (hkdfClass h a a.size) m (pre ++ [.init ⟨ikm, salt, info⟩] ++ cs)
        = some (st, outs ++ Spec.live
            (fun m' => Spec.hkdfMore (hmacSpec a) a.size (hmacSpec a (bytesOf (Kdf.memAfter m pre) salt) (bytesOf (Kdf.memAfter m pre) ikm)) (bytesOf m' info)) [] ([], 1)
            (Kdf.requests (Kdf.memAfter m pre) cs)) := by
  obtain ⟨M⟩ := hmacDefault h a
  have hb := size_bounds a
  have hd := macDigestSize h (.hmac a a.size) a.size
  have h1 : (MacAlg.impl h a.size (.hmac a a.size)).digestSize < 2 ^ 64 := by rw [hd]; omega
  have h2 : 0 < (MacAlg.impl h a.size (.hmac a a.size)).digestSize := by rw [hd]; omega
  obtain ⟨outs, hr⟩ := Kdf.run_live (Hkdf.live h hrt M h1 h2) (Hkdf.lawful h M h1 h2) rfl sizes m hm pre hpre
  refine ⟨outs, fun ikm salt info ha cs hc hl => ?_⟩
  obtain ⟨st, e⟩ := hr ⟨ikm, salt, info⟩ ha cs hc hl
  rw [hd] at e
  exact ⟨st, e⟩

/-- A history: key material derived, the buffers of password and salt overwritten, then new input. -/
example : ∃ outs st, Kdf.run (pbkdf2Class ⟨.little, false, none⟩ (fun _ => 3) .sha_1_160 20) exMem
    ([.poke 1 (List.replicate 64 8)] ++ [.init ⟨⟨0, 5⟩, ⟨1, 4⟩, 2⟩] ++
      [.derive (.ptr (List.replicate 25 0) 25), .poke 0 (List.replicate 64 9), .derive (.cont ⟨true, [1]⟩ 20)])
    = some (st, outs ++ Spec.live (fun m => Spec.pbkdf2More (Spec.hmac 64 Spec.Sha.sha1) 20 (bytesOf m ⟨0, 5⟩) (bytesOf m ⟨1, 4⟩) 2) [] 1
        [(fun i => if i = 1 then List.replicate 64 8 else exMem i, .ptr (List.replicate 25 0) 25),
          (fun i => if i = 0 then List.replicate 64 9 else if i = 1 then List.replicate 64 8 else exMem i, .cont ⟨true, [1]⟩ 20)]) := by
  obtain ⟨outs, hr⟩ := C50_pbkdf2_live ⟨.little, false, none⟩ rfl (fun _ => 3) .sha_1_160 (fun _ => 64) exMem (fun b => by simp [exMem])
    [.poke 1 (List.replicate 64 8)] (by simp [Kdf.Call.Ok])
  obtain ⟨st, e⟩ := hr ⟨0, 5⟩ ⟨1, 4⟩ 2 (by simp) [.derive (.ptr (List.replicate 25 0) 25), .poke 0 (List.replicate 64 9), .derive (.cont ⟨true, [1]⟩ 20)]
    (by simp [Kdf.Call.Ok]) (by simp)
  exact ⟨outs, st, e⟩

/-- C50 (PBKDF2): wiping or replacing the password or the salt between `initialize` and the first request yields the key of the new content. -/
theorem C50_pbkdf2_current (h : Host) (hrt : h.consteval = false) (junk : Nat → Byte) (a : ShaAlg) (sizes : Nat → Nat) (m : Mem) (hm : Kdf.MemOk sizes m)
    (ikm salt : Span) (it : W32) (hs : ∀ s ∈ [ikm, salt], s.size ≤ sizes s.buf ∧ s.size < 2 ^ 64)
    (ws : List (Nat × List Byte)) (hw : ∀ w ∈ ws, w.2.length = sizes w.1) (m' : Mem) (hm' : m' = Kdf.memAfter m (Kdf.pokes (A := Pbkdf2.Args) ws))
    (rs : List DigestReq) (hrs : ∀ r ∈ rs, Kdf.Call.Ok (pbkdf2Class h junk a a.size) sizes (.derive r)) (ht : Spec.totalAsked rs ≤ (2 ^ 32 - 1) * a.size) :
    ∃ st, Kdf.run (pbkdf2Class h junk a a.size) m (.init ⟨ikm, salt, it⟩ :: (Kdf.pokes ws ++ rs.map .derive))
      = some (st, Spec.streamed (Spec.pbkdf2 (hmacSpec a) (bytesOf m' ikm) (bytesOf m' salt) (max it.toNat 1)) rs) := by
  subst hm'
  obtain ⟨M⟩ := hmacDefault h a
  have hb := size_bounds a
  have hd := macDigestSize h (.hmac a a.size) a.size
  have hlen : ∀ m', (Spec.pbkdf2 (hmacSpec a) (bytesOf m' ikm) (bytesOf m' salt) (max it.toNat 1)).length = _ := fun m' =>
    pbkdf2_length (hmacSpec a) a.size (hmacSpec_length a) _ _ _ (by omega)
  have ev : ∀ (m : Mem) s, View.make h m s = some (.ref s) := fun m s => by simp [View.make, hrt]
  have e := Kdf.run_replaced (pbkdf2Class h junk a a.size) m ⟨ikm, salt, it⟩ ws (rs.map .derive) (by
    simp only [pbkdf2Class, Pbkdf2.impl, Pbkdf2.init, ev])
  obtain ⟨st, e2⟩ := Kdf.run_fresh_derives (Pbkdf2.lawful h junk M (by rw [hd]; omega) (by rw [hd]; omega)) sizes _
    (Kdf.pokes_memOk (A := Pbkdf2.Args) sizes m hm ws hw) ⟨ikm, salt, it⟩ hs rs hrs (Nat.le_trans ht (Nat.le_of_eq (hlen _).symm))
  exact ⟨st, e.trans e2⟩

/-- C50 (HKDF): replacing `info` between `initialize` and the first request yields the key for the new `info` (and the old input key and salt). -/
theorem C50_hkdf_current (h : Host) (hrt : h.consteval = false) (a : ShaAlg) (sizes : Nat → Nat) (m : Mem) (hm : Kdf.MemOk sizes m)
    (ikm salt info : Span) (hs : ∀ s ∈ [ikm, salt, info], s.size ≤ sizes s.buf ∧ s.size < 2 ^ 64)
    (ws : List (Nat × List Byte)) (hw : ∀ w ∈ ws, w.2.length = sizes w.1 ∧ w.1 ≠ ikm.buf ∧ w.1 ≠ salt.buf)
    (m' : Mem) (hm' : m' = Kdf.memAfter m (Kdf.pokes (A := Hkdf.Args) ws))
    (rs : List DigestReq) (hrs : ∀ r ∈ rs, Kdf.Call.Ok (hkdfClass h a a.size) sizes (.derive r)) (ht : Spec.totalAsked rs ≤ 255 * a.size) :
    ∃ st, Kdf.run (hkdfClass h a a.size) m (.init ⟨ikm, salt, info⟩ :: (Kdf.pokes ws ++ rs.map .derive))
      = some (st, Spec.streamed (Spec.hkdf (hmacSpec a) (bytesOf m ikm) (bytesOf m salt) (bytesOf m' info)) rs) := by
  subst hm'
  obtain ⟨M⟩ := hmacDefault h a
  have hb := size_bounds a
  have hd := macDigestSize h (.hmac a a.size) a.size
  have hlen : ∀ x y z, (Spec.hkdf (hmacSpec a) x y z).length = _ := fun x y z => hkdf_length (hmacSpec a) a.size (hmacSpec_length a) x y z
  have ev : ∀ (m : Mem) s, View.make h m s = some (.ref s) := fun m s => by simp [View.make, hrt]
  have k1 := Kdf.pokes_keep (A := Hkdf.Args) m ws ikm.buf fun w hx => (hw w hx).2.1
  have k2 := Kdf.pokes_keep (A := Hkdf.Args) m ws salt.buf fun w hx => (hw w hx).2.2
  have e := Kdf.run_replaced (hkdfClass h a a.size) m ⟨ikm, salt, info⟩ ws (rs.map .derive) (by
    simp only [hkdfClass, Hkdf.impl, Hkdf.init, ev, Span.read, k1, k2])
  obtain ⟨st, e2⟩ := Kdf.run_fresh_derives (Hkdf.lawful h M (by rw [hd]; omega) (by rw [hd]; omega)) sizes _
    (Kdf.pokes_memOk (A := Hkdf.Args) sizes m hm ws fun w hx => (hw w hx).1) ⟨ikm, salt, info⟩ hs rs hrs (Nat.le_trans ht (Nat.le_of_eq (hlen _ _ _).symm))
  refine ⟨st, (e.trans e2).trans ?_⟩
  unfold Hkdf.stream Hkdf.val bytesOf
  simp only [k1, k2]
  rfl

/-- Hypotheses met: the password is overwritten with zeros after `initialize`, the key is that of the zeros. -/
example : ∃ st, Kdf.run (pbkdf2Class ⟨.little, false, none⟩ (fun _ => 3) .sha_2_256 32) exMem
    (.init ⟨⟨0, 8⟩, ⟨1, 4⟩, 1000⟩ :: (Kdf.pokes [(0, List.replicate 64 0)] ++ [DigestReq.ptr (List.replicate 40 7) 32].map .derive))
    = some (st, Spec.streamed (Spec.pbkdf2 (Spec.hmac 64 Spec.Sha.sha256) (List.replicate 8 0) (List.replicate 4 2) 1000) [.ptr (List.replicate 40 7) 32]) :=
  C50_pbkdf2_current ⟨.little, false, none⟩ rfl (fun _ => 3) .sha_2_256 (fun _ => 64) exMem (fun b => by simp [exMem]) ⟨0, 8⟩ ⟨1, 4⟩ 1000 (by simp) [(0, List.replicate 64 0)]
    (by simp) _ rfl [.ptr (List.replicate 40 7) 32] (by simp [Kdf.Call.Ok]) (by decide)

end Milo.Props
