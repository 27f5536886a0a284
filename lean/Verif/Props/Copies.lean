import Verif.Proof.CopiesFork
import Verif.Props.Hash
import Verif.Props.Kdf
import Verif.Props.Mac
import Verif.Proof.AeadApie
import Verif.Proof.ChaChaAsmLawful
/-
Property theorems C65: objects can be copied, moved, assigned and destroyed at any time (doc/reference.md:103 "All algorithm instances are designed to be copy and move both constructible
and assignable").

`Spec.Copies` says what a program with many objects must output: every call answers like an object used alone, with the calls behind the value of the object called. A program is
`Allowed` if it does not use objects outside their lifetime, does not use moved-from objects otherwise than by assigning to them or (re)initialising them, and each single call is one that an
object used alone answers (C19, C23, C25-C28, C33, C40 say which calls these are).
-/
namespace Milo.Props
open Milo Spec.Copies

/-- The rules: an object used alone is a default-constructed object and the calls in its past; the last argument of `rules` says after which past objects are copied. -/
abbrev hashRules (h : Host) (a : ShaAlg) (ds : Nat) : Rules Hash.Call Hash.Out := rules (a.impl h ds).fresh (Hash.exec (a.impl h ds)) fun _ => True
abbrev hashApieRules (h : Host) (a : ShaAlg) (ds : Nat) (u : Bool) : Rules HashApie.Call HashApie.Out :=
  rules (HashApie.construct (a.impl h ds) u) (HashApie.exec (a.impl h ds)) fun _ => True
abbrev macRules (h : Host) (a : MacAlg) (ds : Nat) : Rules Mac.Call Mac.Out := rules (a.impl h ds).fresh (Mac.exec (a.impl h ds)) fun _ => True
abbrev macApieRules (h : Host) (a : MacAlg) (ds : Nat) : Rules MacApie.Call MacApie.Out :=
  rules (MacApie.constructDefault (a.impl h ds)) (MacApie.exec (a.impl h ds)) fun past => ∃ key, .init key ∈ past
abbrev cipherRules (h : Host) (b : CipherBackend) : Rules Cipher.Call Cipher.Out := rules ChaCha.fresh (Cipher.exec h (b.impl h)) fun _ => True
abbrev aeadRules (h : Host) (b : CipherBackend) : Rules Aead.Call Aead.Out :=
  rules (Aead.fresh (Aead.poly h)) (Aead.exec h (b.impl h)) fun past => ∃ key iv, .init key iv ∈ past
abbrev aeadApieRules (h : Host) (b : CipherBackend) : Rules AeadApie.Call AeadApie.Out :=
  rules (AeadApie.constructDefault (Aead.poly h)) (AeadApie.exec h (b.impl h)) fun past => ∃ key iv, .init key iv ∈ past

/-- C65, hash classes. -/
theorem C65_hash (h : Host) (a : ShaAlg) (ds : Nat) (ops : List (Op Hash.Call))
    (ha : Allowed (hashRules h a ds) (Answered (hashRules h a ds)) World.start ops) :
    ∃ st, (Copies.hash (a.impl h ds)).run () ops = some (st, expected (hashRules h a ds) World.start ops) :=
  Copies.value_run _ _ _ _ (fun _ _ _ _ _ => rfl) ops ha

/-- C65, `hash::apie`. -/
theorem C65_hash_apie (h : Host) (a : ShaAlg) (ds : Nat) (u : Bool) (ops : List (Op HashApie.Call))
    (ha : Allowed (hashApieRules h a ds u) (Answered (hashApieRules h a ds u)) World.start ops) :
    ∃ st, (Copies.hashApie (a.impl h ds) u).run () ops
      = some (st, expected (hashApieRules h a ds u) World.start ops) :=
  Copies.value_run _ _ _ _ (fun _ _ _ _ _ => rfl) ops ha

/-- C65, mac classes. -/
theorem C65_mac (h : Host) (a : MacAlg) (ds : Nat) (ops : List (Op Mac.Call))
    (ha : Allowed (macRules h a ds) (Answered (macRules h a ds)) World.start ops) :
    ∃ st, (Copies.mac (a.impl h ds)).run () ops = some (st, expected (macRules h a ds) World.start ops) :=
  Copies.value_run _ _ _ _ (fun _ _ _ _ _ => rfl) ops ha

/-- C65, `mac::apie`, as far as it holds: objects are copied only after `initialize` (the full property would also let default-constructed objects be copied). -/
theorem C65_mac_apie_partial (h : Host) (a : MacAlg) (ds : Nat) (ops : List (Op MacApie.Call))
    (ha : Allowed (macApieRules h a ds) (Answered (macApieRules h a ds)) World.start ops) :
    ∃ st, (Copies.macApie (a.impl h ds)).run () ops
      = some (st, expected (macApieRules h a ds) World.start ops) :=
  Copies.value_run _ _ _ _ Copies.MacInit.readable ops ha

/-- C65, the cipher (class and apie). -/
theorem C65_cipher (h : Host) (b : CipherBackend) (ops : List (Op Cipher.Call))
    (ha : Allowed (cipherRules h b) (Answered (cipherRules h b)) World.start ops) :
    ∃ st, (Copies.cipher h (b.impl h)).run () ops = some (st, expected (cipherRules h b) World.start ops) :=
  Copies.value_run _ _ _ _ (fun _ _ _ _ _ => rfl) ops ha

/-- C65, the aead class, objects being copied only after `initialize`. -/
theorem C65_aead_partial (h : Host) (b : CipherBackend) (ops : List (Op Aead.Call))
    (ha : Allowed (aeadRules h b) (Answered (aeadRules h b)) World.start ops) :
    ∃ st, (Copies.aead h (b.impl h)).run () ops
      = some (st, expected (aeadRules h b) World.start ops) :=
  Copies.value_run _ _ _ _ Copies.AeadInit.readable ops ha

/-- C65, `aead::apie`, objects being copied only after `initialize`. -/
theorem C65_aead_apie_partial (h : Host) (b : CipherBackend) (ops : List (Op AeadApie.Call))
    (ha : Allowed (aeadApieRules h b) (Answered (aeadApieRules h b)) World.start ops) :
    ∃ st, (Copies.aeadApie h (b.impl h)).run () ops
      = some (st, expected (aeadApieRules h b) World.start ops) :=
  Copies.value_run _ _ _ _ Copies.AeadApieInit.readable ops ha

/-- C65 fails for default-constructed objects: copying, moving or assigning one (even an assignment to itself) reads members nobody has set. -/
theorem C65_default_copy_wrong (h : Host) (a : MacAlg) (ds : Nat) (b : CipherBackend) :
    (Copies.macApie (a.impl h ds)).run () [.new 0, .copy 1 0] = none ∧ (Copies.macApie (a.impl h ds)).run () [.new 0, .move 1 0] = none ∧
    (Copies.macApie (a.impl h ds)).run () [.new 0, .assign 0 0] = none ∧
    (Copies.aead h (b.impl h)).run () [.new 0, .copy 1 0] = none ∧ (Copies.aead h (b.impl h)).run () [.new 0, .new 1, .assign 1 0] = none ∧
    (Copies.aeadApie h (b.impl h)).run () [.new 0, .copy 1 0] = none ∧ (Copies.aeadApie h (b.impl h)).run () [.new 0, .move 1 0] = none := by
  refine ⟨rfl, rfl, rfl, rfl, rfl, rfl, rfl⟩

/-! ### kdf -/

theorem kdf_run (K : KdfImpl) (m : Mem) (ops : List (Op (Kdf.Call K.Args))) (ha : Allowed (kdfRules K m) (Answered (kdfRules K m)) World.start ops) :
    ∃ st, (Copies.kdf K).run m ops = some (st, expected (kdfRules K m) World.start ops) := by
  refine Copies.plain_run K.fresh (fun _ => true) (Kdf.exec K) Copies.poke m (kdfRules K m) ?_ ?_ rfl (fun _ _ _ _ _ _ => rfl) ops ha
  · intro s e c hc
    obtain ⟨b, x, rfl⟩ := Copies.isPoke_eq hc
    rfl
  · intro s e c s' e' out hc hx
    cases c with
    | poke b x => simp [kdfRules, isPoke] at hc
    | init a =>
      simp only [Kdf.exec, Option.bind_eq_bind, Option.bind_eq_some_iff, Option.pure_def, Option.some.injEq, Prod.mk.injEq] at hx
      obtain ⟨_, -, ⟨-, rfl⟩, -⟩ := hx
      rfl
    | derive r =>
      simp only [Kdf.exec, Option.bind_eq_bind, Option.bind_eq_some_iff, Option.pure_def, Option.some.injEq, Prod.mk.injEq] at hx
      obtain ⟨_, -, ⟨-, rfl⟩, -⟩ := hx
      rfl

/-- C65, the kdfs, at run time (objects hold pointers to the caller's buffers, whose content may change at any time). -/
theorem C65_hkdf (h : Host) (_hc : h.consteval = false) (a : ShaAlg) (ds : Nat) (m : Mem) (ops : List (Op (Kdf.Call Hkdf.Args))) (ha : Allowed (kdfRules (hkdfClass h a ds) m) (Answered (kdfRules (hkdfClass h a ds) m)) World.start ops) :
    ∃ st, (Copies.kdf (hkdfClass h a ds)).run m ops = some (st, expected (kdfRules (hkdfClass h a ds) m) World.start ops) := kdf_run (hkdfClass h a ds) m ops ha

theorem C65_pbkdf2 (h : Host) (_hc : h.consteval = false) (junk : Nat → Byte) (a : ShaAlg) (ds : Nat) (m : Mem) (ops : List (Op (Kdf.Call Pbkdf2.Args)))
    (ha : Allowed (kdfRules (pbkdf2Class h junk a ds) m) (Answered (kdfRules (pbkdf2Class h junk a ds) m)) World.start ops) :
    ∃ st, (Copies.kdf (pbkdf2Class h junk a ds)).run m ops = some (st, expected (kdfRules (pbkdf2Class h junk a ds) m) World.start ops) := kdf_run (pbkdf2Class h junk a ds) m ops ha

/-- C65, the kdfs in constant evaluation, where objects own heap memory: no memory is read after it was freed or freed twice (the run is defined), calls answer as expected, and when no
object is left, no memory is. -/
theorem C65_hkdf_consteval (h : Host) (hc : h.consteval = true) (a : ShaAlg) (ds : Nat) (m : Mem) (ops : List (Op (Kdf.Call Hkdf.Args)))
    (ha : Allowed (kdfRules (hkdfClass h a ds) m) (Answered (kdfRules (hkdfClass h a ds) m)) World.start ops) :
    ∃ m' hp sl, (Copies.heapKdf (Copies.hkdf h (MacAlg.impl h ds (.hmac a a.size)))).run ((m, Copies.Heap.empty) : Mem × Copies.Heap) ops
        = some (((m', hp), sl), expected (kdfRules (hkdfClass h a ds) m) World.start ops) ∧
      ((∀ i, (worldAfter World.start ops).life i = none) → ∀ p, hp.cells p = none) :=
  Copies.heap_run (Copies.HkdfLaws.laws hc) m ops ha

theorem C65_pbkdf2_consteval (h : Host) (hc : h.consteval = true) (junk : Nat → Byte) (a : ShaAlg) (ds : Nat) (m : Mem) (ops : List (Op (Kdf.Call Pbkdf2.Args)))
    (ha : Allowed (kdfRules (pbkdf2Class h junk a ds) m) (Answered (kdfRules (pbkdf2Class h junk a ds) m)) World.start ops) :
    ∃ m' hp sl, (Copies.heapKdf (Copies.pbkdf2 h (MacAlg.impl h ds (.hmac a a.size)) junk)).run ((m, Copies.Heap.empty) : Mem × Copies.Heap) ops
        = some (((m', hp), sl), expected (kdfRules (pbkdf2Class h junk a ds) m) World.start ops) ∧
      ((∀ i, (worldAfter World.start ops).life i = none) → ∀ p, hp.cells p = none) :=
  Copies.heap_run (Copies.Pbkdf2Laws.laws hc) m ops ha

/-! ### Which programs are allowed

Every call that meets the caller's obligations (room for outputs, ranges inside buffers) is answered, whatever the past: the only further obligation is to respect lifetimes. -/

theorem C65_hash_allowed (h : Host) (a : ShaAlg) (ds : Nat) (hds : ds ≤ a.size) (ops : List (Op Hash.Call))
    (ha : Allowed (hashRules h a ds) (fun _ c => c.Ok ds) World.start ops) : Allowed (hashRules h a ds) (Answered (hashRules h a ds)) World.start ops :=
  Copies.allowed_of_safe rfl (C19_hash_memory_safe h a ds hds) ops ha

theorem C65_hash_apie_allowed (h : Host) (a : ShaAlg) (ds : Nat) (hds : ds ≤ a.size) (u : Bool) (ops : List (Op HashApie.Call))
    (ha : Allowed (hashApieRules h a ds u) (fun _ c => c.Ok ds) World.start ops) : Allowed (hashApieRules h a ds u) (Answered (hashApieRules h a ds u)) World.start ops :=
  Copies.allowed_of_safe rfl (C19_apie_memory_safe h a ds hds u) ops ha

theorem C65_mac_allowed (h : Host) (a : MacAlg) (hok : a.Ok) (ds : Nat) (hds : ds ≤ a.size) (ops : List (Op Mac.Call))
    (ha : Allowed (macRules h a ds) (fun _ c => c.Ok ds) World.start ops) : Allowed (macRules h a ds) (Answered (macRules h a ds)) World.start ops :=
  Copies.allowed_of_safe rfl (C23_memory_safe h a hok ds hds).1 ops ha

theorem C65_cipher_allowed (h : Host) (b : CipherBackend) (ops : List (Op Cipher.Call))
    (ha : Allowed (cipherRules h b) (fun _ c => c.Ok) World.start ops) : Allowed (cipherRules h b) (Answered (cipherRules h b)) World.start ops :=
  Copies.allowed_of_safe rfl (fun cs hc => by
    obtain ⟨o, outs, e, -⟩ := Cipher.run_wf h (backendLawful h b) cs hc
    unfold Cipher.run at e
    rw [e]; rfl) ops ha

theorem C65_hkdf_allowed (h : Host) (a : ShaAlg) (sizes : Nat → Nat) (m : Mem) (hm : Kdf.MemOk sizes m) (ops : List (Op (Kdf.Call Hkdf.Args)))
    (ha : Allowed (kdfRules (hkdfClass h a a.size) m) (fun _ c => Kdf.Call.Ok (hkdfClass h a a.size) sizes c) World.start ops) :
    Allowed (kdfRules (hkdfClass h a a.size) m) (Answered (kdfRules (hkdfClass h a a.size) m)) World.start ops :=
  Copies.allowed_of_safe (f := Kdf.exec (hkdfClass h a a.size)) (s := ((hkdfClass h a a.size).fresh, m)) rfl (fun cs hc => by
    obtain ⟨r, e⟩ := C25_hkdf_safe h a sizes m hm cs hc
    unfold Kdf.run at e
    rw [e]; rfl) ops ha

theorem C65_pbkdf2_allowed (h : Host) (junk : Nat → Byte) (a : ShaAlg) (sizes : Nat → Nat) (m : Mem) (hm : Kdf.MemOk sizes m) (ops : List (Op (Kdf.Call Pbkdf2.Args)))
    (ha : Allowed (kdfRules (pbkdf2Class h junk a a.size) m) (fun _ c => Kdf.Call.Ok (pbkdf2Class h junk a a.size) sizes c) World.start ops) :
    Allowed (kdfRules (pbkdf2Class h junk a a.size) m) (Answered (kdfRules (pbkdf2Class h junk a a.size) m)) World.start ops :=
  Copies.allowed_of_safe (f := Kdf.exec (pbkdf2Class h junk a a.size)) (s := ((pbkdf2Class h junk a a.size).fresh, m)) rfl (fun cs hc => by
    obtain ⟨r, e⟩ := C28_pbkdf2_safe h junk a sizes m hm cs hc
    unfold Kdf.run at e
    rw [e]; rfl) ops ha

/-- Hypotheses of the constant-evaluation theorem met: two objects made from one, the source moved from, assigned to again, all destroyed; a buffer changed in between. -/
example : ∃ m' hp sl, (Copies.heapKdf (Copies.hkdf ⟨.little, true, none⟩ (MacAlg.impl ⟨.little, true, none⟩ 32 (.hmac .sha_2_256 32)))).run ((exMem, Copies.Heap.empty) : Mem × Copies.Heap)
      [.new 0, .call 0 (.init ⟨⟨0, 2⟩, ⟨1, 1⟩, ⟨2, 1⟩⟩), .copy 1 0, .call 1 (.derive (.ptr [1, 2] 2)), .move 2 0, .assign 0 1, .assign 1 1, .call 0 (.derive (.ptr [3, 4] 2)),
        .call 2 (.derive (.ptr [] 0)), .drop 0, .drop 1, .drop 2]
    = some (((m', hp), sl), expected (kdfRules (hkdfClass ⟨.little, true, none⟩ .sha_2_256 32) exMem) World.start
      [.new 0, .call 0 (.init ⟨⟨0, 2⟩, ⟨1, 1⟩, ⟨2, 1⟩⟩), .copy 1 0, .call 1 (.derive (.ptr [1, 2] 2)), .move 2 0, .assign 0 1, .assign 1 1, .call 0 (.derive (.ptr [3, 4] 2)),
        .call 2 (.derive (.ptr [] 0)), .drop 0, .drop 1, .drop 2]) ∧ ∀ p, hp.cells p = none := by
  obtain ⟨m', hp, sl, e, hleak⟩ := C65_hkdf_consteval ⟨.little, true, none⟩ rfl .sha_2_256 32 exMem
    [.new 0, .call 0 (.init ⟨⟨0, 2⟩, ⟨1, 1⟩, ⟨2, 1⟩⟩), .copy 1 0, .call 1 (.derive (.ptr [1, 2] 2)), .move 2 0, .assign 0 1, .assign 1 1, .call 0 (.derive (.ptr [3, 4] 2)),
        .call 2 (.derive (.ptr [] 0)), .drop 0, .drop 1, .drop 2]
    (C65_hkdf_allowed ⟨.little, true, none⟩ .sha_2_256 (fun b => (exMem b).length) exMem (fun _ => rfl) _ (by
      refine ⟨rfl, ⟨rfl, _, rfl, fun h => absurd h (by decide), ?_⟩, ⟨rfl, _, rfl, rfl, trivial⟩, ⟨rfl, _, rfl, fun h => absurd h (by decide), ?_⟩, ⟨rfl, _, rfl, rfl, trivial⟩,
        ⟨?_, _, rfl, rfl, trivial⟩, ⟨?_, _, rfl, rfl, trivial⟩, ⟨rfl, _, rfl, fun h => absurd h (by decide), ?_⟩, ⟨rfl, _, rfl, fun h => absurd h (by decide), ?_⟩, ?_, ?_, ?_, trivial⟩
      · simp [Kdf.Call.Ok, hkdfClass, Hkdf.impl, exMem]
      · simp [Kdf.Call.Ok, hkdfClass, Hkdf.impl, exMem]
      · simp [Legal, after, put, World.start]
      · simp [Legal, after, put, World.start]
      · simp [Kdf.Call.Ok, hkdfClass, Hkdf.impl, exMem]
      · simp [Kdf.Call.Ok, hkdfClass, Hkdf.impl, exMem]
      · simp [Legal, after, put, World.start]
      · simp [Legal, after, put, World.start]
      · simp [Legal, after, put, World.start]))
  refine ⟨m', hp, sl, e, hleak fun i => ?_⟩
  simp only [worldAfter, List.foldl, after, World.start, put]
  by_cases h0 : i = 0
  · subst h0; rfl
  · by_cases h1 : i = 1
    · subst h1; rfl
    · by_cases h2 : i = 2
      · subst h2; rfl
      · simp [h0, h1, h2]

/-! ### Forking a computation -/

theorem hash_outs (H : HashImpl) : ∀ (cs : List Hash.Call) (s s' : H.σ) (o : List Hash.Out), runCalls (Hash.exec H) s cs = some (s', o) →
    o.length = (cs.filter fun c => match c with | .digest _ _ => true | _ => false).length := by
  intro cs
  induction cs with
  | nil => intro s s' o e; simp only [runCalls, Option.some.injEq, Prod.mk.injEq] at e; rw [← e.2]; rfl
  | cons c cs ih =>
    intro s s' o e
    simp only [runCalls, Option.bind_eq_bind, Option.bind_eq_some_iff, Option.pure_def, Option.some.injEq, Prod.mk.injEq] at e
    obtain ⟨⟨s1, o1⟩, e1, ⟨s2, o2⟩, e2, rfl, rfl⟩ := e
    have h2 := ih _ _ _ e2
    cases c with
    | init => simp only [Hash.exec, Option.some.injEq, Prod.mk.injEq] at e1; simp [← e1.2, h2]
    | update x =>
      simp only [Hash.exec, Option.bind_eq_bind, Option.bind_eq_some_iff, Option.pure_def, Option.some.injEq, Prod.mk.injEq] at e1
      obtain ⟨_, -, -, rfl⟩ := e1
      simp [h2]
    | finalize =>
      simp only [Hash.exec, Option.bind_eq_bind, Option.bind_eq_some_iff, Option.pure_def, Option.some.injEq, Prod.mk.injEq] at e1
      obtain ⟨_, -, -, rfl⟩ := e1
      simp [h2]
    | digest dst n =>
      simp only [Hash.exec, Option.bind_eq_bind, Option.bind_eq_some_iff, Option.pure_def, Option.some.injEq, Prod.mk.injEq] at e1
      obtain ⟨_, -, -, rfl⟩ := e1
      simp [h2]

/-- C65: a hash object that has seen `xs` is copied; the original goes on with `ys`, the copy with `zs`. The digests are those of `xs ys` and `xs zs`. -/
theorem C65_hash_fork (h : Host) (a : ShaAlg) (ds : Nat) (hds : ds ≤ a.size) (pre : List Hash.Call) (hpre : ∀ c ∈ pre, c.Ok ds)
    (xs ys zs : List (List Byte)) (hx : ∀ x ∈ xs ++ ys ++ zs, x.length < 2 ^ 64) (d0 d1 : List Byte) (n0 n1 : Nat) (h0 : min n0 ds ≤ d0.length) (h1 : min n1 ds ≤ d1.length) :
    ∃ st outs, (Copies.hash (a.impl h ds)).run () (fork (pre ++ [.init] ++ xs.map .update) (ys.map .update ++ [.finalize, .digest d0 n0])
        (zs.map .update ++ [.finalize, .digest d1 n1]))
      = some (st, outs ++ [Spec.written ((shaSpec a (xs.flatten ++ ys.flatten)).take ds) d0 n0, Spec.written ((shaSpec a (xs.flatten ++ zs.flatten)).take ds) d1 n1]) := by
  -- what an object used alone does
  have alone : ∀ (ws : List (List Byte)) (d : List Byte) (n : Nat), (∀ w ∈ ws, w.length < 2 ^ 64) → min n ds ≤ d.length →
      ∃ s o s', runCalls (Hash.exec (a.impl h ds)) (a.impl h ds).fresh (pre ++ [.init] ++ xs.map .update) = some (s, o) ∧
        runCalls (Hash.exec (a.impl h ds)) s (ws.map .update ++ [.finalize, .digest d n])
          = some (s', [Spec.written ((shaSpec a (xs.flatten ++ ws.flatten)).take ds) d n]) := by
    intro ws d n hw hd
    obtain ⟨o, outs, e⟩ := computes a h ds hds pre hpre (xs ++ ws) (fun x hm => by
      rcases List.mem_append.mp hm with hm | hm
      · exact hx x (by simp [hm])
      · exact hw x hm) [(d, n)] (by simpa using hd)
    have e2 : hashing pre (xs ++ ws) [(d, n)] = (pre ++ [.init] ++ xs.map .update) ++ (ws.map .update ++ [.finalize, .digest d n]) := by simp [hashing]
    rw [Hash.run, e2, runCalls_append, Option.bind_eq_some_iff] at e
    obtain ⟨⟨s, o1⟩, e3, e4⟩ := e
    rw [Option.map_eq_some_iff] at e4
    obtain ⟨⟨s', o2⟩, e5, e6⟩ := e4
    simp only [Prod.mk.injEq, List.map_cons, List.map_nil, List.flatten_append] at e6
    have hl := hash_outs _ _ _ _ _ e5
    have hl2 : o2.length = 1 := by
      rw [hl, List.filter_append, List.filter_map]
      have : (List.filter ((fun c : Hash.Call => match c with | .digest _ _ => true | _ => false) ∘ Hash.Call.update) ws) = [] := by
        rw [List.filter_eq_nil_iff]; intro w _; simp
      rw [this]
      simp
    obtain ⟨w, rfl⟩ := List.length_eq_one_iff.mp hl2
    have := (List.append_inj' e6.2 (by simp)).2
    refine ⟨s, o1, s', e3, ?_⟩
    rw [← this]
    exact e5
  obtain ⟨s, o, sy, e1, e2⟩ := alone ys d0 n0 (fun w hw => hx w (by simp [hw])) h0
  obtain ⟨s', o', sz, e1', e2'⟩ := alone zs d1 n1 (fun w hw => hx w (by simp [hw])) h1
  rw [e1] at e1'
  cases e1'
  obtain ⟨ha, he⟩ := Copies.fork_ok (complete := fun _ => True) _ _ _ trivial e1 e2 e2'
  obtain ⟨st, e⟩ := C65_hash h a ds _ ha
  exact ⟨st, o, by rw [e, he]; rfl⟩

/-- Hypotheses met. -/
example : ∃ st outs, (Copies.hash (ShaAlg.impl ⟨.little, false, none⟩ 32 .sha_2_256)).run ()
      (fork ([.update [9]] ++ [.init] ++ [[0x61]].map .update) ([[0x62], [0x63]].map .update ++ [.finalize, .digest [1, 2, 3, 4] 4]) ([[0x64]].map .update ++ [.finalize, .digest [] 0]))
    = some (st, outs ++ [Spec.written ((shaSpec .sha_2_256 [0x61, 0x62, 0x63]).take 32) [1, 2, 3, 4] 4, Spec.written ((shaSpec .sha_2_256 [0x61, 0x64]).take 32) [] 0]) :=
  C65_hash_fork ⟨.little, false, none⟩ .sha_2_256 32 (by decide) [.update [9]] (by simp [Hash.Call.Ok]) [[0x61]] [[0x62], [0x63]] [[0x64]] (by simp) [1, 2, 3, 4] [] 4 0 (by decide) (by decide)

end Milo.Props
