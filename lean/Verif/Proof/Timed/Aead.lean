import Verif.Model.Timed.Aead
import Verif.Proof.Timed.Mac
import Verif.Proof.Timed.ChaCha
/- The aead class and its wrapper: results and shapes. -/
namespace Milo.Timed

/-- What is public of a container. -/
instance : Shape Container := ⟨fun a b => a.dynamic = b.dynamic ∧ a.data.length = b.data.length⟩

theorem resize_same {c c' : Container} {n : Nat} (e : Shape.same c c') : Shape.same (c.resize n).1 (c'.resize n).1 ∧ (c.resize n).2 = (c'.resize n).2 := by
  obtain ⟨e1, e2⟩ := e
  unfold Container.resize
  rw [e1]
  split
  · exact ⟨⟨rfl, by rw [List.length_append, List.length_append, List.length_take, List.length_take, List.length_replicate, List.length_replicate, e2]⟩, rfl⟩
  · exact ⟨⟨e1, e2⟩, by rw [e2]⟩

theorem withData_same {c c' : Container} {d d' : List Byte} (e : Shape.same c c') (ed : d.length = d'.length) : Shape.same (c.withData d) (c'.withData d') := ⟨e.1, ed⟩

theorem trace_bind' {α β : Type} (x : T α) (f : α → T β) (a : α) (e : x.val = some a) : (x >>= f).trace = x.trace ++ (f a).trace := by
  show (match x.val with | none => (⟨x.trace, none⟩ : T β) | some a => ⟨x.trace ++ (f a).trace, (f a).val⟩).trace = _
  rw [e]

/-- A value the onlooker knows. -/
theorem Same.known {α : Type} [Shape α] {β : Type} {x : Option β} {f g : β → T α} (h : ∀ a, Same (f a) (g a)) : Same (quiet x >>= f) (quiet x >>= g) := by
  cases x with
  | none => intro a b ha; cases ha
  | some v =>
    intro a b ha hb
    rw [val_bind] at ha hb
    obtain ⟨e1, e2⟩ := h v a b ha hb
    refine ⟨?_, e2⟩
    rw [trace_bind' _ _ v rfl, trace_bind' _ _ v rfl, e1]

namespace Aead
open Milo.Aead (Obj)

variable (h : Host) {t : ChaCha.Backend} {B : Milo.ChaCha.Backend} (LB : ChaCha.Law t B) {M : MacImpl} {u : MacT M} (L : u.Law)

include LB L in
theorem val_init (o : Obj M) (key iv : List Byte) : (init h t u o key iv).val = Milo.Aead.init h B o key iv := by
  unfold init Milo.Aead.init
  simp only [val_bind, val_pure, ChaCha.val_init, ChaCha.val_encrypt LB, L.initVal]
  exact obind (val_at _ _ _ _ fun x => Timed.val_init h (p := 1) (q := 1) x _) fun _ => rfl
include L in
theorem val_aad (o : Obj M) (x : List Byte) : (aad u o x).val = Milo.Aead.aad o x := by
  unfold aad Milo.Aead.aad
  simp only [val_bind, val_pure, val_quiet, L.updateVal]
  rfl
include L in
theorem val_updatePad (o : Obj M) (n : W64) : (updatePad u o n).val = Milo.Aead.updatePad o n := by
  unfold updatePad Milo.Aead.updatePad
  simp only [val_bind, val_pure, val_rdN, L.updateVal]
  rfl
include L in
theorem val_aadover (o : Obj M) : (aadover u o).val = Milo.Aead.aadover o := by
  unfold aadover Milo.Aead.aadover
  simp only [val_bind, val_quiet, val_updatePad L]
  rfl
include LB L in
theorem val_encrypt (o : Obj M) (mem : List Byte) (src n dst : Nat) : (encrypt h t u o mem src n dst).val = Milo.Aead.encrypt h B o mem src n dst := by
  unfold encrypt Milo.Aead.encrypt
  simp only [val_bind, val_pure, val_quiet, ChaCha.val_encrypt LB, L.updateVal, val_rdN]
  rfl
include LB L in
theorem val_decrypt (o : Obj M) (mem : List Byte) (src n dst : Nat) : (decrypt h t u o mem src n dst).val = Milo.Aead.decrypt h B o mem src n dst := by
  unfold decrypt Milo.Aead.decrypt
  simp only [val_bind, val_pure, val_quiet, ChaCha.val_decrypt LB, L.updateVal, val_rdN]
  rfl
theorem val_lengths (a e : W64) : (lengths h a e).val = Milo.Aead.lengths h a e := by
  unfold lengths Milo.Aead.lengths
  simp only [val_bind, val_storLe]
  rfl
include L in
theorem val_finalize (o : Obj M) : (finalize h u o).val = Milo.Aead.finalize h o := by
  unfold finalize Milo.Aead.finalize
  simp only [val_bind, val_pure, val_quiet, val_updatePad L, val_lengths, L.updateVal, L.finalizeVal]
  rfl

/-- The shape of the object: the two sizes are public. -/
def shape : Shape (Obj M) := ⟨fun a b => Shape.same a.cipher b.cipher ∧ L.shape.same a.mac b.mac ∧ a.aadSize = b.aadSize ∧ a.eddSize = b.eddSize⟩

include LB in
theorem same_init (o o' : Obj M) (key key' iv iv' : List Byte) (e : (shape L).same o o') (ek : key.length = key'.length) (ei : iv.length = iv'.length) :
    letI := shape L; Same (init h t u o key iv) (init h t u o' key' iv') := by
  letI := shape L
  letI := L.shape
  unfold init
  refine Same.bind (Same.at_ rfl rfl fun _ _ e => Same.init e ei) fun _ _ e1 => Same.bind (ChaCha.same_init _ _ _ _ _ _ _ e.1 ek e1) fun _ _ e2 => ?_
  refine Same.bind (ChaCha.same_encrypt LB h _ _ _ _ _ _ _ e2 rfl) ?_
  rintro ⟨a, b, c⟩ ⟨a', b', c'⟩ e3
  exact Same.bind (L.init _ _ _ _ e.2.1 e3.2.1) fun _ _ e4 => Same.pure ⟨e3.1, e4, rfl, rfl⟩
theorem same_aad (o o' : Obj M) (x x' : List Byte) (e : (shape L).same o o') (ex : x.length = x'.length) : letI := shape L; Same (aad u o x) (aad u o' x') := by
  letI := shape L
  letI := L.shape
  unfold aad
  rw [ex, show o'.aadSize = o.aadSize from e.2.2.1.symm]
  exact Same.bind (L.update _ _ _ _ e.2.1 ex) fun _ _ e1 => Same.known fun a => Same.pure ⟨e.1, e1, rfl, e.2.2.2⟩
theorem same_updatePad {o o' : Obj M} {n : W64} (e : (shape L).same o o') : letI := shape L; Same (updatePad u o n) (updatePad u o' n) := by
  letI := shape L
  letI := L.shape
  unfold updatePad
  exact Same.bind (Same.rdN rfl rfl) fun _ _ e0 => Same.bind (L.update _ _ _ _ e.2.1 e0) fun _ _ e1 => Same.pure ⟨e.1, e1, e.2.2⟩
theorem same_aadover (o o' : Obj M) (e : (shape L).same o o') : letI := shape L; Same (aadover u o) (aadover u o') := by
  letI := shape L
  unfold aadover
  rw [show o'.aadSize = o.aadSize from e.2.2.1.symm]
  exact Same.known fun a => same_updatePad L e
include LB in
theorem same_encrypt (o o' : Obj M) (m m' : List Byte) (src n dst : Nat) (e : (shape L).same o o') (em : m.length = m'.length) :
    letI := shape L; Same (encrypt h t u o m src n dst) (encrypt h t u o' m' src n dst) := by
  letI := shape L
  letI := L.shape
  unfold encrypt
  rw [show o'.eddSize = o.eddSize from e.2.2.2.symm]
  refine Same.bind (ChaCha.same_encrypt LB h _ _ _ _ _ _ _ e.1 em) ?_
  rintro ⟨a, b, c⟩ ⟨a', b', c'⟩ ⟨e1, e2, e3⟩
  cases e3
  exact Same.bind (Same.rdN rfl rfl) fun _ _ e4 => Same.bind (L.update _ _ _ _ e.2.1 e4) fun _ _ e5 => Same.known fun s => Same.pure ⟨⟨e1, e5, e.2.2.1, rfl⟩, e2, rfl⟩
include LB in
theorem same_decrypt (o o' : Obj M) (m m' : List Byte) (src n dst : Nat) (e : (shape L).same o o') (em : m.length = m'.length) :
    letI := shape L; Same (decrypt h t u o m src n dst) (decrypt h t u o' m' src n dst) := by
  letI := shape L
  letI := L.shape
  unfold decrypt
  rw [show o'.eddSize = o.eddSize from e.2.2.2.symm]
  refine Same.bind (Same.rdN rfl rfl) fun _ _ e4 => Same.bind (L.update _ _ _ _ e.2.1 e4) fun _ _ e5 => Same.bind (ChaCha.same_decrypt LB h _ _ _ _ _ _ _ e.1 em) ?_
  rintro ⟨a, b, c⟩ ⟨a', b', c'⟩ ⟨e1, e2, e3⟩
  cases e3
  exact Same.known fun s => Same.pure ⟨⟨e1, e5, e.2.2.1, rfl⟩, e2, rfl⟩
theorem same_finalize (o o' : Obj M) (e : (shape L).same o o') : letI := shape L; Same (finalize h u o) (finalize h u o') := by
  letI := shape L
  letI := L.shape
  unfold finalize
  rw [show o'.aadSize = o.aadSize from e.2.2.1.symm, show o'.eddSize = o.eddSize from e.2.2.2.symm]
  refine Same.known fun a => Same.known fun b => Same.bind (same_updatePad L e) fun _ _ e1 => ?_
  refine Same.bind (Same.bind (Same.storLe rfl rfl) fun _ _ e2 => Same.storLe rfl e2) fun _ _ e2 => ?_
  exact Same.bind (L.update _ _ _ _ e1.2.1 e2) fun _ _ e3 => Same.bind (L.finalize _ _ e3) fun _ _ e4 => Same.pure ⟨e1.1, e4, e1.2.2⟩

end Aead

namespace AeadApie
open Milo.AeadApie (Obj)

variable (h : Host) {t : ChaCha.Backend} {B : Milo.ChaCha.Backend} (LB : ChaCha.Law t B) {M : MacImpl} {u : MacT M} (L : u.Law)

include LB L in
theorem val_initialise (o : Obj M) (key iv : List Byte) : (initialise h t u o key iv).val = Milo.AeadApie.initialise h B o key iv := by
  unfold initialise Milo.AeadApie.initialise
  simp only [val_bind, val_pure, Aead.val_init h LB L]
  rfl
include L in
theorem val_doFinalizeAad (o : Obj M) : (doFinalizeAad u o).val = Milo.AeadApie.doFinalizeAad o := by
  unfold doFinalizeAad Milo.AeadApie.doFinalizeAad
  simp only [val_bind, val_quiet, val_branch, val_pure, Aead.val_aadover L]
  rcases o.finalizedAad with _ | _ | _ <;> rfl
include L in
theorem val_doFinalize (o : Obj M) : (doFinalize h u o).val = Milo.AeadApie.doFinalize h o := by
  unfold doFinalize Milo.AeadApie.doFinalize
  simp only [val_bind, val_quiet, val_branch, val_pure, Aead.val_finalize h L]
  rcases o.finalized with _ | _ | _ <;> rfl
include L in
theorem val_aad (o : Obj M) (x : List Byte) : (aad u o x).val = Milo.AeadApie.aad o x := by
  unfold aad Milo.AeadApie.aad
  simp only [val_bind, val_pure, Aead.val_aad L]
  rfl
include LB L in
theorem val_encrypt (o : Obj M) (mem : List Byte) (src n dst : Nat) : (encrypt h t u o mem src n dst).val = Milo.AeadApie.encrypt h B o mem src n dst := by
  unfold encrypt Milo.AeadApie.encrypt
  simp only [val_bind, val_pure, val_doFinalizeAad L, Aead.val_encrypt h LB L]
  rfl
include LB L in
theorem val_decrypt (o : Obj M) (mem : List Byte) (src n dst : Nat) : (decrypt h t u o mem src n dst).val = Milo.AeadApie.decrypt h B o mem src n dst := by
  unfold decrypt Milo.AeadApie.decrypt
  simp only [val_bind, val_pure, val_doFinalizeAad L, Aead.val_decrypt h LB L]
  rfl
include LB L in
theorem val_encryptC (o : Obj M) (x : List Byte) (c : Container) : (encryptC h t u o x c).val = Milo.AeadApie.encryptC h B o x c := by
  unfold encryptC Milo.AeadApie.encryptC
  simp only [val_bind, val_pure, val_encrypt h LB L]
  rfl
include LB L in
theorem val_encryptSelf (o : Obj M) (c : Container) : (encryptSelf h t u o c).val = Milo.AeadApie.encryptSelf h B o c := by
  unfold encryptSelf Milo.AeadApie.encryptSelf
  simp only [val_bind, val_pure, val_encrypt h LB L]
  rfl
include LB L in
theorem val_decryptC (o : Obj M) (x : List Byte) (c : Container) : (decryptC h t u o x c).val = Milo.AeadApie.decryptC h B o x c := by
  unfold decryptC Milo.AeadApie.decryptC
  simp only [val_bind, val_pure, val_decrypt h LB L]
  rfl
include LB L in
theorem val_decryptSelf (o : Obj M) (c : Container) : (decryptSelf h t u o c).val = Milo.AeadApie.decryptSelf h B o c := by
  unfold decryptSelf Milo.AeadApie.decryptSelf
  simp only [val_bind, val_pure, val_decrypt h LB L]
  rfl
include L in
theorem val_digest (o : Obj M) (dst : List Byte) (n : Nat) : (digest h u o dst n).val = Milo.AeadApie.digest h o dst n := by
  unfold digest Milo.AeadApie.digest Aead.digest Milo.Aead.digest
  simp only [val_bind, val_pure, val_doFinalize h L, L.digestVal]
  rfl
include L in
theorem val_digestC (o : Obj M) (c : Container) (n : Nat) : (digestC h u o c n).val = Milo.AeadApie.digestC h o c n := by
  unfold digestC Milo.AeadApie.digestC
  simp only [val_bind, val_pure, val_doFinalize h L, val_digest h L]
  rfl
include L in
theorem val_digestStatic (o : Obj M) (x : List Byte) : (digestStatic h u o x).val = Milo.AeadApie.digestStatic h o x := by
  unfold digestStatic Milo.AeadApie.digestStatic
  simp only [val_bind, val_pure, val_digestC h L]
  rfl
include L in
theorem val_verify (o : Obj M) (tag : List Byte) : (verify h u o tag).val = Milo.AeadApie.verify h o tag := by
  unfold verify Milo.AeadApie.verify
  simp only [val_bind, val_branch, val_pure, val_digestStatic h L, val_matchC]
  refine obind rfl fun a => obind rfl fun b => ?_
  rcases b with ⟨_ | _, n⟩ <;> rfl
include L in
theorem val_verifyThrow (o : Obj M) (tag : List Byte) : (verifyThrow h u o tag).val = Milo.AeadApie.verifyThrow h o tag := by
  unfold verifyThrow Milo.AeadApie.verifyThrow
  simp only [val_bind, val_branch, val_pure, val_verify h L]
  rfl

/-- The shape of the wrapper: the flags are public. -/
def shape : Shape (Obj M) := ⟨fun a b => (Aead.shape L).same a.impl b.impl ∧ a.finalizedAad = b.finalizedAad ∧ a.finalized = b.finalized⟩

include LB in
theorem same_initialise (o o' : Obj M) (key key' iv iv' : List Byte) (e : (shape L).same o o') (ek : key.length = key'.length) (ei : iv.length = iv'.length) :
    letI := shape L; Same (initialise h t u o key iv) (initialise h t u o' key' iv') := by
  letI := shape L
  letI := Aead.shape L
  exact Same.bind (Aead.same_init h LB L _ _ _ _ _ _ e.1 ek ei) fun _ _ e1 => Same.pure ⟨e1, rfl, rfl⟩
theorem same_doFinalizeAad {o o' : Obj M} (e : (shape L).same o o') : letI := shape L; Same (doFinalizeAad u o) (doFinalizeAad u o') := by
  letI := shape L
  letI := Aead.shape L
  unfold doFinalizeAad
  rw [show o'.finalizedAad = o.finalizedAad from e.2.1.symm]
  exact Same.known fun f => Same.branch Iff.rfl (fun _ _ => Same.pure e) fun _ _ => Same.bind (Aead.same_aadover L _ _ e.1) fun _ _ e1 => Same.pure ⟨e1, rfl, e.2.2⟩
theorem same_doFinalize {o o' : Obj M} (e : (shape L).same o o') : letI := shape L; Same (doFinalize h u o) (doFinalize h u o') := by
  letI := shape L
  letI := Aead.shape L
  unfold doFinalize
  rw [show o'.finalized = o.finalized from e.2.2.symm]
  exact Same.known fun f => Same.branch Iff.rfl (fun _ _ => Same.pure e) fun _ _ => Same.bind (Aead.same_finalize h L _ _ e.1) fun _ _ e1 => Same.pure ⟨e1, e.2.1, rfl⟩
theorem same_aad (o o' : Obj M) (x x' : List Byte) (e : (shape L).same o o') (ex : x.length = x'.length) : letI := shape L; Same (aad u o x) (aad u o' x') := by
  letI := shape L
  letI := Aead.shape L
  exact Same.bind (Aead.same_aad L _ _ _ _ e.1 ex) fun _ _ e1 => Same.pure ⟨e1, e.2⟩
include LB in
theorem same_encrypt (o o' : Obj M) (m m' : List Byte) (src n dst : Nat) (e : (shape L).same o o') (em : m.length = m'.length) :
    letI := shape L; Same (encrypt h t u o m src n dst) (encrypt h t u o' m' src n dst) := by
  letI := shape L
  letI := Aead.shape L
  unfold encrypt
  refine Same.bind (same_doFinalizeAad L e) fun _ _ e0 => Same.bind (Aead.same_encrypt h LB L _ _ _ _ _ _ _ e0.1 em) ?_
  rintro ⟨a, b, c⟩ ⟨a', b', c'⟩ ⟨e1, e2, e3⟩
  exact Same.pure ⟨⟨e1, e0.2⟩, e2, e3⟩
include LB in
theorem same_decrypt (o o' : Obj M) (m m' : List Byte) (src n dst : Nat) (e : (shape L).same o o') (em : m.length = m'.length) :
    letI := shape L; Same (decrypt h t u o m src n dst) (decrypt h t u o' m' src n dst) := by
  letI := shape L
  letI := Aead.shape L
  unfold decrypt
  refine Same.bind (same_doFinalizeAad L e) fun _ _ e0 => Same.bind (Aead.same_decrypt h LB L _ _ _ _ _ _ _ e0.1 em) ?_
  rintro ⟨a, b, c⟩ ⟨a', b', c'⟩ ⟨e1, e2, e3⟩
  exact Same.pure ⟨⟨e1, e0.2⟩, e2, e3⟩
include LB in
theorem same_encryptC (o o' : Obj M) (x x' : List Byte) (c c' : Container) (e : (shape L).same o o') (ex : x.length = x'.length) (ec : Shape.same c c') :
    letI := shape L; Same (encryptC h t u o x c) (encryptC h t u o' x' c') := by
  letI := shape L
  unfold encryptC
  rw [ex]
  have er := (resize_same (n := x'.length) ec).1
  refine Same.bind (same_encrypt h LB L _ _ _ _ _ _ _ e (by rw [List.length_append, List.length_append, ex, er.2])) ?_
  rintro ⟨a, b, s⟩ ⟨a', b', s'⟩ ⟨e1, e2, e3⟩
  cases e3
  exact Same.pure ⟨e1, (resize_same (withData_same er (by rw [List.length_drop, List.length_drop, show b.length = b'.length from e2]))).1, rfl⟩
include LB in
theorem same_encryptSelf (o o' : Obj M) (c c' : Container) (e : (shape L).same o o') (ec : Shape.same c c') :
    letI := shape L; Same (encryptSelf h t u o c) (encryptSelf h t u o' c') := by
  letI := shape L
  unfold encryptSelf
  rw [ec.2]
  have er := (resize_same (n := c'.data.length) ec).1
  dsimp only
  rw [er.2]
  refine Same.bind (same_encrypt h LB L _ _ _ _ _ _ _ e er.2) ?_
  rintro ⟨a, b, s⟩ ⟨a', b', s'⟩ ⟨e1, e2, e3⟩
  cases e3
  exact Same.pure ⟨e1, (resize_same (withData_same er e2)).1, rfl⟩
include LB in
theorem same_decryptC (o o' : Obj M) (x x' : List Byte) (c c' : Container) (e : (shape L).same o o') (ex : x.length = x'.length) (ec : Shape.same c c') :
    letI := shape L; Same (decryptC h t u o x c) (decryptC h t u o' x' c') := by
  letI := shape L
  unfold decryptC
  rw [ex]
  have er := (resize_same (n := x'.length) ec).1
  refine Same.bind (same_decrypt h LB L _ _ _ _ _ _ _ e (by rw [List.length_append, List.length_append, ex, er.2])) ?_
  rintro ⟨a, b, s⟩ ⟨a', b', s'⟩ ⟨e1, e2, e3⟩
  cases e3
  exact Same.pure ⟨e1, (resize_same (withData_same er (by rw [List.length_drop, List.length_drop, show b.length = b'.length from e2]))).1, rfl⟩
include LB in
theorem same_decryptSelf (o o' : Obj M) (c c' : Container) (e : (shape L).same o o') (ec : Shape.same c c') :
    letI := shape L; Same (decryptSelf h t u o c) (decryptSelf h t u o' c') := by
  letI := shape L
  unfold decryptSelf
  rw [ec.2]
  have er := (resize_same (n := c'.data.length) ec).1
  dsimp only
  rw [er.2]
  refine Same.bind (same_decrypt h LB L _ _ _ _ _ _ _ e er.2) ?_
  rintro ⟨a, b, s⟩ ⟨a', b', s'⟩ ⟨e1, e2, e3⟩
  cases e3
  exact Same.pure ⟨e1, (resize_same (withData_same er e2)).1, rfl⟩
theorem same_digest (o o' : Obj M) (d d' : List Byte) (n : Nat) (e : (shape L).same o o') (ed : d.length = d'.length) :
    letI := shape L; Same (digest h u o d n) (digest h u o' d' n) := by
  letI := shape L
  letI := L.shape
  exact Same.bind (same_doFinalize h L e) fun _ _ e1 => Same.bind (L.digest _ _ _ _ _ e1.1.2.1 ed) fun _ _ e2 => Same.pure ⟨e1, e2⟩
theorem same_digestC (o o' : Obj M) (c c' : Container) (n : Nat) (e : (shape L).same o o') (ec : Shape.same c c') :
    letI := shape L; Same (digestC h u o c n) (digestC h u o' c' n) := by
  letI := shape L
  unfold digestC
  have er := resize_same (n := min n M.digestSize) ec
  refine Same.bind (same_doFinalize h L e) fun _ _ e1 => ?_
  dsimp only
  rw [er.2]
  refine Same.bind (same_digest h L _ _ _ _ _ e1 er.1.2) ?_
  rintro ⟨a, b, s⟩ ⟨a', b', s'⟩ ⟨e1, e2, e3⟩
  exact Same.pure ⟨e1, withData_same er.1 e2, e3⟩
theorem same_digestStatic (o o' : Obj M) (x x' : List Byte) (e : (shape L).same o o') (ex : x.length = x'.length) :
    letI := shape L; Same (digestStatic h u o x) (digestStatic h u o' x') := by
  letI := shape L
  unfold digestStatic
  rw [ex]
  refine Same.bind (same_digestC h L _ _ _ _ _ e ⟨rfl, ex⟩) ?_
  rintro ⟨a, b, s⟩ ⟨a', b', s'⟩ ⟨e1, e2, e3⟩
  exact Same.pure ⟨e1, e2⟩

/-- The tag is computed and compared; what is observed of that. The verdict decides the rest. -/
theorem same_verify (o o' : Obj M) (tag tag' : List Byte) (e : (shape L).same o o') (et : tag.length = tag'.length) :
    ∀ a b, (verify h u o tag).val = some a → (verify h u o' tag').val = some b → a.2 = b.2 → (verify h u o tag).trace = (verify h u o' tag').trace ∧ (shape L).same a.1 b.1 := by
  letI := shape L
  have split : ∀ (o : Obj M) (tag : List Byte) (a : Obj M × Error), (verify h u o tag).val = some a → ∃ r, (do
      let (o, c) ← digestStatic h u o (List.replicate M.digestSize 0)
      let (m, _) ← matchC h (p := 1) (q := 1) c.data tag
      pure (o, m) : T (Obj M × Bool)).val = some r ∧ a = (r.1, if r.2 then .none else .aeadVerify) ∧ (verify h u o tag).trace = (do
      let (o, c) ← digestStatic h u o (List.replicate M.digestSize 0)
      let (m, _) ← matchC h (p := 1) (q := 1) c.data tag
      pure (o, m) : T (Obj M × Bool)).trace ++ [.branch r.2] := by
    intro o tag a ha
    unfold verify at ha ⊢
    rw [val_bind] at ha
    cases h1 : (digestStatic h u o (List.replicate M.digestSize 0)).val with
    | none => rw [h1] at ha; cases ha
    | some oc =>
      obtain ⟨o1, c⟩ := oc
      rw [h1, Option.bind_some] at ha
      simp only [val_bind] at ha
      cases h2 : (matchC h (p := 1) (q := 1) c.data tag).val with
      | none => rw [h2] at ha; cases ha
      | some mn =>
        obtain ⟨m, n⟩ := mn
        rw [h2] at ha
        refine ⟨(o1, m), ?_, ?_, ?_⟩
        · rw [val_bind, h1, Option.bind_some]
          simp only [val_bind, h2, Option.bind_some, val_pure]
        · cases m <;> cases ha <;> rfl
        · rw [trace_bind' _ _ _ h1, trace_bind' _ _ _ h1]
          dsimp only
          rw [trace_bind' _ _ _ h2, trace_bind' _ _ _ h2]
          cases m
          · show _ ++ (_ ++ [Event.branch false]) = _ ++ (_ ++ []) ++ [Event.branch false]
            rw [List.append_nil, List.append_assoc]
          · show _ ++ (_ ++ [Event.branch true]) = _ ++ (_ ++ []) ++ [Event.branch true]
            rw [List.append_nil, List.append_assoc]
  have head : Same (do
      let (o, c) ← digestStatic h u o (List.replicate M.digestSize 0)
      let (m, _) ← matchC h (p := 1) (q := 1) c.data tag
      pure (o, m) : T (Obj M × Bool)) (do
      let (o, c) ← digestStatic h u o' (List.replicate M.digestSize 0)
      let (m, _) ← matchC h (p := 1) (q := 1) c.data tag'
      pure (o, m) : T (Obj M × Bool)) := by
    refine Same.bind (same_digestStatic h L _ _ _ _ e rfl) ?_
    rintro ⟨a, b⟩ ⟨a', b'⟩ ⟨e1, e2⟩
    refine Same.bind (Same.matchC e2.2 et) ?_
    rintro ⟨m, n⟩ ⟨m', n'⟩ e3
    exact Same.pure ⟨e1, trivial⟩
  intro a b ha hb eq
  obtain ⟨r, h1, h2, h3⟩ := split o tag a ha
  obtain ⟨r', h1', h2', h3'⟩ := split o' tag' b hb
  obtain ⟨h4, h5⟩ := head r r' h1 h1'
  subst h2 h2'
  have er : r.2 = r'.2 := by
    revert eq
    cases r.2 <;> cases r'.2 <;> simp
  exact ⟨by rw [h3, h3', h4, er], h5.1⟩

theorem same_verifyThrow (o o' : Obj M) (tag tag' : List Byte) (e : (shape L).same o o') (et : tag.length = tag'.length) :
    ∀ a b, (verifyThrow h u o tag).val = some a → (verifyThrow h u o' tag').val = some b → a.2 = b.2 →
      (verifyThrow h u o tag).trace = (verifyThrow h u o' tag').trace ∧ (shape L).same a.1 b.1 := by
  have split : ∀ (o : Obj M) (tag : List Byte) (a : Obj M × Ended Unit), (verifyThrow h u o tag).val = some a → ∃ r, (verify h u o tag).val = some r ∧
      a = (r.1, if r.2 ≠ .none then .thrown r.2 else .returned ()) ∧ (verifyThrow h u o tag).trace = (verify h u o tag).trace ++ [.branch (decide (r.2 ≠ .none))] := by
    intro o tag a ha
    unfold verifyThrow at ha ⊢
    rw [val_bind] at ha
    cases h1 : (verify h u o tag).val with
    | none => rw [h1] at ha; cases ha
    | some r =>
      rw [h1, Option.bind_some] at ha
      refine ⟨r, rfl, ?_, ?_⟩
      · obtain ⟨o, e⟩ := r
        simp only [val_branch, val_pure] at ha
        dsimp only
        split at ha <;> cases ha
        · rw [if_pos (by assumption)]
        · rw [if_neg (by assumption)]
      · rw [trace_bind' _ _ _ h1]
        congr 1
        unfold branch
        rw [trace_bind' _ _ () rfl]
        split <;> rfl
  intro a b ha hb eq
  obtain ⟨r, h1, h2, h3⟩ := split o tag a ha
  obtain ⟨r', h1', h2', h3'⟩ := split o' tag' b hb
  subst h2 h2'
  have er : r.2 = r'.2 := by
    dsimp only at eq
    by_cases c : r.2 = .none <;> by_cases c' : r'.2 = .none
    · rw [c, c']
    · rw [if_neg (by simpa using c), if_pos c'] at eq; cases eq
    · rw [if_pos c, if_neg (by simpa using c')] at eq; cases eq
    · rw [if_pos c, if_pos c'] at eq; injection eq
  obtain ⟨h4, h5⟩ := same_verify h L o o' tag tag' e et r r' h1 h1' er
  exact ⟨by rw [h3, h3', h4, er], h5⟩

end AeadApie
end Milo.Timed
