import Verif.Model.Timed.Base
/- Results of the timed functions are those of the model; what is observed depends on the shape of the data only. -/
namespace Milo.Timed
open Milo.Memory (widen loadOrder storOrder partBits image ofImage ofBytes toBytes bigof littleof insertBits)

/-! ### Results -/

@[simp] theorem val_pure {α : Type} (a : α) : (pure a : T α).val = some a := rfl
@[simp] theorem val_bind {α β : Type} (x : T α) (f : α → T β) : (x >>= f).val = x.val.bind fun a => (f a).val := by
  show (match x.val with | none => (⟨x.trace, none⟩ : T β) | some a => ⟨x.trace ++ (f a).trace, (f a).val⟩).val = _
  cases x.val <;> rfl
@[simp] theorem val_fail {α : Type} : (fail : T α).val = none := rfl
@[simp] theorem val_quiet {α : Type} (x : Option α) : (quiet x).val = x := rfl
@[simp] theorem val_branch {α : Type} (c : Prop) [Decidable c] (a b : T α) : (branch c a b).val = if c then a.val else b.val := by
  unfold branch; rw [val_bind]; simp only [Option.bind_some]; split <;> rfl
@[simp] theorem val_ite {α : Type} (c : Prop) [Decidable c] (a b : T α) : (if c then a else b).val = if c then a.val else b.val := by split <;> rfl
@[simp] theorem val_rd1 {α : Type} (b : List α) (i : Nat) : (rd1 b i).val = Milo.rd1 b i := rfl
@[simp] theorem val_wr1 {α : Type} (b : List α) (i : Nat) (x : α) : (wr1 b i x).val = Milo.wr1 b i x := rfl
@[simp] theorem val_rdN {α : Type} (b : List α) (i n : Nat) : (rdN b i n).val = Milo.rdN b i n := rfl
@[simp] theorem val_wrN {α : Type} (b : List α) (i : Nat) (x : List α) : (wrN b i x).val = Milo.wrN b i x := rfl
@[simp] theorem val_advance {α : Type} (b : List α) (i : Nat) : (advance b i).val = Milo.advance b i := rfl
theorem val_at {α : Type} (b : List α) (i : Nat) (f : List α → T (List α)) (g : List α → Option (List α)) (e : ∀ x, (f x).val = g x) : (at_ b i f).val = Milo.at_ b i g := by
  unfold at_ Milo.at_
  simp only [val_bind, val_pure, e]
  split <;> rfl
theorem val_for {σ : Type} (f : Nat → σ → T σ) (g : Nat → σ → Option σ) (e : ∀ i s, (f i s).val = g i s) : ∀ n i s, (forM' f n i s).val = Memory.forM' g n i s := by
  intro n
  induction n with
  | zero => intro i s; rfl
  | succ n ih =>
    intro i s
    simp only [forM', Memory.forM', val_bind, e, ih, Option.bind_some]
    rfl
theorem val_gather (sgp : Bool) (v : Nat) {p : Nat} (buf : List (Word p)) (seg : Nat) : ∀ is val, (gather sgp v buf seg is val).val = Memory.gather sgp v buf seg is val := by
  intro is
  induction is with
  | nil => intro val; rfl
  | cons i is ih => intro val; simp only [gather, Memory.gather, val_bind, ih, val_rd1, Option.bind_some]; rfl
theorem val_scatter {v p : Nat} (seg : Nat) : ∀ is (val : Word v) (buf : List (Word p)), (scatter seg is val buf).val = Memory.scatter seg is val buf := by
  intro is
  induction is with
  | nil => intro val buf; rfl
  | cons i is ih => intro val buf; simp only [scatter, Memory.scatter, val_bind, ih, val_wr1, Option.bind_some]; rfl
@[simp] theorem val_load (h : Host) (sgp : Bool) (v : Nat) {p : Nat} (buf : List (Word p)) (off : Nat) : (load h sgp v buf off).val = Memory.load h sgp v buf off := by
  unfold load Memory.load
  simp only [val_ite, val_bind, val_pure, val_rd1, val_rdN, val_gather]
  rfl
@[simp] theorem val_loadBe (h : Host) (sgp : Bool) (v : Nat) {p : Nat} (buf : List (Word p)) (off : Nat) : (loadBe h sgp v buf off).val = Memory.loadBe h sgp v buf off := by
  unfold loadBe Memory.loadBe
  simp only [val_bind, val_pure, val_load]
  cases Memory.load h sgp v buf off <;> rfl
@[simp] theorem val_loadLe (h : Host) (sgp : Bool) (v : Nat) {p : Nat} (buf : List (Word p)) (off : Nat) : (loadLe h sgp v buf off).val = Memory.loadLe h sgp v buf off := by
  unfold loadLe Memory.loadLe
  simp only [val_bind, val_pure, val_load]
  cases Memory.load h sgp v buf off <;> rfl
@[simp] theorem val_stor (h : Host) {v p : Nat} (buf : List (Word p)) (off : Nat) (val : Word v) : (stor h buf off val).val = Memory.stor h buf off val := by
  unfold stor Memory.stor
  simp only [val_ite, val_bind, val_pure, val_rd1, val_wr1, val_wrN, val_scatter]
  rfl
@[simp] theorem val_storN (h : Host) {v p : Nat} (buf : List (Word p)) (off : Nat) (val : Word v) (size : Nat) : (storN h buf off val size).val = Memory.storN h buf off val size := by
  unfold storN Memory.storN
  simp only [val_ite, val_bind, val_pure, val_rd1, val_wr1, val_wrN, val_scatter, val_branch]
  rfl
@[simp] theorem val_storBe (h : Host) {v p : Nat} (buf : List (Word p)) (off : Nat) (val : Word v) : (storBe h buf off val).val = Memory.storBe h buf off val := val_stor _ _ _ _
@[simp] theorem val_storLe (h : Host) {v p : Nat} (buf : List (Word p)) (off : Nat) (val : Word v) : (storLe h buf off val).val = Memory.storLe h buf off val := val_stor _ _ _ _
@[simp] theorem val_storBeN (h : Host) {v p : Nat} (buf : List (Word p)) (off : Nat) (val : Word v) (size : Nat) : (storBeN h buf off val size).val = Memory.storBeN h buf off val size :=
  val_storN _ _ _ _ _
@[simp] theorem val_storLeN (h : Host) {v p : Nat} (buf : List (Word p)) (off : Nat) (val : Word v) (size : Nat) : (storLeN h buf off val size).val = Memory.storLeN h buf off val size :=
  val_storN _ _ _ _ _
@[simp] theorem val_copy (h : Host) {p q : Nat} (dst : List (Word p)) (src : List (Word q)) (size : Nat) : (copy h dst src size).val = Memory.copy h dst src size := by
  unfold copy Memory.copy
  simp only [val_ite, val_bind, val_pure, val_rdN, val_wrN]
  rw [val_for _ (fun i dst => do let x ← Memory.load h false 1 src i; Memory.stor h dst i x) (by intro i s; simp only [val_bind, val_load, val_stor]; rfl)]
  rfl
@[simp] theorem val_copyBe (h : Host) {p q : Nat} (dst : List (Word p)) (src : List (Word q)) (size : Nat) : (copyBe h dst src size).val = Memory.copyBe h dst src size := by
  unfold copyBe Memory.copyBe
  simp only [val_bind, val_pure, val_rd1, val_branch, val_storBeN]
  rw [val_for _ (fun i dst => do let x ← Milo.rd1 src i; Memory.storBe h dst i x) (by intro i s; simp only [val_bind, val_rd1, val_storBe]; rfl)]
  rfl
@[simp] theorem val_copyLe (h : Host) {p q : Nat} (dst : List (Word p)) (src : List (Word q)) (size : Nat) : (copyLe h dst src size).val = Memory.copyLe h dst src size := by
  unfold copyLe Memory.copyLe
  simp only [val_bind, val_pure, val_rd1, val_branch, val_storLeN]
  rw [val_for _ (fun i dst => do let x ← Milo.rd1 src i; Memory.storLe h dst i x) (by intro i s; simp only [val_bind, val_rd1, val_storLe]; rfl)]
  rfl
@[simp] theorem val_set (h : Host) {p : Nat} (buf : List (Word p)) (v : Byte) (size : Nat) : (set h buf v size).val = Memory.set h buf v size := by
  unfold set Memory.set
  simp only [val_ite, val_bind, val_pure, val_wrN]
  rw [val_for _ (fun i buf => Memory.stor h (v := 1) buf i v) (by intro i s; simp only [val_stor])]
  rfl
@[simp] theorem val_xor (h : Host) (dst s0 s1 : List Byte) (size : Nat) : (xor h dst s0 s1 size).val = Memory.xor h dst s0 s1 size := by
  unfold xor Memory.xor
  refine val_for _ _ ?_ _ _ _
  intro i s
  simp only [val_bind, val_load, val_stor]
  rfl
@[simp] theorem val_matchPtr (h : Host) {p q : Nat} (a : List (Word p)) (b : List (Word q)) (size : Nat) : (matchPtr h a b size).val = Memory.matchPtr h a b size := by
  unfold matchPtr Memory.matchPtr
  simp only [val_bind, val_pure]
  rw [val_for _ (fun i (tn : Byte × Nat) => do
    let x ← Memory.load h false 1 a i
    let y ← Memory.load h false 1 b i
    pure ((tn.1 ||| (x ^^^ y) : Byte), tn.2 + 1)) (by intro i s; simp only [val_bind, val_load, val_pure]; rfl)]
  rfl
@[simp] theorem val_matchC (h : Host) {p q : Nat} (a : List (Word p)) (b : List (Word q)) : (matchC h a b).val = Memory.matchC h a b := by
  unfold matchC Memory.matchC
  simp only [val_bind, val_pure, val_matchPtr]
  rfl
@[simp] theorem val_equalLoop (h : Host) {p q : Nat} (a : List (Word p)) (b : List (Word q)) : ∀ n i, (equalLoop h a b n i).val = Memory.equalLoop h a b n i := by
  intro n
  induction n with
  | zero => intro i; rfl
  | succ n ih => intro i; simp only [equalLoop, Memory.equalLoop, val_bind, val_load, val_branch, val_pure, ih, Option.bind_some]; rfl
@[simp] theorem val_zero {p : Nat} (buf : List (Word p)) (n : Nat) : (zero buf n).val = Memory.zero buf n := val_for _ _ (fun _ _ => rfl) _ _ _
@[simp] theorem val_init (h : Host) {p q : Nat} (dst : List (Word p)) (src : List (Word q)) : (init h dst src).val = Memory.init h dst src := by
  unfold init Memory.init
  simp only [val_bind, val_zero, val_copy]
  rfl
@[simp] theorem val_initLe (h : Host) {p q : Nat} (dst : List (Word p)) (src : List (Word q)) : (initLe h dst src).val = Memory.initLe h dst src := by
  unfold initLe Memory.initLe
  simp only [val_bind, val_init, val_ite, val_pure, mapLoop]
  rfl
theorem bind_ite {α β : Type} (c : Prop) [Decidable c] (a b : Option α) (f : α → Option β) : (if c then a else b).bind f = if c then a.bind f else b.bind f := by split <;> rfl
theorem val_soakRest (h : Host) {σ : Type} (block : Nat) (blocks : Nat → σ → List Byte → T σ) (blocks' : Nat → σ → List Byte → Option σ) (e : ∀ n s x, (blocks n s x).val = blocks' n s x)
    (buf src : List Byte) (st : σ) : (soakRest h block blocks buf src st).val = (do
    let full := src.length / block
    let last := src.length % block
    let (src, st) ← if full ≠ 0 then do
        let st ← blocks' full st src
        let src ← Milo.advance src (full * block)
        pure (src, st)
      else pure (src, st)
    let buf ← if last ≠ 0 then Memory.copy h (p := 1) (q := 1) buf src last else pure buf
    pure (last, buf, st)) := by
  unfold soakRest
  simp only [val_bind, val_branch, val_pure, val_advance, val_copy, e, bind_ite]
  by_cases h1 : src.length / block = 0 <;> by_cases h2 : src.length % block = 0 <;>
    simp only [h1, h2, ne_eq, not_true, not_false_iff, if_true, if_false, Option.bind_eq_bind, Option.bind_some, Option.pure_def, Option.bind_assoc] <;> rfl
theorem val_soak (h : Host) {σ : Type} (block : Nat) (blocks : Nat → σ → List Byte → T σ) (blocks' : Nat → σ → List Byte → Option σ) (e : ∀ n s x, (blocks n s x).val = blocks' n s x)
    (buf : List Byte) (bufSize : Nat) (src : List Byte) (st : σ) : (soak h block blocks buf bufSize src st).val = Milo.soak h block blocks' buf bufSize src st := by
  unfold soak Milo.soak
  have ea := val_at buf bufSize (fun p => copy h (p := 1) (q := 1) p src (min (block - bufSize) src.length))
    (fun p => Memory.copy h (p := 1) (q := 1) p src (min (block - bufSize) src.length)) (fun x => val_copy h (p := 1) (q := 1) x src _)
  simp only [val_bind, val_branch, val_pure, val_ite, val_fail, val_advance, e, val_soakRest h block blocks blocks' e, ea]
  rfl

theorem obind {α β : Type} {x y : Option α} {f g : α → Option β} (h : x = y) (e : ∀ a, f a = g a) : x.bind f = y >>= g := by
  subst h
  exact congrArg (Option.bind x) (funext e)

/-! ### Shapes -/

/-- What of a value is public: the sizes. -/
class Shape (α : Type) where
  same : α → α → Prop

instance {n : Nat} : Shape (BitVec n) := ⟨fun _ _ => True⟩
instance : Shape Bool := ⟨fun _ _ => True⟩
instance : Shape Unit := ⟨fun _ _ => True⟩
instance : Shape Nat := ⟨Eq⟩
instance {α : Type} : Shape (List α) := ⟨fun x y => x.length = y.length⟩
instance {α β : Type} [Shape α] [Shape β] : Shape (α × β) := ⟨fun x y => Shape.same x.1 y.1 ∧ Shape.same x.2 y.2⟩

@[simp] theorem same_bitvec {n : Nat} (a b : BitVec n) : Shape.same a b := trivial
@[simp] theorem same_bool (a b : Bool) : Shape.same a b := trivial
@[simp] theorem same_unit (a b : Unit) : Shape.same a b := trivial
@[simp] theorem same_nat (a b : Nat) : Shape.same a b ↔ a = b := Iff.rfl
@[simp] theorem same_list {α : Type} (a b : List α) : Shape.same a b ↔ a.length = b.length := Iff.rfl
@[simp] theorem same_prod {α β : Type} [Shape α] [Shape β] (a b : α × β) : Shape.same a b ↔ Shape.same a.1 b.1 ∧ Shape.same a.2 b.2 := Iff.rfl

/-- Two computations, if both have results, look the same to the observer and have results of the same shape. -/
def Same {α : Type} [Shape α] (x y : T α) : Prop := ∀ a b, x.val = some a → y.val = some b → x.trace = y.trace ∧ Shape.same a b

variable {α β : Type} [Shape α] [Shape β]

theorem Same.pure {a b : α} (e : Shape.same a b) : Same (Pure.pure a : T α) (Pure.pure b) := by
  intro x y hx hy
  cases hx; cases hy
  exact ⟨rfl, e⟩

theorem trace_bind (x : T α) (f : α → T β) (a : α) (e : x.val = some a) : (x >>= f).trace = x.trace ++ (f a).trace := by
  show (match x.val with | none => (⟨x.trace, none⟩ : T β) | some a => ⟨x.trace ++ (f a).trace, (f a).val⟩).trace = _
  rw [e]

theorem Same.bind {x y : T α} {f g : α → T β} (h1 : Same x y) (h2 : ∀ a b, Shape.same a b → Same (f a) (g b)) : Same (x >>= f) (y >>= g) := by
  intro a b ha hb
  rw [val_bind] at ha hb
  obtain ⟨u, hu, ha⟩ := Option.bind_eq_some_iff.1 ha
  obtain ⟨v, hv, hb⟩ := Option.bind_eq_some_iff.1 hb
  obtain ⟨e1, e2⟩ := h1 u v hu hv
  obtain ⟨e3, e4⟩ := h2 u v e2 a b ha hb
  rw [trace_bind _ _ _ hu, trace_bind _ _ _ hv, e1, e3]
  exact ⟨rfl, e4⟩

theorem Same.fail {y : T α} : Same fail y := by
  intro a b ha
  cases ha

theorem Same.tick {e : List Event} {u v : Option Unit} : Same (⟨e, u⟩ : T Unit) ⟨e, v⟩ := fun _ _ _ _ => ⟨rfl, trivial⟩

theorem Same.of {a b : α} {e e' : List Event} (h1 : e = e') (h2 : Shape.same a b) : Same (⟨e, some a⟩ : T α) ⟨e', some b⟩ := by
  intro x y hx hy
  cases hx; cases hy
  exact ⟨h1, h2⟩

theorem Same.ite {c c' : Prop} [Decidable c] [Decidable c'] {a b a' b' : T α} (hc : c ↔ c') (h1 : c → c' → Same a a') (h2 : ¬ c → ¬ c' → Same b b') :
    Same (if c then a else b) (if c' then a' else b') := by
  by_cases h : c
  · rw [if_pos h, if_pos (hc.1 h)]; exact h1 h (hc.1 h)
  · rw [if_neg h, if_neg (fun x => h (hc.2 x))]; exact h2 h (fun x => h (hc.2 x))

theorem Same.branch {c c' : Prop} [Decidable c] [Decidable c'] {a b a' b' : T α} (hc : c ↔ c') (h1 : c → c' → Same a a') (h2 : ¬ c → ¬ c' → Same b b') :
    Same (Timed.branch c a b) (Timed.branch c' a' b') := by
  unfold Timed.branch
  refine Same.bind ?_ fun _ _ _ => Same.ite hc h1 h2
  rw [show decide c = decide c' from decide_eq_decide.2 hc]
  exact Same.tick

theorem Same.rd1 {n : Nat} {x y : List (BitVec n)} {i j : Nat} (e : i = j) : Same (Timed.rd1 x i) (Timed.rd1 y j) := by
  subst e; exact fun _ _ _ _ => ⟨rfl, trivial⟩

theorem wr1_length {γ : Type} {x u : List γ} {i : Nat} {a : γ} (e : Milo.wr1 x i a = some u) : u.length = x.length := by
  unfold Milo.wr1 at e
  split at e
  · cases e; simp
  · cases e

theorem Same.wr1 {γ : Type} {x y : List γ} {a b : γ} {i j : Nat} (e : i = j) (h : x.length = y.length) : Same (Timed.wr1 x i a) (Timed.wr1 y j b) := by
  subst e
  intro u v hu hv
  exact ⟨rfl, by rw [same_list, wr1_length hu, wr1_length hv, h]⟩

theorem rdN_length {γ : Type} {x u : List γ} {i n : Nat} (e : Milo.rdN x i n = some u) : u.length = n := by
  unfold Milo.rdN at e
  split at e
  · cases e; simp; omega
  · cases e

theorem Same.rdN {γ : Type} {x y : List γ} {i j n m : Nat} (e : i = j) (h : n = m) : Same (Timed.rdN x i n) (Timed.rdN y j m) := by
  subst e h
  intro u v hu hv
  exact ⟨rfl, by rw [same_list, rdN_length hu, rdN_length hv]⟩

theorem wrN_length {γ : Type} {x u a : List γ} {i : Nat} (e : Milo.wrN x i a = some u) : u.length = x.length := by
  unfold Milo.wrN at e
  split at e
  · cases e; simp; omega
  · cases e

theorem Same.wrN {γ : Type} {x y a b : List γ} {i j : Nat} (e : i = j) (h : x.length = y.length) (h2 : a.length = b.length) : Same (Timed.wrN x i a) (Timed.wrN y j b) := by
  subst e
  intro u v hu hv
  exact ⟨by simp only [Timed.wrN, h2], by rw [same_list, wrN_length hu, wrN_length hv, h]⟩

theorem advance_length {γ : Type} {x u : List γ} {i : Nat} (e : Milo.advance x i = some u) : u.length = x.length - i := by
  unfold Milo.advance at e
  split at e
  · cases e; simp
  · cases e

theorem Same.advance {γ : Type} {x y : List γ} {i j : Nat} (e : i = j) (h : x.length = y.length) : Same (Timed.advance x i) (Timed.advance y j) := by
  subst e
  intro u v hu hv
  exact ⟨rfl, by rw [same_list, advance_length hu, advance_length hv, h]⟩

theorem Same.at_ {γ : Type} {x y : List γ} {i j : Nat} {f g : List γ → T (List γ)} (e : i = j) (h : x.length = y.length) (hf : ∀ u v : List γ, u.length = v.length → Same (f u) (g v)) :
    Same (Timed.at_ x i f) (Timed.at_ y j g) := by
  subst e
  unfold Timed.at_
  refine Same.bind Same.tick fun _ _ _ => Same.bind (hf _ _ (by simp [h])) fun a b e => Same.pure ?_
  simp only [same_list, List.length_append, List.length_take] at e ⊢
  omega

theorem Same.forM' {f g : Nat → α → T α} (hf : ∀ i s t, Shape.same s t → Same (f i s) (g i t)) : ∀ {n m i j s t}, n = m → i = j → Shape.same s t → Same (Timed.forM' f n i s) (Timed.forM' g m j t) := by
  intro n m i j s t hn hi hs
  subst hn hi
  induction n generalizing i s t with
  | zero => exact Same.of rfl hs
  | succ n ih =>
    unfold Timed.forM'
    exact Same.bind Same.tick fun _ _ _ => Same.bind (hf _ _ _ hs) fun _ _ e => ih e

theorem same_gather (sgp : Bool) (v : Nat) {p : Nat} (x y : List (Word p)) (seg : Nat) (is : List Nat) : ∀ a b, Same (gather sgp v x seg is a) (gather sgp v y seg is b) := by
  induction is with
  | nil => intro a b; exact Same.of rfl trivial
  | cons i is ih => intro a b; exact Same.bind Same.tick fun _ _ _ => Same.bind (Same.rd1 rfl) fun _ _ _ => ih _ _

theorem same_scatter {v p : Nat} (seg : Nat) (is : List Nat) : ∀ (a b : Word v) (x y : List (Word p)), x.length = y.length → Same (scatter seg is a x) (scatter seg is b y) := by
  induction is with
  | nil => intro a b x y h; exact Same.of rfl h
  | cons i is ih => intro a b x y h; exact Same.bind Same.tick fun _ _ _ => Same.bind (Same.wr1 rfl h) fun _ _ e => ih _ _ _ _ e

theorem Same.load {h : Host} {sgp : Bool} {v p : Nat} {x y : List (Word p)} {i j : Nat} (e : i = j) : Same (Timed.load h sgp v x i) (Timed.load h sgp v y j) := by
  subst e
  unfold Timed.load
  refine Same.ite Iff.rfl (fun _ _ => Same.bind (Same.rd1 rfl) fun _ _ _ => Same.pure trivial) fun _ _ => Same.ite Iff.rfl (fun _ _ => ?_) fun _ _ => ?_
  · exact Same.ite Iff.rfl (fun _ _ => Same.bind (Same.rd1 rfl) fun _ _ _ => Same.pure trivial) fun _ _ => same_gather _ _ _ _ _ _ _ _
  · exact Same.bind (Same.rdN rfl rfl) fun _ _ _ => Same.pure trivial

theorem Same.loadBe {h : Host} {sgp : Bool} {v p : Nat} {x y : List (Word p)} {i j : Nat} (e : i = j) : Same (Timed.loadBe h sgp v x i) (Timed.loadBe h sgp v y j) :=
  Same.bind (Same.load e) fun _ _ _ => Same.pure trivial

theorem Same.loadLe {h : Host} {sgp : Bool} {v p : Nat} {x y : List (Word p)} {i j : Nat} (e : i = j) : Same (Timed.loadLe h sgp v x i) (Timed.loadLe h sgp v y j) :=
  Same.bind (Same.load e) fun _ _ _ => Same.pure trivial

theorem toLE_length (n w : Nat) : (Memory.toLE n w).length = n := by
  induction n generalizing w with
  | zero => rfl
  | succ n ih => simp [Memory.toLE, ih]

theorem toBytes_length (e : Endian) {n : Nat} (w : Word n) : (toBytes e w).length = n := by
  cases e <;> simp [toBytes, toLE_length]

theorem image_length (e : Endian) {p : Nat} (x : List (Word p)) : (image e x).length = x.length * p := by
  induction x with
  | nil => simp [image]
  | cons a x ih =>
    unfold image at ih ⊢
    rw [List.flatMap_cons, List.length_append, ih, toBytes_length, List.length_cons, Nat.succ_mul, Nat.add_comm]

theorem ofImage_length (e : Endian) (p n : Nat) (b : List Byte) : (ofImage e p n b).length = n := by
  induction n generalizing b with
  | zero => rfl
  | succ n ih => simp [ofImage, ih]

theorem Same.stor {h : Host} {v p : Nat} {x y : List (Word p)} {i j : Nat} {a b : Word v} (e : i = j) (hl : x.length = y.length) : Same (Timed.stor h x i a) (Timed.stor h y j b) := by
  subst e
  unfold Timed.stor
  refine Same.ite Iff.rfl (fun _ _ => Same.wr1 rfl hl) fun _ _ => Same.ite Iff.rfl (fun _ _ => ?_) fun _ _ => ?_
  · exact Same.ite Iff.rfl (fun _ _ => Same.bind (Same.rd1 rfl) fun _ _ _ => Same.wr1 rfl hl) fun _ _ => same_scatter _ _ _ _ _ _ hl
  · exact Same.bind (Same.wrN rfl (by simp [image_length, hl]) (by simp [toBytes_length])) fun _ _ _ => Same.pure (by simp [ofImage_length, hl])

theorem Same.storN {h : Host} {v p : Nat} {x y : List (Word p)} {i j n m : Nat} {a b : Word v} (e : i = j) (hl : x.length = y.length) (hn : n = m) :
    Same (Timed.storN h x i a n) (Timed.storN h y j b m) := by
  subst e hn
  unfold Timed.storN
  refine Same.ite Iff.rfl (fun _ _ => ?_) fun _ _ => ?_
  · refine Same.branch Iff.rfl (fun _ _ => Same.pure hl) fun _ _ => Same.ite Iff.rfl (fun _ _ => Same.wr1 rfl hl) fun _ _ => ?_
    exact Same.ite Iff.rfl (fun _ _ => Same.bind (Same.rd1 rfl) fun _ _ _ => Same.wr1 rfl hl) fun _ _ => same_scatter _ _ _ _ _ _ hl
  · exact Same.bind (Same.wrN rfl (by simp [image_length, hl]) (by simp [toBytes_length])) fun _ _ _ => Same.pure (by simp [ofImage_length, hl])

theorem Same.storBe {h : Host} {v p : Nat} {x y : List (Word p)} {i j : Nat} {a b : Word v} (e : i = j) (hl : x.length = y.length) : Same (Timed.storBe h x i a) (Timed.storBe h y j b) := Same.stor e hl
theorem Same.storLe {h : Host} {v p : Nat} {x y : List (Word p)} {i j : Nat} {a b : Word v} (e : i = j) (hl : x.length = y.length) : Same (Timed.storLe h x i a) (Timed.storLe h y j b) := Same.stor e hl

theorem Same.copy {h : Host} {p q : Nat} {x y : List (Word p)} {u v : List (Word q)} {n m : Nat} (hl : x.length = y.length) (hn : n = m) : Same (Timed.copy h x u n) (Timed.copy h y v m) := by
  subst hn
  unfold Timed.copy
  refine Same.ite Iff.rfl (fun _ _ => Same.forM' (by intro i s t e; exact Same.bind (Same.load rfl) fun _ _ _ => Same.stor rfl e) rfl rfl hl) fun _ _ => ?_
  exact Same.bind (Same.rdN rfl rfl) fun _ _ e => Same.bind (Same.wrN rfl (by simp [image_length, hl]) e) fun _ _ _ => Same.pure (by simp [ofImage_length, hl])

theorem Same.copyBe {h : Host} {p q : Nat} {x y : List (Word p)} {u v : List (Word q)} {n m : Nat} (hl : x.length = y.length) (hn : n = m) : Same (Timed.copyBe h x u n) (Timed.copyBe h y v m) := by
  subst hn
  unfold Timed.copyBe
  refine Same.bind (Same.forM' (by intro i s t e; exact Same.bind (Same.rd1 rfl) fun _ _ _ => Same.storBe rfl e) rfl rfl hl) fun _ _ e => ?_
  exact Same.branch Iff.rfl (fun _ _ => Same.bind (Same.rd1 rfl) fun _ _ _ => Same.storN rfl e rfl) fun _ _ => Same.pure e

theorem Same.copyLe {h : Host} {p q : Nat} {x y : List (Word p)} {u v : List (Word q)} {n m : Nat} (hl : x.length = y.length) (hn : n = m) : Same (Timed.copyLe h x u n) (Timed.copyLe h y v m) := by
  subst hn
  unfold Timed.copyLe
  refine Same.bind (Same.forM' (by intro i s t e; exact Same.bind (Same.rd1 rfl) fun _ _ _ => Same.storLe rfl e) rfl rfl hl) fun _ _ e => ?_
  exact Same.branch Iff.rfl (fun _ _ => Same.bind (Same.rd1 rfl) fun _ _ _ => Same.storN rfl e rfl) fun _ _ => Same.pure e

theorem Same.set {h : Host} {p : Nat} {x y : List (Word p)} {a b : Byte} {n m : Nat} (hl : x.length = y.length) (hn : n = m) : Same (Timed.set h x a n) (Timed.set h y b m) := by
  subst hn
  unfold Timed.set
  refine Same.ite Iff.rfl (fun _ _ => Same.forM' (by intro i s t e; exact Same.stor rfl e) rfl rfl hl) fun _ _ => ?_
  exact Same.bind (Same.wrN rfl (by simp [image_length, hl]) (by simp)) fun _ _ _ => Same.pure (by simp [ofImage_length, hl])

theorem Same.xor {h : Host} {x y u u' v v' : List Byte} {n m : Nat} (hl : x.length = y.length) (hn : n = m) : Same (Timed.xor h x u v n) (Timed.xor h y u' v' m) := by
  subst hn
  exact Same.forM' (by intro i s t e; exact Same.bind (Same.load rfl) fun _ _ _ => Same.bind (Same.load rfl) fun _ _ _ => Same.stor rfl e) rfl rfl hl

theorem Same.matchPtr {h : Host} {p q : Nat} {x y : List (Word p)} {u v : List (Word q)} {n m : Nat} (hn : n = m) : Same (Timed.matchPtr h x u n) (Timed.matchPtr h y v m) := by
  subst hn
  unfold Timed.matchPtr
  refine Same.bind (α := Byte × Nat) (Same.forM' ?_ rfl rfl (by simp)) fun _ _ e => Same.pure ⟨trivial, e.2⟩
  intro i s t e
  refine Same.bind (Same.load rfl) fun _ _ _ => Same.bind (Same.load rfl) fun _ _ _ => Same.pure ?_
  exact ⟨trivial, by have := e.2; simp only [same_nat] at this ⊢; omega⟩

theorem Same.matchC {h : Host} {p q : Nat} {x y : List (Word p)} {u v : List (Word q)} (h1 : x.length = y.length) (h2 : u.length = v.length) : Same (Timed.matchC h x u) (Timed.matchC h y v) := by
  unfold Timed.matchC
  exact Same.bind (α := Bool × Nat) (Same.matchPtr (by rw [h1, h2])) fun _ _ e => Same.pure ⟨trivial, e.2⟩

theorem Same.zero {p : Nat} {x y : List (Word p)} {n m : Nat} (hl : x.length = y.length) (hn : n = m) : Same (Timed.zero x n) (Timed.zero y m) :=
  Same.forM' (by intro i s t e; exact Same.wr1 rfl e) hn rfl hl

theorem Same.init {h : Host} {p q : Nat} {x y : List (Word p)} {u v : List (Word q)} (hl : x.length = y.length) (hs : u.length = v.length) : Same (Timed.init h x u) (Timed.init h y v) :=
  Same.bind (Same.zero hl hl) fun _ _ e => Same.copy e (by rw [hl, hs])

theorem Same.initLe {h : Host} {p q : Nat} {x y : List (Word p)} {u v : List (Word q)} (hl : x.length = y.length) (hs : u.length = v.length) : Same (Timed.initLe h x u) (Timed.initLe h y v) := by
  refine Same.bind (Same.init hl hs) fun a b e => Same.ite Iff.rfl (fun _ _ => Same.of ?_ ?_) fun _ _ => Same.pure e
  · rw [(same_list a b).1 e]
  · simpa using e

theorem same_soakRest {h : Host} {block : Nat} {f g : Nat → α → List Byte → T α} (hf : ∀ n s t (x y : List Byte), Shape.same s t → x.length = y.length → Same (f n s x) (g n t y))
    {buf buf' src src' : List Byte} {s t : α} (h1 : buf.length = buf'.length) (h2 : src.length = src'.length) (h3 : Shape.same s t) :
    Same (soakRest h block f buf src s) (soakRest h block g buf' src' t) := by
  unfold soakRest
  rw [h2]
  refine Same.bind (α := List Byte × α) (Same.branch Iff.rfl (fun _ _ => Same.bind (hf _ _ _ _ _ h3 h2) fun _ _ e => Same.bind (Same.advance rfl h2) fun _ _ e2 => Same.pure ⟨e2, e⟩) fun _ _ => Same.pure ⟨h2, h3⟩) ?_
  rintro ⟨a, b⟩ ⟨a', b'⟩ ⟨e1, e2⟩
  exact Same.bind (Same.branch Iff.rfl (fun _ _ => Same.copy h1 rfl) fun _ _ => Same.pure h1) fun _ _ e => Same.pure ⟨rfl, e, e2⟩

theorem Same.soak {h : Host} {block : Nat} {f g : Nat → α → List Byte → T α} (hf : ∀ n s t (x y : List Byte), Shape.same s t → x.length = y.length → Same (f n s x) (g n t y))
    {buf buf' src src' : List Byte} {n m : Nat} {s t : α} (h1 : buf.length = buf'.length) (h2 : src.length = src'.length) (h3 : Shape.same s t) (hn : n = m) :
    Same (Timed.soak h block f buf n src s) (Timed.soak h block g buf' m src' t) := by
  subst hn
  unfold Timed.soak
  rw [h2]
  refine Same.branch Iff.rfl (fun _ _ => Same.ite Iff.rfl (fun _ _ => Same.fail) fun _ _ => ?_) fun _ _ => same_soakRest hf h1 h2 h3
  refine Same.bind (Same.at_ rfl h1 fun _ _ e => Same.copy e rfl) fun _ _ e => Same.branch Iff.rfl (fun _ _ => Same.pure ⟨rfl, e, h3⟩) fun _ _ => ?_
  exact Same.bind (hf _ _ _ _ _ h3 e) fun _ _ e2 => Same.bind (Same.advance rfl h2) fun _ _ e3 => same_soakRest hf e e3 e2

end Milo.Timed
