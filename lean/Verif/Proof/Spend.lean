import Verif.Spec.Within
import Verif.Proof.MemSafe
/-
How many variables and map entries the decoding of a document into a typed variable can make.  A byte of the
document pays for `w` of them.
-/
namespace Sereal

/-- A count of things in memory. -/
structure Gauge (f : Mem → Nat) : Prop where
  put : ∀ m l v, f (m.put l v) ≤ f m
  new : ∀ m v, f (m.new v) ≤ f m + 1
  newMap : ∀ m, f m.newMap ≤ f m + 1
  insert : ∀ m a k v, f (m.insert a k v) ≤ f m + 1

/-- `x` makes at most `k` of them. -/
def Cheap (f : Mem → Nat) (k : Nat) (x : M α) : Prop :=
  ∀ s, (x s).2.d.copyDepth = s.d.copyDepth ∧ f (x s).2.mem ≤ f s.mem + k

namespace Cheap
variable {f : Mem → Nat} (hf : Gauge f)

theorem pure (a : α) : Cheap f 0 (Pure.pure a : M α) := fun _ => ⟨rfl, Nat.le_refl _⟩
theorem fail (e : Exn) : Cheap f 0 (M.fail e : M α) := fun _ => ⟨rfl, Nat.le_refl _⟩
theorem err (e : Err) : Cheap f 0 (M.err e : M α) := fail _

theorem bind {j k : Nat} {x : M α} {g : α → M β} (hx : Cheap f j x) (hg : ∀ a, Cheap f k (g a)) : Cheap f (j + k) (x >>= g) := by
  intro s
  have h := hx s
  rw [M.bind_apply]
  rcases hr : x s with ⟨r, s'⟩
  rw [hr] at h
  cases r with
  | ok a =>
    have h2 := hg a s'
    exact ⟨h2.1.trans h.1, Nat.le_trans h2.2 (by have := h.2; dsimp only at this; omega)⟩
  | error e => exact ⟨h.1, Nat.le_trans h.2 (by omega)⟩

theorem mono {j k : Nat} {x : M α} (h : Cheap f j x) (hk : j ≤ k) : Cheap f k x :=
  fun s => ⟨(h s).1, Nat.le_trans (h s).2 (by omega)⟩

theorem up {k : Nat} {x : M α} (h : Cheap f 0 x) : Cheap f k x := mono h (Nat.zero_le _)

/-- After something for free. -/
theorem free {k : Nat} {x : M α} {g : α → M β} (hx : Cheap f 0 x) (hg : ∀ a, Cheap f k (g a)) : Cheap f k (x >>= g) :=
  mono (bind hx hg) (by omega)

theorem failIf {c : Prop} [Decidable c] (e : Exn) : Cheap f 0 (M.failIf c e) := by
  unfold M.failIf
  split
  · exact fail e
  · exact pure ()

theorem ite {k : Nat} {c : Prop} [Decidable c] {x y : M α} (h1 : Cheap f k x) (h2 : Cheap f k y) : Cheap f k (if c then x else y) := by
  split
  · exact h1
  · exact h2

theorem get {k : Nat} {g : MSt → M α} (h : ∀ s, Cheap f k (g s)) : Cheap f k (M.get >>= g) := fun s => h s s

theorem readLoc (l : Loc) : Cheap f 0 (M.lift (Sereal.readLoc l)) := fun _ => ⟨rfl, Nat.le_refl _⟩
theorem allocVar (v : Val) : Cheap f 0 (M.lift (Sereal.allocVar v)) := fun _ => ⟨rfl, Nat.le_refl _⟩
theorem read (t : Target) : Cheap f 0 t.read := by
  intro s
  unfold Target.read
  split <;> exact ⟨rfl, Nat.le_refl _⟩

theorem track (i : Nat) (t : Target) : Cheap f 0 (trackMem i t) := by
  unfold trackMem
  exact free (allocVar _) fun a => free (x := M.lift (Sereal.track i _)) (fun _ => ⟨rfl, Nat.le_refl _⟩) fun _ =>
    fun _ => ⟨rfl, Nat.le_refl _⟩

include hf

theorem write (t : Target) (v : MVal) : Cheap f 0 (t.write v) := by
  unfold Target.write
  split
  · exact ite (fail _) fun s => ⟨rfl, hf.put _ _ _⟩
  · exact fail _

theorem newVar (v : MVal) : Cheap f 1 (Sereal.newVar v) := fun _ => ⟨rfl, hf.new _ _⟩
theorem newMap : Cheap f 1 Sereal.newMap := fun _ => ⟨rfl, hf.newMap _⟩

theorem makeSlice (t : Target) (vs : List MVal) : Cheap f 1 (t.makeSlice vs) := bind (newVar hf _) fun _ => write hf _ _

theorem setInt (t : Target) (i : Int64) : Cheap f 0 (t.setInt i) := by
  unfold Target.setInt; split
  · exact write hf _ _
  · exact write hf _ _
  · exact fail _

theorem setFloat (t : Target) (tc : TCfg) (u : UInt64) : Cheap f 0 (t.setFloat tc u) := by
  unfold Target.setFloat; split
  · exact write hf _ _
  · exact write hf _ _
  · exact fail _

theorem setBool (t : Target) (b : Bool) : Cheap f 0 (t.setBool b) := by
  unfold Target.setBool; split
  · exact write hf _ _
  · exact fail _

theorem setString (t : Target) (s : Bytes) : Cheap f 0 (t.setString s) := by
  unfold Target.setString; split
  · exact write hf _ _
  · exact fail _

theorem setBinary (t : Target) (s : Bytes) : Cheap f 1 (t.setBinary s) := by
  unfold Target.setBinary; split
  · refine free (read t) fun v => ?_
    split
    · exact up (free (failIf _) fun _ st => ⟨rfl, hf.put _ _ _⟩)
    · exact makeSlice hf _ _
  · exact up (fail _)
  · exact up (free (read t) fun v => write hf _ _)
  · exact up (fail _)
  · exact up (write hf _ _)
  · exact up (fail _)

theorem setPerl (t : Target) (v : Val) : Cheap f 0 (t.setPerl v) := by
  unfold Target.setPerl; split
  · exact write hf _ _
  · exact fail _

theorem undef (cfg : DCfg) (c : Bool) (t : Target) : Cheap f 0 (undefMem cfg c t) := by
  unfold undefMem
  split
  · exact setPerl hf _ _
  · split
    · exact free (allocVar _) fun _ => setPerl hf _ _
    · split
      · exact write hf _ _
      · exact write hf _ _
      · exact write hf _ _
      · exact pure _

theorem assign (t : Target) (ty : Ty) (v : MVal) : Cheap f 0 (t.assign ty v) := by
  unfold Target.assign
  exact ite (write hf _ _) (ite (write hf _ _) (fail _))

theorem assignAny (t : Target) (v : Val) : Cheap f 0 (t.assignAny v) := by
  unfold Target.assignAny
  refine ite (fail _) (ite (write hf _ _) ?_)
  split
  · exact assign hf _ _ _
  · exact ite (fail _) (fail _)

theorem fromAny (cfg : DCfg) (r : Bool) (t : Target) (v : MVal) (ro : Bool) : Cheap f 0 (t.fromAny cfg r v ro) := by
  unfold Target.fromAny
  refine free (failIf _) fun _ => free (failIf _) fun _ => ?_
  split
  · split
    · exact free (read _) fun _ => assign hf _ _ _
    · exact free (readLoc _) fun w => ite (write hf _ _) (fail _)
    · exact free (readLoc _) fun w => assignAny hf _ _
    · exact fail _
  · split
    · exact assign hf _ _ _
    · exact assignAny hf _ _
    · exact fail _

theorem call (g : Bytes → Option Nat) (data : Bytes) (l : Spot) : Cheap f 0 (callUnmarshal g data l) := by
  unfold callUnmarshal
  split
  · exact err _
  · exact fun s => ⟨rfl, hf.put _ _ _⟩

theorem deref (t : Target) (e : Ty) : Cheap f 1 (t.deref e) := by
  unfold Target.deref
  refine free (read t) fun v => ?_
  split
  · exact up (pure _)
  · exact bind (newVar hf _) fun l => free (write hf _ _) fun _ => pure _

theorem unmarshal (tc : TCfg) (t : Target) (data : Bytes) : Cheap f 1 (unmarshalMem tc t data) := by
  have no : ∀ m, Cheap f 0 (M.failIf t.unaddressable (.panic m) >>= fun _ => Pure.pure false : M Bool) :=
    fun m => free (failIf _) fun _ => pure _
  have yes : ∀ g (l : Spot), Cheap f 0 (callUnmarshal g data l >>= fun _ => Pure.pure true : M Bool) :=
    fun g l => free (call hf _ _ _) fun _ => pure _
  unfold unmarshalMem
  split
  · refine bind (k := 0) (deref hf _ _) fun t' => free (failIf _) fun _ => ?_
    split
    · split
      · exact yes _ _
      · exact no _
    · exact no _
  · refine up (free (failIf _) fun _ => ?_)
    split
    · exact yes _ _
    · exact pure _
  · refine up (free (failIf _) fun _ => free (read t) fun v => ?_)
    split
    · split
      · exact yes _ _
      · exact fail _
      · exact no _
    · exact fail _
    · exact fail _
    · exact no _
  · exact up (no _)

omit hf in
theorem lookup (t : Target) (key : Bytes) : Cheap f 0 (t.lookup key) := by
  unfold Target.lookup
  refine free (read t) fun v => ?_
  cases v with
  | map m => exact fun s => ⟨rfl, Nat.le_refl _⟩
  | _ => exact pure _

theorem insert (t : Target) (key : Bytes) (v : MVal) : Cheap f 1 (t.insert key v) := by
  unfold Target.insert
  refine free (failIf _) fun _ => free (read t) fun w => ?_
  cases w with
  | map m => exact fun s => ⟨rfl, hf.insert _ _ _ _⟩
  | _ => exact up (fail _)

end Cheap

/-- `x`, started in `s` when `p` have been paid for: afterwards, `Q` with the number paid for then; never more than `P`. -/
def Pays (f : Mem → Nat) (P p : Nat) (x : M α) (s : MSt) (Q : α → Nat → MSt → Prop) : Prop :=
  p ≤ P → (∀ a s', x s = (.ok a, s') → ∃ c, c ≤ P ∧ f s'.mem + p ≤ f s.mem + c ∧ Q a c s') ∧
    (∀ e s', x s = (.error e, s') → f s'.mem + p ≤ f s.mem + P)

namespace Pays
variable {f : Mem → Nat} {P : Nat}

theorem pure {p : Nat} {a : α} {s : MSt} {Q : α → Nat → MSt → Prop} (h : Q a p s) : Pays f P p (Pure.pure a) s Q :=
  fun hp => ⟨fun b s' h1 => by cases h1; exact ⟨p, hp, Nat.le_refl _, h⟩, fun e s' h1 => by cases h1⟩

theorem fail {p : Nat} {e : Exn} {s : MSt} {Q : α → Nat → MSt → Prop} : Pays f P p (M.fail e : M α) s Q :=
  fun hp => ⟨fun b s' h1 => (by cases h1), fun e s' h1 => by cases h1; omega⟩
theorem err {p : Nat} {e : Err} {s : MSt} {Q : α → Nat → MSt → Prop} : Pays f P p (M.err e : M α) s Q := fail

theorem bind {p : Nat} {x : M α} {g : α → M β} {s : MSt} {Q : β → Nat → MSt → Prop}
    (h : Pays f P p x s fun a c s' => Pays f P c (g a) s' Q) : Pays f P p (x >>= g) s Q := by
  intro hp
  obtain ⟨h1, h2⟩ := h hp
  rw [M.bind_apply]
  rcases hr : x s with ⟨r, s1⟩
  cases r with
  | ok a =>
    obtain ⟨c, hc, h3, h4⟩ := h1 a s1 hr
    obtain ⟨h5, h6⟩ := h4 hc
    refine ⟨fun b s' hb => ?_, fun e s' he => ?_⟩
    · obtain ⟨d, hd, h7, h8⟩ := h5 b s' hb
      exact ⟨d, hd, by omega, h8⟩
    · have := h6 e s' he
      omega
  | error e =>
    refine ⟨fun b s' hb => (by cases hb), fun e' s' he => ?_⟩
    cases he
    exact h2 e s1 hr

theorem mono {p : Nat} {x : M α} {s : MSt} {Q R : α → Nat → MSt → Prop} (h : Pays f P p x s Q)
    (hq : ∀ a c s', Q a c s' → R a c s') : Pays f P p x s R := fun hp =>
  ⟨fun a s' h1 => (by obtain ⟨c, h2, h3, h4⟩ := (h hp).1 a s' h1; exact ⟨c, h2, h3, hq _ _ _ h4⟩), (h hp).2⟩

theorem failIf {p : Nat} {c : Prop} [Decidable c] {e : Exn} {g : Unit → M α} {s : MSt} {Q : α → Nat → MSt → Prop}
    (h : ¬ c → Pays f P p (g ()) s Q) : Pays f P p (M.failIf c e >>= g) s Q := by
  refine bind ?_
  unfold M.failIf
  split
  · exact fail
  · next hc => exact pure (h hc)

theorem ite {p : Nat} {c : Prop} [Decidable c] {x y : M α} {s : MSt} {Q : α → Nat → MSt → Prop} (h1 : Pays f P p x s Q)
    (h2 : Pays f P p y s Q) : Pays f P p (if c then x else y) s Q := by
  split
  · exact h1
  · exact h2

theorem cheap {p k D : Nat} {x : M α} {g : α → M β} {s : MSt} {Q : β → Nat → MSt → Prop} (hx : Cheap f k x)
    (hs : s.d.copyDepth = D) (hk : p + k ≤ P) (h : ∀ a s', s'.d.copyDepth = D → Pays f P (p + k) (g a) s' Q) :
    Pays f P p (x >>= g) s Q := by
  refine bind fun hp => ⟨fun a s' h1 => ?_, fun e s' h1 => ?_⟩
  · have h2 := hx s
    rw [h1] at h2
    have h3 := h2.2
    dsimp only at h3
    exact ⟨p + k, hk, by omega, h a s' (h2.1.trans hs)⟩
  · have h2 := (hx s).2
    rw [h1] at h2
    dsimp only at h2
    omega

/-- Something for free. -/
theorem free {p D : Nat} {x : M α} {g : α → M β} {s : MSt} {Q : β → Nat → MSt → Prop} (hx : Cheap f 0 x)
    (hs : s.d.copyDepth = D) (h : ∀ a s', s'.d.copyDepth = D → Pays f P p (g a) s' Q) : Pays f P p (x >>= g) s Q :=
  fun hp => cheap hx hs (by omega) h hp

theorem lift {p : Nat} {x : D α} {g : α → M β} {s : MSt} {Q : β → Nat → MSt → Prop}
    (h : Spec x s.d (fun a d => Pays f P p (g a) { s with d := d } Q) fun _ _ => True) : Pays f P p (M.lift x >>= g) s Q := by
  refine bind fun hp => ⟨fun a s' h1 => ?_, fun e s' h1 => ?_⟩
  · unfold M.lift at h1
    rcases hr : x s.d with ⟨r, d⟩
    rw [hr] at h1
    cases h1
    exact ⟨p, hp, Nat.le_refl _, h.1 a d hr⟩
  · unfold M.lift at h1
    rcases hr : x s.d with ⟨r, d⟩
    rw [hr] at h1
    cases h1
    exact Nat.add_le_add_left hp _

theorem liftEnd {p : Nat} {x : D α} {s : MSt} {Q : α → Nat → MSt → Prop}
    (h : Spec x s.d (fun a d => Q a p { s with d := d }) fun _ _ => True) : Pays f P p (M.lift x) s Q := by
  refine fun hp => ⟨fun a s' h1 => ?_, fun e s' h1 => ?_⟩
  · unfold M.lift at h1
    rcases hr : x s.d with ⟨r, d⟩
    rw [hr] at h1
    cases h1
    exact ⟨p, hp, Nat.le_refl _, h.1 a d hr⟩
  · unfold M.lift at h1
    rcases hr : x s.d with ⟨r, d⟩
    rw [hr] at h1
    cases h1
    exact Nat.add_le_add_left hp _

end Pays

/-- The position is between `i` and `L`, and it pays for what was made, except for `e`. -/
def Paid (L w D e i : Nat) (k c : Nat) (s : MSt) : Prop := i ≤ k ∧ k ≤ L ∧ c + e ≤ w * k ∧ s.d.copyDepth = D

/-- Recursive calls pay. -/
def PaysRec (f : Mem → Nat) (K L w D : Nat) (rec : MRec) : Prop :=
  ∀ i t p e s, t.ty.ptrs ≤ K → i ≤ L → p + e ≤ w * i → s.d.copyDepth = D → Pays f (w * L) p (rec i t) s (Paid L w D e (i + 1))

theorem Paid.le {L w D e i j k c : Nat} {s : MSt} (h : Paid L w D e j k c s) (hij : i ≤ j) : Paid L w D e i k c s :=
  ⟨Nat.le_trans hij h.1, h.2⟩

theorem pay_step {w i j p e : Nat} (h : p + e ≤ w * i) (hij : i < j) : p + (e + w) ≤ w * j := by
  have := Nat.mul_le_mul_left w (Nat.succ_le_of_lt hij)
  rw [Nat.mul_succ] at this
  omega

theorem pay_le {w i j p e : Nat} (h : p + e ≤ w * i) (hij : i ≤ j) : p + e ≤ w * j :=
  Nat.le_trans h (Nat.mul_le_mul_left w hij)

section
variable {f : Mem → Nat} (hf : Gauge f) {K w D : Nat} {cfg : DCfg} {tc : TCfg} {buf : Bytes} {rec : MRec}
  (hrec : PaysRec f K buf.length w D rec)

theorem pays_fresh {p e i : Nat} {g : Nat × Val → M Nat} {s : MSt} {Q : Nat → Nat → MSt → Prop} (hi : i ≤ buf.length)
    (hp : p + e ≤ w * i) (hs : s.d.copyDepth = D)
    (h : ∀ j v s', i < j → j ≤ buf.length → p + e ≤ w * j → s'.d.copyDepth = D → Pays f (w * buf.length) p (g (j, v)) s' Q) :
    Pays f (w * buf.length) p (M.lift (decodeFresh cfg buf i) >>= g) s Q := by
  refine Pays.lift (Spec.mono (decodeFresh_reads' hi hs) ?_ fun _ _ _ => trivial)
  rintro ⟨j, v⟩ d ⟨h1, h2, h3⟩
  exact h j v _ h1 h2 (pay_le hp (Nat.le_of_lt h1)) h3

theorem pays_stringish {p e i : Nat} {g : Bytes × Nat → M Nat} {s : MSt} {Q : Nat → Nat → MSt → Prop}
    (hp : p + e ≤ w * i) (hs : s.d.copyDepth = D)
    (h : ∀ k j s', i < j → j ≤ buf.length → p + (e + w) ≤ w * j → s'.d.copyDepth = D → Pays f (w * buf.length) p (g (k, j)) s' Q) :
    Pays f (w * buf.length) p (M.lift (decodeStringish buf i) >>= g) s Q := by
  refine Pays.lift (Spec.alone (Spec.stringish (fun _ _ _ => trivial) fun k j d h1 h2 _ h3 _ _ _ => Spec.pure ?_))
  exact h k j _ h1 h2 (pay_step hp h1) (h3.trans hs)

theorem pays_class {p e i : Nat} {b : Bool} {g : Bytes × Nat → M Nat} {s : MSt} {Q : Nat → Nat → MSt → Prop} (hi : i ≤ buf.length)
    (hp : p + e ≤ w * i) (hs : s.d.copyDepth = D)
    (h : ∀ k j s', i < j → j ≤ buf.length → p + e ≤ w * j → s'.d.copyDepth = D → Pays f (w * buf.length) p (g (k, j)) s' Q) :
    Pays f (w * buf.length) p (M.lift (decodeClassName buf i b) >>= g) s Q := by
  refine Pays.lift (Spec.alone (Spec.className hi (fun _ _ _ => trivial) fun k j d h1 h2 _ h3 _ _ _ => Spec.pure ?_))
  exact h k j _ h1 h2 (pay_le hp (Nat.le_of_lt h1)) (h3.trans hs)

theorem pays_varint {p e i : Nat} {g : Int × Nat → M Nat} {s : MSt} {Q : Nat → Nat → MSt → Prop} (hi : i ≤ buf.length)
    (hp : p + e ≤ w * i) (hs : s.d.copyDepth = D)
    (h : ∀ n sz, i + sz ≤ buf.length → p + e ≤ w * (i + sz) → Pays f (w * buf.length) p (g (n, sz)) s Q) :
    Pays f (w * buf.length) p (M.lift (varintAt buf i) >>= g) s Q := by
  refine Pays.lift (Spec.alone (Spec.varintAt hi trivial fun n sz h1 h2 _ => Spec.pure ?_))
  exact h _ sz h2 (pay_le hp (by omega))

theorem pays_binary {p e i : Nat} {ln : Int} {g : Bytes × Nat → M Nat} {s : MSt} {Q : Nat → Nat → MSt → Prop} (hi : i ≤ buf.length)
    (hp : p + e ≤ w * i) (hs : s.d.copyDepth = D)
    (h : ∀ t j s', i ≤ j → j ≤ buf.length → p + e ≤ w * j → s'.d.copyDepth = D → Pays f (w * buf.length) p (g (t, j)) s' Q) :
    Pays f (w * buf.length) p (M.lift (decodeBinary buf i ln) >>= g) s Q := by
  refine Pays.lift (Spec.alone (Spec.binary hi (fun _ => trivial) fun t j h1 h2 => Spec.pure ?_))
  exact h t j _ h1 h2 (pay_le hp h1) hs

/-- Something with a price, and the end. -/
theorem pays_end {p e q k i j : Nat} {x : M Unit} {s : MSt} (hx : Cheap f k x) (hk : k ≤ q) (hi : i ≤ j) (hj : j ≤ buf.length)
    (hp : p + (e + q) ≤ w * j) (hs : s.d.copyDepth = D) :
    Pays f (w * buf.length) p (x >>= fun _ => Pure.pure j) s (Paid buf.length w D e i) := by
  refine Pays.cheap hx hs ?_ fun _ s' hs' => Pays.pure ⟨hi, hj, by omega, hs'⟩
  have := Nat.mul_le_mul_left w hj
  omega

include hf hrec

omit hf in
theorem pays_elems {t : Target} (ht : t.ty.ptrs ≤ K) (e len n k i p : Nat) (s : MSt) (hi : i ≤ buf.length) (hp : p + e ≤ w * i)
    (hs : s.d.copyDepth = D) :
    Pays f (w * buf.length) p (elemsMem cfg buf rec t len n k i) s (Paid buf.length w D e i) := by
  induction n generalizing k i p s with
  | zero => exact Pays.pure ⟨Nat.le_refl _, hi, hp, hs⟩
  | succ n ih =>
    have next : ∀ {t' : Target}, t'.ty.ptrs ≤ K → ∀ s' : MSt, s'.d.copyDepth = D → Pays f (w * buf.length) p
        (rec i t' >>= fun j => elemsMem cfg buf rec t len n (k + 1) j) s' (Paid buf.length w D e i) := by
      intro t' ht' s' hs'
      refine Pays.bind (Pays.mono (hrec i t' p e s' ht' hi hp hs') ?_)
      rintro j c s1 ⟨h1, h2, h3, h4⟩
      exact Pays.mono (ih (k + 1) j c s1 h2 h3 h4) fun _ _ _ h => h.le (by omega)
    unfold elemsMem
    refine Pays.ite ?_ ?_
    · split
      · next e' hty =>
        refine Pays.free (Cheap.read t) hs fun v s1 hs1 => ?_
        split
        · exact Pays.failIf fun _ => next (by rw [hty] at ht; exact ht) s1 hs1
        · exact Pays.fail
      · next m e' hty => exact next (by rw [hty] at ht; exact ht) s hs
      · exact Pays.fail
    · refine pays_fresh hi hp hs fun j v s1 h1 h2 h3 h4 => ?_
      exact Pays.mono (ih (k + 1) j p s1 h2 h3 h4) fun _ _ _ h => h.le (by omega)

theorem pays_array {t : Target} (ht : t.ty.ptrs ≤ K) (e i p : Nat) (ln : Int) (s : MSt) (hi : i ≤ buf.length)
    (hp : p + (e + 1) ≤ w * i) (hs : s.d.copyDepth = D) :
    Pays f (w * buf.length) p (arrayMem cfg buf rec i ln t) s (Paid buf.length w D e i) := by
  have hP : w * i ≤ w * buf.length := Nat.mul_le_mul_left w hi
  unfold arrayMem
  refine Pays.failIf fun _ => Pays.failIf fun _ => ?_
  split
  · have rest : ∀ q s', q ≤ p + 1 → s'.d.copyDepth = D → Pays f (w * buf.length) q
        (t.read >>= fun v => elemsMem cfg buf rec t v.len ln.toNat 0 i) s' (Paid buf.length w D e i) :=
      fun q s' hq hs' => Pays.free (Cheap.read t) hs' fun v s1 hs1 => pays_elems hrec ht e _ _ _ _ _ s1 hi (by omega) hs1
    refine Pays.free (Cheap.read t) hs fun v s1 hs1 => Pays.ite ?_ (rest _ _ (by omega) hs1)
    exact Pays.cheap (Cheap.makeSlice hf _ _) hs1 (by omega) fun _ s2 hs2 => rest _ _ (Nat.le_refl _) hs2
  · exact pays_elems hrec ht e _ _ _ _ _ s hi (by omega) hs
  · exact Pays.err

theorem pays_entries (hw : 2 ≤ w) {e' : Ty} (he : e'.ptrs ≤ K) (t : Target) (e n i p : Nat) (s : MSt) (hi : i ≤ buf.length)
    (hp : p + e ≤ w * i) (hs : s.d.copyDepth = D) :
    Pays f (w * buf.length) p (entriesMem buf rec e' t n i) s (Paid buf.length w D e i) := by
  induction n generalizing i p s with
  | zero => exact Pays.pure ⟨Nat.le_refl _, hi, hp, hs⟩
  | succ n ih =>
    unfold entriesMem
    refine pays_stringish hp hs fun key j s1 h1 h2 h3 h4 => Pays.free (Cheap.lookup t _) h4 fun o s2 hs2 => ?_
    have hP := Nat.mul_le_mul_left w h2
    split
    · refine Pays.bind (Pays.mono (hrec j _ p e s2 he h2 (by omega) hs2) ?_)
      rintro k c s3 ⟨h5, h6, h7, h8⟩
      exact Pays.mono (ih k c s3 h6 h7 h8) fun _ _ _ h => h.le (by omega)
    · refine Pays.cheap (Cheap.newVar hf _) hs2 (by omega) fun l s3 hs3 => ?_
      refine Pays.bind (Pays.mono (hrec j _ (p + 1) (e + 1) s3 he h2 (by omega) hs3) ?_)
      rintro k c s4 ⟨h5, h6, h7, h8⟩
      have hP2 := Nat.mul_le_mul_left w h6
      refine Pays.free (Cheap.read _) h8 fun v s5 hs5 => Pays.cheap (Cheap.insert hf _ _ _) hs5 (by omega) fun _ s6 hs6 => ?_
      exact Pays.mono (ih k (c + 1) s6 h6 (by omega) hs6) fun _ _ _ h => h.le (by omega)

omit hf in
theorem pays_fields {fs : List TField} (hfs : ∀ x ∈ fs, x.ty.ptrs ≤ K) (t : Target) (e n i p : Nat) (s : MSt) (hi : i ≤ buf.length)
    (hp : p + e ≤ w * i) (hs : s.d.copyDepth = D) :
    Pays f (w * buf.length) p (fieldsMem cfg tc buf rec fs t n i) s (Paid buf.length w D e i) := by
  induction n generalizing i p s with
  | zero => exact Pays.pure ⟨Nat.le_refl _, hi, hp, hs⟩
  | succ n ih =>
    unfold fieldsMem
    refine pays_stringish hp hs fun key j s1 h1 h2 h3 h4 => ?_
    dsimp only
    split
    · split
      · next x hx =>
        refine Pays.bind (Pays.mono (hrec j _ p e s1 (hfs x (List.mem_of_getElem? hx)) h2 (by omega) h4) ?_)
        rintro k c s3 ⟨h5, h6, h7, h8⟩
        exact Pays.mono (ih k c s3 h6 h7 h8) fun _ _ _ h => h.le (by omega)
      · exact Pays.fail
    · refine pays_fresh h2 (e := e) (by omega) h4 fun k v s2 h5 h6 h7 h8 => ?_
      exact Pays.mono (ih k p s2 h6 h7 h8) fun _ _ _ h => h.le (by omega)

theorem pays_hash (hw : 2 ≤ w) (hfs : ∀ id, ∀ x ∈ (tc.types id).fields, x.ty.ptrs ≤ K) (e i n : Nat) (hi : i ≤ buf.length) (ty : Ty) :
    ∀ (t : Target) (p : Nat) (s : MSt), ty.ptrs ≤ K → p + (e + ty.ptrs + 1) ≤ w * i → s.d.copyDepth = D →
      Pays f (w * buf.length) p (hashMem cfg tc buf rec i n ty t) s (Paid buf.length w D e i) := by
  have hP := Nat.mul_le_mul_left w hi
  induction ty with
  | map e' =>
    intro t p s hk hp hs
    unfold hashMem
    have hk' : e'.ptrs ≤ K := hk
    refine Pays.free (Cheap.read t) hs fun v s1 hs1 => Pays.ite ?_ (pays_entries hf hrec hw hk' t e n i p s1 hi (by omega) hs1)
    refine Pays.cheap (Cheap.newMap hf) hs1 (by omega) fun m s2 hs2 => Pays.free (Cheap.write hf _ _) hs2 fun _ s3 hs3 => ?_
    exact pays_entries hf hrec hw hk' t e n i (p + 1) s3 hi (by omega) hs3
  | ptr e' ih =>
    intro t p s hk hp hs
    simp only [Ty.ptrs] at hk hp
    unfold hashMem
    exact Pays.cheap (Cheap.deref hf _ _) hs (by omega) fun t' s1 hs1 => ih t' (p + 1) s1 (by omega) (by omega) hs1
  | strct id =>
    intro t p s hk hp hs
    unfold hashMem
    exact pays_fields hrec (hfs id) _ e _ _ _ s hi (by omega) hs
  | _ => intro t p s hk hp hs; unfold hashMem; exact Pays.err

theorem pays_checkedHash (hw : 2 ≤ w) (hfs : ∀ id, ∀ x ∈ (tc.types id).fields, x.ty.ptrs ≤ K) {t : Target} (ht : t.ty.ptrs ≤ K)
    (e i p : Nat) (ln : Int) (s : MSt) (hi : i ≤ buf.length) (hp : p + (e + K + 1) ≤ w * i) (hs : s.d.copyDepth = D) :
    Pays f (w * buf.length) p (checkedHashMem cfg tc buf rec i ln t) s (Paid buf.length w D e i) := by
  unfold checkedHashMem
  refine Pays.lift (Spec.alone ?_)
  unfold checkHash
  refine Spec.bind (Spec.failIf (fun _ => trivial) fun _ => ?_)
  refine Spec.alone (Spec.failIf (fun _ => trivial) fun _ => Spec.pure (Spec.pure ?_))
  exact pays_hash hf hrec hw hfs e i _ hi _ _ _ _ ht (by omega) hs

omit hrec in
theorem pays_refp (t : Target) (e i p : Nat) (b : Bool) (s : MSt) (hi : i ≤ buf.length) (hp : p + e ≤ w * i) (hs : s.d.copyDepth = D) :
    Pays f (w * buf.length) p (refpMem cfg buf i b t) s (Paid buf.length w D e i) := by
  unfold refpMem
  refine pays_varint hi hp hs fun n sz h1 h2 => Pays.failIf fun _ => ?_
  have fin : ∀ {x : M Unit} (s' : MSt), Cheap f 0 x → s'.d.copyDepth = D →
      Pays f (w * buf.length) p (x >>= fun _ => Pure.pure (i + sz)) s' (Paid buf.length w D e i) :=
    fun s' hx hs' => pays_end hx (Nat.le_refl _) (by omega) h1 h2 hs'
  refine Pays.free (x := M.get) (fun _ => ⟨rfl, Nat.le_refl _⟩) hs fun st s1 hs1 => ?_
  dsimp only
  split
  · exact Pays.ite Pays.err Pays.err
  · split
    · refine Pays.ite (Pays.free (Cheap.read _) hs1 fun v s2 hs2 => ?_)
        (Pays.free (Cheap.readLoc _) hs1 fun v s2 hs2 => fin _ (Cheap.fromAny hf _ _ _ _ _) hs2)
      split
      · refine Pays.ite (fin _ (Cheap.fromAny hf _ _ _ _ _) hs2) ?_
        exact Pays.free (Cheap.failIf _) hs2 fun _ s3 hs3 => fin _ (Cheap.assign hf _ _ _) hs3
      · exact Pays.free (Cheap.failIf _) hs2 fun _ s3 hs3 => fin _ (Cheap.assign hf _ _ _) hs3
    · exact Pays.free (Cheap.readLoc _) hs1 fun v s2 hs2 => fin _ (Cheap.fromAny hf _ _ _ _ _) hs2

omit hrec in
theorem pays_freeze (t : Target) (e i p : Nat) (b : Bool) (s : MSt) (hi : i ≤ buf.length) (hp : p + (e + 2) ≤ w * i)
    (hs : s.d.copyDepth = D) :
    Pays f (w * buf.length) p (freezeMem cfg tc buf i t b) s (Paid buf.length w D e i) := by
  unfold freezeMem
  refine pays_class hi hp hs fun cls j s1 h1 h2 h3 h4 => ?_
  dsimp only
  refine Pays.failIf fun hlt => ?_
  refine Pays.lift (Spec.alone (Spec.byteAt (by omega) fun _ => Spec.pure ?_))
  refine Pays.lift (Spec.alone (Spec.byteAt (by omega) fun _ => Spec.pure ?_))
  refine Pays.failIf fun _ => ?_
  refine pays_fresh h2 h3 h4 fun k v s2 h5 h6 h7 h8 => ?_
  have hP := Nat.mul_le_mul_left w h6
  dsimp only
  split
  · refine Pays.failIf fun _ => Pays.free (Cheap.readLoc _) h8 fun u s3 hs3 => ?_
    split
    · refine Pays.ite ?_ ?_
      · exact Pays.free (Cheap.allocVar _) hs3 fun _ s4 hs4 => pays_end (Cheap.setPerl hf _ _) (Nat.zero_le 2) (by omega) h6 (by omega) hs4
      · refine Pays.cheap (Cheap.unmarshal hf _ _ _) hs3 (by omega) fun u s4 hs4 => Pays.ite (Pays.pure ⟨by omega, h6, by omega, hs4⟩) ?_
        refine Pays.free (Cheap.read _) hs4 fun u s5 hs5 => Pays.ite ?_ Pays.err
        exact pays_end (q := 1) (Cheap.makeSlice hf _ _) (Nat.le_refl _) (by omega) h6 (by omega) hs5
    · exact Pays.err
  · exact Pays.err

/-- The `switch`, after the tag at `i`. -/
theorem pays_body (hw : K + 2 ≤ w) (hfs : ∀ id, ∀ x ∈ (tc.types id).fields, x.ty.ptrs ≤ K)
    (hcopy : D = 0 → ∀ i t s, t.ty.ptrs ≤ K → i ≤ buf.length → s.d.copyDepth = 1 →
      f (rec i t s).2.mem ≤ f s.mem + w ∧ ∀ a, (rec i t s).1 = .ok a → (rec i t s).2.d.copyDepth = 1)
    {t : Target} (ht : t.ty.ptrs ≤ K) (c : TagC) (e i tag p : Nat) (s : MSt) (hi : i ≤ buf.length) (hp : p + (e + w) ≤ w * i)
    (hs : s.d.copyDepth = D) :
    Pays f (w * buf.length) p (memC cfg tc buf rec c i t tag) s (Paid buf.length w D e i) := by
  have hP := Nat.mul_le_mul_left w hi
  have fin : ∀ {x : M Unit} {k : Nat} (s' : MSt) (j : Nat), Cheap f k x → k ≤ 1 → i ≤ j → j ≤ buf.length → s'.d.copyDepth = D →
      Pays f (w * buf.length) p (x >>= fun _ => Pure.pure j) s' (Paid buf.length w D e i) :=
    fun s' j hx hk hij hj hs' => pays_end hx (Nat.le_trans hk (by omega : 1 ≤ w)) hij hj (pay_le hp hij) hs'
  have back : ∀ (j : Nat) (s' : MSt), i ≤ j → j ≤ buf.length → s'.d.copyDepth = D →
      Pays f (w * buf.length) p (rec j t) s' (Paid buf.length w D e i) := fun j s' hij hj hs' =>
    Pays.mono (hrec j t p e s' ht hj (by have := pay_le hp hij; omega) hs') fun _ _ _ h => h.le (by omega)
  have inner : ∀ (v : Val) (k : Nat) (s' : MSt), i ≤ k → k ≤ buf.length → s'.d.copyDepth = D →
      v = .weak .nil ∨ (∃ cls, v = .obj cls .nil) → Pays f (w * buf.length) p (do
        let a ← M.lift (allocVar v)
        t.setPerl (.ptr false a)
        M.lift (decode cfg buf (fuelFor buf.length) k (.field a))) s' (Paid buf.length w D e i) := by
    intro v k s' hk hk2 hs' hv
    refine Pays.lift (Spec.alone (Spec.step (allocVar_apply _ _) (Spec.pure ?_)))
    refine Pays.bind fun hpP => ?_
    have h1 := Cheap.setPerl hf t (.ptr false s'.d.heap.next) { s' with d := { s'.d with heap := (s'.d.heap.alloc (.cell v)).2 } }
    have h2 := mset_perl (A := False) t (.ptr false s'.d.heap.next) { s' with d := { s'.d with heap := (s'.d.heap.alloc (.cell v)).2 } }
    refine ⟨fun a s2 h3 => ⟨p, hpP, ?_, ?_⟩, fun er s2 h3 => ?_⟩
    · have := h1.2
      erw [h3] at this
      exact Nat.add_le_add_right this _
    · have hd := h2.1 _ _ h3
      dsimp only at hd
      refine Pays.liftEnd (Spec.mono (decode_any cfg buf k _ _ hk2 ?_ ?_) ?_ fun _ _ _ => trivial)
      · rw [hd]; simp [Heap.alloc, Loc.addr]
      · rw [hd]
        rcases hv with rfl | ⟨cls, rfl⟩ <;> simp [Heap.alloc, Heap.read, Heap.cellAt, Heap.set]
      · rintro j d ⟨h4, h5, h6⟩
        refine ⟨by omega, h5, ?_, ?_⟩
        · have := pay_le hp (show i ≤ j by omega)
          omega
        · show d.copyDepth = D
          rw [h6, hd]; exact hs'
    · have := h1.2
      erw [h3] at this
      dsimp only at this ⊢
      omega
  cases c with
  | int n => exact fin _ _ (Cheap.setInt hf _ _) (Nat.zero_le _) (Nat.le_refl _) hi hs
  | varint => exact pays_varint hi hp hs fun n sz h1 h2 => fin _ _ (Cheap.setInt hf _ _) (Nat.zero_le _) (by omega) h1 hs
  | zigzag => exact pays_varint hi hp hs fun n sz h1 h2 => fin _ _ (Cheap.setInt hf _ _) (Nat.zero_le _) (by omega) h1 hs
  | float =>
    exact Pays.lift (Spec.alone (Spec.float (fun _ => trivial) fun t h2 =>
      Spec.pure (fin _ _ (Cheap.setFloat hf _ _ _) (Nat.zero_le _) (by omega) h2 hs)))
  | double =>
    exact Pays.lift (Spec.alone (Spec.double (fun _ => trivial) fun t h2 =>
      Spec.pure (fin _ _ (Cheap.setFloat hf _ _ _) (Nat.zero_le _) (by omega) h2 hs)))
  | true_ => exact fin _ _ (Cheap.setBool hf _ _) (Nat.zero_le _) (Nat.le_refl _) hi hs
  | false_ => exact fin _ _ (Cheap.setBool hf _ _) (Nat.zero_le _) (Nat.le_refl _) hi hs
  | binary =>
    exact pays_varint hi hp hs fun n sz h1 h2 => pays_binary h1 h2 hs fun _ j s1 h3 h4 h5 h6 =>
      fin _ _ (Cheap.setBinary hf _ _) (Nat.le_refl _) (by omega) h4 h6
  | short n => exact pays_binary hi hp hs fun _ j s1 h3 h4 h5 h6 => fin _ _ (Cheap.setBinary hf _ _) (Nat.le_refl _) (by omega) h4 h6
  | strUtf8 =>
    exact pays_varint hi hp hs fun n sz h1 h2 => pays_binary h1 h2 hs fun _ j s1 h3 h4 h5 h6 =>
      fin _ _ (Cheap.setString hf _ _) (Nat.zero_le _) (by omega) h4 h6
  | hash =>
    exact pays_varint hi hp hs fun n sz h1 h2 =>
      Pays.mono (pays_checkedHash hf hrec (by omega) hfs ht e _ _ _ s h1 (by omega) hs) fun _ _ _ h => h.le (by omega)
  | hashref n => exact pays_checkedHash hf hrec (by omega) hfs ht e _ _ _ s hi (by omega) hs
  | array =>
    exact pays_varint hi hp hs fun n sz h1 h2 =>
      Pays.mono (pays_array hf hrec ht e _ _ _ s h1 (by omega) hs) fun _ _ _ h => h.le (by omega)
  | arrayref n => exact pays_array hf hrec ht e _ _ _ s hi (by omega) hs
  | undef => exact fin _ _ (Cheap.undef hf _ _ _) (Nat.zero_le _) (Nat.le_refl _) hi hs
  | cundef => exact fin _ _ (Cheap.undef hf _ _ _) (Nat.zero_le _) (Nat.le_refl _) hi hs
  | copy =>
    refine Pays.bind (Pays.mono (Q := fun a c s' => c = p ∧ a = s ∧ s' = s)
      (fun hpP => ⟨fun a s' h => by cases h; exact ⟨p, hpP, Nat.le_refl _, rfl, rfl, rfl⟩, fun er s' h => by cases h⟩) ?_)
    rintro a c s1 ⟨rfl, rfl, rfl⟩
    refine Pays.failIf fun h0 => pays_varint hi hp hs fun n sz h1 h2 => ?_
    dsimp only
    refine Pays.failIf fun h3 => ?_
    have hD : D = 0 := by omega
    have hc := hcopy hD n.toNat t { s1 with d := { s1.d with copyDepth := s1.d.copyDepth + 1 } } ht (by omega)
      (by show s1.d.copyDepth + 1 = 1; omega)
    refine Pays.bind fun hpP => ?_
    unfold withCopyMem
    rcases hr : rec n.toNat t { s1 with d := { s1.d with copyDepth := s1.d.copyDepth + 1 } } with ⟨r, s2⟩
    rw [hr] at hc
    dsimp only at hc
    cases r with
    | ok k =>
      refine ⟨fun a s' h => ?_, fun er s' h => by cases h⟩
      cases h
      have hd := hc.2 _ rfl
      refine ⟨c + w, by omega, by have := hc.1; dsimp only; omega, Pays.pure ⟨by omega, h1, by omega, ?_⟩⟩
      show s2.d.copyDepth - 1 = D
      omega
    | error er =>
      have hm := hc.1
      refine ⟨fun a s' h => ?_, fun er' s' h => ?_⟩
      · cases er <;> cases h
      · cases er <;> cases h <;> (first | omega | (dsimp only; omega))
  | refn => exact back _ _ (Nat.le_refl _) hi hs
  | refp => exact pays_refp hf _ e _ _ _ s hi (by omega) hs
  | alias => exact pays_refp hf _ e _ _ _ s hi (by omega) hs
  | weaken => exact Pays.ite (inner _ _ s (Nat.le_refl _) hi hs (.inl rfl)) (back _ _ (Nat.le_refl _) hi hs)
  | regexp =>
    refine Pays.lift ?_
    unfold decodeRegexp
    refine Spec.stringish (fun _ _ _ => trivial) fun a j s1 h1 h2 _ h3 _ _ _ => ?_
    dsimp only
    refine Spec.stringish (fun _ _ _ => trivial) fun m k s2 h4 h5 _ h6 _ _ _ => ?_
    dsimp only
    refine Spec.pure (Pays.free (Cheap.allocVar _) (h6.trans (h3.trans hs)) fun _ s3 hs3 => ?_)
    exact fin _ _ (Cheap.setPerl hf _ _) (Nat.zero_le _) (Nat.le_of_lt (Nat.lt_trans h1 h4)) h5 hs3
  | object =>
    refine pays_class hi hp hs fun cls j s1 h1 h2 h3 h4 => ?_
    dsimp only
    exact Pays.ite (inner _ _ s1 (by omega) h2 h4 (.inr ⟨_, rfl⟩)) (back _ _ (by omega) h2 h4)
  | objectv =>
    refine pays_class hi hp hs fun cls j s1 h1 h2 h3 h4 => ?_
    dsimp only
    exact Pays.ite (inner _ _ s1 (by omega) h2 h4 (.inr ⟨_, rfl⟩)) (back _ _ (by omega) h2 h4)
  | freeze => exact pays_freeze hf _ e _ _ _ s hi (by omega) hs
  | freezev => exact pays_freeze hf _ e _ _ _ s hi (by omega) hs
  | pad => exact Pays.err
  | other => exact Pays.err

end

section
variable {f : Mem → Nat} (hf : Gauge f) {K : Nat} (cfg : DCfg) {tc : TCfg} (buf : Bytes)
  (hfs : ∀ id, ∀ x ∈ (tc.types id).fields, x.ty.ptrs ≤ K)
include hf hfs

theorem pays_decode {w D : Nat} (hw : K + 2 ≤ w)
    (hcopy : D = 0 → ∀ n i t s, t.ty.ptrs ≤ K → i ≤ buf.length → s.d.copyDepth = 1 →
      f (decodeMem cfg tc buf n i t s).2.mem ≤ f s.mem + w ∧
      ∀ a, (decodeMem cfg tc buf n i t s).1 = .ok a → (decodeMem cfg tc buf n i t s).2.d.copyDepth = 1) (n : Nat) :
    PaysRec f K buf.length w D (decodeMem cfg tc buf n) := by
  induction n with
  | zero => intro i t p e s ht hi hp hs; exact Pays.fail
  | succ n ih =>
    intro i t p e s ht hi hp hs
    unfold decodeMem
    refine Pays.failIf fun hlt => Pays.free (Cheap.read t) hs fun v s1 hs1 => Pays.ite ?_ ?_
    · refine pays_fresh hi hp hs1 fun j u s2 h1 h2 h3 h4 => ?_
      dsimp only
      refine Pays.ite (Pays.free (Cheap.write hf _ _) h4 fun _ s3 hs3 => Pays.pure ⟨h1, h2, h3, hs3⟩) (Pays.pure ⟨h1, h2, h3, h4⟩)
    · refine Pays.lift (Spec.alone (Spec.skipPad trivial fun k b hb => Spec.pure ?_))
      have h1 := hb.lt
      have h2 := hb.le
      have rest : ∀ s' : MSt, s'.d.copyDepth = D → Pays f (w * buf.length) p
          (tagMem cfg tc buf (decodeMem cfg tc buf n) (b &&& ~~~ trackFlag) (k + 1) t) s' (Paid buf.length w D e (i + 1)) := by
        intro s' hs'
        rw [tagMem_eq _ _ _ _ _ _ _ (untracked_lt b)]
        exact Pays.mono (pays_body hf ih hw hfs (fun h => hcopy h n) ht _ e _ _ _ s' (by omega)
          (pay_step hp (by omega)) hs') fun _ _ _ h => h.le (by omega)
      dsimp only
      exact Pays.ite (Pays.free (Cheap.track _ _) hs1 fun _ s2 hs2 => rest s2 hs2) (rest _ hs1)

/-- The price of a document for a typed variable. -/
theorem decodeMem_price (n i : Nat) (t : Target) (s : MSt) (ht : t.ty.ptrs ≤ K) (hs : s.d.copyDepth = 0) :
    f (decodeMem cfg tc buf n i t s).2.mem ≤ f s.mem + (K + 2) * (buf.length + 1) * buf.length := by
  have run : ∀ {w D : Nat}, PaysRec f K buf.length w D (decodeMem cfg tc buf n) → i ≤ buf.length → ∀ s : MSt, s.d.copyDepth = D →
      f (decodeMem cfg tc buf n i t s).2.mem ≤ f s.mem + w * buf.length := by
    intro w D h hi s hs
    obtain ⟨h1, h2⟩ := h i t 0 0 s ht hi (Nat.zero_le _) hs (Nat.zero_le _)
    rcases hr : decodeMem cfg tc buf n i t s with ⟨r, s'⟩
    cases r with
    | ok a =>
      obtain ⟨c, h3, h4, -⟩ := h1 a s' hr
      dsimp only; omega
    | error e => have := h2 e s' hr; dsimp only; omega
  by_cases hi : i ≤ buf.length
  · have inside := fun n => pays_decode hf (tc := tc) cfg buf hfs (w := K + 2) (D := 1) (Nat.le_refl _) (fun h => by cases h) n
    have hw : (K + 2) * buf.length ≤ (K + 2) * (buf.length + 1) := Nat.mul_le_mul_left _ (Nat.le_succ _)
    have h0 : K + 2 ≤ (K + 2) * (buf.length + 1) := Nat.le_mul_of_pos_right _ (Nat.succ_pos _)
    refine run (pays_decode hf cfg buf hfs h0 (D := 0) (fun _ n i t s ht hi hs => ?_) n) hi s hs
    obtain ⟨h1, h2⟩ := inside n i t 0 0 s ht hi (Nat.zero_le _) hs (Nat.zero_le _)
    rcases hr : decodeMem cfg tc buf n i t s with ⟨r, s'⟩
    cases r with
    | ok a =>
      obtain ⟨c, h3, h4, h5⟩ := h1 a s' hr
      exact ⟨by dsimp only; omega, fun _ _ => h5.2.2.2⟩
    | error e =>
      have := h2 e s' hr
      exact ⟨by dsimp only; omega, fun _ h => by cases h⟩
  · cases n with
    | zero => exact Nat.le_add_right _ _
    | succ n =>
      unfold decodeMem
      rw [M.bind_apply]
      unfold M.failIf
      rw [if_pos (by omega : i ≥ buf.length)]
      exact Nat.le_add_right _ _

end
end Sereal
