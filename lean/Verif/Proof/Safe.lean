import Verif.Proof.Ext
/-
What holds after decode whether it succeeds or fails: no runtime error, no fuel exhaustion, bounded
work, copyDepth restored unless something panicked, only the target and fresh memory written.
-/
namespace Sereal

/-- Running `x` in `s` gives a result satisfying `Q` or a failure satisfying `E`. -/
def Spec (x : D α) (s : DState) (Q : α → DState → Prop) (E : Exn → DState → Prop) : Prop :=
  (∀ a s', x s = (.ok a, s') → Q a s') ∧ (∀ e s', x s = (.error e, s') → E e s')

section
variable {Q : α → DState → Prop} {E : Exn → DState → Prop}

theorem Spec.bind {x : D β} {f : β → D α} {s : DState}
    (h : Spec x s (fun b s1 => Spec (f b) s1 Q E) E) : Spec (x >>= f) s Q E := by
  constructor
  · intro a s' h1
    obtain ⟨b, s1, h2, h3⟩ := D.bind_ok.1 h1
    exact (h.1 _ _ h2).1 _ _ h3
  · intro e s' h1
    rcases D.bind_error.1 h1 with h2 | ⟨b, s1, h2, h3⟩
    · exact h.2 _ _ h2
    · exact (h.1 _ _ h2).2 _ _ h3

theorem Spec.step {x : D β} {f : β → D α} {s s1 : DState} {b : β} (hx : x s = (.ok b, s1))
    (h : Spec (f b) s1 Q E) : Spec (x >>= f) s Q E := by
  refine Spec.bind ⟨fun a s' h1 => ?_, fun e s' h1 => ?_⟩
  · rw [hx] at h1; cases h1; exact h
  · rw [hx] at h1; cases h1

theorem Spec.pure {a : α} {s : DState} (h : Q a s) : Spec (Pure.pure a) s Q E := by
  constructor
  · intro b s' h1; rw [D.pure_ok] at h1; obtain ⟨rfl, rfl⟩ := h1; exact h
  · intro e s' h1; rw [D.pure_apply] at h1; cases h1

theorem Spec.mono {Q' : α → DState → Prop} {E' : Exn → DState → Prop} {x : D α} {s : DState}
    (h : Spec x s Q' E') (hQ : ∀ a s', Q' a s' → Q a s') (hE : ∀ e s', E' e s' → E e s') :
    Spec x s Q E :=
  ⟨fun a s' h1 => hQ _ _ (h.1 a s' h1), fun e s' h1 => hE _ _ (h.2 e s' h1)⟩

theorem Spec.fail {e : Exn} {s : DState} (h : E e s) : Spec (D.fail e : D α) s Q E := by
  constructor
  · intro a s' h1; exact (D.fail_ok.1 h1).elim
  · intro e' s' h1; simp [D.fail] at h1; obtain ⟨rfl, rfl⟩ := h1; exact h

theorem Spec.err {e : Err} {s : DState} (h : E (.err e) s) : Spec (D.err e : D α) s Q E :=
  Spec.fail h

theorem Spec.failIf {f : Unit → D α} {c : Prop} [Decidable c] {e : Exn} {s : DState}
    (h1 : c → E e s) (h2 : ¬ c → Spec (f ()) s Q E) : Spec (D.failIf c e >>= f) s Q E := by
  refine Spec.bind ⟨fun u s' h => ?_, fun e' s' h => ?_⟩
  · obtain ⟨hc, rfl⟩ := D.failIf_ok.1 h; exact h2 hc
  · obtain ⟨hc, rfl, rfl⟩ := D.failIf_error.1 h; exact h1 hc

theorem Spec.ite {c : Prop} [Decidable c] {x y : D α} {s : DState} (h1 : c → Spec x s Q E)
    (h2 : ¬ c → Spec y s Q E) : Spec (if c then x else y) s Q E := by
  by_cases hc : c
  · rw [if_pos hc]; exact h1 hc
  · rw [if_neg hc]; exact h2 hc

theorem Spec.skipPad {f : Nat × UInt8 → D α} {buf : Bytes} {i : Nat} {s : DState}
    (h1 : E (.err .truncated) s) (h2 : ∀ k b, TagAt buf i k b → Spec (f (k, b)) s Q E) :
    Spec (D.lift (skipPad buf i) >>= f) s Q E := by
  refine Spec.bind ⟨fun p s' h => ?_, fun e s' h => ?_⟩
  · obtain ⟨h3, rfl⟩ := D.lift_ok.1 h; exact h2 _ _ (skipPad_ok.1 h3)
  · obtain ⟨h3, rfl⟩ := D.lift_error.1 h; rw [skipPad_error h3]; exact h1

theorem Spec.varintAt {f : Int × Nat → D α} {buf : Bytes} {i : Nat} {s : DState}
    (hi : i ≤ buf.length) (h1 : E (.err (.corrupt .badVarint)) s)
    (h2 : ∀ n sz, 0 < sz → i + sz ≤ buf.length → n < 2 ^ 64 → Spec (f (sgn n, sz)) s Q E) :
    Spec (varintAt buf i >>= f) s Q E := by
  refine Spec.bind ⟨fun p s' h => ?_, fun e s' h => ?_⟩
  · obtain ⟨rfl, n, h3, h4, h5⟩ := varintAt_ok_iff.1 (show Sereal.varintAt buf i s = (.ok (p.1, p.2), s') from h)
    have := h2 n p.2 (by have := h3.lt; omega) h3.le_length h5
    rwa [← h4] at this
  · obtain ⟨rfl, rfl⟩ := varintAt_error hi h; exact h1

theorem Spec.byteAt {f : UInt8 → D α} {buf : Bytes} {i : Nat} {s : DState}
    (hi : i < buf.length) (h2 : ∀ b, Spec (f b) s Q E) : Spec (byteAt buf i >>= f) s Q E :=
  Spec.step (byteAt_apply (List.getElem?_eq_getElem hi) s) (h2 _)

theorem Spec.sliceRange {f : Bytes → D α} {buf : Bytes} {i j : Nat} {s : DState}
    (h1 : i ≤ j) (hj : j ≤ buf.length)
    (h2 : Spec (f ((buf.drop i).take (j - i))) s Q E) : Spec (sliceRange buf i j >>= f) s Q E :=
  Spec.step (sliceRange_ok.2 ⟨h1, hj, rfl, rfl⟩) h2

end

/-- Counted work. -/
def DState.cost (s : DState) : Nat := s.steps + s.alloc

/-- The panic of the model that stands for code it does not cover. -/
def unmodelled : Exn := .panic "unmodelled: non-nil interface target"

/-- What is known after a failure: `c` is the copyDepth before, `B` the work allowed. -/
structure EOk (c B : Nat) (e : Exn) (s : DState) : Prop where
  crash : ∀ m, e ≠ .crash m
  fuel : e ≠ .fuel
  modelled : e ≠ unmodelled
  depth : ∀ er, e = .err er → s.copyDepth = c
  cost : s.cost ≤ B

theorem EOk.of_err {c B : Nat} {er : Err} {s : DState} (h1 : s.copyDepth = c) (h2 : s.cost ≤ B) :
    EOk c B (.err er) s :=
  ⟨by simp, by simp, by simp [unmodelled], fun _ _ => h1, h2⟩

theorem EOk.mono {c B B' : Nat} {e : Exn} {s : DState} (h : EOk c B e s) (hB : B ≤ B') :
    EOk c B' e s := ⟨h.crash, h.fuel, h.modelled, h.depth, Nat.le_trans h.cost hB⟩

/-! ### Frames -/

/-- Nothing was freed and only addresses satisfying `W` were written. -/
structure Frame (W : Addr → Prop) (h h' : Heap) : Prop where
  next : h.next ≤ h'.next
  same : ∀ a, a < h.next → ¬ W a → h'.mem a = h.mem a

theorem Frame.refl (W : Addr → Prop) (h : Heap) : Frame W h h := ⟨Nat.le_refl _, fun _ _ _ => rfl⟩

theorem Frame.trans {W W' : Addr → Prop} {h h1 h2 : Heap} (f1 : Frame W h h1) (f2 : Frame W' h1 h2)
    (hW : ∀ a, a < h.next → W' a → W a) : Frame W h h2 :=
  ⟨Nat.le_trans f1.next f2.next, fun a ha hw =>
    (f2.same a (Nat.lt_of_lt_of_le ha f1.next) (fun hw' => hw (hW a ha hw'))).trans (f1.same a ha hw)⟩

theorem Frame.mono {W W' : Addr → Prop} {h h' : Heap} (f : Frame W h h')
    (hW : ∀ a, a < h.next → W a → W' a) : Frame W' h h' :=
  ⟨f.next, fun a ha hw => f.same a ha (fun hw' => hw (hW a ha hw'))⟩

/-- The address of the variable (or of the struct containing it). -/
def Loc.addr : Loc → Addr
  | .cell a => a
  | .field a => a

theorem Heap.write_next (h : Heap) (l : Loc) (v : Val) : (h.write l v).next = h.next := by
  unfold Heap.write
  cases l with
  | cell a => rfl
  | field a => dsimp only; split <;> rfl

theorem Heap.write_mem (h : Heap) (l : Loc) (v : Val) (a : Addr) (ha : a ≠ l.addr) :
    (h.write l v).mem a = h.mem a := by
  unfold Heap.write
  cases l with
  | cell b => simp [Heap.set, Loc.addr] at *; exact fun h => absurd h ha
  | field b =>
    simp only [Loc.addr] at ha
    dsimp only; split <;> simp [Heap.set, ha]

theorem Frame.write (h : Heap) (l : Loc) (v : Val) : Frame (· = l.addr) h (h.write l v) :=
  ⟨Nat.le_of_eq (Heap.write_next ..).symm, fun a _ hw => h.write_mem l v a hw⟩

theorem Frame.alloc (W : Addr → Prop) (h : Heap) (o : HObj) : Frame W h (h.alloc o).2 :=
  ⟨by simp [Heap.alloc], fun a ha _ => by
    have : a ≠ h.next := Nat.ne_of_lt ha
    simp [Heap.alloc, Heap.set, this]⟩

theorem Frame.allocCells (W : Addr → Prop) (h : Heap) (n : Nat) : Frame W h (h.allocCells n).2 :=
  ⟨by simp [Heap.allocCells], fun a ha _ => by
    simp only [Heap.allocCells]
    rw [if_neg (fun hc => absurd hc.1 (Nat.not_le.2 ha))]⟩

theorem Frame.set (h : Heap) (a : Addr) (o : HObj) : Frame (· = a) h (h.set a o) :=
  ⟨Nat.le_refl _, fun b _ hb => by simp only [Heap.set]; rw [if_neg hb]⟩

theorem read_congr {h h' : Heap} {l : Loc} (e : h'.mem l.addr = h.mem l.addr) : h'.read l = h.read l := by
  cases l with
  | cell a =>
    simp only [Heap.read, Heap.cellAt]
    rw [show h'.mem a = h.mem a from e]
  | field a =>
    simp only [Heap.read, Heap.cellAt]
    rw [show h'.mem a = h.mem a from e]

theorem Frame.read {W : Addr → Prop} {h h' : Heap} (f : Frame W h h') {l : Loc}
    (hl : l.addr < h.next) (hw : ¬ W l.addr) : h'.read l = h.read l :=
  read_congr (f.same _ hl hw)

/-! ### Potential: the work still allowed at position `i` -/

def Pot (L C i : Nat) : Nat := C * (L + 1 - i)

theorem Pot.step {L C i j : Nat} (hi : i ≤ L) (hij : i < j) : Pot L C j + C ≤ Pot L C i := by
  unfold Pot
  have : C * (L + 1 - j) + C = C * ((L + 1 - j) + 1) := by rw [Nat.mul_add, Nat.mul_one]
  rw [this]
  exact Nat.mul_le_mul_left _ (by omega)

theorem Pot.mono {L C i j : Nat} (hij : i ≤ j) : Pot L C j ≤ Pot L C i := by
  unfold Pot
  exact Nat.mul_le_mul_left _ (by omega)

end Sereal
