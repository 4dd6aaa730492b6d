import Verif.Proof.Safe
/-
The failure and cost analysis of Safe.lean carried through every decode function.
-/
set_option linter.unusedVariables false
set_option linter.unusedSectionVars false
namespace Sereal

theorem Spec.withCopy {Q : α → DState → Prop} {E E' : Exn → DState → Prop} {x : D α} {s : DState}
    (h : Spec x { s with copyDepth := s.copyDepth + 1 }
      (fun a s1 => Q a { s1 with copyDepth := s1.copyDepth - 1 }) E')
    (h1 : ∀ er s1, E' (.err er) s1 → E (.err er) { s1 with copyDepth := s1.copyDepth - 1 })
    (h2 : ∀ e s1, E' e s1 → (∀ er, e ≠ .err er) → E e s1) : Spec (withCopy x) s Q E := by
  constructor
  · intro a s' hs
    obtain ⟨s1, h3, rfl⟩ := withCopy_ok.1 hs
    exact h.1 _ _ h3
  · intro e s' hs
    unfold Sereal.withCopy at hs
    split at hs
    · cases hs
    · rename_i er s1 hx
      cases hs
      exact h1 _ _ (h.2 _ _ hx)
    · rename_i e' s1 hne hx
      cases hs
      refine h2 _ _ (h.2 _ _ hx) ?_
      rintro er rfl
      exact hne er rfl

theorem stringishF_spec (buf : Bytes) (f i : Nat) (s : DState) (hf : 1 ≤ f ∨ s.copyDepth > 0) :
    Spec (decodeStringishF buf (f + 1) i) s
      (fun p s' => i < p.2 ∧ p.2 ≤ buf.length ∧ p.1.length ≤ buf.length ∧
        s'.copyDepth = s.copyDepth ∧ s'.cost ≤ s.cost + (f + 1) ∧ s'.heap = s.heap ∧
        s'.tracked = s.tracked)
      (EOk s.copyDepth (s.cost + (f + 1))) := by
  induction f generalizing i s with
  | zero =>
    have hcd : s.copyDepth > 0 := by omega
    have he : ∀ er, EOk s.copyDepth (s.cost + (0 + 1)) (.err er) { s with steps := s.steps + 1 } :=
      fun er => EOk.of_err rfl (by simp [DState.cost]; omega)
    unfold decodeStringishF
    refine Spec.step (tick_apply s) (Spec.skipPad (he _) fun k b htag => ?_)
    have hk := htag.lt
    have hik := htag.le
    dsimp only
    refine Spec.ite (fun _ => ?_) fun _ => Spec.ite (fun _ => ?_) fun _ => Spec.ite (fun _ => ?_)
      fun _ => Spec.err (he _)
    · refine Spec.varintAt (by omega) (he _) fun n sz hsz hle hn => ?_
      dsimp only
      refine Spec.failIf (fun _ => he _) fun _ => Spec.failIf (fun _ => he _) fun _ => ?_
      refine Spec.sliceRange (by omega) (by omega) (Spec.pure ⟨?_, ?_, ?_, rfl, ?_, rfl, rfl⟩)
      · dsimp only; omega
      · dsimp only; omega
      · simp; omega
      · simp [DState.cost]; omega
    · refine Spec.failIf (fun _ => he _) fun _ => ?_
      refine Spec.sliceRange (by omega) (by omega) (Spec.pure ⟨?_, ?_, ?_, rfl, ?_, rfl, rfl⟩)
      · dsimp only; omega
      · dsimp only; omega
      · simp; omega
      · simp [DState.cost]; omega
    · refine Spec.step (D.get_apply _) (Spec.failIf (fun _ => he _) fun hc => ?_)
      exact absurd hcd hc
  | succ f ih =>
    have he : ∀ er, EOk s.copyDepth (s.cost + (f + 1 + 1)) (.err er) { s with steps := s.steps + 1 } :=
      fun er => EOk.of_err rfl (by simp [DState.cost]; omega)
    unfold decodeStringishF
    refine Spec.step (tick_apply s) (Spec.skipPad (he _) fun k b htag => ?_)
    have hk := htag.lt
    have hik := htag.le
    dsimp only
    refine Spec.ite (fun _ => ?_) fun _ => Spec.ite (fun _ => ?_) fun _ => Spec.ite (fun _ => ?_)
      fun _ => Spec.err (he _)
    · refine Spec.varintAt (by omega) (he _) fun n sz hsz hle hn => ?_
      dsimp only
      refine Spec.failIf (fun _ => he _) fun _ => Spec.failIf (fun _ => he _) fun _ => ?_
      refine Spec.sliceRange (by omega) (by omega) (Spec.pure ⟨?_, ?_, ?_, rfl, ?_, rfl, rfl⟩)
      · dsimp only; omega
      · dsimp only; omega
      · simp; omega
      · simp [DState.cost]; omega
    · refine Spec.failIf (fun _ => he _) fun _ => ?_
      refine Spec.sliceRange (by omega) (by omega) (Spec.pure ⟨?_, ?_, ?_, rfl, ?_, rfl, rfl⟩)
      · dsimp only; omega
      · dsimp only; omega
      · simp; omega
      · simp [DState.cost]; omega
    · refine Spec.step (D.get_apply _) (Spec.failIf (fun _ => he _) fun hc => ?_)
      refine Spec.varintAt (by omega) (he _) fun n sz hsz hle hn => ?_
      dsimp only
      refine Spec.failIf (fun _ => he _) fun _ => Spec.bind ?_
      refine Spec.withCopy (Spec.mono (ih _ _ (Or.inr (by simp))) ?_ (fun _ _ h => h)) ?_ ?_
      · rintro ⟨t, j⟩ s1 ⟨h1, h2, h3, h4, h5, h6, h7⟩
        refine Spec.pure ⟨?_, ?_, h3, ?_, ?_, h6, h7⟩
        · dsimp only; omega
        · dsimp only; omega
        · dsimp only at h4 ⊢; rw [h4]; rfl
        · simp only [DState.cost] at h5 ⊢; omega
      · intro er s1 h
        refine EOk.of_err ?_ ?_
        · have := h.depth _ rfl; dsimp only at this ⊢; rw [this]; rfl
        · have := h.cost; simp only [DState.cost] at this ⊢; omega
      · intro e s1 h hne
        refine ⟨h.crash, h.fuel, h.modelled, fun er he => absurd he (hne er), ?_⟩
        have := h.cost; simp only [DState.cost] at this ⊢; omega

section
variable {Q : α → DState → Prop} {E : Exn → DState → Prop}

theorem Spec.stringish {f : Bytes × Nat → D α} {buf : Bytes} {i : Nat} {s : DState}
    (h1 : ∀ e s', EOk s.copyDepth (s.cost + 2) e s' → E e s')
    (h2 : ∀ t j s', i < j → j ≤ buf.length → t.length ≤ buf.length →
        s'.copyDepth = s.copyDepth → s'.cost ≤ s.cost + 2 → s'.heap = s.heap →
        s'.tracked = s.tracked → Spec (f (t, j)) s' Q E) :
    Spec (decodeStringish buf i >>= f) s Q E :=
  Spec.bind (Spec.mono (stringishF_spec buf 1 i s (Or.inl (Nat.le_refl _)))
    (fun p s' ⟨a, b, c, d, e, f, g⟩ => h2 p.1 p.2 s' a b c d e f g) (fun _ _ h => h1 _ _ h))

theorem Spec.className {f : Bytes × Nat → D α} {buf : Bytes} {i : Nat} {v : Bool} {s : DState}
    (hi : i ≤ buf.length)
    (h1 : ∀ e s', EOk s.copyDepth (s.cost + 2) e s' → E e s')
    (h2 : ∀ t j s', i < j → j ≤ buf.length → t.length ≤ buf.length →
        s'.copyDepth = s.copyDepth → s'.cost ≤ s.cost + 2 → s'.heap = s.heap →
        s'.tracked = s.tracked → Spec (f (t, j)) s' Q E) :
    Spec (decodeClassName buf i v >>= f) s Q E := by
  refine Spec.bind ?_
  unfold decodeClassName
  have he : ∀ er, E (.err er) s := fun er => h1 _ _ (EOk.of_err rfl (by omega))
  refine Spec.ite (fun _ => ?_) fun _ => ?_
  · refine Spec.varintAt hi (he _) fun n sz hsz hle hn => ?_
    dsimp only
    refine Spec.failIf (fun _ => he _) fun _ => ?_
    refine Spec.stringish h1 fun t j s' a b c d e f g => Spec.pure ?_
    exact h2 t _ s' (by omega) hle c d e f g
  · exact Spec.mono (stringishF_spec buf 1 i s (Or.inl (Nat.le_refl _)))
      (fun p s' ⟨a, b, c, d, e, f, g⟩ => h2 p.1 p.2 s' a b c d e f g) (fun _ _ h => h1 _ _ h)

theorem Spec.binary {f : Bytes × Nat → D α} {buf : Bytes} {i : Nat} {ln : Int} {s : DState}
    (hi : i ≤ buf.length) (h1 : ∀ er, E (.err er) s)
    (h2 : ∀ t j, i ≤ j → j ≤ buf.length →
      Spec (f (t, j)) { s with alloc := s.alloc + (j - i), peak := max s.peak (j - i) } Q E) :
    Spec (decodeBinary buf i ln >>= f) s Q E := by
  refine Spec.bind ?_
  unfold decodeBinary
  refine Spec.failIf (fun _ => h1 _) fun _ => Spec.failIf (fun _ => h1 _) fun _ => ?_
  refine Spec.sliceRange (by omega) (by omega) (Spec.step (charge_apply _ _) (Spec.pure ?_))
  have := h2 (List.take (i + ln.toNat - i) (List.drop i buf)) (i + ln.toNat) (by omega) (by omega)
  rwa [show i + ln.toNat - i = ln.toNat by omega] at this ⊢

theorem Spec.float {f : UInt32 × Nat → D α} {buf : Bytes} {i : Nat} {s : DState}
    (h1 : ∀ er, E (.err er) s)
    (h2 : ∀ t, i + 4 ≤ buf.length → Spec (f (t, i + 4)) s Q E) :
    Spec (decodeFloat buf i >>= f) s Q E := by
  refine Spec.bind ?_
  unfold decodeFloat
  refine Spec.failIf (fun _ => h1 _) fun _ => ?_
  repeat (refine Spec.byteAt (by omega) fun _ => ?_)
  exact Spec.pure (h2 _ (by omega))

theorem Spec.double {f : UInt64 × Nat → D α} {buf : Bytes} {i : Nat} {s : DState}
    (h1 : ∀ er, E (.err er) s)
    (h2 : ∀ t, i + 8 ≤ buf.length → Spec (f (t, i + 8)) s Q E) :
    Spec (decodeDouble buf i >>= f) s Q E := by
  refine Spec.bind ?_
  unfold decodeDouble
  refine Spec.failIf (fun _ => h1 _) fun _ => ?_
  repeat (refine Spec.byteAt (by omega) fun _ => ?_)
  exact Spec.pure (h2 _ (by omega))

end

/-- The state after a successful step from position `i` to `j` that wrote only to `W`. -/
structure Post (L C cd B : Nat) (W : Addr → Prop) (h : Heap) (i j : Nat) (s' : DState) : Prop where
  le : i ≤ j
  len : j ≤ L
  depth : s'.copyDepth = cd
  cost : s'.cost + Pot L C j ≤ B
  frame : Frame W h s'.heap

/-- The behaviour of `decode` from position `lo` on, with `C` units of work per byte and `B` in
total. -/
def Good (L C cd lo : Nat) (rec : Nat → Loc → D Nat) : Prop :=
  ∀ B i loc s, lo ≤ i → i ≤ L → s.cost + Pot L C i ≤ B → s.copyDepth = cd →
    loc.addr < s.heap.next → s.heap.read loc = .nil →
    Spec (rec i loc) s
      (fun j s' => i < j ∧ Post L C cd B (· = loc.addr) s.heap i j s') (EOk cd B)

section
variable {L C cd B lo : Nat} {rec : Nat → Loc → D Nat} (hrec : Good L C cd lo rec)
include hrec

theorem arrayLoop_spec (n a i : Nat) (s : DState) (hlo : lo ≤ i) (hi : i ≤ L)
    (hc : s.cost + Pot L C i ≤ B) (hcd : s.copyDepth = cd) (ha : a + n ≤ s.heap.next)
    (hnil : ∀ x, a ≤ x → x < a + n → s.heap.cellAt x = .nil) :
    Spec (arrayLoop rec n a i) s
      (Post L C cd B (fun x => a ≤ x ∧ x < a + n) s.heap i) (EOk cd B) := by
  induction n generalizing a i s with
  | zero => exact Spec.pure ⟨Nat.le_refl _, hi, hcd, hc, Frame.refl _ _⟩
  | succ n ih =>
    unfold arrayLoop
    refine Spec.bind (Spec.mono (hrec B i (.cell a) s hlo hi hc hcd ?_ (hnil a ?_ ?_)) ?_
      (fun _ _ h => h))
    · simp only [Loc.addr]; omega
    · omega
    · omega
    · rintro j s1 ⟨hij, h1⟩
      have hfr : ∀ x, a + 1 ≤ x → x < a + 1 + n → s1.heap.cellAt x = .nil := by
        intro x hx hx'
        have := h1.frame.same x (by omega) (by simp [Loc.addr]; omega)
        unfold Heap.cellAt at *
        rw [this]
        exact hnil x (by omega) (by omega)
      refine Spec.mono (ih (a + 1) j s1 (by omega) h1.len h1.cost h1.depth
        (by have := h1.frame.next; omega) hfr) ?_ (fun _ _ h => h)
      intro j' s2 h2
      refine ⟨by have := h2.le; omega, h2.len, h2.depth, h2.cost, ?_⟩
      refine Frame.trans (h1.frame.mono ?_) h2.frame ?_
      · intro x _ hx; simp only [Loc.addr] at hx; omega
      · intro x _ hx; omega

theorem hashLoop_spec (buf : Bytes) (hL : L = buf.length) (hC : L + 4 ≤ C) (m : Addr) (n i : Nat)
    (s : DState) (hlo : lo ≤ i) (hi : i ≤ L) (hc : s.cost + Pot L C i ≤ B)
    (hcd : s.copyDepth = cd) :
    Spec (hashLoop buf rec m n i) s (Post L C cd B (· = m) s.heap i) (EOk cd B) := by
  induction n generalizing i s with
  | zero => exact Spec.pure ⟨Nat.le_refl _, hi, hcd, hc, Frame.refl _ _⟩
  | succ n ih =>
    unfold hashLoop
    have hpos := Pot.step (C := C) hi (Nat.lt_add_one i)
    refine Spec.stringish (fun e s' h => ?_) ?_
    · rw [hcd] at h; exact h.mono (by omega)
    · intro t j s1 h1 h2 h3 h4 h5 h6 h7
      have hpj := Pot.step (C := C) hi h1
      refine Spec.step (charge_apply _ _) (Spec.step (allocVar_apply _ _) (Spec.bind ?_))
      refine Spec.mono (hrec B j (.cell s1.heap.next) _ (by omega) (by omega) ?_ ?_ ?_ ?_) ?_
        (fun _ _ h => h)
      · simp only [DState.cost] at *; omega
      · exact h4.trans hcd
      · simp [Loc.addr, Heap.alloc]
      · simp [Heap.read, Heap.cellAt, Heap.alloc, Heap.set]
      · rintro j' s2 ⟨hj', p⟩
        refine Spec.step (readLoc_apply _ _) (Spec.step (mapSet_apply _ _ _ _) ?_)
        refine Spec.mono (ih j' _ (by omega) p.len p.cost p.depth) ?_ (fun _ _ h => h)
        intro j'' s3 p'
        refine ⟨by have := p'.le; omega, p'.len, p'.depth, p'.cost, ?_⟩
        have f1 : Frame (· = m) s.heap s1.heap := by rw [h6]; exact Frame.refl _ _
        have f2 : Frame (· = m) s.heap (s1.heap.alloc (.cell .nil)).2 :=
          f1.trans (Frame.alloc _ _ _) (fun _ _ h => h)
        have f3 : Frame (· = m) s.heap s2.heap := by
          refine f2.trans p.frame ?_
          intro a ha he
          simp only [Loc.addr] at he
          have := f1.next
          omega
        have f4 := f3.trans (Frame.set s2.heap m (.mp (mapInsert t (s2.heap.read (.cell s1.heap.next)) (s2.heap.mapAt m)))) (fun _ _ h => h)
        exact f4.trans p'.frame (fun _ _ h => h)

end

section
variable {L C cd B lo : Nat} {rec : Nat → Loc → D Nat} (hrec : Good L C cd lo rec)
  (cfg : DCfg) (buf : Bytes) (hL : L = buf.length)
include hrec hL

theorem decodeArray_spec (i : Nat) (ln : Int) (loc : Loc) (isRef : Bool) (s : DState) (hlo : lo ≤ i)
    (hi : i ≤ L) (hc : s.cost + Pot L C i + (L + 1) ≤ B) (hcd : s.copyDepth = cd)
    (hloc : loc.addr < s.heap.next) :
    Spec (decodeArray buf rec i ln loc isRef) s (Post L C cd B (· = loc.addr) s.heap i) (EOk cd B) := by
  have he : ∀ er, EOk cd B (.err er) s := fun er => EOk.of_err hcd (by omega)
  unfold decodeArray
  refine Spec.failIf (fun _ => he _) fun _ => Spec.failIf (fun _ => he _) fun _ => ?_
  refine Spec.step (charge_apply _ _) (Spec.step (allocSlice_apply _ _) ?_)
  have hnil : ∀ (h' : Heap), Frame (· = loc.addr) (s.heap.allocCells ln.toNat).2 h' →
      ∀ x, s.heap.next ≤ x → x < s.heap.next + ln.toNat → h'.cellAt x = .nil := by
    intro h' f x hx hx'
    have := f.same x (by simp only [Heap.allocCells]; omega) (by omega)
    unfold Heap.cellAt
    rw [this]
    simp only [Heap.allocCells]
    rw [if_pos (by omega)]
  have finish : ∀ (h' : Heap), Frame (· = loc.addr) (s.heap.allocCells ln.toNat).2 h' →
      Spec (arrayLoop rec ln.toNat s.heap.next i)
        { s with heap := h', alloc := s.alloc + max ln.toNat 1, peak := max s.peak (max ln.toNat 1) }
        (Post L C cd B (· = loc.addr) s.heap i) (EOk cd B) := by
    intro h' f
    have hn := f.next
    simp only [Heap.allocCells] at hn
    refine Spec.mono (arrayLoop_spec hrec _ _ _ _ hlo hi ?_ hcd ?_ (hnil _ f)) ?_ (fun _ _ h => h)
    · simp only [DState.cost] at *; omega
    · dsimp only; omega
    · intro j s' p
      refine ⟨p.le, p.len, p.depth, p.cost, ?_⟩
      refine ((Frame.allocCells _ s.heap ln.toNat).trans f (fun _ _ h => h)).trans p.frame ?_
      intro a ha hw
      omega
  refine Spec.ite (fun _ => ?_) (fun _ => ?_)
  · refine Spec.step (allocVar_apply _ _) (Spec.step (writeLoc_apply _ _ _) ?_)
    exact finish _ ((Frame.alloc _ _ _).trans (Frame.write _ loc _) (fun _ _ h => h))
  · refine Spec.step (writeLoc_apply _ _ _) ?_
    exact finish _ (Frame.write _ loc _)

theorem decodeHash_spec (hC : L + 4 ≤ C) (i : Nat) (ln : Int) (loc : Loc) (isRef : Bool) (s : DState)
    (hlo : lo ≤ i) (hi : i ≤ L) (hc : s.cost + Pot L C i + (L + 1) ≤ B) (hcd : s.copyDepth = cd)
    (hloc : loc.addr < s.heap.next) :
    Spec (decodeHash buf rec i ln loc isRef) s (Post L C cd B (· = loc.addr) s.heap i) (EOk cd B) := by
  have he : ∀ er, EOk cd B (.err er) s := fun er => EOk.of_err hcd (by omega)
  unfold decodeHash
  refine Spec.failIf (fun _ => he _) fun _ => Spec.failIf (fun _ => he _) fun _ => ?_
  refine Spec.step (charge_apply _ _) (Spec.step (allocObj_apply _ _) ?_)
  have finish : ∀ (h' : Heap), Frame (· = loc.addr) (s.heap.alloc (.mp [])).2 h' →
      Spec (hashLoop buf rec s.heap.next ln.toNat i)
        { s with heap := h', alloc := s.alloc + ln.toNat, peak := max s.peak ln.toNat }
        (Post L C cd B (· = loc.addr) s.heap i) (EOk cd B) := by
    intro h' f
    refine Spec.mono (hashLoop_spec hrec buf hL hC _ _ _ _ hlo hi ?_ hcd) ?_ (fun _ _ h => h)
    · simp only [DState.cost] at *; omega
    · intro j s' p
      refine ⟨p.le, p.len, p.depth, p.cost, ?_⟩
      refine ((Frame.alloc _ s.heap _).trans f (fun _ _ h => h)).trans p.frame ?_
      intro a ha hw
      omega
  refine Spec.ite (fun _ => ?_) (fun _ => ?_)
  · refine Spec.step (allocVar_apply _ _) (Spec.step (writeLoc_apply _ _ _) ?_)
    exact finish _ ((Frame.alloc _ _ _).trans (Frame.write _ loc _) (fun _ _ h => h))
  · refine Spec.step (writeLoc_apply _ _ _) ?_
    exact finish _ (Frame.write _ loc _)

omit hrec in
theorem decodeRefpAlias_spec (i : Nat) (isREFP : Bool) (loc : Loc) (s : DState)
    (hi : i ≤ L) (hc : s.cost + Pot L C i ≤ B) (hcd : s.copyDepth = cd) :
    Spec (decodeRefpAlias cfg buf i isREFP loc) s
      (Post L C cd B (· = loc.addr) s.heap i) (EOk cd B) := by
  have he : ∀ er, EOk cd B (.err er) s := fun er => EOk.of_err hcd (by omega)
  unfold decodeRefpAlias
  refine Spec.varintAt (by omega) (he _) fun n sz hsz hle hn => ?_
  dsimp only
  have hp := Pot.mono (L := L) (C := C) (Nat.le_add_right i sz)
  refine Spec.failIf (fun _ => he _) fun _ => Spec.step (D.get_apply _) ?_
  split
  · refine Spec.ite (fun _ => Spec.err (he _)) (fun _ => Spec.err (he _))
  · refine Spec.step (readLoc_apply _ _) ?_
    refine Spec.ite (fun _ => Spec.ite (fun _ => ?_) (fun _ => Spec.ite (fun _ => ?_) (fun _ => ?_)))
      (fun _ => ?_)
    · refine Spec.fail ⟨by simp, by simp, by simp [unmodelled], by simp, by omega⟩
    · exact Spec.step (writeLoc_apply _ _ _) (Spec.pure ⟨by omega, by omega, hcd,
        by simp only [DState.cost] at *; omega, Frame.write _ _ _⟩)
    · refine Spec.step (allocVar_apply _ _) (Spec.step (writeLoc_apply _ _ _) (Spec.pure ⟨by omega,
        by omega, hcd, by simp only [DState.cost] at *; omega,
        (Frame.alloc _ _ _).trans (Frame.write _ loc _) (fun _ _ h => h)⟩))
    · exact Spec.step (writeLoc_apply _ _ _) (Spec.pure ⟨by omega, by omega, hcd,
        by simp only [DState.cost] at *; omega, Frame.write _ _ _⟩)

theorem decodeIface_spec (i : Nat) (loc : Loc) (s : DState) (hlo : lo ≤ i)
    (hi : i ≤ L) (hc : s.cost + Pot L C i ≤ B) (hcd : s.copyDepth = cd)
    (hloc : loc.addr < s.heap.next) (hnil : s.heap.read loc = .nil) :
    Spec (decodeIface buf rec i loc) s (Post L C cd B (· = loc.addr) s.heap i) (EOk cd B) := by
  have he : ∀ er, EOk cd B (.err er) s := fun er => EOk.of_err hcd (by omega)
  unfold decodeIface
  refine Spec.failIf (fun _ => he _) fun _ => Spec.step (readLoc_apply _ _) ?_
  refine Spec.failIf (fun h => absurd hnil h) fun _ => Spec.step (allocVar_apply _ _) (Spec.bind ?_)
  refine Spec.mono (hrec B i (.cell s.heap.next) _ hlo hi hc hcd ?_ ?_) ?_ (fun _ _ h => h)
  · simp [Loc.addr, Heap.alloc]
  · simp [Heap.read, Heap.cellAt, Heap.alloc, Heap.set]
  · rintro j s1 ⟨hij, p⟩
    have f : Frame (· = loc.addr) s.heap s1.heap :=
      (Frame.alloc _ s.heap _).trans p.frame (by intro a ha hw; simp only [Loc.addr] at hw; omega)
    refine Spec.step (readLoc_apply _ _) (Spec.ite (fun _ => ?_) (fun _ => ?_))
    · exact Spec.step (writeLoc_apply _ _ _) (Spec.pure ⟨p.le, p.len, p.depth, p.cost,
        f.trans (Frame.write _ _ _) (fun _ _ h => h)⟩)
    · exact Spec.pure ⟨p.le, p.len, p.depth, p.cost, f⟩

theorem decodeObject_spec (hC : L + 4 ≤ C) (i : Nat) (loc : Loc) (v : Bool) (s : DState)
    (hlo : lo ≤ i) (hi : i ≤ L) (hc : s.cost + Pot L C i + (L + 3) ≤ B) (hcd : s.copyDepth = cd)
    (hloc : loc.addr < s.heap.next) (hnil : s.heap.read loc = .nil) :
    Spec (decodeObject cfg buf rec i loc v) s (Post L C cd B (· = loc.addr) s.heap i) (EOk cd B) := by
  unfold decodeObject
  refine Spec.className (by omega) (fun e s' h => ?_) ?_
  · rw [hcd] at h; exact h.mono (by omega)
  intro t j s1 h1 h2 h3 h4 h5 h6 h7
  have hp := Pot.mono (L := L) (C := C) (Nat.le_of_lt h1)
  dsimp only
  rw [hcd] at h4
  refine Spec.ite (fun _ => ?_) (fun _ => ?_)
  · refine Spec.step (charge_apply _ _) (Spec.step (allocVar_apply _ _) (Spec.step (writeLoc_apply _ _ _) ?_))
    refine Spec.mono (hrec B j (.field s1.heap.next) _ (by omega) (by omega) ?_ h4 ?_ ?_) ?_
      (fun _ _ h => h)
    · simp only [DState.cost] at *; omega
    · simp [Loc.addr, Heap.write_next, Heap.alloc]
    · have : s1.heap.next ≠ loc.addr := by rw [h6]; omega
      simp only [Heap.read, Heap.cellAt]
      rw [Heap.write_mem _ _ _ _ this]
      simp [Heap.alloc, Heap.set]
    · rintro j' s2 ⟨hj, p⟩
      refine ⟨by have := p.le; omega, p.len, p.depth, p.cost, ?_⟩
      have f : Frame (· = loc.addr) s.heap s1.heap := by rw [h6]; exact Frame.refl _ _
      refine (f.trans ((Frame.alloc _ s1.heap _).trans (Frame.write _ loc _) (fun _ _ h => h))
        (fun _ _ h => h)).trans p.frame ?_
      intro a ha hw
      simp only [Loc.addr] at hw
      have := f.next
      omega
  · have := decodeIface_spec (B := B) hrec buf hL j loc s1 (by omega) (by omega) (by omega) h4
      (by rw [h6]; exact hloc) (by rw [h6]; exact hnil)
    rw [h6] at this
    exact Spec.mono this (fun j' s' p => ⟨by have := p.le; omega, p.len, p.depth, p.cost, p.frame⟩)
      (fun _ _ h => h)

theorem decodeFreeze_spec (hC : L + 4 ≤ C) (i : Nat) (loc : Loc) (v : Bool) (s : DState)
    (hlo : lo ≤ i) (hi : i ≤ L) (hc : s.cost + Pot L C i + (L + 3) ≤ B) (hcd : s.copyDepth = cd)
    (hloc : loc.addr < s.heap.next) (hnil : s.heap.read loc = .nil) :
    Spec (decodeFreeze cfg buf rec i loc v) s (Post L C cd B (· = loc.addr) s.heap i) (EOk cd B) := by
  unfold decodeFreeze
  refine Spec.className (by omega) (fun e s' h => ?_) ?_
  · rw [hcd] at h; exact h.mono (by omega)
  intro t j s1 h1 h2 h3 h4 h5 h6 h7
  have hp := Pot.mono (L := L) (C := C) (Nat.le_of_lt h1)
  dsimp only
  rw [hcd] at h4
  have he : ∀ er, EOk cd B (.err er) s1 := fun er => EOk.of_err h4 (by omega)
  refine Spec.failIf (fun _ => he _) fun _ => Spec.byteAt (by omega) fun _ =>
    Spec.byteAt (by omega) fun _ => Spec.failIf (fun _ => he _) fun _ =>
    Spec.step (allocVar_apply _ _) (Spec.bind ?_)
  have hs1 : s1.heap.next = s.heap.next := by rw [h6]
  -- the class name is paid for after the recursive call: keep its cost aside
  refine Spec.mono (hrec (B - t.length) j (.cell s1.heap.next) _ (by omega) (by omega) ?_ h4 ?_ ?_) ?_
    (fun _ _ h => h.mono (Nat.sub_le _ _))
  · simp only [DState.cost] at *; omega
  · simp [Loc.addr, Heap.alloc]
  · simp [Heap.read, Heap.cellAt, Heap.alloc, Heap.set]
  · rintro j' s2 ⟨hj, p⟩
    have hcost := p.cost
    have f : Frame (· = loc.addr) s.heap s2.heap := by
      have f0 : Frame (· = loc.addr) s.heap s1.heap := by rw [h6]; exact Frame.refl _ _
      refine (f0.trans (Frame.alloc _ s1.heap _) (fun _ _ h => h)).trans p.frame ?_
      intro a ha hw; simp only [Loc.addr] at hw; omega
    have hnil2 : s2.heap.read loc = .nil := by
      rw [← hnil]
      have h0 : (s1.heap.alloc (.cell .nil)).2.read loc = s.heap.read loc := by
        have := (Frame.alloc (fun _ => False) s1.heap (.cell .nil)).read (l := loc)
          (by omega) (fun h => h)
        rw [this, h6]
      rw [← h0]
      refine p.frame.read ?_ ?_
      · simp only [Heap.alloc]; omega
      · show ¬ (loc.addr = s1.heap.next); omega
    have he2 : ∀ er, EOk cd B (.err er) s2 := fun er => EOk.of_err p.depth (by omega)
    refine Spec.step (readLoc_apply _ _) ?_
    split
    · refine Spec.failIf (fun _ => he2 _) fun _ => Spec.step (readLoc_apply _ _) ?_
      split
      · refine Spec.step (charge_apply _ _) ?_
        have hdone : ∀ o, Spec (do let o ← allocVar o; writeLoc loc (.ptr false o); pure j')
            { s2 with alloc := s2.alloc + t.length, peak := max s2.peak t.length }
            (Post L C cd B (· = loc.addr) s.heap i) (EOk cd B) := by
          intro o
          refine Spec.step (allocVar_apply _ _) (Spec.step (writeLoc_apply _ _ _) (Spec.pure ?_))
          refine ⟨by omega, p.len, p.depth, ?_, ?_⟩
          · simp only [DState.cost] at *; omega
          · exact f.trans ((Frame.alloc _ s2.heap _).trans (Frame.write _ loc _) (fun _ _ h => h))
              (fun _ _ h => h)
        refine Spec.ite (fun _ => hdone _) (fun _ => ?_)
        refine Spec.step (readLoc_apply _ _) (Spec.failIf (fun h => absurd hnil2 h) fun _ => ?_)
        split
        · split
          · rename_i r _
            refine Spec.fail ?_
            cases r with
            | user n => exact EOk.of_err p.depth (by simp only [DState.cost] at *; omega)
            | unaddressable =>
              exact ⟨by simp [Refusal.exn], by simp [Refusal.exn], by simp [Refusal.exn, unmodelled], by simp [Refusal.exn],
                by simp only [DState.cost] at *; omega⟩
          · exact hdone _
        · exact hdone _
      · exact Spec.err (he2 _)
    · exact Spec.err (he2 _)

theorem decodeRefn_spec (trackme : Bool) (i : Nat) (loc : Loc) (s : DState) (hlo : lo ≤ i)
    (hi : i ≤ L) (hc : s.cost + Pot L C i ≤ B) (hcd : s.copyDepth = cd)
    (hloc : loc.addr < s.heap.next) (hnil : s.heap.read loc = .nil) :
    Spec (decodeRefn cfg rec trackme i loc) s (Post L C cd B (· = loc.addr) s.heap i) (EOk cd B) := by
  unfold decodeRefn
  refine Spec.ite (fun _ => ?_) (fun _ => ?_)
  · refine Spec.step (allocVar_apply _ _) (Spec.step (writeLoc_apply _ _ _) (Spec.bind ?_))
    refine Spec.mono (hrec B i (.cell s.heap.next) _ hlo hi ?_ hcd ?_ ?_) ?_ (fun _ _ h => h)
    · exact hc
    · simp [Loc.addr, Heap.write_next, Heap.alloc]
    · have : s.heap.next ≠ loc.addr := by omega
      simp only [Heap.read, Heap.cellAt]
      rw [Heap.write_mem _ _ _ _ this]
      simp [Heap.alloc, Heap.set]
    · rintro j s1 ⟨hij, p⟩
      have f : Frame (· = loc.addr) s.heap s1.heap := by
        refine ((Frame.alloc _ s.heap _).trans (Frame.write _ loc _) (fun _ _ h => h)).trans p.frame ?_
        intro a ha hw; simp only [Loc.addr] at hw; omega
      refine Spec.ite (fun _ => Spec.pure ⟨p.le, p.len, p.depth, p.cost, f⟩) (fun _ => ?_)
      refine Spec.step (readLoc_apply _ _) (Spec.ite (fun _ => ?_) (fun _ => ?_))
      · have := p.cost
        refine Spec.fail ⟨by simp, by simp, by simp [unmodelled], by simp, by omega⟩
      · refine Spec.step (allocVar_apply _ _) (Spec.step (writeLoc_apply _ _ _) (Spec.pure
          ⟨p.le, p.len, p.depth, p.cost, f.trans ((Frame.alloc _ _ _).trans (Frame.write _ loc _)
            (fun _ _ h => h)) (fun _ _ h => h)⟩))
  · exact Spec.mono (hrec B i loc s hlo hi hc hcd hloc hnil) (fun _ _ h => h.2) (fun _ _ h => h)

/-- One item, after its tag byte. `K` is the work paid for by the tag byte. -/
theorem decodeC_spec (K : Nat) (hK : L + 3 ≤ K) (hKC : K + 1 ≤ C)
    (hcopy : cd = 0 → Good L (L + 4) 1 0 rec ∧ Pot L (L + 4) 0 ≤ K)
    (c : TagC) (trackme : Bool) (i : Nat) (loc : Loc) (tag : Nat) (s : DState) (hlo : lo ≤ i)
    (hi : i ≤ L) (hc : s.cost + Pot L C i + K ≤ B) (hcd : s.copyDepth = cd)
    (hloc : loc.addr < s.heap.next) (hnil : s.heap.read loc = .nil) :
    Spec (decodeC cfg buf rec c trackme i loc tag) s
      (Post L C cd B (· = loc.addr) s.heap i) (EOk cd B) := by
  have he : ∀ er, EOk cd B (.err er) s := fun er => EOk.of_err hcd (by omega)
  have hw : ∀ v j (s1 : DState), i ≤ j → j ≤ L → s1.heap = s.heap → s1.copyDepth = s.copyDepth →
      s1.cost ≤ s.cost + K → Spec (do writeLoc loc v; pure j) s1
        (Post L C cd B (· = loc.addr) s.heap i) (EOk cd B) := by
    intro v j s1 h1 h2 h3 h4 h5
    have := Pot.mono (L := L) (C := C) h1
    refine Spec.step (writeLoc_apply _ _ _) (Spec.pure ⟨h1, h2, h4.trans hcd, ?_, ?_⟩)
    · simp only [DState.cost] at *; omega
    · dsimp only; rw [h3]; exact Frame.write _ _ _
  have haw : ∀ (o : Val) (s1 : DState) j, i ≤ j → j ≤ L → s1.heap = s.heap →
      s1.copyDepth = s.copyDepth → s1.cost ≤ s.cost + K →
      Spec (do let a ← allocVar o; writeLoc loc (.ptr false a); pure j) s1
        (Post L C cd B (· = loc.addr) s.heap i) (EOk cd B) := by
    intro v s1 j h1 h2 h3 h4 h5
    have := Pot.mono (L := L) (C := C) h1
    refine Spec.step (allocVar_apply _ _) (Spec.step (writeLoc_apply _ _ _)
      (Spec.pure ⟨h1, h2, h4.trans hcd, ?_, ?_⟩))
    · simp only [DState.cost] at *; omega
    · dsimp only; rw [h3]; exact (Frame.alloc _ _ _).trans (Frame.write _ loc _) (fun _ _ h => h)
  unfold decodeC
  cases c <;> dsimp only
  case int n => exact hw _ _ _ (by omega) hi rfl rfl (by omega)
  case varint =>
    refine Spec.varintAt (by omega) (he _) fun n sz hsz hle hn => ?_
    dsimp only
    refine Spec.ite (fun _ => ?_) (fun _ => ?_) <;>
      exact hw _ _ _ (by omega) (by omega) rfl rfl (by omega)
  case zigzag =>
    refine Spec.varintAt (by omega) (he _) fun n sz hsz hle hn => ?_
    exact hw _ _ _ (by omega) (by omega) rfl rfl (by omega)
  case float =>
    refine Spec.float he fun t hle => ?_
    exact hw _ _ _ (by omega) (by omega) rfl rfl (by omega)
  case double =>
    refine Spec.double he fun t hle => ?_
    exact hw _ _ _ (by omega) (by omega) rfl rfl (by omega)
  case true_ => exact hw _ _ _ (by omega) hi rfl rfl (by omega)
  case false_ => exact hw _ _ _ (by omega) hi rfl rfl (by omega)
  case hash =>
    refine Spec.varintAt (by omega) (he _) fun n sz hsz hle hn => ?_
    have := Pot.mono (L := L) (C := C) (Nat.le_add_right i sz)
    exact Spec.mono (decodeHash_spec (B := B) hrec buf hL (by omega) (i + sz) _ loc _ s (by omega) (by omega) (by omega)
      hcd hloc) (fun j s' p => ⟨by have := p.le; omega, p.len, p.depth, p.cost, p.frame⟩)
      (fun _ _ h => h)
  case hashref n =>
    exact decodeHash_spec hrec buf hL (by omega) _ _ _ _ _ hlo hi (by omega) hcd hloc
  case array =>
    refine Spec.varintAt (by omega) (he _) fun n sz hsz hle hn => ?_
    have := Pot.mono (L := L) (C := C) (Nat.le_add_right i sz)
    exact Spec.mono (decodeArray_spec (B := B) hrec buf hL (i + sz) _ loc _ s (by omega) (by omega) (by omega)
      hcd hloc) (fun j s' p => ⟨by have := p.le; omega, p.len, p.depth, p.cost, p.frame⟩)
      (fun _ _ h => h)
  case arrayref n =>
    exact decodeArray_spec hrec buf hL _ _ _ _ _ hlo hi (by omega) hcd hloc
  case strUtf8 =>
    refine Spec.varintAt (by omega) (he _) fun n sz hsz hle hn => ?_
    refine Spec.binary (by omega) he fun t j h1 h2 => ?_
    exact hw _ _ _ (by omega) (by omega) rfl rfl (by simp only [DState.cost]; omega)
  case binary =>
    refine Spec.varintAt (by omega) (he _) fun n sz hsz hle hn => ?_
    refine Spec.binary (by omega) he fun t j h1 h2 => ?_
    exact hw _ _ _ (by omega) (by omega) rfl rfl (by simp only [DState.cost]; omega)
  case short n =>
    refine Spec.binary (by omega) he fun t j h1 h2 => ?_
    exact hw _ _ _ (by omega) (by omega) rfl rfl (by simp only [DState.cost]; omega)
  case undef =>
    refine Spec.ite (fun _ => ?_) (fun _ => ?_)
    · exact haw _ _ _ (by omega) hi rfl rfl (by omega)
    · exact hw _ _ _ (by omega) hi rfl rfl (by omega)
  case cundef =>
    refine Spec.ite (fun _ => ?_) (fun _ => ?_) <;>
      exact hw _ _ _ (by omega) hi rfl rfl (by omega)
  case copy =>
    refine Spec.step (D.get_apply _) (Spec.failIf (fun _ => he _) fun h0 => ?_)
    refine Spec.varintAt (by omega) (he _) fun n sz hsz hle hn => ?_
    dsimp only
    refine Spec.failIf (fun _ => he _) fun hlt => Spec.bind ?_
    obtain ⟨hlt, hs⟩ := lt_of_sgn hn hlt
    rw [hs, Int.toNat_natCast]
    obtain ⟨hg, hpk⟩ := hcopy (by omega)
    have hpn := Pot.mono (L := L) (C := L + 4) (Nat.zero_le n)
    refine Spec.withCopy (E' := EOk 1 (s.cost + K)) (Spec.mono
      (hg (s.cost + K) n loc { s with copyDepth := s.copyDepth + 1 } (by omega) (by omega) ?_ ?_ hloc hnil)
      ?_ (fun _ _ h => h)) ?_ ?_
    · simp only [DState.cost] at *; omega
    · dsimp only; omega
    · rintro j s1 ⟨h1, p⟩
      have := p.cost
      have hpp := Pot.mono (L := L) (C := C) (Nat.le_add_right i sz)
      refine Spec.pure ⟨by omega, by omega, ?_, ?_, p.frame⟩
      · have := p.depth; dsimp only; omega
      · simp only [DState.cost] at *; omega
    · intro er s1 h
      refine EOk.of_err ?_ ?_
      · have := h.depth _ rfl; dsimp only; omega
      · have := h.cost; simp only [DState.cost] at *; omega
    · intro e s1 h hne
      refine ⟨h.crash, h.fuel, h.modelled, fun er he => absurd he (hne er), ?_⟩
      have := h.cost; omega
  case refn => exact decodeRefn_spec hrec cfg buf hL _ _ _ _ hlo hi (by omega) hcd hloc hnil
  case refp => exact decodeRefpAlias_spec cfg buf hL _ _ _ _ hi (by omega) hcd
  case alias => exact decodeRefpAlias_spec cfg buf hL _ _ _ _ hi (by omega) hcd
  case weaken =>
    refine Spec.ite (fun _ => ?_) (fun _ => ?_)
    · refine Spec.step (allocVar_apply _ _) (Spec.step (writeLoc_apply _ _ _) ?_)
      refine Spec.mono (hrec B i (.field s.heap.next) _ hlo hi ?_ hcd ?_ ?_) ?_ (fun _ _ h => h)
      · simp only [DState.cost] at *; omega
      · simp [Loc.addr, Heap.write_next, Heap.alloc]
      · have : s.heap.next ≠ loc.addr := by omega
        simp only [Heap.read, Heap.cellAt]
        rw [Heap.write_mem _ _ _ _ this]
        simp [Heap.alloc, Heap.set]
      · rintro j s1 ⟨hij, p⟩
        refine ⟨p.le, p.len, p.depth, p.cost, ?_⟩
        refine ((Frame.alloc _ s.heap _).trans (Frame.write _ loc _) (fun _ _ h => h)).trans p.frame ?_
        intro a ha hw; simp only [Loc.addr] at hw; omega
    · exact Spec.mono (hrec B i loc s hlo hi (by omega) hcd hloc hnil) (fun _ _ h => h.2)
        (fun _ _ h => h)
  case regexp =>
    refine Spec.bind ?_
    unfold decodeRegexp
    refine Spec.stringish (fun e s' h => ?_) ?_
    · rw [hcd] at h; exact h.mono (by omega)
    intro t j s1 h1 h2 h3 h4 h5 h6 h7
    refine Spec.stringish (fun e s' h => ?_) ?_
    · rw [h4, hcd] at h; exact h.mono (by omega)
    intro t' j' s2 h1' h2' h3' h4' h5' h6' h7'
    refine Spec.pure ?_
    exact haw _ s2 j' (by omega) (by omega) (h6'.trans h6) (h4'.trans h4) (by omega)
  case object =>
    exact decodeObject_spec hrec cfg buf hL (by omega) _ _ _ _ hlo hi (by omega) hcd hloc hnil
  case objectv =>
    exact decodeObject_spec hrec cfg buf hL (by omega) _ _ _ _ hlo hi (by omega) hcd hloc hnil
  case freeze =>
    exact decodeFreeze_spec hrec cfg buf hL (by omega) _ _ _ _ hlo hi (by omega) hcd hloc hnil
  case freezev =>
    exact decodeFreeze_spec hrec cfg buf hL (by omega) _ _ _ _ hlo hi (by omega) hcd hloc hnil
  case pad => exact Spec.err (he _)
  case other => exact Spec.err (he _)

end

/-- Work allowed per byte inside and outside a COPY. -/
def unit1 (L : Nat) : Nat := L + 4
def unit0 (L : Nat) : Nat := (L + 4) * (L + 1) + L + 4

theorem decode_item_spec {L C cd : Nat} {rec : Nat → Loc → D Nat} (cfg : DCfg) (buf : Bytes)
    (hL : L = buf.length) (i : Nat) (hrec : Good L C cd (i + 1) rec) (K : Nat) (hK : L + 3 ≤ K)
    (hKC : K + 1 ≤ C) (hcopy : cd = 0 → Good L (L + 4) 1 0 rec ∧ Pot L (L + 4) 0 ≤ K)
    (B : Nat) (loc : Loc) (s : DState) (hi : i ≤ L) (hc : s.cost + Pot L C i ≤ B)
    (hcd : s.copyDepth = cd) (hloc : loc.addr < s.heap.next) (hnil : s.heap.read loc = .nil) :
    Spec (do
      tick
      let p ← D.lift (skipPad buf i)
      if 128 ≤ p.2.toNat then track p.1 loc
      decodeC cfg buf rec (classify (p.2.toNat % 128)) (128 ≤ p.2.toNat)
        (p.1 + 1) loc (p.2.toNat % 128)) s
      (fun j s' => i < j ∧ Post L C cd B (· = loc.addr) s.heap i j s') (EOk cd B) := by
  have hpi := Pot.step (L := L) (C := C) hi (Nat.lt_add_one i)
  have he : ∀ er, EOk cd B (.err er) { s with steps := s.steps + 1 } := fun er =>
    EOk.of_err hcd (by simp only [DState.cost] at *; omega)
  refine Spec.step (tick_apply s) (Spec.skipPad (he _) fun k b htag => ?_)
  have hk := htag.lt
  have hik := htag.le
  have hpk := Pot.mono (L := L) (C := C) (i := i + 1) (j := k + 1) (by omega)
  have hrec' : Good L C cd (k + 1) rec := fun B i loc s h => hrec B i loc s (by omega)
  have key := fun (s1 : DState) (h1 : s1.heap = s.heap) (h2 : s1.copyDepth = cd)
      (h3 : s1.cost = s.cost + 1) =>
    decodeC_spec hrec' cfg buf hL K hK hKC hcopy (classify (b.toNat % 128)) (128 ≤ b.toNat) (k + 1)
      loc (b.toNat % 128) s1 (Nat.le_refl _) (by omega) (B := B) (by omega) h2 (by rw [h1]; exact hloc)
      (by rw [h1]; exact hnil)
  have fin : ∀ (s1 : DState), s1.heap = s.heap → ∀ j s',
      Post L C cd B (· = loc.addr) s1.heap (k + 1) j s' →
      i < j ∧ Post L C cd B (· = loc.addr) s.heap i j s' := by
    intro s1 h1 j s' p
    have := p.le
    refine ⟨by omega, by omega, p.len, p.depth, p.cost, ?_⟩
    rw [← h1]; exact p.frame
  dsimp only
  refine Spec.ite (fun _ => Spec.step (track_apply _ _ _) ?_) (fun _ => ?_)
  · exact Spec.mono (key _ rfl hcd (by simp only [DState.cost]; omega)) (fin _ rfl) (fun _ _ h => h)
  · exact Spec.mono (key _ rfl hcd (by simp only [DState.cost]; omega)) (fin _ rfl) (fun _ _ h => h)

/-- Inside a COPY. -/
theorem decode_good1 (cfg : DCfg) (buf : Bytes) (f lo : Nat) (hf : buf.length + 1 - lo ≤ f)
    (cd : Nat) (hcd : 0 < cd) : Good buf.length (unit1 buf.length) cd lo (decode cfg buf f) := by
  induction f generalizing lo with
  | zero => intro B i loc s h1 h2; omega
  | succ f ih =>
    intro B i loc s h1 h2 h3 h4 h5 h6
    rw [decode_succ]
    exact decode_item_spec cfg buf rfl i (ih (i + 1) (by omega)) (buf.length + 3) (Nat.le_refl _)
      (by simp [unit1]) (fun h => by omega) B loc s h2 h3 h4 h5 h6

/-- Outside a COPY. -/
theorem decode_good0 (cfg : DCfg) (buf : Bytes) (f lo : Nat)
    (hf : buf.length + 1 - lo + (buf.length + 1) ≤ f) :
    Good buf.length (unit0 buf.length) 0 lo (decode cfg buf f) := by
  induction f generalizing lo with
  | zero => intro B i loc s h1 h2; omega
  | succ f ih =>
    intro B i loc s h1 h2 h3 h4 h5 h6
    rw [decode_succ]
    exact decode_item_spec cfg buf rfl i (ih (i + 1) (by omega))
      ((buf.length + 4) * (buf.length + 1) + buf.length + 3) (by omega)
      (by simp [unit0]) (fun _ => ⟨decode_good1 cfg buf f 0 (by omega) 1 (by omega),
        by simp [Pot]; omega⟩) B loc s h2 h3 h4 h5 h6

end Sereal
