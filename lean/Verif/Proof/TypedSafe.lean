import Verif.Proof.ApiSafe
import Verif.Proof.TypedTags
import Verif.Proof.TypedApi
/-
Decoding into typed variables: no runtime error, no endless recursion, for every input.
-/
namespace Sereal

/-- A failure that Unmarshal turns into an error. -/
def TOk (e : Exn) : Prop := (∀ m, e ≠ .crash m) ∧ e ≠ .fuel

theorem TOk.err (er : Err) : TOk (.err er) := ⟨by simp, by simp⟩
theorem TOk.panic (m : String) : TOk (.panic m) := ⟨by simp, by simp⟩
theorem EOk.tok {c B : Nat} {e : Exn} {s : DState} (h : EOk c B e s) : TOk e := ⟨h.crash, h.fuel⟩

/-- An action that leaves the decoder alone. -/
def Still (m : D α) : Prop := ∀ s, (∃ a, m s = (.ok a, s)) ∨ ∃ e, m s = (.error e, s) ∧ TOk e

theorem Still.pure (a : α) : Still (Pure.pure a : D α) := fun _ => .inl ⟨a, rfl⟩
theorem Still.panic (m : String) : Still (D.fail (.panic m) : D α) := fun _ => .inr ⟨_, rfl, .panic m⟩
theorem Still.err (er : Err) : Still (D.err er : D α) := fun _ => .inr ⟨_, rfl, .err er⟩
theorem Still.ite {c : Prop} [Decidable c] {x y : D α} (h1 : Still x) (h2 : Still y) : Still (if c then x else y) := by
  by_cases hc : c
  · rw [if_pos hc]; exact h1
  · rw [if_neg hc]; exact h2

theorem assign_still (acc : Acc) (v : TVal) : Still (assign acc v) := .ite (.pure _) (.panic _)
theorem orMake_still (acc : Acc) (b : Bool) (v w : TVal) : Still (orMake acc b v w) := .ite (assign_still _ _) (.pure _)
theorem setInt_still (ty : Ty) (acc : Acc) (i : Int64) : Still (setInt ty acc i) := by
  unfold setInt; split <;> first | exact assign_still _ _ | exact .panic _
theorem setFloat_still (tc : TCfg) (ty : Ty) (acc : Acc) (u : UInt64) : Still (setFloat tc ty acc u) := by
  unfold setFloat; split <;> first | exact assign_still _ _ | exact .panic _
theorem setBool_still (ty : Ty) (acc : Acc) (b : Bool) : Still (setBool ty acc b) := by
  unfold setBool; split <;> first | exact assign_still _ _ | exact .panic _
theorem setString_still (ty : Ty) (acc : Acc) (b : Bytes) : Still (setString ty acc b) := by
  unfold setString; split <;> first | exact assign_still _ _ | exact .panic _
theorem setBinary_still (ty : Ty) (acc : Acc) (cur : TVal) (b : Bytes) : Still (setBinary ty acc cur b) := by
  unfold setBinary
  split
  · exact .ite (assign_still _ _) (.ite (.panic _) (.pure _))
  all_goals first | exact assign_still _ _ | exact .panic _
theorem setPerl_still (ty : Ty) (acc : Acc) (v : Val) : Still (setPerl ty acc v) := by
  unfold setPerl; split <;> first | exact assign_still _ _ | exact .panic _
theorem unmarshalBinary_still (tc : TCfg) (ty : Ty) (cur : TVal) (acc : Acc) (b : Bytes) :
    Still (unmarshalBinary tc ty cur acc b) := by
  unfold unmarshalBinary
  split
  · refine .ite (.panic _) ?_
    split
    · exact .pure _
    · split
      · exact .err _
      · exact .pure _
  · refine .ite (.panic _) ?_
    split
    · exact .ite (.panic _) (.pure _)
    · split
      · exact .err _
      · exact .pure _
  · exact .panic _
  · exact .ite (.panic _) (.pure _)

section
variable {Q : α → DState → Prop}

theorem Spec.still {x : D β} {f : β → D α} {s : DState} (hx : Still x)
    (h : ∀ b, Spec (f b) s Q (fun e _ => TOk e)) : Spec (x >>= f) s Q (fun e _ => TOk e) := by
  refine Spec.bind ?_
  rcases hx s with ⟨a, ha⟩ | ⟨e, ha, he⟩
  · refine ⟨fun b s' hb => ?_, fun e s' hb => ?_⟩
    · rw [ha] at hb; cases hb; exact h _
    · rw [ha] at hb; cases hb
  · refine ⟨fun b s' hb => ?_, fun e s' hb => ?_⟩
    · rw [ha] at hb; cases hb
    · rw [ha] at hb; cases hb; exact he
end

theorem Spec.ofStill {x : D α} {s : DState} {Q : α → DState → Prop} (hx : Still x) (h : ∀ a, Q a s) :
    Spec x s Q (fun e _ => TOk e) := by
  rcases hx s with ⟨a, ha⟩ | ⟨e, ha, he⟩
  · refine ⟨fun b s' hb => ?_, fun e s' hb => ?_⟩
    · rw [ha] at hb; cases hb; exact h _
    · rw [ha] at hb; cases hb
  · refine ⟨fun b s' hb => ?_, fun e s' hb => ?_⟩
    · rw [ha] at hb; cases hb
    · rw [ha] at hb; cases hb; exact he

/-- The outcome of reading from position `i`. -/
abbrev Reads (L cd i : Nat) (x : D (Nat × α)) (s : DState) : Prop :=
  Spec x s (fun p s' => i < p.1 ∧ p.1 ≤ L ∧ s'.copyDepth = cd) (fun e _ => TOk e)

/-- The same if nothing need be read. -/
abbrev Reads0 (L cd i : Nat) (x : D (Nat × α)) (s : DState) : Prop :=
  Spec x s (fun p s' => i ≤ p.1 ∧ p.1 ≤ L ∧ s'.copyDepth = cd) (fun e _ => TOk e)

/-- The behaviour of decodeViaReflection from position `lo` on. -/
def TGood (L cd lo : Nat) (rec : Rec) : Prop :=
  ∀ i ty cur acc s, lo ≤ i → i ≤ L → s.copyDepth = cd → Reads L cd i (rec i ty cur acc) s

theorem decode_any (cfg : DCfg) (buf : Bytes) (i : Nat) (loc : Loc) (s : DState) (hi : i ≤ buf.length)
    (h1 : loc.addr < s.heap.next) (h2 : s.heap.read loc = .nil) :
    Spec (decode cfg buf (fuelFor buf.length) i loc) s
      (fun j s' => i < j ∧ j ≤ buf.length ∧ s'.copyDepth = s.copyDepth) (fun e _ => TOk e) := by
  refine Spec.mono (decode_goodAny cfg buf s.copyDepth (fuelFor buf.length) 0 (by unfold fuelFor; omega)
    _ i loc s (Nat.zero_le _) hi (Nat.le_refl _) rfl h1 h2) ?_ ?_
  · rintro j s' ⟨h3, h4⟩
    exact ⟨h3, h4.len, h4.depth⟩
  · intro e s' h; exact h.tok

theorem decodeFresh_reads (cfg : DCfg) (buf : Bytes) (i : Nat) (s : DState) (hi : i ≤ buf.length) :
    Reads buf.length s.copyDepth i (decodeFresh cfg buf i) s := by
  unfold decodeFresh
  refine Spec.step (allocVar_apply _ _) ?_
  refine Spec.bind (Spec.mono (decode_any cfg buf i _ _ hi ?_ ?_) ?_ ?_)
  · simp [Heap.alloc, Loc.addr]
  · simp [Heap.alloc, Heap.read, Heap.cellAt, Heap.set]
  · rintro j s1 ⟨h1, h2, h3⟩
    exact Spec.step (readLoc_apply _ _) (Spec.pure ⟨h1, h2, h3⟩)
  · intro e s' h; exact h

section
variable {cfg : DCfg} {tc : TCfg} {buf : Bytes} {cd lo : Nat} {rec : Rec} (hrec : TGood buf.length cd lo rec)

theorem decodeFresh_reads' {i : Nat} {s : DState} (hi : i ≤ buf.length) (hcd : s.copyDepth = cd) :
    Reads buf.length cd i (decodeFresh cfg buf i) s := by
  have := decodeFresh_reads cfg buf i s hi
  rwa [hcd] at this

include hrec in
theorem elemsLoop_reads (e : Ty) (acc : Acc) (n : Nat) (vs : List TVal) (i : Nat) (s : DState) (hlo : lo ≤ i)
    (hi : i ≤ buf.length) (hcd : s.copyDepth = cd) :
    Reads0 buf.length cd i (elemsLoop cfg buf rec e acc n vs i) s := by
  induction n generalizing vs i s with
  | zero => unfold elemsLoop; exact Spec.pure ⟨Nat.le_refl _, hi, hcd⟩
  | succ n ih =>
    cases vs with
    | nil =>
      unfold elemsLoop
      refine Spec.bind (Spec.mono (decodeFresh_reads' hi hcd) ?_ (fun _ _ h => h))
      rintro ⟨j, v⟩ s1 ⟨h1, h2, h3⟩
      dsimp only at h1 h2 ⊢
      refine Spec.mono (ih _ j s1 (by omega) h2 h3) ?_ (fun _ _ h => h)
      rintro p s2 ⟨h4, h5, h6⟩
      exact ⟨by omega, h5, h6⟩
    | cons v vs =>
      unfold elemsLoop
      refine Spec.bind (Spec.mono (hrec i e v acc s hlo hi hcd) ?_ (fun _ _ h => h))
      rintro ⟨j, v⟩ s1 ⟨h1, h2, h3⟩
      dsimp only at h1 h2 ⊢
      refine Spec.bind (Spec.mono (ih vs j s1 (by omega) h2 h3) ?_ (fun _ _ h => h))
      rintro ⟨k, us⟩ s2 ⟨h4, h5, h6⟩
      dsimp only at h4 h5
      exact Spec.pure ⟨by dsimp only; omega, h5, h6⟩

include hrec in
theorem arrayTyped_reads (i : Nat) (ln : Int) (ty : Ty) (cur : TVal) (acc : Acc) (s : DState) (hlo : lo ≤ i)
    (hi : i ≤ buf.length) (hcd : s.copyDepth = cd) :
    Reads0 buf.length cd i (arrayTyped cfg buf rec i ln ty cur acc) s := by
  unfold arrayTyped
  refine Spec.failIf (fun _ => .err _) fun _ => Spec.failIf (fun _ => .err _) fun _ => ?_
  cases ty with
  | slice e =>
    dsimp only
    refine Spec.still (orMake_still _ _ _ _) fun cur => ?_
    refine Spec.bind (Spec.mono (elemsLoop_reads hrec e _ _ _ i s hlo hi hcd) ?_ (fun _ _ h => h))
    rintro ⟨k, us⟩ s2 h4
    exact Spec.pure h4
  | arr n e =>
    dsimp only
    refine Spec.bind (Spec.mono (elemsLoop_reads hrec e _ _ _ i s hlo hi hcd) ?_ (fun _ _ h => h))
    rintro ⟨k, us⟩ s2 h4
    exact Spec.pure h4
  | _ => exact Spec.err (.err _)

include hrec in
theorem entriesLoop_reads (e : Ty) (acc : Acc) (n : Nat) (kvs : List (Bytes × TVal)) (i : Nat) (s : DState)
    (hlo : lo ≤ i) (hi : i ≤ buf.length) (hcd : s.copyDepth = cd) :
    Reads0 buf.length cd i (entriesLoop buf rec e acc n kvs i) s := by
  induction n generalizing kvs i s with
  | zero => unfold entriesLoop; exact Spec.pure ⟨Nat.le_refl _, hi, hcd⟩
  | succ n ih =>
    unfold entriesLoop
    refine Spec.stringish (fun _ _ h => h.tok) fun key j s1 h1 h2 _ h3 _ _ _ => ?_
    dsimp only
    cases mapLookup key kvs with
    | some v =>
      dsimp only
      refine Spec.bind (Spec.mono (hrec j e v _ s1 (by omega) h2 (by omega)) ?_ (fun _ _ h => h))
      rintro ⟨k, v⟩ s2 ⟨h4, h5, h6⟩
      dsimp only at h4 h5 ⊢
      refine Spec.mono (ih _ k s2 (by omega) h5 h6) ?_ (fun _ _ h => h)
      rintro p s3 ⟨h7, h8, h9⟩
      exact ⟨by omega, h8, h9⟩
    | none =>
      dsimp only
      refine Spec.bind (Spec.mono (hrec j e .zero _ s1 (by omega) h2 (by omega)) ?_ (fun _ _ h => h))
      rintro ⟨k, v⟩ s2 ⟨h4, h5, h6⟩
      dsimp only at h4 h5 ⊢
      refine Spec.failIf (fun _ => .panic _) fun _ => ?_
      refine Spec.mono (ih _ k s2 (by omega) h5 h6) ?_ (fun _ _ h => h)
      rintro p s3 ⟨h7, h8, h9⟩
      exact ⟨by omega, h8, h9⟩

include hrec in
theorem fieldsLoop_reads (fs : List TField) (acc : Acc) (n : Nat) (vs : List TVal) (i : Nat) (s : DState)
    (hlo : lo ≤ i) (hi : i ≤ buf.length) (hcd : s.copyDepth = cd) :
    Reads0 buf.length cd i (fieldsLoop cfg tc buf rec fs acc n vs i) s := by
  induction n generalizing vs i s with
  | zero => unfold fieldsLoop; exact Spec.pure ⟨Nat.le_refl _, hi, hcd⟩
  | succ n ih =>
    unfold fieldsLoop
    refine Spec.stringish (fun _ _ h => h.tok) fun key j s1 h1 h2 _ h3 _ _ _ => ?_
    dsimp only
    cases findField tc fs key with
    | some x =>
      dsimp only
      cases fs[x]? with
      | none => exact Spec.fail (.panic _)
      | some f =>
        dsimp only
        refine Spec.bind (Spec.mono (hrec j f.ty _ _ s1 (by omega) h2 (by omega)) ?_ (fun _ _ h => h))
        rintro ⟨k, v⟩ s2 ⟨h4, h5, h6⟩
        dsimp only at h4 h5 ⊢
        refine Spec.mono (ih _ k s2 (by omega) h5 h6) ?_ (fun _ _ h => h)
        rintro p s3 ⟨h7, h8, h9⟩
        exact ⟨by omega, h8, h9⟩
    | none =>
      dsimp only
      refine Spec.bind (Spec.mono (decodeFresh_reads' h2 (show s1.copyDepth = cd by omega)) ?_ (fun _ _ h => h))
      rintro ⟨k, v⟩ s2 ⟨h4, h5, h6⟩
      dsimp only at h4 h5 ⊢
      refine Spec.mono (ih _ k s2 (by omega) h5 h6) ?_ (fun _ _ h => h)
      rintro p s3 ⟨h7, h8, h9⟩
      exact ⟨by omega, h8, h9⟩

include hrec in
theorem hashTyped_reads (n : Nat) (ty : Ty) (cur : TVal) (acc : Acc) (i : Nat) (s : DState) (hlo : lo ≤ i)
    (hi : i ≤ buf.length) (hcd : s.copyDepth = cd) :
    Reads0 buf.length cd i (hashTyped cfg tc buf rec i n ty cur acc) s := by
  induction ty generalizing cur acc with
  | map e _ =>
    unfold hashTyped
    refine Spec.still (orMake_still _ _ _ _) fun cur => ?_
    refine Spec.bind (Spec.mono (entriesLoop_reads hrec e _ _ _ i s hlo hi hcd) ?_ (fun _ _ h => h))
    rintro ⟨k, us⟩ s2 h4
    exact Spec.pure h4
  | ptr e ih =>
    unfold hashTyped
    refine Spec.still (orMake_still _ _ _ _) fun cur => ?_
    refine Spec.bind (Spec.mono (ih _ _) ?_ (fun _ _ h => h))
    rintro ⟨k, us⟩ s2 h4
    exact Spec.pure h4
  | strct id =>
    unfold hashTyped
    refine Spec.bind (Spec.mono (fieldsLoop_reads hrec _ _ _ _ i s hlo hi hcd) ?_ (fun _ _ h => h))
    rintro ⟨k, us⟩ s2 h4
    exact Spec.pure h4
  | _ => unfold hashTyped; exact Spec.err (.err _)

include hrec in
theorem checkedHash_reads (n : Int) (ty : Ty) (cur : TVal) (acc : Acc) (i : Nat) (s : DState) (hlo : lo ≤ i)
    (hi : i ≤ buf.length) (hcd : s.copyDepth = cd) :
    Reads0 buf.length cd i (checkHash buf i n >>= fun _ => hashTyped cfg tc buf rec i n.toNat ty cur acc) s := by
  refine Spec.bind ?_
  unfold checkHash
  refine Spec.failIf (fun _ => .err _) fun _ => ?_
  constructor
  · intro a s' h
    obtain ⟨_, rfl⟩ := D.failIf_ok.1 h
    exact hashTyped_reads hrec _ _ _ _ _ _ hlo hi hcd
  · intro e s' h
    obtain ⟨_, rfl, _⟩ := D.failIf_error.1 h
    exact .err _

theorem freezeTyped_reads (i : Nat) (ty : Ty) (cur : TVal) (acc : Acc) (v : Bool) (s : DState)
    (hi : i ≤ buf.length) (hcd : s.copyDepth = cd) :
    Reads buf.length cd i (freezeTyped cfg tc buf i ty cur acc v) s := by
  unfold freezeTyped
  refine Spec.className hi (fun _ _ h => h.tok) fun cls j s1 h1 h2 _ h3 _ _ _ => ?_
  dsimp only
  refine Spec.failIf (fun _ => .err _) fun hj => ?_
  refine Spec.byteAt (by omega) fun t0 => Spec.byteAt (by omega) fun t1 => ?_
  refine Spec.failIf (fun _ => .err _) fun _ => ?_
  refine Spec.bind (Spec.mono (decodeFresh_reads' h2 (show s1.copyDepth = cd by omega)) ?_ (fun _ _ h => h))
  rintro ⟨k, w⟩ s2 ⟨h4, h5, h6⟩
  dsimp only at h4 h5 ⊢
  cases w with
  | slice p n =>
    dsimp only
    refine Spec.failIf (fun _ => .err _) fun _ => Spec.step (readLoc_apply _ _) ?_
    cases s2.heap.read (.cell p) with
    | bin data =>
      dsimp only
      refine Spec.ite (fun _ => ?_) fun _ => ?_
      · refine Spec.step (allocVar_apply _ _) (Spec.still (setPerl_still _ _ _) fun v => Spec.pure ⟨?_, h5, h6⟩)
        dsimp only; omega
      · refine Spec.still (unmarshalBinary_still _ _ _ _ _) fun r => ?_
        cases r with
        | some v => exact Spec.pure ⟨by dsimp only; omega, h5, h6⟩
        | none =>
          dsimp only
          refine Spec.ite (fun _ => ?_) fun _ => Spec.err (.err _)
          exact Spec.still (assign_still _ _) fun v => Spec.pure ⟨by dsimp only; omega, h5, h6⟩
    | _ => exact Spec.err (.err _)
  | _ => exact Spec.err (.err _)

theorem undefTyped_reads (b : Bool) (ty : Ty) (cur : TVal) (acc : Acc) (i : Nat) (s : DState)
    (hi : i ≤ buf.length) (hcd : s.copyDepth = cd) :
    Reads0 buf.length cd i (undefTyped cfg b ty cur acc >>= fun v => Pure.pure (i, v)) s := by
  refine Spec.bind ?_
  unfold undefTyped
  refine Spec.ite (fun _ => ?_) fun _ => Spec.ite (fun _ => ?_) fun _ => ?_
  · exact Spec.ofStill (setPerl_still _ _ _) fun v => Spec.pure ⟨Nat.le_refl _, hi, hcd⟩
  · exact Spec.step (allocVar_apply _ _)
      (Spec.ofStill (setPerl_still _ _ _) fun v => Spec.pure ⟨Nat.le_refl _, hi, hcd⟩)
  · refine Spec.ofStill ?_ fun v => Spec.pure ⟨Nat.le_refl _, hi, hcd⟩
    split <;> first | exact assign_still _ _ | exact .pure _

include hrec in
/-- The `switch`, after the tag at `i`. -/
theorem typedC_reads (hcopy : cd = 0 → TGood buf.length 1 0 rec) (c : TagC) (i : Nat) (ty : Ty) (cur : TVal) (acc : Acc)
    (tag : Nat) (s : DState) (hlo : lo ≤ i) (hi : i ≤ buf.length) (hcd : s.copyDepth = cd) :
    Reads0 buf.length cd i (typedC cfg tc buf rec c i ty cur acc tag) s := by
  have weaken : ∀ {β : Type} {x : D (Nat × β)} {k : Nat} {s : DState}, i ≤ k → Reads0 buf.length cd k x s →
      Reads0 buf.length cd i x s := by
    intro β x k s hk h
    exact Spec.mono h (fun p s' h => ⟨by omega, h.2⟩) (fun _ _ h => h)
  have weaken1 : ∀ {β : Type} {x : D (Nat × β)} {k : Nat} {s : DState}, i ≤ k → Reads buf.length cd k x s →
      Reads0 buf.length cd i x s := by
    intro β x k s hk h
    exact Spec.mono h (fun p s' h => ⟨by omega, h.2⟩) (fun _ _ h => h)
  have inner : ∀ (v : Val) (k : Nat) (s : DState), i ≤ k → k ≤ buf.length → s.copyDepth = cd →
      v = .weak .nil ∨ (∃ cls, v = .obj cls .nil) →
      Reads0 buf.length cd i (do
        let a ← allocVar v
        let v ← setPerl ty acc (.ptr false a)
        let idx ← decode cfg buf (fuelFor buf.length) k (.field a)
        Pure.pure (idx, v)) s := by
    intro v k s hk hk2 hs hv
    refine Spec.step (allocVar_apply _ _) (Spec.still (setPerl_still _ _ _) fun w => ?_)
    refine Spec.bind (Spec.mono (decode_any cfg buf k _ _ hk2 ?_ ?_) ?_ (fun _ _ h => h))
    · simp [Heap.alloc, Loc.addr]
    · rcases hv with rfl | ⟨cls, rfl⟩ <;> simp [Heap.alloc, Heap.read, Heap.cellAt, Heap.set]
    · rintro j s1 ⟨h1, h2, h3⟩
      exact Spec.pure ⟨by dsimp only; omega, h2, h3.trans hs⟩
  cases c with
  | int n => exact Spec.still (setInt_still _ _ _) fun v => Spec.pure ⟨Nat.le_refl _, hi, hcd⟩
  | varint =>
    refine Spec.varintAt hi (.err _) fun n sz _ h2 _ => ?_
    exact Spec.still (setInt_still _ _ _) fun v => Spec.pure ⟨by dsimp only; omega, h2, hcd⟩
  | zigzag =>
    refine Spec.varintAt hi (.err _) fun n sz _ h2 _ => ?_
    exact Spec.still (setInt_still _ _ _) fun v => Spec.pure ⟨by dsimp only; omega, h2, hcd⟩
  | float =>
    refine Spec.float (fun _ => .err _) fun t h2 => ?_
    exact Spec.still (setFloat_still _ _ _ _) fun v => Spec.pure ⟨by dsimp only; omega, h2, hcd⟩
  | double =>
    refine Spec.double (fun _ => .err _) fun t h2 => ?_
    exact Spec.still (setFloat_still _ _ _ _) fun v => Spec.pure ⟨by dsimp only; omega, h2, hcd⟩
  | true_ => exact Spec.still (setBool_still _ _ _) fun v => Spec.pure ⟨Nat.le_refl _, hi, hcd⟩
  | false_ => exact Spec.still (setBool_still _ _ _) fun v => Spec.pure ⟨Nat.le_refl _, hi, hcd⟩
  | binary =>
    refine Spec.varintAt hi (.err _) fun n sz _ h2 _ => ?_
    refine Spec.binary h2 (fun _ => .err _) fun t j h3 h4 => ?_
    exact Spec.still (setBinary_still _ _ _ _) fun v => Spec.pure ⟨by dsimp only; omega, h4, hcd⟩
  | short n =>
    refine Spec.binary hi (fun _ => .err _) fun t j h3 h4 => ?_
    exact Spec.still (setBinary_still _ _ _ _) fun v => Spec.pure ⟨by dsimp only; omega, h4, hcd⟩
  | strUtf8 =>
    refine Spec.varintAt hi (.err _) fun n sz _ h2 _ => ?_
    refine Spec.binary h2 (fun _ => .err _) fun t j h3 h4 => ?_
    exact Spec.still (setString_still _ _ _) fun v => Spec.pure ⟨by dsimp only; omega, h4, hcd⟩
  | hash =>
    refine Spec.varintAt hi (.err _) fun n sz _ h2 _ => ?_
    exact weaken (by omega) (checkedHash_reads hrec _ _ _ _ _ _ (by omega) h2 hcd)
  | hashref n => exact checkedHash_reads hrec n _ _ _ _ _ hlo hi hcd
  | array =>
    refine Spec.varintAt hi (.err _) fun n sz _ h2 _ => ?_
    exact weaken (by omega) (arrayTyped_reads hrec _ _ _ _ _ _ (by omega) h2 hcd)
  | arrayref n => exact arrayTyped_reads hrec _ _ _ _ _ _ hlo hi hcd
  | undef => exact undefTyped_reads _ _ _ _ _ _ hi hcd
  | cundef => exact undefTyped_reads _ _ _ _ _ _ hi hcd
  | copy =>
    refine Spec.step (D.get_apply _) (Spec.failIf (fun _ => .err _) fun h0 => ?_)
    refine Spec.varintAt hi (.err _) fun n sz _ h2 _ => ?_
    dsimp only
    refine Spec.failIf (fun _ => .err _) fun h3 => ?_
    have hcd0 : cd = 0 := by omega
    refine Spec.bind (Spec.withCopy (E' := fun e _ => TOk e) ?_ (fun _ _ h => h) (fun _ _ h _ => h))
    refine Spec.mono (hcopy hcd0 _ ty cur acc _ (Nat.zero_le _) (by omega) (by show s.copyDepth + 1 = 1; omega)) ?_
      (fun _ _ h => h)
    rintro ⟨j, v⟩ s1 ⟨_, _, h6⟩
    refine Spec.pure ⟨by dsimp only; omega, h2, ?_⟩
    show s1.copyDepth - 1 = cd
    omega
  | refn => exact weaken1 (Nat.le_refl _) (hrec i ty cur acc s hlo hi hcd)
  | refp =>
    refine Spec.varintAt hi (.err _) fun n sz _ h2 _ => ?_
    dsimp only
    refine Spec.failIf (fun _ => .err _) fun h3 => Spec.step (D.get_apply _) ?_
    cases s.tracked (sgn n).toNat with
    | none => exact Spec.err (.err _)
    | some l => exact Spec.fail (.panic _)
  | alias =>
    refine Spec.varintAt hi (.err _) fun n sz _ h2 _ => ?_
    dsimp only
    refine Spec.failIf (fun _ => .err _) fun h3 => Spec.step (D.get_apply _) ?_
    cases s.tracked (sgn n).toNat with
    | none => exact Spec.err (.err _)
    | some l => exact Spec.fail (.panic _)
  | weaken =>
    refine Spec.ite (fun _ => ?_) fun _ => ?_
    · exact inner _ i s (Nat.le_refl _) hi hcd (.inl rfl)
    · exact weaken1 (Nat.le_refl _) (hrec i ty cur acc s hlo hi hcd)
  | regexp =>
    refine Spec.bind ?_
    unfold decodeRegexp
    refine Spec.stringish (fun _ _ h => h.tok) fun p j s1 h1 h2 _ h3 _ _ _ => ?_
    dsimp only
    refine Spec.stringish (fun _ _ h => h.tok) fun m k s2 h4 h5 _ h6 _ _ _ => ?_
    dsimp only
    refine Spec.pure (Spec.step (allocVar_apply _ _) (Spec.still (setPerl_still _ _ _) fun v => Spec.pure ?_))
    exact ⟨by dsimp only; omega, h5, by show s2.copyDepth = cd; omega⟩
  | object =>
    refine Spec.className hi (fun _ _ h => h.tok) fun cls j s1 h1 h2 _ h3 _ _ _ => ?_
    dsimp only
    refine Spec.ite (fun _ => ?_) fun _ => ?_
    · exact inner _ j s1 (by omega) h2 (by omega) (.inr ⟨_, rfl⟩)
    · exact weaken1 (by omega) (hrec j ty cur acc s1 (by omega) h2 (by omega))
  | objectv =>
    refine Spec.className hi (fun _ _ h => h.tok) fun cls j s1 h1 h2 _ h3 _ _ _ => ?_
    dsimp only
    refine Spec.ite (fun _ => ?_) fun _ => ?_
    · exact inner _ j s1 (by omega) h2 (by omega) (.inr ⟨_, rfl⟩)
    · exact weaken1 (by omega) (hrec j ty cur acc s1 (by omega) h2 (by omega))
  | freeze => exact weaken1 (Nat.le_refl _) (freezeTyped_reads _ _ _ _ _ _ hi hcd)
  | freezev => exact weaken1 (Nat.le_refl _) (freezeTyped_reads _ _ _ _ _ _ hi hcd)
  | pad => exact Spec.err (.err _)
  | other => exact Spec.err (.err _)

end

theorem untracked_lt (b : UInt8) : (b &&& ~~~ trackFlag).toNat < 128 := by
  revert b; apply u8_forall; set_option maxRecDepth 8000 in decide

/-- One step of decodeViaReflection. -/
theorem decodeTyped_step (cfg : DCfg) (tc : TCfg) (buf : Bytes) (f cd i : Nat)
    (hrec : TGood buf.length cd (i + 1) (decodeTyped cfg tc buf f))
    (hcopy : cd = 0 → TGood buf.length 1 0 (decodeTyped cfg tc buf f)) (ty : Ty) (cur : TVal) (acc : Acc) (s : DState)
    (hi : i ≤ buf.length) (hcd : s.copyDepth = cd) : Reads buf.length cd i (decodeTyped cfg tc buf (f + 1) i ty cur acc) s := by
  unfold decodeTyped
  refine Spec.failIf (fun _ => .err _) fun hlt => ?_
  refine Spec.ite (fun _ => ?_) fun _ => ?_
  · refine Spec.bind (Spec.mono (decodeFresh_reads' hi hcd) ?_ (fun _ _ h => h))
    rintro ⟨j, v⟩ s1 h
    dsimp only
    refine Spec.ite (fun _ => ?_) fun _ => Spec.pure h
    exact Spec.still (assign_still _ _) fun w => Spec.pure h
  · refine Spec.skipPad (.err _) fun k b ht => ?_
    have h1 := ht.lt
    have h2 := ht.le
    have fin : ∀ s1 : DState, s1.copyDepth = cd → Reads buf.length cd i
        (tagTyped cfg tc buf (decodeTyped cfg tc buf f) (b &&& ~~~ trackFlag) (k + 1) ty cur acc) s1 := by
      intro s1 hs1
      rw [tagTyped_eq _ _ _ _ _ _ _ _ _ (untracked_lt b)]
      refine Spec.mono (typedC_reads (lo := i + 1) hrec hcopy _ _ _ _ _ _ s1 (by omega) (by omega) hs1) ?_ (fun _ _ h => h)
      rintro p s2 ⟨h3, h4, h5⟩
      exact ⟨by omega, h4, h5⟩
    dsimp only
    refine Spec.ite (fun _ => ?_) fun _ => ?_
    · exact Spec.step (show trackTyped k s = (.ok (), _) from rfl) (fin _ hcd)
    · exact Spec.step (D.pure_apply _ _) (fin _ hcd)

theorem TGood.lo_mono {L cd lo lo' : Nat} {rec : Rec} (h : TGood L cd lo rec) (hl : lo ≤ lo') : TGood L cd lo' rec :=
  fun i ty cur acc s h1 => h i ty cur acc s (by omega)

theorem typed_good1 (cfg : DCfg) (tc : TCfg) (buf : Bytes) (f lo cd : Nat) (hcd : 0 < cd) (hf : buf.length + 1 - lo ≤ f) :
    TGood buf.length cd lo (decodeTyped cfg tc buf f) := by
  induction f generalizing lo with
  | zero => intro i ty cur acc s h1 h2; omega
  | succ f ih =>
    intro i ty cur acc s h1 h2 h3
    exact decodeTyped_step cfg tc buf f cd i (ih (i + 1) (by omega)) (by omega) ty cur acc s h2 h3

theorem typed_good0 (cfg : DCfg) (tc : TCfg) (buf : Bytes) (f lo : Nat)
    (hf : buf.length + 1 - lo + (buf.length + 1) ≤ f) : TGood buf.length 0 lo (decodeTyped cfg tc buf f) := by
  induction f generalizing lo with
  | zero => intro i ty cur acc s h1 h2; omega
  | succ f ih =>
    intro i ty cur acc s h1 h2 h3
    exact decodeTyped_step cfg tc buf f 0 i (ih (i + 1) (by omega))
      (fun _ => typed_good1 cfg tc buf f 0 1 (by omega) (by omega)) ty cur acc s h2 h3

/-- What Unmarshal hands to the decoder, or the error it returns. -/
theorem bodyInput_safe (cs : Codecs) (b : Bytes) (hsane : SaneHeaderLength b) (hzl : SaneZlibSize b) :
    (∃ er, bodyInput cs b = .error (.err er)) ∨ ∃ buf i, bodyInput cs b = .ok (buf, i) ∧ i ≤ buf.length + 1 := by
  unfold bodyInput
  cases h1 : checkHeader b with
  | error e =>
    obtain ⟨er, rfl⟩ := checkHeader_error h1
    exact .inl ⟨er, rfl⟩
  | ok hd =>
    obtain ⟨hlen, hv1, hv4, ⟨t, ht, hdt, hver⟩, v, rest, hvr, hv, hv10, hss, hsz⟩ := checkHeader_ok h1
    have hg := hsane v rest hvr hv
    dsimp only
    cases h2 : documentDecompressor hd.version hd.doctype with
    | error e =>
      obtain ⟨er, rfl⟩ := documentDecompressor_error h2
      exact .inl ⟨er, rfl⟩
    | ok dc =>
      dsimp only
      by_cases hbs : wrapInt (headerSize + hd.suffixSize) > b.length ∨ wrapInt (headerSize + hd.suffixSize) < 0
      · rw [if_pos hbs]; exact .inl ⟨_, rfl⟩
      · rw [if_neg hbs]
        rw [hsz] at hbs ⊢
        obtain ⟨hbs1, hbs2, hbs3⟩ := bodyStart_eq hv10 hg hbs
        rw [hbs1]
        have fin : ∀ b' : Bytes, 5 + v.length + groups v ≤ b'.length →
            ∃ buf i, (if hd.version = 1 then .ok (b', 5 + v.length + groups v)
              else if 5 + v.length + groups v = 0 then .error (.crash "slice bounds out of range")
              else .ok (b'.drop (5 + v.length + groups v - 1), 1) : Res (Bytes × Nat)) = .ok (buf, i) ∧
              i ≤ buf.length + 1 := by
          intro b' hb'
          by_cases hv : hd.version = 1
          · rw [if_pos hv]; exact ⟨_, _, rfl, by omega⟩
          · rw [if_neg hv, if_neg (by omega)]; exact ⟨_, _, rfl, by omega⟩
        cases dc with
        | none => exact .inr (fin b hbs2)
        | some c =>
          dsimp only
          cases h3 : decompress cs c (b.drop (5 + v.length + groups v)) with
          | ok body =>
            refine .inr (fin _ ?_)
            rw [List.length_append, List.length_take]; omega
          | error e =>
            rcases decompress_error h3 with ⟨er, rfl⟩ | ⟨l, m, rfl, rfl, u, rest', hu1, hu2, hu3, hu4⟩
            · exact .inl ⟨er, rfl⟩
            · exfalso
              have h3 := documentDecompressor_zlib h2
              have := hzl ⟨t, ht, by rw [← shift4, ← hdt]; exact h3⟩ v rest hvr hv u rest' ?_ hu2
              · rw [sgn_small (by omega)] at hu4; omega
              · rw [← hu1, show 5 + v.length + groups v = 5 + (v.length + groups v) by omega,
                  ← List.drop_drop, hvr, ← List.drop_drop, List.drop_left]

/-- Unmarshal into a typed variable succeeds or returns an error. -/
theorem unmarshalTyped_safe (cfg : DCfg) (tc : TCfg) (cs : Codecs) (b : Bytes) (ty : Ty) (cur : TVal)
    (hsane : SaneHeaderLength b) (hzl : SaneZlibSize b) :
    (∃ h v, unmarshalTyped cfg tc cs b ty cur = .ok (h, v)) ∨ ∃ er, unmarshalTyped cfg tc cs b ty cur = .error (.err er) := by
  unfold unmarshalTyped
  rw [unmarshalTypedRaw_body]
  rcases bodyInput_safe cs b hsane hzl with ⟨er, h⟩ | ⟨buf, i, h, hi⟩
  · rw [h]; exact .inr ⟨er, rfl⟩
  · rw [h]
    dsimp only
    unfold typedBody
    rw [D.bind_apply]
    unfold withTracked
    have key : Spec (decodeTyped cfg tc buf (fuelFor buf.length) i ty cur .rw) { DState.init with tracked := fun _ => none }
        (fun _ _ => True) (fun e _ => TOk e) := by
      by_cases hi' : i ≤ buf.length
      · exact Spec.mono (typed_good0 cfg tc buf (fuelFor buf.length) 0 (by unfold fuelFor; omega) i ty cur .rw _
          (Nat.zero_le _) hi' rfl) (fun _ _ _ => trivial) (fun _ _ h => h)
      · rw [show fuelFor buf.length = (2 * buf.length + 3) + 1 from rfl]
        unfold decodeTyped
        exact Spec.failIf (fun _ => .err _) fun hc => absurd (show i ≥ buf.length by omega) hc
    cases hr : decodeTyped cfg tc buf (fuelFor buf.length) i ty cur .rw { DState.init with tracked := fun _ => none } with
    | mk r s1 =>
      cases r with
      | ok p => exact .inl ⟨_, _, rfl⟩
      | error e =>
        obtain ⟨h1, h2⟩ := key.2 _ _ hr
        cases e with
        | err er => exact .inr ⟨_, rfl⟩
        | panic m => exact .inr ⟨_, rfl⟩
        | crash m => exact absurd rfl (h1 m)
        | fuel => exact absurd rfl h2

end Sereal
