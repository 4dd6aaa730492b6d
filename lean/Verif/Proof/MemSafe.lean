import Verif.Proof.TypedSafe
import Verif.Proof.MemTags
/-
Decoding into typed variables in memory: no endless recursion, and no runtime error but one.
-/
namespace Sereal

/-- A failure that Unmarshal turns into an error, or the runtime error for a nil map, if `A`. -/
def COk (A : Prop) (e : Exn) : Prop := e ≠ .fuel ∧ ∀ m, e = .crash m → A ∧ m = "assignment to entry in nil map"

theorem COk.err {A : Prop} (er : Err) : COk A (.err er) := ⟨by simp, by simp⟩
theorem COk.panic {A : Prop} (m : String) : COk A (.panic m) := ⟨by simp, by simp⟩
theorem TOk.cok {A : Prop} {e : Exn} (h : TOk e) : COk A e := ⟨h.2, fun m hm => absurd hm (h.1 m)⟩
theorem EOk.cok {A : Prop} {c B : Nat} {e : Exn} {s : DState} (h : EOk c B e s) : COk A e := h.tok.cok

/-- What holds after `x`, started in `s`. -/
def MSpec (A : Prop) (x : M α) (s : MSt) (Q : α → MSt → Prop) : Prop :=
  (∀ a s', x s = (.ok a, s') → Q a s') ∧ (∀ e s', x s = (.error e, s') → COk A e)

theorem M.bind_apply (x : M α) (f : α → M β) (s : MSt) :
    (x >>= f) s = match x s with
      | (.ok a, s') => f a s'
      | (.error e, s') => (.error e, s') := rfl
theorem M.pure_apply (a : α) (s : MSt) : (Pure.pure a : M α) s = (.ok a, s) := rfl

section
variable {A : Prop} {Q : α → MSt → Prop}

theorem MSpec.bind {x : M β} {f : β → M α} {s : MSt} (h : MSpec A x s (fun b s1 => MSpec A (f b) s1 Q)) :
    MSpec A (x >>= f) s Q := by
  cases hx : x s with
  | mk r s1 =>
    cases r with
    | ok b =>
      have := h.1 _ _ hx
      refine ⟨fun a s' h1 => ?_, fun e s' h1 => ?_⟩
      · rw [M.bind_apply, hx] at h1; exact this.1 _ _ h1
      · rw [M.bind_apply, hx] at h1; exact this.2 _ _ h1
    | error e =>
      have := h.2 _ _ hx
      refine ⟨fun a s' h1 => ?_, fun e s' h1 => ?_⟩
      · rw [M.bind_apply, hx] at h1; cases h1
      · rw [M.bind_apply, hx] at h1; cases h1; exact this

theorem MSpec.mono {Q' : α → MSt → Prop} {x : M α} {s : MSt} (h : MSpec A x s Q') (hQ : ∀ a s', Q' a s' → Q a s') :
    MSpec A x s Q := ⟨fun a s' h1 => hQ _ _ (h.1 a s' h1), h.2⟩

theorem MSpec.pure {a : α} {s : MSt} (h : Q a s) : MSpec A (Pure.pure a) s Q :=
  ⟨fun b s' h1 => by cases h1; exact h, fun e s' h1 => by cases h1⟩

theorem MSpec.fail {e : Exn} {s : MSt} (h : COk A e) : MSpec A (M.fail e : M α) s Q :=
  ⟨fun b s' h1 => (by cases h1), fun e s' h1 => by cases h1; exact h⟩
theorem MSpec.err {e : Err} {s : MSt} : MSpec A (M.err e : M α) s Q := MSpec.fail (.err e)
theorem MSpec.panic {m : String} {s : MSt} : MSpec A (M.fail (.panic m) : M α) s Q := MSpec.fail (.panic m)

theorem MSpec.failIf {f : Unit → M α} {c : Prop} [Decidable c] {e : Exn} {s : MSt} (h1 : COk A e)
    (h2 : ¬ c → MSpec A (f ()) s Q) : MSpec A (M.failIf c e >>= f) s Q := by
  refine MSpec.bind ?_
  unfold M.failIf
  by_cases hc : c
  · rw [if_pos hc]; exact .fail h1
  · rw [if_neg hc]; exact .pure (h2 hc)

theorem MSpec.ite {c : Prop} [Decidable c] {x y : M α} {s : MSt} (h1 : c → MSpec A x s Q) (h2 : ¬ c → MSpec A y s Q) :
    MSpec A (if c then x else y) s Q := by
  by_cases hc : c
  · rw [if_pos hc]; exact h1 hc
  · rw [if_neg hc]; exact h2 hc

theorem MSpec.get {f : MSt → M α} {s : MSt} (h : MSpec A (f s) s Q) : MSpec A (M.get >>= f) s Q := h

theorem MSpec.lift {x : D α} {s : MSt} (h : Spec x s.d (fun a d => Q a { s with d := d }) (fun e _ => COk A e)) :
    MSpec A (M.lift x) s Q := by
  cases hx : x s.d with
  | mk r d =>
    have hl : M.lift x s = (r, { s with d := d }) := by unfold M.lift; rw [hx]
    cases r with
    | ok b =>
      have := h.1 _ _ hx
      exact ⟨fun a s' h1 => by rw [hl] at h1; cases h1; exact this, fun e s' h1 => by rw [hl] at h1; cases h1⟩
    | error e =>
      have := h.2 _ _ hx
      exact ⟨fun a s' h1 => (by rw [hl] at h1; cases h1), fun e s' h1 => by rw [hl] at h1; cases h1; exact this⟩

theorem MSpec.liftBind {x : D β} {f : β → M α} {s : MSt}
    (h : Spec x s.d (fun a d => MSpec A (f a) { s with d := d } Q) (fun e _ => COk A e)) :
    MSpec A (M.lift x >>= f) s Q := .bind (.lift h)
end

theorem D.bind_pure' (x : D α) : (x >>= Pure.pure) = x := by
  funext s
  rw [D.bind_apply]
  cases x s with
  | mk r d => cases r <;> rfl

theorem Spec.alone {x : D α} {s : DState} {Q : α → DState → Prop} {E : Exn → DState → Prop}
    (h : Spec (x >>= Pure.pure) s Q E) : Spec x s Q E := by rwa [D.bind_pure'] at h

/-- An action that leaves the decoder's state alone (not the memory). -/
def MStill (A : Prop) (x : M α) : Prop := ∀ s, MSpec A x s (fun _ s' => s'.d = s.d)

theorem MStill.pure {A : Prop} (a : α) : MStill A (Pure.pure a : M α) := fun _ => .pure rfl
theorem MStill.panic {A : Prop} (m : String) : MStill A (M.fail (.panic m) : M α) := fun _ => .panic
theorem MStill.err {A : Prop} (er : Err) : MStill A (M.err er : M α) := fun _ => .err
theorem MStill.bind {A : Prop} {x : M α} {f : α → M β} (h1 : MStill A x) (h2 : ∀ a, MStill A (f a)) : MStill A (x >>= f) :=
  fun s => .bind (.mono (h1 s) fun a s1 h => .mono (h2 a s1) fun _ _ h' => h'.trans h)
theorem MStill.ite {A : Prop} {c : Prop} [Decidable c] {x y : M α} (h1 : MStill A x) (h2 : MStill A y) :
    MStill A (if c then x else y) := fun s => .ite (fun _ => h1 s) (fun _ => h2 s)
theorem MStill.failIf {A : Prop} {c : Prop} [Decidable c] (m : String) : MStill A (M.failIf c (.panic m)) :=
  .ite (.panic _) (.pure _)
theorem MStill.modify {A : Prop} (f : MSt → MSt) (a : MSt → α) (h : ∀ s, (f s).d = s.d) :
    MStill A (fun s => (.ok (a s), f s) : M α) :=
  fun s => ⟨fun b s' h1 => by cases h1; exact h s, fun e s' h1 => by cases h1⟩
theorem MStill.readLoc {A : Prop} (l : Loc) : MStill A (M.lift (readLoc l)) :=
  fun s => .lift (Spec.alone (Spec.step (readLoc_apply _ _) (Spec.pure rfl)))

theorem MSpec.still {A : Prop} {Q : α → MSt → Prop} {x : M β} {f : β → M α} {s : MSt} (hx : MStill A x)
    (h : ∀ b s', s'.d = s.d → MSpec A (f b) s' Q) : MSpec A (x >>= f) s Q :=
  .bind (.mono (hx s) h)

section
variable {A : Prop} (t : Target)

theorem read_still : MStill A t.read := by
  intro s
  unfold Target.read
  constructor
  · intro a s' h; dsimp only at h; split at h <;> · cases h; rfl
  · intro e s' h; dsimp only at h; split at h <;> cases h
theorem write_still (v : MVal) : MStill A (t.write v) := by
  unfold Target.write
  split
  · exact .ite (.panic _) (.modify _ _ fun _ => rfl)
  · exact .panic _
theorem newVar_still (v : MVal) : MStill A (newVar v) := .modify _ _ fun _ => rfl
theorem newMap_still : MStill A newMap := .modify _ _ fun _ => rfl
theorem makeSlice_still (vs : List MVal) : MStill A (t.makeSlice vs) := .bind (newVar_still _) fun _ => write_still _ _
theorem mset_int (i : Int64) : MStill A (t.setInt i) := by
  unfold Target.setInt; split <;> first | exact write_still _ _ | exact .panic _
theorem mset_float (tc : TCfg) (u : UInt64) : MStill A (t.setFloat tc u) := by
  unfold Target.setFloat; split <;> first | exact write_still _ _ | exact .panic _
theorem mset_bool (b : Bool) : MStill A (t.setBool b) := by
  unfold Target.setBool; split <;> first | exact write_still _ _ | exact .panic _
theorem mset_string (b : Bytes) : MStill A (t.setString b) := by
  unfold Target.setString; split <;> first | exact write_still _ _ | exact .panic _
theorem mset_binary (b : Bytes) : MStill A (t.setBinary b) := by
  unfold Target.setBinary
  split
  · refine .bind (read_still _) fun v => ?_
    split
    · exact .bind (.failIf _) fun _ => .modify _ _ fun _ => rfl
    · exact makeSlice_still _ _
  · exact .panic _
  · exact .bind (read_still _) fun v => write_still _ _
  · exact .panic _
  · exact write_still _ _
  · exact .panic _
theorem mset_perl (v : Val) : MStill A (t.setPerl v) := by
  unfold Target.setPerl; split <;> first | exact write_still _ _ | exact .panic _
theorem deref_still (e : Ty) : MStill A (t.deref e) := by
  unfold Target.deref
  refine .bind (read_still _) fun v => ?_
  split
  · exact .pure _
  · exact .bind (newVar_still _) fun l => .bind (write_still _ _) fun _ => .pure _
theorem lookup_still (k : Bytes) : MStill A (t.lookup k) := by
  unfold Target.lookup
  refine .bind (read_still _) fun v => ?_
  cases v with
  | map m => exact .modify _ _ fun _ => rfl
  | _ => exact .pure _
theorem insert_still (hA : A) (k : Bytes) (v : MVal) : MStill A (t.insert k v) := by
  unfold Target.insert
  refine .bind (.failIf _) fun _ => .bind (read_still _) fun v => ?_
  have hc : COk A (.crash "assignment to entry in nil map") := ⟨by simp, fun m hm => by cases hm; exact ⟨hA, rfl⟩⟩
  cases v with
  | map m => exact .modify _ _ fun _ => rfl
  | _ => exact fun s => .fail hc
theorem massign_still (ty : Ty) (v : MVal) : MStill A (t.assign ty v) :=
  .ite (write_still _ _) (.ite (write_still _ _) (.panic _))
theorem assignAny_still (v : Val) : MStill A (t.assignAny v) := by
  unfold Target.assignAny
  refine .ite (.panic _) (.ite (write_still _ _) ?_)
  split
  · exact massign_still _ _ _
  · exact .ite (.panic _) (.panic _)
theorem fromAny_still (cfg : DCfg) (b : Bool) (v : MVal) (ro : Bool) : MStill A (t.fromAny cfg b v ro) := by
  unfold Target.fromAny
  refine .bind (.failIf _) fun _ => .bind (.failIf _) fun _ => .ite ?_ ?_
  · split
    · exact .bind (read_still _) fun w => massign_still _ _ _
    · exact .bind (.readLoc _) fun w => .ite (write_still _ _) (.panic _)
    · exact .bind (.readLoc _) fun w => assignAny_still _ _
    · exact .panic _
  · split
    · exact massign_still _ _ _
    · exact assignAny_still _ _
    · exact .panic _
theorem callUnmarshal_still (f : Bytes → Option Nat) (data : Bytes) (l : Spot) : MStill A (callUnmarshal f data l) := by
  unfold callUnmarshal
  split
  · exact .err _
  · exact .modify _ _ fun _ => rfl
theorem munmarshal_still (tc : TCfg) (data : Bytes) : MStill A (unmarshalMem tc t data) := by
  unfold unmarshalMem
  split
  · refine .bind (deref_still _ _) fun t' => .bind (.failIf _) fun _ => ?_
    split
    · split
      · exact .bind (callUnmarshal_still _ _ _) fun _ => .pure _
      · exact .bind (.failIf _) fun _ => .pure _
    · exact .bind (.failIf _) fun _ => .pure _
  · refine .bind (.failIf _) fun _ => ?_
    split
    · exact .bind (callUnmarshal_still _ _ _) fun _ => .pure _
    · exact .pure _
  · refine .bind (.failIf _) fun _ => .bind (read_still _) fun v => ?_
    split
    · split
      · exact .bind (callUnmarshal_still _ _ _) fun _ => .pure _
      · exact .panic _
      · exact .bind (.failIf _) fun _ => .pure _
    · exact .panic _
    · exact .panic _
    · exact .bind (.failIf _) fun _ => .pure _
  · exact .bind (.failIf _) fun _ => .pure _
theorem undefMem_still (cfg : DCfg) (b : Bool) (h : cfg.perlCompat = false) : MStill A (undefMem cfg b t) := by
  unfold undefMem
  rw [if_neg (by simp [h]), if_neg (by simp [h])]
  split <;> first | exact write_still _ _ | exact .pure _
end

/-- A set of types that contains the types of elements and fields; `A` holds if there are maps among them. -/
structure TySet (tc : TCfg) (A : Prop) (T : Ty → Prop) : Prop where
  slice : ∀ e, T (.slice e) → T e
  arr : ∀ n e, T (.arr n e) → T e
  map : ∀ e, T (.map e) → T e ∧ A
  ptr : ∀ e, T (.ptr e) → T e
  strct : ∀ id f, T (.strct id) → f ∈ (tc.types id).fields → T f.ty

/-- The outcome of reading from position `i`. -/
abbrev MReads (A : Prop) (L cd i : Nat) (x : M Nat) (s : MSt) : Prop :=
  MSpec A x s (fun j s' => i < j ∧ j ≤ L ∧ s'.d.copyDepth = cd)

/-- The same if nothing need be read. -/
abbrev MReads0 (A : Prop) (L cd i : Nat) (x : M Nat) (s : MSt) : Prop :=
  MSpec A x s (fun j s' => i ≤ j ∧ j ≤ L ∧ s'.d.copyDepth = cd)

/-- The behaviour of decodeViaReflection from position `lo` on. -/
def MGoodRec (A : Prop) (T : Ty → Prop) (L cd lo : Nat) (rec : MRec) : Prop :=
  ∀ i t s, T t.ty → lo ≤ i → i ≤ L → s.d.copyDepth = cd → MReads A L cd i (rec i t) s

section
variable {A : Prop} {T : Ty → Prop} {cfg : DCfg} {tc : TCfg} {buf : Bytes} {cd lo : Nat} {rec : MRec}
  (hT : TySet tc A T) (hrec : MGoodRec A T buf.length cd lo rec)

theorem mfresh {i : Nat} {s : MSt} {f : Nat × Val → M Nat} {Q : Nat → MSt → Prop} (hi : i ≤ buf.length)
    (hcd : s.d.copyDepth = cd)
    (h : ∀ j v s', i < j → j ≤ buf.length → s'.d.copyDepth = cd → MSpec A (f (j, v)) s' Q) :
    MSpec A (M.lift (decodeFresh cfg buf i) >>= f) s Q := by
  refine .liftBind (Spec.mono (decodeFresh_reads' (cd := cd) hi hcd) ?_ (fun _ _ h => h.cok))
  rintro ⟨j, v⟩ d ⟨h1, h2, h3⟩
  exact h j v _ h1 h2 h3

theorem mkey {i : Nat} {s : MSt} {f : Bytes × Nat → M Nat} {Q : Nat → MSt → Prop} (hcd : s.d.copyDepth = cd)
    (h : ∀ k j s', i < j → j ≤ buf.length → s'.d.copyDepth = cd → MSpec A (f (k, j)) s' Q) :
    MSpec A (M.lift (decodeStringish buf i) >>= f) s Q := by
  refine .liftBind (Spec.alone (Spec.stringish (fun _ _ h => h.cok) fun k j d h1 h2 _ h3 _ _ _ => Spec.pure ?_))
  exact h k j _ h1 h2 (h3.trans hcd)

theorem mclass {i : Nat} {s : MSt} {v : Bool} {f : Bytes × Nat → M Nat} {Q : Nat → MSt → Prop} (hi : i ≤ buf.length)
    (hcd : s.d.copyDepth = cd)
    (h : ∀ k j s', i < j → j ≤ buf.length → s'.d.copyDepth = cd → MSpec A (f (k, j)) s' Q) :
    MSpec A (M.lift (decodeClassName buf i v) >>= f) s Q := by
  refine .liftBind (Spec.alone (Spec.className hi (fun _ _ h => h.cok) fun k j d h1 h2 _ h3 _ _ _ => Spec.pure ?_))
  exact h k j _ h1 h2 (h3.trans hcd)

theorem mvarint {i : Nat} {s : MSt} {f : Int × Nat → M Nat} {Q : Nat → MSt → Prop} (hi : i ≤ buf.length)
    (h : ∀ n sz, 0 < sz → i + sz ≤ buf.length → MSpec A (f (n, sz)) s Q) :
    MSpec A (M.lift (varintAt buf i) >>= f) s Q :=
  .liftBind (Spec.alone (Spec.varintAt hi (.err _) fun n sz h1 h2 _ => Spec.pure (h _ sz h1 h2)))

theorem mbinary {i : Nat} {ln : Int} {s : MSt} {f : Bytes × Nat → M Nat} {Q : Nat → MSt → Prop} (hi : i ≤ buf.length)
    (hcd : s.d.copyDepth = cd)
    (h : ∀ k j s', i ≤ j → j ≤ buf.length → s'.d.copyDepth = cd → MSpec A (f (k, j)) s' Q) :
    MSpec A (M.lift (decodeBinary buf i ln) >>= f) s Q :=
  .liftBind (Spec.alone (Spec.binary hi (fun _ => .err _) fun k j h1 h2 => Spec.pure (h k j _ h1 h2 hcd)))

theorem mthen {x : M Unit} {i j : Nat} {s : MSt} (hx : MStill A x) (hij : i ≤ j) (hj : j ≤ buf.length) (hcd : s.d.copyDepth = cd) :
    MReads0 A buf.length cd i (x >>= fun _ => Pure.pure j) s :=
  .still hx fun _ s' h => .pure ⟨hij, hj, by rw [h]; exact hcd⟩

theorem MGoodRec.next (hrec : MGoodRec A T buf.length cd lo rec) {i j : Nat} {t : Target} {s : MSt} (ht : T t.ty)
    (hlo : lo ≤ i) (hij : i ≤ j) (hj : j ≤ buf.length) (hcd : s.d.copyDepth = cd) {f : Nat → M Nat}
    (h : ∀ k s', j < k → k ≤ buf.length → s'.d.copyDepth = cd → MReads0 A buf.length cd k (f k) s') :
    MReads0 A buf.length cd i (rec j t >>= f) s := by
  refine .bind (.mono (hrec j t s ht (by omega) hj hcd) ?_)
  rintro k s1 ⟨h1, h2, h3⟩
  refine .mono (h k s1 h1 h2 h3) ?_
  rintro l s2 ⟨h4, h5, h6⟩
  exact ⟨by omega, h5, h6⟩

theorem mfresh0 {i j : Nat} {s : MSt} (hij : i ≤ j) (hj : j ≤ buf.length) (hcd : s.d.copyDepth = cd) {f : Nat × Val → M Nat}
    (h : ∀ k v s', j < k → k ≤ buf.length → s'.d.copyDepth = cd → MReads0 A buf.length cd k (f (k, v)) s') :
    MReads0 A buf.length cd i (M.lift (decodeFresh cfg buf j) >>= f) s := by
  refine mfresh hj hcd fun k v s' h1 h2 h3 => .mono (h k v s' h1 h2 h3) ?_
  rintro l s2 ⟨h4, h5, h6⟩
  exact ⟨by omega, h5, h6⟩

include hT hrec in
theorem elemsMem_reads (t : Target) (len n k i : Nat) (s : MSt) (ht : T t.ty) (hlo : lo ≤ i)
    (hi : i ≤ buf.length) (hcd : s.d.copyDepth = cd) :
    MReads0 A buf.length cd i (elemsMem cfg buf rec t len n k i) s := by
  induction n generalizing k i s with
  | zero => unfold elemsMem; exact .pure ⟨Nat.le_refl _, hi, hcd⟩
  | succ n ih =>
    unfold elemsMem
    refine .ite (fun _ => ?_) fun _ => ?_
    · split
      · rename_i e he
        refine .still (read_still _) fun v s1 hs1 => ?_
        split
        · refine .failIf (.panic _) fun _ => ?_
          exact hrec.next (hT.slice _ (he ▸ ht)) hlo (Nat.le_refl _) hi (by rw [hs1]; exact hcd)
            fun j s' h1 h2 h3 => ih _ _ _ (by omega) h2 h3
        · exact .panic
      · rename_i m e he
        exact hrec.next (hT.arr _ _ (he ▸ ht)) hlo (Nat.le_refl _) hi hcd
            fun j s' h1 h2 h3 => ih _ _ _ (by omega) h2 h3
      · exact .panic
    · exact mfresh0 (Nat.le_refl _) hi hcd fun j v s' h1 h2 h3 => ih _ _ _ (by omega) h2 h3

include hT hrec in
theorem arrayMem_reads (i : Nat) (ln : Int) (t : Target) (s : MSt) (ht : T t.ty) (hlo : lo ≤ i)
    (hi : i ≤ buf.length) (hcd : s.d.copyDepth = cd) :
    MReads0 A buf.length cd i (arrayMem cfg buf rec i ln t) s := by
  unfold arrayMem
  refine .failIf (.err _) fun _ => .failIf (.err _) fun _ => ?_
  split
  · refine .still (read_still _) fun v s1 hs1 => ?_
    have fin : ∀ s2 : MSt, s2.d = s.d → MReads0 A buf.length cd i (do
        let v ← t.read
        elemsMem cfg buf rec t v.len ln.toNat 0 i) s2 := fun s2 hs2 => .still (read_still _) fun v s3 hs3 =>
      elemsMem_reads hT hrec _ _ _ _ _ _ ht hlo hi (by rw [hs3, hs2]; exact hcd)
    exact .ite (fun _ => .still (makeSlice_still _ _) fun _ s2 hs2 => fin s2 (hs2.trans hs1)) fun _ => fin s1 hs1
  · exact elemsMem_reads hT hrec _ _ _ _ _ _ ht hlo hi hcd
  · exact .err

include hrec in
theorem entriesMem_reads (e : Ty) (t : Target) (n i : Nat) (s : MSt) (hA : A) (he : T e) (hlo : lo ≤ i)
    (hi : i ≤ buf.length) (hcd : s.d.copyDepth = cd) :
    MReads0 A buf.length cd i (entriesMem buf rec e t n i) s := by
  induction n generalizing i s with
  | zero => unfold entriesMem; exact .pure ⟨Nat.le_refl _, hi, hcd⟩
  | succ n ih =>
    unfold entriesMem
    refine mkey hcd fun key j s1 h1 h2 h3 => ?_
    dsimp only
    refine .still (lookup_still _ _) fun r s2 hs2 => ?_
    split
    · refine .mono (hrec.next (i := j) (t := ⟨e, _, _⟩) he (by omega) (Nat.le_refl _) h2 (by rw [hs2]; exact h3) fun k s' h4 h5 h6 => ih _ _ (by omega) h5 h6) ?_
      rintro l s2 ⟨h4, h5, h6⟩
      exact ⟨by omega, h5, h6⟩
    · refine .still (newVar_still _) fun l s3 hs3 => ?_
      refine .mono (hrec.next (i := j) (t := ⟨e, _, _⟩) he (by omega) (Nat.le_refl _) h2 (by rw [hs3, hs2]; exact h3) fun k s' h4 h5 h6 => ?_) ?_
      · refine .still (read_still _) fun v s4 hs4 => .still (insert_still _ hA _ _) fun _ s5 hs5 => ?_
        exact ih _ _ (by omega) h5 (by rw [hs5, hs4]; exact h6)
      · rintro l s2 ⟨h4, h5, h6⟩
        exact ⟨by omega, h5, h6⟩

include hrec in
theorem fieldsMem_reads (fs : List TField) (t : Target) (n i : Nat) (s : MSt) (hfs : ∀ f ∈ fs, T f.ty) (hlo : lo ≤ i)
    (hi : i ≤ buf.length) (hcd : s.d.copyDepth = cd) :
    MReads0 A buf.length cd i (fieldsMem cfg tc buf rec fs t n i) s := by
  induction n generalizing i s with
  | zero => unfold fieldsMem; exact .pure ⟨Nat.le_refl _, hi, hcd⟩
  | succ n ih =>
    unfold fieldsMem
    refine mkey hcd fun key j s1 h1 h2 h3 => ?_
    dsimp only
    have fin : ∀ x : M Nat, MReads0 A buf.length cd j x s1 → MReads0 A buf.length cd i x s1 := by
      intro x hx
      refine .mono hx ?_
      rintro l s2 ⟨h4, h5, h6⟩
      exact ⟨by omega, h5, h6⟩
    split
    · split
      · rename_i f hf
        refine fin _ (hrec.next (hfs _ (List.mem_of_getElem? hf)) (by omega) (Nat.le_refl _) h2 h3 fun k s' h4 h5 h6 => ?_)
        exact ih _ _ (by omega) h5 h6
      · exact .panic
    · exact fin _ (mfresh0 (Nat.le_refl _) h2 h3 fun k v s' h4 h5 h6 => ih _ _ (by omega) h5 h6)

include hT hrec in
theorem hashMem_reads (n : Nat) (ty : Ty) (t : Target) (i : Nat) (s : MSt) (ht : T ty) (hlo : lo ≤ i)
    (hi : i ≤ buf.length) (hcd : s.d.copyDepth = cd) :
    MReads0 A buf.length cd i (hashMem cfg tc buf rec i n ty t) s := by
  induction ty generalizing t s with
  | map e _ =>
    unfold hashMem
    refine .still (read_still _) fun v s1 hs1 => ?_
    have fin : ∀ s2 : MSt, s2.d = s.d → MReads0 A buf.length cd i (entriesMem buf rec e t n i) s2 := fun s2 hs2 =>
      entriesMem_reads hrec _ _ _ _ _ (hT.map _ ht).2 (hT.map _ ht).1 hlo hi (by rw [hs2]; exact hcd)
    refine .ite (fun _ => ?_) fun _ => fin s1 hs1
    exact .still newMap_still fun m s2 hs2 => .still (write_still _ _) fun _ s3 hs3 => fin s3 (by rw [hs3, hs2, hs1])
  | ptr e ih =>
    unfold hashMem
    exact .still (deref_still _ _) fun t' s1 hs1 => ih _ _ (hT.ptr _ ht) (by rw [hs1]; exact hcd)
  | strct id =>
    unfold hashMem
    exact fieldsMem_reads hrec _ _ _ _ _ (fun f hf => hT.strct _ _ ht hf) hlo hi hcd
  | _ => unfold hashMem; exact .err

include hT hrec in
theorem checkedHashMem_reads (n : Int) (t : Target) (i : Nat) (s : MSt) (ht : T t.ty) (hlo : lo ≤ i)
    (hi : i ≤ buf.length) (hcd : s.d.copyDepth = cd) :
    MReads0 A buf.length cd i (checkedHashMem cfg tc buf rec i n t) s := by
  unfold checkedHashMem
  refine .liftBind (Spec.alone ?_)
  refine Spec.bind ?_
  unfold checkHash
  refine Spec.failIf (fun _ => .err _) fun _ => ?_
  constructor
  · intro a s' h
    obtain ⟨_, rfl⟩ := D.failIf_ok.1 h
    exact Spec.pure (hashMem_reads hT hrec _ _ _ _ _ ht hlo hi hcd)
  · intro e s' h
    obtain ⟨_, rfl, _⟩ := D.failIf_error.1 h
    exact .err _

theorem mbyte {i : Nat} {s : MSt} {f : UInt8 → M α} {Q : α → MSt → Prop} (hi : i < buf.length)
    (h : ∀ b, MSpec A (f b) s Q) : MSpec A (M.lift (byteAt buf i) >>= f) s Q :=
  .liftBind (Spec.alone (Spec.byteAt hi fun b => Spec.pure (h b)))

theorem malloc {v : Val} {s : MSt} {f : Addr → M α} {Q : α → MSt → Prop}
    (h : MSpec A (f s.d.heap.next) { s with d := { s.d with heap := (s.d.heap.alloc (.cell v)).2 } } Q) :
    MSpec A (M.lift (allocVar v) >>= f) s Q :=
  .liftBind (Spec.alone (Spec.step (allocVar_apply _ _) (Spec.pure h)))

theorem freezeMem_reads (i : Nat) (t : Target) (v : Bool) (s : MSt) (hi : i ≤ buf.length) (hcd : s.d.copyDepth = cd) :
    MReads A buf.length cd i (freezeMem cfg tc buf i t v) s := by
  unfold freezeMem
  refine mclass hi hcd fun cls j s1 h1 h2 h3 => ?_
  dsimp only
  refine .failIf (.err _) fun hj => ?_
  refine mbyte (by omega) fun t0 => mbyte (by omega) fun t1 => ?_
  refine .failIf (.err _) fun _ => ?_
  refine mfresh h2 h3 fun k w s2 h4 h5 h6 => ?_
  dsimp only
  cases w with
  | slice p n =>
    dsimp only
    refine .failIf (.err _) fun _ => ?_
    refine .still (.readLoc _) fun r s3 hs3 => ?_
    have hk : ∀ s' : MSt, s'.d.copyDepth = s2.d.copyDepth → MReads A buf.length cd i (Pure.pure k) s' :=
      fun s' hs' => .pure ⟨by omega, h5, hs'.trans h6⟩
    cases r with
    | bin data =>
      dsimp only
      refine .ite (fun _ => ?_) fun _ => ?_
      · exact malloc (.still (mset_perl _ _) fun _ s4 hs4 => hk _ (by rw [hs4]; show s3.d.copyDepth = _; rw [hs3]))
      · refine .still (munmarshal_still _ _ _) fun r s4 hs4 => .ite (fun _ => hk _ (by rw [hs4, hs3])) fun _ => ?_
        refine .still (read_still _) fun v s5 hs5 => .ite (fun _ => ?_) fun _ => .err
        exact .still (makeSlice_still _ _) fun _ s6 hs6 => hk _ (by rw [hs6, hs5, hs4, hs3])
    | _ => exact .err
  | _ => exact .err

theorem refpMem_reads (i : Nat) (t : Target) (b : Bool) (s : MSt) (hi : i ≤ buf.length) (hcd : s.d.copyDepth = cd) :
    MReads0 A buf.length cd i (refpMem cfg buf i b t) s := by
  unfold refpMem
  refine mvarint hi fun n sz h1 h2 => ?_
  dsimp only
  refine .failIf (.err _) fun _ => .get ?_
  have fin : ∀ x : M Unit, MStill A x → MReads0 A buf.length cd i (x >>= fun _ => Pure.pure (i + sz)) s :=
    fun x hx => mthen hx (by omega) h2 hcd
  have other : ∀ loc, MReads0 A buf.length cd i (do
      let v ← M.lift (readLoc loc)
      t.fromAny cfg b (if v = .nil then .zero else .iface v) false
      Pure.pure (i + sz)) s := fun loc =>
    .still (.readLoc _) fun v s1 hs1 => mthen (fromAny_still _ _ _ _ _) (by omega) h2 (by rw [hs1]; exact hcd)
  split
  · exact .ite (fun _ => .err) fun _ => .err
  · split
    · refine .ite (fun _ => ?_) fun _ => ?_
      · refine .still (read_still _) fun v s1 hs1 => ?_
        split
        · refine .ite (fun _ => ?_) fun _ => ?_
          · exact mthen (fromAny_still _ _ _ _ _) (by omega) h2 (by rw [hs1]; exact hcd)
          · exact .still (.failIf _) fun _ s2 hs2 => mthen (massign_still _ _ _) (by omega) h2 (by rw [hs2, hs1]; exact hcd)
        · exact .still (.failIf _) fun _ s2 hs2 => mthen (massign_still _ _ _) (by omega) h2 (by rw [hs2, hs1]; exact hcd)
      · exact other _
    · exact other _

theorem undefMem_reads (b : Bool) (t : Target) (i : Nat) (s : MSt) (hi : i ≤ buf.length) (hcd : s.d.copyDepth = cd) :
    MReads0 A buf.length cd i (undefMem cfg b t >>= fun _ => Pure.pure i) s := by
  cases hp : cfg.perlCompat with
  | false => exact mthen (undefMem_still _ _ _ hp) (Nat.le_refl _) hi hcd
  | true =>
    unfold undefMem
    rw [hp]
    cases b with
    | true =>
      rw [if_pos ⟨rfl, rfl⟩]
      exact mthen (mset_perl _ _) (Nat.le_refl _) hi hcd
    | false =>
      rw [if_neg (by simp), if_pos rfl]
      refine .bind (malloc (.mono (mset_perl _ _ _) fun _ s1 hs1 => .pure ⟨Nat.le_refl _, hi, ?_⟩))
      rw [hs1]; exact hcd

theorem mwithCopy {x : M Nat} {s : MSt} {Q : Nat → MSt → Prop}
    (h : MSpec A x { s with d := { s.d with copyDepth := s.d.copyDepth + 1 } }
      (fun a s' => Q a { s' with d := { s'.d with copyDepth := s'.d.copyDepth - 1 } })) :
    MSpec A (withCopyMem x) s Q := by
  unfold withCopyMem
  cases hx : x { s with d := { s.d with copyDepth := s.d.copyDepth + 1 } } with
  | mk r s1 =>
    constructor
    · intro a s' h1
      cases r with
      | ok b =>
        have := h.1 _ _ hx
        simp only [hx] at h1
        cases h1; exact this
      | error e => simp only [hx] at h1; cases e <;> cases h1
    · intro e s' h1
      cases r with
      | ok b => simp only [hx] at h1; cases h1
      | error e' =>
        have := h.2 _ _ hx
        simp only [hx] at h1; cases e' <;> · cases h1; exact this

include hT hrec in
/-- The `switch`, after the tag at `i`. -/
theorem memC_reads (hcopy : cd = 0 → MGoodRec A T buf.length 1 0 rec) (c : TagC) (i : Nat) (t : Target)
    (tag : Nat) (s : MSt) (ht : T t.ty) (hlo : lo ≤ i) (hi : i ≤ buf.length) (hcd : s.d.copyDepth = cd) :
    MReads0 A buf.length cd i (memC cfg tc buf rec c i t tag) s := by
  have weaken : ∀ {x : M Nat} {k : Nat} {s : MSt}, i ≤ k → MReads0 A buf.length cd k x s →
      MReads0 A buf.length cd i x s := by
    intro x k s hk h
    exact .mono h (fun p s' h => ⟨by omega, h.2⟩)
  have weaken1 : ∀ {x : M Nat} {k : Nat} {s : MSt}, i ≤ k → MReads A buf.length cd k x s →
      MReads0 A buf.length cd i x s := by
    intro x k s hk h
    exact .mono h (fun p s' h => ⟨by omega, h.2⟩)
  have inner : ∀ (v : Val) (k : Nat) (s : MSt), i ≤ k → k ≤ buf.length → s.d.copyDepth = cd →
      v = .weak .nil ∨ (∃ cls, v = .obj cls .nil) →
      MReads0 A buf.length cd i (do
        let a ← M.lift (allocVar v)
        t.setPerl (.ptr false a)
        M.lift (decode cfg buf (fuelFor buf.length) k (.field a))) s := by
    intro v k s hk hk2 hs hv
    refine malloc (.still (mset_perl _ _) fun _ s1 hs1 => .lift (Spec.mono (decode_any cfg buf k _ _ hk2 ?_ ?_) ?_ (fun _ _ h => h.cok)))
    · rw [hs1]; simp [Heap.alloc, Loc.addr]
    · rw [hs1]
      rcases hv with rfl | ⟨cls, rfl⟩ <;> simp [Heap.alloc, Heap.read, Heap.cellAt, Heap.set]
    · rintro j s1 ⟨h1, h2, h3⟩
      refine ⟨by omega, h2, ?_⟩
      rw [hs1] at h3
      exact h3.trans hs
  cases c with
  | int n => exact mthen (mset_int _ _) (Nat.le_refl _) hi hcd
  | varint => exact mvarint hi fun n sz _ h2 => mthen (mset_int _ _) (by omega) h2 hcd
  | zigzag => exact mvarint hi fun n sz _ h2 => mthen (mset_int _ _) (by omega) h2 hcd
  | float =>
    exact .liftBind (Spec.alone (Spec.float (fun _ => .err _) fun t h2 => Spec.pure (mthen (mset_float _ _ _) (by omega) h2 hcd)))
  | double =>
    exact .liftBind (Spec.alone (Spec.double (fun _ => .err _) fun t h2 => Spec.pure (mthen (mset_float _ _ _) (by omega) h2 hcd)))
  | true_ => exact mthen (mset_bool _ _) (Nat.le_refl _) hi hcd
  | false_ => exact mthen (mset_bool _ _) (Nat.le_refl _) hi hcd
  | binary =>
    exact mvarint hi fun n sz _ h2 => mbinary h2 hcd fun k j s' h3 h4 h5 => mthen (mset_binary _ _) (by omega) h4 h5
  | short n => exact mbinary hi hcd fun k j s' h3 h4 h5 => mthen (mset_binary _ _) (by omega) h4 h5
  | strUtf8 =>
    exact mvarint hi fun n sz _ h2 => mbinary h2 hcd fun k j s' h3 h4 h5 => mthen (mset_string _ _) (by omega) h4 h5
  | hash =>
    exact mvarint hi fun n sz _ h2 => weaken (by omega) (checkedHashMem_reads hT hrec _ _ _ _ ht (by omega) h2 hcd)
  | hashref n => exact checkedHashMem_reads hT hrec _ _ _ _ ht hlo hi hcd
  | array =>
    exact mvarint hi fun n sz _ h2 => weaken (by omega) (arrayMem_reads hT hrec _ _ _ _ ht (by omega) h2 hcd)
  | arrayref n => exact arrayMem_reads hT hrec _ _ _ _ ht hlo hi hcd
  | undef => exact undefMem_reads _ _ _ _ hi hcd
  | cundef => exact undefMem_reads _ _ _ _ hi hcd
  | copy =>
    refine .get (.failIf (.err _) fun h0 => mvarint hi fun n sz _ h2 => ?_)
    dsimp only
    refine .failIf (.err _) fun h3 => ?_
    have hcd0 : cd = 0 := by omega
    refine .bind (mwithCopy (.mono (hcopy hcd0 _ t _ ht (Nat.zero_le _) (by omega) (by show s.d.copyDepth + 1 = 1; omega)) ?_))
    rintro j s1 ⟨_, _, h6⟩
    refine .pure ⟨by omega, h2, ?_⟩
    show s1.d.copyDepth - 1 = cd
    omega
  | refn => exact weaken1 (Nat.le_refl _) (hrec i t s ht hlo hi hcd)
  | refp => exact refpMem_reads _ _ _ _ hi hcd
  | alias => exact refpMem_reads _ _ _ _ hi hcd
  | weaken =>
    refine .ite (fun _ => ?_) fun _ => ?_
    · exact inner _ i s (Nat.le_refl _) hi hcd (.inl rfl)
    · exact weaken1 (Nat.le_refl _) (hrec i t s ht hlo hi hcd)
  | regexp =>
    refine .liftBind ?_
    unfold decodeRegexp
    refine Spec.stringish (fun _ _ h => h.cok) fun p j s1 h1 h2 _ h3 _ _ _ => ?_
    dsimp only
    refine Spec.stringish (fun _ _ h => h.cok) fun m k s2 h4 h5 _ h6 _ _ _ => ?_
    dsimp only
    refine Spec.pure (malloc (mthen (mset_perl _ _) (Nat.le_of_lt (Nat.lt_trans h1 h4)) h5 ?_))
    exact h6.trans (h3.trans hcd)
  | object =>
    refine mclass hi hcd fun cls j s1 h1 h2 h3 => ?_
    dsimp only
    refine .ite (fun _ => ?_) fun _ => ?_
    · exact inner _ j s1 (by omega) h2 (by omega) (.inr ⟨_, rfl⟩)
    · exact weaken1 (by omega) (hrec j t s1 ht (by omega) h2 (by omega))
  | objectv =>
    refine mclass hi hcd fun cls j s1 h1 h2 h3 => ?_
    dsimp only
    refine .ite (fun _ => ?_) fun _ => ?_
    · exact inner _ j s1 (by omega) h2 (by omega) (.inr ⟨_, rfl⟩)
    · exact weaken1 (by omega) (hrec j t s1 ht (by omega) h2 (by omega))
  | freeze => exact weaken1 (Nat.le_refl _) (freezeMem_reads _ _ _ _ hi hcd)
  | freezev => exact weaken1 (Nat.le_refl _) (freezeMem_reads _ _ _ _ hi hcd)
  | pad => exact .err
  | other => exact .err
end

section
variable {A : Prop} {T : Ty → Prop} {tc : TCfg}

/-- One step of decodeViaReflection. -/
theorem decodeMem_step (hT : TySet tc A T) (cfg : DCfg) (buf : Bytes) (f cd i : Nat)
    (hrec : MGoodRec A T buf.length cd (i + 1) (decodeMem cfg tc buf f))
    (hcopy : cd = 0 → MGoodRec A T buf.length 1 0 (decodeMem cfg tc buf f)) (t : Target) (s : MSt) (ht : T t.ty)
    (hi : i ≤ buf.length) (hcd : s.d.copyDepth = cd) : MReads A buf.length cd i (decodeMem cfg tc buf (f + 1) i t) s := by
  unfold decodeMem
  refine .failIf (.err _) fun hlt => .still (read_still _) fun v s0 hs0 => ?_
  have hcd0 : s0.d.copyDepth = cd := by rw [hs0]; exact hcd
  refine .ite (fun _ => ?_) fun _ => ?_
  · refine mfresh hi hcd0 fun j v s1 h1 h2 h3 => ?_
    dsimp only
    exact .ite (fun _ => .still (write_still _ _) fun _ s2 hs2 => .pure ⟨h1, h2, by rw [hs2]; exact h3⟩) fun _ => .pure ⟨h1, h2, h3⟩
  · refine .liftBind (Spec.alone (Spec.skipPad (.err _) fun k b hb => Spec.pure ?_))
    have h1 := hb.lt
    have h2 := hb.le
    have fin : ∀ s1 : MSt, s1.d.copyDepth = cd → MReads A buf.length cd i
        (tagMem cfg tc buf (decodeMem cfg tc buf f) (b &&& ~~~ trackFlag) (k + 1) t) s1 := by
      intro s1 hs1
      rw [tagMem_eq _ _ _ _ _ _ _ (untracked_lt b)]
      refine .mono (memC_reads (lo := i + 1) hT hrec hcopy _ _ _ _ s1 ht (by omega) (by omega) hs1) ?_
      rintro p s2 ⟨h3, h4, h5⟩
      exact ⟨by omega, h4, h5⟩
    dsimp only
    refine .ite (fun _ => .bind ?_) fun _ => fin _ hcd0
    unfold trackMem
    refine malloc (.bind ?_)
    refine .lift (Spec.alone (Spec.step (show track k _ _ = (.ok (), _) from rfl) (Spec.pure ?_)))
    exact ⟨fun a s' h => by cases h; exact fin _ hcd0, fun e s' h => by cases h⟩

theorem mem_good1 (hT : TySet tc A T) (cfg : DCfg) (buf : Bytes) (f lo cd : Nat) (hcd : 0 < cd) (hf : buf.length + 1 - lo ≤ f) :
    MGoodRec A T buf.length cd lo (decodeMem cfg tc buf f) := by
  induction f generalizing lo with
  | zero => intro i t s ht h1 h2; omega
  | succ f ih =>
    intro i t s ht h1 h2 h3
    exact decodeMem_step hT cfg buf f cd i (ih (i + 1) (by omega)) (by omega) t s ht h2 h3

theorem mem_good0 (hT : TySet tc A T) (cfg : DCfg) (buf : Bytes) (f lo : Nat)
    (hf : buf.length + 1 - lo + (buf.length + 1) ≤ f) : MGoodRec A T buf.length 0 lo (decodeMem cfg tc buf f) := by
  induction f generalizing lo with
  | zero => intro i t s ht h1 h2; omega
  | succ f ih =>
    intro i t s ht h1 h2 h3
    exact decodeMem_step hT cfg buf f 0 i (ih (i + 1) (by omega))
      (fun _ => mem_good1 hT cfg buf f 0 1 (by omega) (by omega)) t s ht h2 h3
end

theorem bodyOf_eq (cs : Codecs) (b : Bytes) : bodyOf cs b = bodyInput cs b := by
  unfold bodyOf bodyInput
  cases checkHeader b with
  | error e => rfl
  | ok hd =>
    dsimp only [Bind.bind, Except.bind]
    cases documentDecompressor hd.version hd.doctype with
    | error e => rfl
    | ok dc =>
      dsimp only [Bind.bind, Except.bind]
      by_cases h : wrapInt (headerSize + hd.suffixSize) > b.length ∨ wrapInt (headerSize + hd.suffixSize) < 0
      · rw [if_pos h, if_pos h]; rfl
      · rw [if_neg h, if_neg h]
        cases dc with
        | none => rfl
        | some c =>
          dsimp only [Pure.pure, Except.pure]
          cases decompress cs c (b.drop (wrapInt (headerSize + hd.suffixSize)).toNat) <;> rfl

/-- Unmarshal into a typed variable: success, an error, or the runtime error for a nil map. -/
theorem unmarshalInto_safe {A : Prop} {T : Ty → Prop} {tc : TCfg} (hT : TySet tc A T) (cfg : DCfg) (cs : Codecs) (b : Bytes)
    (ty : Ty) (l : Spot) (mem : Mem) (hty : T ty) (hsane : SaneHeaderLength b) (hzl : SaneZlibSize b) :
    (∃ r, unmarshalInto cfg tc cs b ty l mem = .ok r) ∨ (∃ er, unmarshalInto cfg tc cs b ty l mem = .error (.err er)) ∨
      (A ∧ unmarshalInto cfg tc cs b ty l mem = .error (.crash "assignment to entry in nil map")) := by
  unfold unmarshalInto
  rw [bodyOf_eq]
  rcases bodyInput_safe cs b hsane hzl with ⟨er, h⟩ | ⟨buf, i, h, hi⟩
  · rw [h]; exact .inr (.inl ⟨er, rfl⟩)
  · rw [h]
    dsimp only
    have key : MSpec A (decodeMem cfg tc buf (fuelFor buf.length) i { ty := ty, place := .var l })
        { d := DState.init, mem := mem } (fun _ _ => True) := by
      by_cases hi' : i ≤ buf.length
      · exact .mono (mem_good0 hT cfg buf (fuelFor buf.length) 0 (by unfold fuelFor; omega) i _ _ hty
          (Nat.zero_le _) hi' rfl) (fun _ _ _ => trivial)
      · rw [show fuelFor buf.length = (2 * buf.length + 3) + 1 from rfl]
        unfold decodeMem
        exact .failIf (.err _) fun hc => absurd (show i ≥ buf.length by omega) hc
    cases hr : decodeMem cfg tc buf (fuelFor buf.length) i { ty := ty, place := .var l } { d := DState.init, mem := mem } with
    | mk r s1 =>
      cases r with
      | ok p => exact .inl ⟨_, rfl⟩
      | error e =>
        obtain ⟨h1, h2⟩ := key.2 _ _ hr
        cases e with
        | err er => exact .inr (.inl ⟨_, rfl⟩)
        | panic m => exact .inr (.inl ⟨_, rfl⟩)
        | crash m =>
          obtain ⟨ha, rfl⟩ := h2 m rfl
          exact .inr (.inr ⟨ha, rfl⟩)
        | fuel => exact absurd rfl h1

end Sereal
