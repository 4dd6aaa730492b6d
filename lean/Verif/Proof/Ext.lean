import Verif.Proof.Strish
/-
Success is stable under appending bytes to the buffer and under more fuel.
-/
namespace Sereal

/-- Whenever `x` succeeds, `y` does the same. -/
def Ext (x y : D α) : Prop := ∀ s r s', x s = (.ok r, s') → y s = (.ok r, s')

theorem Ext.refl (x : D α) : Ext x x := fun _ _ _ h => h

theorem Ext.bind {x y : D α} {f g : α → D β} (hx : Ext x y) (hf : ∀ a, Ext (f a) (g a)) :
    Ext (x >>= f) (y >>= g) := by
  intro s r s' h
  obtain ⟨a, s1, h1, h2⟩ := D.bind_ok.1 h
  exact D.bind_ok.2 ⟨a, s1, hx _ _ _ h1, hf _ _ _ _ h2⟩

theorem Ext.bind' {x : D α} {f g : α → D β} (hf : ∀ a, Ext (f a) (g a)) :
    Ext (x >>= f) (x >>= g) := Ext.bind (Ext.refl _) hf

theorem Ext.fail {e : Exn} {y : D α} : Ext (D.fail e) y := fun _ _ _ h => (D.fail_ok.1 h).elim
theorem Ext.err {e : Err} {y : D α} : Ext (D.err e) y := fun _ _ _ h => (D.err_ok.1 h).elim

theorem Ext.failIf {c c' : Prop} [Decidable c] [Decidable c'] {e e' : Exn} (h : c' → c) :
    Ext (D.failIf c e) (D.failIf c' e') := by
  intro s r s' hs
  obtain ⟨hc, rfl⟩ := D.failIf_ok.1 hs
  exact D.failIf_ok.2 ⟨fun h' => hc (h h'), rfl⟩

theorem Ext.ite {c : Prop} [Decidable c] {x y x' y' : D α} (h1 : c → Ext x x')
    (h2 : ¬ c → Ext y y') : Ext (if c then x else y) (if c then x' else y') := by
  by_cases hc : c
  · rw [if_pos hc, if_pos hc]; exact h1 hc
  · rw [if_neg hc, if_neg hc]; exact h2 hc

theorem Ext.lift {r r' : Res α} (h : ∀ a, r = .ok a → r' = .ok a) : Ext (D.lift r) (D.lift r') := by
  intro s a s' hs
  obtain ⟨h1, rfl⟩ := D.lift_ok.1 hs
  exact D.lift_ok.2 ⟨h _ h1, rfl⟩

theorem Ext.withCopy {x y : D α} (h : Ext x y) : Ext (withCopy x) (withCopy y) := by
  intro s r s' hs
  obtain ⟨s1, h1, rfl⟩ := withCopy_ok.1 hs
  exact withCopy_ok.2 ⟨s1, h _ _ _ h1, rfl⟩

/-! ### Buffers -/

theorem getElem?_append_of {buf e : Bytes} {i : Nat} {b : UInt8} (h : buf[i]? = some b) :
    (buf ++ e)[i]? = some b := by
  rw [List.getElem?_append_left (List.getElem?_eq_some_iff.mp h).1]; exact h

theorem TagAt.append {buf : Bytes} (e : Bytes) {i k : Nat} {b : UInt8} (h : TagAt buf i k b) :
    TagAt (buf ++ e) i k b := by
  obtain ⟨h1, h2, h3, h4⟩ := h
  refine ⟨h1, fun x hx hx' => ?_, getElem?_append_of h3, h4⟩
  obtain ⟨p, hp, hp'⟩ := h2 x hx hx'
  exact ⟨p, getElem?_append_of hp, hp'⟩

theorem Span.append {buf : Bytes} (e : Bytes) {i : Nat} {s : Bytes} {j : Nat} (h : Span buf i s j) :
    Span (buf ++ e) i s j := by
  refine ⟨?_, h.2⟩
  rw [List.drop_append]
  exact h.1.trans (List.prefix_append _ _)

theorem Vint.append {d : Dialect} {buf : Bytes} (e : Bytes) {i n j : Nat} (h : Vint d buf i n j) :
    Vint d (buf ++ e) i n j := by
  obtain ⟨v, h1, h2, h3, h4⟩ := h
  exact ⟨v, h1, h2, h3.append e, h4⟩

theorem Ext.skipPad (buf e : Bytes) (i : Nat) :
    Ext (D.lift (skipPad buf i)) (D.lift (skipPad (buf ++ e) i)) :=
  Ext.lift fun ⟨_, _⟩ h => skipPad_ok.2 ((skipPad_ok.1 h).append e)

theorem Ext.varintAt (buf e : Bytes) (i : Nat) : Ext (varintAt buf i) (varintAt (buf ++ e) i) := by
  rintro s ⟨r, sz⟩ s' h
  obtain ⟨h1, n, h2, h3, h4⟩ := varintAt_ok_iff.1 h
  exact varintAt_ok_iff.2 ⟨h1, n, h2.append e, h3, h4⟩

theorem Ext.byteAt (buf e : Bytes) (i : Nat) : Ext (byteAt buf i) (byteAt (buf ++ e) i) := by
  rintro s b s' h
  obtain ⟨h1, h2⟩ := byteAt_ok.1 h
  exact byteAt_ok.2 ⟨getElem?_append_of h1, h2⟩

theorem Ext.sliceRange (buf e : Bytes) (i j : Nat) :
    Ext (sliceRange buf i j) (sliceRange (buf ++ e) i j) := by
  rintro s t s' h
  obtain ⟨h1, h2, h3, h4⟩ := sliceRange_ok.1 h
  refine sliceRange_ok.2 ⟨h1, by rw [List.length_append]; omega, ?_, h4⟩
  rw [h3, List.drop_append_of_le_length (by omega), List.take_append_of_le_length]
  rw [List.length_drop]; omega

theorem Ext.decodeFloat (buf e : Bytes) (i : Nat) :
    Ext (decodeFloat buf i) (decodeFloat (buf ++ e) i) := by
  unfold Sereal.decodeFloat
  refine Ext.bind (Ext.failIf (by rw [List.length_append]; omega)) fun _ => ?_
  repeat (refine Ext.bind (Ext.byteAt _ _ _) fun _ => ?_)
  exact Ext.refl _

theorem Ext.decodeDouble (buf e : Bytes) (i : Nat) :
    Ext (decodeDouble buf i) (decodeDouble (buf ++ e) i) := by
  unfold Sereal.decodeDouble
  refine Ext.bind (Ext.failIf (by rw [List.length_append]; omega)) fun _ => ?_
  repeat (refine Ext.bind (Ext.byteAt _ _ _) fun _ => ?_)
  exact Ext.refl _

theorem Ext.decodeBinary (buf e : Bytes) (i : Nat) (ln : Int) :
    Ext (decodeBinary buf i ln) (decodeBinary (buf ++ e) i ln) := by
  unfold Sereal.decodeBinary
  refine Ext.bind (Ext.refl _) fun _ => ?_
  refine Ext.bind (Ext.failIf (by rw [List.length_append]; omega)) fun _ => ?_
  refine Ext.bind (Ext.sliceRange _ _ _ _) fun _ => Ext.refl _

theorem Ext.decodeStringishF (buf e : Bytes) (f i : Nat) :
    Ext (decodeStringishF buf f i) (decodeStringishF (buf ++ e) f i) := by
  induction f generalizing i with
  | zero => exact Ext.fail
  | succ f ih =>
    unfold Sereal.decodeStringishF
    refine Ext.bind' fun _ => Ext.bind (Ext.skipPad _ _ _) ?_
    rintro ⟨idx, tag⟩
    dsimp only
    refine Ext.ite (fun _ => ?_) fun _ => Ext.ite (fun _ => ?_) fun _ => Ext.ite (fun _ => ?_)
      fun _ => Ext.err
    · refine Ext.bind (Ext.varintAt _ _ _) ?_
      rintro ⟨ln, sz⟩
      dsimp only
      refine Ext.bind' fun _ => Ext.bind (Ext.failIf (by rw [List.length_append]; omega)) fun _ => ?_
      exact Ext.bind (Ext.sliceRange _ _ _ _) fun _ => Ext.refl _
    · refine Ext.bind (Ext.failIf (by rw [List.length_append]; omega)) fun _ => ?_
      exact Ext.bind (Ext.sliceRange _ _ _ _) fun _ => Ext.refl _
    · refine Ext.bind' fun _ => Ext.bind' fun _ => Ext.bind (Ext.varintAt _ _ _) ?_
      rintro ⟨ln, sz⟩
      dsimp only
      exact Ext.bind' fun _ => Ext.bind (Ext.withCopy (ih _)) fun _ => Ext.refl _

theorem Ext.decodeStringish (buf e : Bytes) (i : Nat) :
    Ext (decodeStringish buf i) (decodeStringish (buf ++ e) i) := Ext.decodeStringishF buf e 2 i

section
variable (cfg : DCfg) (buf e : Bytes) {rec rec' : Nat → Loc → D Nat}
  (hrec : ∀ i l, Ext (rec i l) (rec' i l))
include hrec

theorem Ext.hashLoop (m : Addr) (n i : Nat) :
    Ext (hashLoop buf rec m n i) (hashLoop (buf ++ e) rec' m n i) := by
  induction n generalizing i with
  | zero => exact Ext.refl _
  | succ n ih =>
    unfold Sereal.hashLoop
    refine Ext.bind (Ext.decodeStringish _ _ _) ?_
    rintro ⟨key, idx⟩
    dsimp only
    exact Ext.bind' fun _ => Ext.bind' fun _ => Ext.bind (hrec _ _) fun _ => Ext.bind' fun _ =>
      Ext.bind' fun _ => ih _

theorem Ext.arrayLoop (n a i : Nat) : Ext (arrayLoop rec n a i) (arrayLoop rec' n a i) := by
  induction n generalizing a i with
  | zero => exact Ext.refl _
  | succ n ih =>
    unfold Sereal.arrayLoop
    exact Ext.bind (hrec _ _) fun _ => ih _ _

theorem Ext.decodeHash (i : Nat) (ln : Int) (loc : Loc) (isRef : Bool) :
    Ext (decodeHash buf rec i ln loc isRef) (decodeHash (buf ++ e) rec' i ln loc isRef) := by
  unfold Sereal.decodeHash
  refine Ext.bind' fun _ => Ext.bind (Ext.failIf (by rw [List.length_append]; omega)) fun _ => ?_
  refine Ext.bind' fun _ => Ext.bind' fun _ => ?_
  refine Ext.ite (fun _ => Ext.bind' fun _ => Ext.bind' fun _ => ?_) (fun _ => Ext.bind' fun _ => ?_) <;>
    exact Ext.hashLoop _ _ hrec _ _ _

theorem Ext.decodeArray (i : Nat) (ln : Int) (loc : Loc) (isRef : Bool) :
    Ext (decodeArray buf rec i ln loc isRef) (decodeArray (buf ++ e) rec' i ln loc isRef) := by
  unfold Sereal.decodeArray
  refine Ext.bind' fun _ => Ext.bind (Ext.failIf (by rw [List.length_append]; omega)) fun _ => ?_
  refine Ext.bind' fun _ => Ext.bind' fun _ => ?_
  refine Ext.ite (fun _ => Ext.bind' fun _ => Ext.bind' fun _ => ?_) (fun _ => Ext.bind' fun _ => ?_) <;>
    exact Ext.arrayLoop hrec _ _ _

omit hrec in
theorem Ext.decodeRefpAlias (i : Nat) (isREFP : Bool) (loc : Loc) :
    Ext (decodeRefpAlias cfg buf i isREFP loc) (decodeRefpAlias cfg (buf ++ e) i isREFP loc) := by
  unfold Sereal.decodeRefpAlias
  exact Ext.bind (Ext.varintAt _ _ _) fun _ => Ext.refl _

theorem Ext.decodeIface (i : Nat) (loc : Loc) :
    Ext (decodeIface buf rec i loc) (decodeIface (buf ++ e) rec' i loc) := by
  unfold Sereal.decodeIface
  refine Ext.bind (Ext.failIf (by rw [List.length_append]; omega)) fun _ => ?_
  exact Ext.bind' fun _ => Ext.bind' fun _ => Ext.bind' fun _ => Ext.bind (hrec _ _) fun _ =>
    Ext.refl _

omit hrec in
theorem Ext.decodeClassName (i : Nat) (v : Bool) :
    Ext (decodeClassName buf i v) (decodeClassName (buf ++ e) i v) := by
  unfold Sereal.decodeClassName
  refine Ext.ite (fun _ => Ext.bind (Ext.varintAt _ _ _) ?_) (fun _ => Ext.decodeStringish _ _ _)
  rintro ⟨o, sz⟩
  dsimp only
  exact Ext.bind' fun _ => Ext.bind (Ext.decodeStringish _ _ _) fun _ => Ext.refl _

theorem Ext.decodeObject (i : Nat) (loc : Loc) (v : Bool) :
    Ext (decodeObject cfg buf rec i loc v) (decodeObject cfg (buf ++ e) rec' i loc v) := by
  unfold Sereal.decodeObject
  refine Ext.bind (Ext.decodeClassName _ _ _ _) ?_
  rintro ⟨c, idx⟩
  dsimp only
  exact Ext.ite (fun _ => Ext.bind' fun _ => Ext.bind' fun _ => Ext.bind' fun _ => hrec _ _)
    (fun _ => Ext.decodeIface _ _ hrec _ _)

theorem Ext.decodeFreeze (i : Nat) (loc : Loc) (v : Bool) :
    Ext (decodeFreeze cfg buf rec i loc v) (decodeFreeze cfg (buf ++ e) rec' i loc v) := by
  unfold Sereal.decodeFreeze
  refine Ext.bind (Ext.decodeClassName _ _ _ _) ?_
  rintro ⟨c, idx⟩
  dsimp only
  refine Ext.bind (Ext.failIf (by rw [List.length_append]; omega)) fun _ => ?_
  exact Ext.bind (Ext.byteAt _ _ _) fun _ => Ext.bind (Ext.byteAt _ _ _) fun _ => Ext.bind' fun _ =>
    Ext.bind' fun _ => Ext.bind (hrec _ _) fun _ => Ext.refl _

omit buf e in
theorem Ext.decodeRefn (trackme : Bool) (i : Nat) (loc : Loc) :
    Ext (decodeRefn cfg rec trackme i loc) (decodeRefn cfg rec' trackme i loc) := by
  unfold Sereal.decodeRefn
  exact Ext.ite (fun _ => Ext.bind' fun _ => Ext.bind' fun _ => Ext.bind (hrec _ _) fun _ =>
    Ext.refl _) (fun _ => hrec _ _)

theorem Ext.decodeC (c : TagC) (trackme : Bool) (i : Nat) (loc : Loc) (tag : Nat) :
    Ext (decodeC cfg buf rec c trackme i loc tag) (decodeC cfg (buf ++ e) rec' c trackme i loc tag) := by
  unfold Sereal.decodeC
  cases c <;> dsimp only
  case varint => exact Ext.bind (Ext.varintAt _ _ _) fun _ => Ext.refl _
  case zigzag => exact Ext.bind (Ext.varintAt _ _ _) fun _ => Ext.refl _
  case float => exact Ext.bind (Ext.decodeFloat _ _ _) fun _ => Ext.refl _
  case double => exact Ext.bind (Ext.decodeDouble _ _ _) fun _ => Ext.refl _
  case hash =>
    refine Ext.bind (Ext.varintAt _ _ _) ?_
    rintro ⟨ln, sz⟩
    exact Ext.decodeHash _ _ hrec _ _ _ _
  case hashref => exact Ext.decodeHash _ _ hrec _ _ _ _
  case array =>
    refine Ext.bind (Ext.varintAt _ _ _) ?_
    rintro ⟨ln, sz⟩
    exact Ext.decodeArray _ _ hrec _ _ _ _
  case arrayref => exact Ext.decodeArray _ _ hrec _ _ _ _
  case strUtf8 =>
    refine Ext.bind (Ext.varintAt _ _ _) ?_
    rintro ⟨ln, sz⟩
    exact Ext.bind (Ext.decodeBinary _ _ _ _) fun _ => Ext.refl _
  case binary =>
    refine Ext.bind (Ext.varintAt _ _ _) ?_
    rintro ⟨ln, sz⟩
    exact Ext.bind (Ext.decodeBinary _ _ _ _) fun _ => Ext.refl _
  case short => exact Ext.bind (Ext.decodeBinary _ _ _ _) fun _ => Ext.refl _
  case copy =>
    refine Ext.bind' fun _ => Ext.bind' fun _ => Ext.bind (Ext.varintAt _ _ _) ?_
    rintro ⟨o, sz⟩
    dsimp only
    exact Ext.bind' fun _ => Ext.bind (Ext.withCopy (hrec _ _)) fun _ => Ext.refl _
  case refn => exact Ext.decodeRefn _ hrec _ _ _
  case refp => exact Ext.decodeRefpAlias _ _ _ _ _ _
  case alias => exact Ext.decodeRefpAlias _ _ _ _ _ _
  case weaken =>
    exact Ext.ite (fun _ => Ext.bind' fun _ => Ext.bind' fun _ => hrec _ _) (fun _ => hrec _ _)
  case regexp =>
    refine Ext.bind ?_ fun _ => Ext.refl _
    unfold Sereal.decodeRegexp
    refine Ext.bind (Ext.decodeStringish _ _ _) ?_
    rintro ⟨p, idx⟩
    exact Ext.bind (Ext.decodeStringish _ _ _) fun _ => Ext.refl _
  case object => exact Ext.decodeObject _ _ _ hrec _ _ _
  case objectv => exact Ext.decodeObject _ _ _ hrec _ _ _
  case freeze => exact Ext.decodeFreeze _ _ _ hrec _ _ _
  case freezev => exact Ext.decodeFreeze _ _ _ hrec _ _ _
  all_goals exact Ext.refl _

end

/-- A decode that succeeds does exactly the same on a longer buffer and with more fuel. -/
theorem decode_append (cfg : DCfg) (buf e : Bytes) {f f' : Nat} (hf : f ≤ f') (i : Nat) (loc : Loc) :
    Ext (decode cfg buf f i loc) (decode cfg (buf ++ e) f' i loc) := by
  induction f generalizing f' i loc with
  | zero => exact Ext.fail
  | succ f ih =>
    obtain ⟨f', rfl⟩ : ∃ g, f' = g + 1 := ⟨f' - 1, by omega⟩
    rw [decode_succ, decode_succ]
    refine Ext.bind' fun _ => Ext.bind (Ext.skipPad _ _ _) ?_
    rintro ⟨k, b⟩
    dsimp only
    have := Ext.decodeC cfg buf e (rec := decode cfg buf f) (rec' := decode cfg (buf ++ e) f')
      (fun i l => ih (by omega) i l)
    exact Ext.ite (fun _ => Ext.bind' fun _ => this _ _ _ _ _) (fun _ => this _ _ _ _ _)

theorem decode_mono (cfg : DCfg) (buf : Bytes) {f f' : Nat} (hf : f ≤ f') (i : Nat) (loc : Loc) :
    Ext (decode cfg buf f i loc) (decode cfg buf f' i loc) := by
  have := decode_append cfg buf [] hf i loc
  rwa [List.append_nil] at this

end Sereal
