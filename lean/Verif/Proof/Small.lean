import Verif.Proof.Peak
/-
No string in a value that the decoder makes is longer than the buffer.
-/
namespace Sereal

/-- No string in it is longer than `P`. -/
def Val.Small (P : Nat) : Val → Prop
  | .str s | .bin s => s.length ≤ P
  | .obj _ v | .weak v => v.Small P
  | _ => True

/-- The variables hold such values only. -/
def Heap.Small (P : Nat) (h : Heap) : Prop := ∀ a, (h.cellAt a).Small P

/-- `x` keeps it so, and results satisfy `Q`. -/
def Tame (P : Nat) (x : D α) (Q : α → Prop) : Prop :=
  ∀ s, s.heap.Small P → (x s).2.heap.Small P ∧ ∀ a, (x s).1 = .ok a → Q a

section
variable {P : Nat}

theorem Heap.Small.read {h : Heap} (hs : h.Small P) (l : Loc) : (h.read l).Small P := by
  cases l with
  | cell a => exact hs a
  | field a =>
    have := hs a
    unfold Heap.read
    dsimp only
    split
    · next e => rw [e] at this; exact this
    · next e => rw [e] at this; exact this
    · trivial

theorem Heap.Small.set {h : Heap} (hs : h.Small P) (a : Addr) {v : Val} (hv : v.Small P) : (h.set a (.cell v)).Small P := by
  intro b
  have := hs b
  unfold Heap.cellAt Heap.set at *
  dsimp only
  by_cases hb : b = a
  · rw [if_pos hb]; exact hv
  · rw [if_neg hb]; exact this

theorem Heap.Small.write {h : Heap} (hs : h.Small P) (l : Loc) {v : Val} (hv : v.Small P) : (h.write l v).Small P := by
  cases l with
  | cell a => exact hs.set a hv
  | field a =>
    unfold Heap.write
    dsimp only
    split
    · exact hs.set a (v := .obj _ v) hv
    · exact hs.set a (v := .weak v) hv
    · exact hs

theorem Heap.Small.other {h : Heap} (hs : h.Small P) (a : Addr) {o : HObj} (ho : ∀ v, o ≠ .cell v) : (h.set a o).Small P := by
  intro b
  have := hs b
  unfold Heap.cellAt Heap.set at *
  dsimp only
  by_cases hb : b = a
  · rw [if_pos hb]
    cases o with
    | cell v => exact absurd rfl (ho v)
    | _ => trivial
  · rw [if_neg hb]; exact this

namespace Tame

theorem bind {x : D α} {f : α → D β} {Q : α → Prop} {R : β → Prop} (hx : Tame P x Q) (hf : ∀ a, Q a → Tame P (f a) R) :
    Tame P (x >>= f) R := by
  intro s hs
  obtain ⟨h1, h2⟩ := hx s hs
  rw [D.bind_apply]
  rcases hr : x s with ⟨r, s'⟩
  rw [hr] at h1 h2
  cases r with
  | ok a => exact hf a (h2 a rfl) s' h1
  | error e => exact ⟨h1, fun b hb => by cases hb⟩

theorem mono {x : D α} {Q R : α → Prop} (hx : Tame P x Q) (h : ∀ a, Q a → R a) : Tame P x R :=
  fun s hs => ⟨(hx s hs).1, fun a ha => h a ((hx s hs).2 a ha)⟩

theorem bind' {x : D α} {f : α → D β} {R : β → Prop} (hx : Tame P x fun _ => True) (hf : ∀ a, Tame P (f a) R) :
    Tame P (x >>= f) R := bind hx fun a _ => hf a

theorem pure {a : α} {Q : α → Prop} (h : Q a) : Tame P (Pure.pure a : D α) Q := fun _ hs => ⟨hs, fun b hb => by cases hb; exact h⟩
theorem fail {Q : α → Prop} (e : Exn) : Tame P (D.fail e : D α) Q := fun _ hs => ⟨hs, fun b hb => by cases hb⟩
theorem err {Q : α → Prop} (e : Err) : Tame P (D.err e : D α) Q := fail _
/-- Something that does not touch the heap. -/
theorem still {x : D α} {Q : α → Prop} (h : ∀ s, (x s).2.heap = s.heap) (hq : ∀ s a, (x s).1 = .ok a → Q a) : Tame P x Q :=
  fun s hs => ⟨by rw [h]; exact hs, hq s⟩
theorem lift (r : Res α) : Tame P (D.lift r) fun _ => True := fun _ hs => ⟨hs, fun _ _ => trivial⟩
theorem get : Tame P D.get fun s => s.heap.Small P := fun _ hs => ⟨hs, fun a ha => by cases ha; exact hs⟩
theorem tick : Tame P Sereal.tick fun _ => True := fun _ hs => ⟨hs, fun _ _ => trivial⟩
theorem charge (n : Nat) : Tame P (Sereal.charge n) fun _ => True := fun _ hs => ⟨hs, fun _ _ => trivial⟩
theorem track (i : Nat) (l : Loc) : Tame P (Sereal.track i l) fun _ => True := fun _ hs => ⟨hs, fun _ _ => trivial⟩
theorem readLoc (l : Loc) : Tame P (Sereal.readLoc l) fun v => v.Small P := fun _ hs => ⟨hs, fun a ha => by cases ha; exact hs.read l⟩
theorem writeLoc (l : Loc) {v : Val} (hv : v.Small P) : Tame P (Sereal.writeLoc l v) fun _ => True :=
  fun _ hs => ⟨hs.write l hv, fun _ _ => trivial⟩
theorem allocVar {v : Val} (hv : v.Small P) : Tame P (Sereal.allocVar v) fun _ => True :=
  fun s hs => ⟨hs.set s.heap.next hv, fun _ _ => trivial⟩
theorem allocMap : Tame P (Sereal.allocObj (.mp [])) fun _ => True :=
  fun s hs => ⟨hs.other s.heap.next (fun _ h => by cases h), fun _ _ => trivial⟩
theorem allocSlice (n : Nat) : Tame P (Sereal.allocSlice n) fun _ => True := by
  intro s hs
  refine ⟨fun a => ?_, fun _ _ => trivial⟩
  have := hs a
  unfold Heap.cellAt at *
  simp only [Sereal.allocSlice, Heap.allocCells]
  by_cases h : s.heap.next ≤ a ∧ a < s.heap.next + max n 1
  · rw [if_pos h]; trivial
  · rw [if_neg h]; exact this
theorem mapSet (m : Addr) (k : Bytes) (v : Val) : Tame P (Sereal.mapSet m k v) fun _ => True :=
  fun _ hs => ⟨hs.other m (fun _ h => by cases h), fun _ _ => trivial⟩

theorem ite {c : Prop} [Decidable c] {x y : D α} {Q : α → Prop} (h1 : Tame P x Q) (h2 : Tame P y Q) :
    Tame P (if c then x else y) Q := by
  split
  · exact h1
  · exact h2

theorem failIf {c : Prop} [Decidable c] {e : Exn} : Tame P (D.failIf c e) fun _ => ¬ c := by
  unfold D.failIf
  split
  · exact fail _
  · next h => exact pure h

theorem byteAt (buf : Bytes) (i : Nat) : Tame P (Sereal.byteAt buf i) fun _ => True := by
  unfold Sereal.byteAt; split
  · exact pure trivial
  · exact fail _

theorem sliceRange {buf : Bytes} (i j : Nat) (hP : buf.length ≤ P) : Tame P (Sereal.sliceRange buf i j) fun r => r.length ≤ P := by
  unfold Sereal.sliceRange
  refine ite (pure ?_) (fail _)
  rw [List.length_take, List.length_drop]
  omega

theorem varintAt (buf : Bytes) (i : Nat) : Tame P (Sereal.varintAt buf i) fun _ => True := by
  unfold Sereal.varintAt
  refine bind' ?_ fun _ => lift _
  unfold Sereal.sliceFrom
  exact ite (pure trivial) (fail _)

theorem withCopy {x : D α} {Q : α → Prop} (h : Tame P x Q) : Tame P (Sereal.withCopy x) Q := by
  intro s hs
  obtain ⟨h1, h2⟩ := h { s with copyDepth := s.copyDepth + 1 } hs
  unfold Sereal.withCopy
  rcases hr : x { s with copyDepth := s.copyDepth + 1 } with ⟨r, s'⟩
  rw [hr] at h1 h2
  cases r with
  | ok a => exact ⟨h1, fun b hb => h2 b hb⟩
  | error e =>
    cases e with
    | err e => exact ⟨h1, fun b hb => by cases hb⟩
    | _ => exact ⟨h1, fun b hb => by cases hb⟩

variable {buf : Bytes} (hP : buf.length ≤ P)
include hP

theorem stringishF (f i : Nat) : Tame P (decodeStringishF buf f i) fun r => r.1.length ≤ P := by
  induction f generalizing i with
  | zero => exact fail _
  | succ f ih =>
    unfold decodeStringishF
    refine bind' tick fun _ => bind' (lift _) fun p => ?_
    dsimp only
    refine ite ?_ (ite ?_ (ite ?_ (err _)))
    · exact bind' (varintAt _ _) fun p => bind failIf fun _ _ => bind failIf fun _ _ => bind (sliceRange _ _ hP) fun _ h => pure h
    · exact bind failIf fun _ _ => bind (sliceRange _ _ hP) fun _ h => pure h
    · exact bind get fun _ _ => bind failIf fun _ _ => bind' (varintAt _ _) fun p => bind failIf fun _ _ =>
        bind (withCopy (ih _)) fun _ h => pure h

theorem stringish (i : Nat) : Tame P (decodeStringish buf i) fun r => r.1.length ≤ P := stringishF hP 2 i

theorem className (i : Nat) (v : Bool) : Tame P (decodeClassName buf i v) fun r => r.1.length ≤ P := by
  unfold decodeClassName
  exact ite (bind' (varintAt _ _) fun p => bind failIf fun _ _ => bind (stringish hP _) fun _ h => pure h) (stringish hP _)

theorem binary (i : Nat) (ln : Int) : Tame P (decodeBinary buf i ln) fun r => r.1.length ≤ P := by
  unfold decodeBinary
  exact bind failIf fun _ _ => bind failIf fun _ _ => bind (sliceRange _ _ hP) fun _ h => bind' (charge _) fun _ => pure h

omit hP

theorem float (i : Nat) : Tame P (decodeFloat buf i) fun _ => True := by
  unfold decodeFloat
  refine bind failIf fun _ _ => ?_
  repeat (refine bind' (byteAt _ _) fun _ => ?_)
  exact pure trivial

theorem double (i : Nat) : Tame P (decodeDouble buf i) fun _ => True := by
  unfold decodeDouble
  refine bind failIf fun _ _ => ?_
  repeat (refine bind' (byteAt _ _) fun _ => ?_)
  exact pure trivial

variable {rec : Nat → Loc → D Nat} (hrec : ∀ i l, Tame P (rec i l) fun _ => True) (cfg : DCfg)
include hrec

theorem arrayLoop (n a i : Nat) : Tame P (Sereal.arrayLoop rec n a i) fun _ => True := by
  induction n generalizing a i with
  | zero => exact pure trivial
  | succ n ih => exact bind' (hrec _ _) fun _ => ih _ _

include hP

theorem hashLoop (m n i : Nat) : Tame P (Sereal.hashLoop buf rec m n i) fun _ => True := by
  induction n generalizing i with
  | zero => exact pure trivial
  | succ n ih =>
    exact bind (stringish hP _) fun p _ => bind' (charge _) fun _ => bind' (allocVar trivial) fun _ => bind' (hrec _ _) fun _ =>
      bind (readLoc _) fun _ _ => bind' (mapSet _ _ _) fun _ => ih _

theorem decodeHash (i : Nat) (ln : Int) (loc : Loc) (r : Bool) : Tame P (Sereal.decodeHash buf rec i ln loc r) fun _ => True := by
  unfold Sereal.decodeHash
  refine bind failIf fun _ _ => bind failIf fun _ _ => bind' (charge _) fun _ => bind' allocMap fun _ => ite ?_ ?_
  · exact bind' (allocVar trivial) fun _ => bind' (writeLoc _ trivial) fun _ => hashLoop hP hrec _ _ _
  · exact bind' (writeLoc _ trivial) fun _ => hashLoop hP hrec _ _ _

omit hP in
theorem decodeArray (i : Nat) (ln : Int) (loc : Loc) (r : Bool) : Tame P (Sereal.decodeArray buf rec i ln loc r) fun _ => True := by
  unfold Sereal.decodeArray
  refine bind failIf fun _ _ => bind failIf fun _ _ => bind' (charge _) fun _ => bind' (allocSlice _) fun _ => ite ?_ ?_
  · exact bind' (allocVar trivial) fun _ => bind' (writeLoc _ trivial) fun _ => arrayLoop hrec _ _ _
  · exact bind' (writeLoc _ trivial) fun _ => arrayLoop hrec _ _ _

omit hrec hP in
theorem refpAlias (i : Nat) (r : Bool) (loc : Loc) : Tame P (decodeRefpAlias cfg buf i r loc) fun _ => True := by
  unfold decodeRefpAlias
  refine bind' (varintAt _ _) fun p => bind failIf fun _ _ => bind get fun s _ => ?_
  split
  · exact ite (err _) (err _)
  · refine bind (readLoc _) fun v hv => ite (ite (fail _) (ite ?_ ?_)) ?_
    · exact bind' (writeLoc _ hv) fun _ => pure trivial
    · exact bind' (allocVar hv) fun _ => bind' (writeLoc _ trivial) fun _ => pure trivial
    · exact bind' (writeLoc _ hv) fun _ => pure trivial

omit hP in
theorem iface (i : Nat) (loc : Loc) : Tame P (decodeIface buf rec i loc) fun _ => True := by
  unfold decodeIface
  refine bind failIf fun _ _ => bind (readLoc _) fun _ _ => bind failIf fun _ _ => bind' (allocVar trivial) fun _ =>
    bind' (hrec _ _) fun _ => bind (readLoc _) fun v hv => ite ?_ ?_
  · exact bind' (writeLoc _ hv) fun _ => pure trivial
  · exact pure trivial

theorem object (i : Nat) (loc : Loc) (v : Bool) : Tame P (decodeObject cfg buf rec i loc v) fun _ => True := by
  unfold decodeObject
  refine bind (className hP _ _) fun p hp => ite ?_ (iface hrec _ _)
  exact bind' (charge _) fun _ => bind' (allocVar (v := .obj _ .nil) trivial) fun _ => bind' (writeLoc _ trivial) fun _ => hrec _ _

theorem freeze (i : Nat) (loc : Loc) (v : Bool) : Tame P (decodeFreeze cfg buf rec i loc v) fun _ => True := by
  unfold decodeFreeze
  refine bind (className hP _ _) fun p hp => bind failIf fun _ _ => bind' (byteAt _ _) fun _ => bind' (byteAt _ _) fun _ =>
    bind failIf fun _ _ => bind' (allocVar trivial) fun _ => bind' (hrec _ _) fun _ => bind (readLoc _) fun w hw => ?_
  have hd : ∀ (o : Val) (j : Nat), o.Small P → Tame P (do let o ← Sereal.allocVar o; Sereal.writeLoc loc (.ptr false o); Pure.pure j) fun _ => True :=
    fun o j ho => bind' (allocVar ho) fun _ => bind' (writeLoc _ trivial) fun _ => pure trivial
  split
  · refine bind failIf fun _ _ => bind (readLoc _) fun x hx => ?_
    split
    · refine bind' (charge _) fun _ => ite (hd _ _ trivial) ?_
      refine bind (readLoc _) fun _ _ => bind failIf fun _ _ => ?_
      split
      · split
        · exact Tame.fail _
        · exact hd _ _ trivial
      · exact hd _ _ trivial
    · exact err _
  · exact err _

omit hP in
theorem refn (t : Bool) (i : Nat) (loc : Loc) : Tame P (decodeRefn cfg rec t i loc) fun _ => True := by
  unfold decodeRefn
  refine ite ?_ (hrec _ _)
  refine bind' (allocVar trivial) fun _ => bind' (writeLoc _ trivial) fun _ => bind' (hrec _ _) fun _ => ite (pure trivial) ?_
  refine bind (readLoc _) fun v hv => ite (fail _) ?_
  exact bind' (allocVar hv) fun _ => bind' (writeLoc _ trivial) fun _ => pure trivial

theorem decodeC (c : TagC) (t : Bool) (i : Nat) (loc : Loc) (tag : Nat) :
    Tame P (Sereal.decodeC cfg buf rec c t i loc tag) fun _ => True := by
  have hw : ∀ (v : Val) (j : Nat), v.Small P → Tame P (do Sereal.writeLoc loc v; Pure.pure j) fun _ => True :=
    fun v j hv => bind' (writeLoc _ hv) fun _ => pure trivial
  have hd : ∀ (o : Val) (j : Nat), o.Small P → Tame P (do let o ← Sereal.allocVar o; Sereal.writeLoc loc (.ptr false o); Pure.pure j) fun _ => True :=
    fun o j ho => bind' (allocVar ho) fun _ => bind' (writeLoc _ trivial) fun _ => pure trivial
  unfold Sereal.decodeC
  cases c <;> dsimp only
  case int n => exact hw _ _ trivial
  case varint => exact bind' (varintAt _ _) fun p => ite (hw _ _ trivial) (hw _ _ trivial)
  case zigzag => exact bind' (varintAt _ _) fun p => hw _ _ trivial
  case float => exact bind' (float _) fun p => hw _ _ trivial
  case double => exact bind' (double _) fun p => hw _ _ trivial
  case true_ => exact hw _ _ trivial
  case false_ => exact hw _ _ trivial
  case hash => exact bind' (varintAt _ _) fun p => decodeHash hP hrec _ _ _ _
  case hashref n => exact decodeHash hP hrec _ _ _ _
  case array => exact bind' (varintAt _ _) fun p => decodeArray hrec _ _ _ _
  case arrayref n => exact decodeArray hrec _ _ _ _
  case strUtf8 => exact bind' (varintAt _ _) fun p => bind (binary hP _ _) fun q hq => hw _ _ hq
  case binary => exact bind' (varintAt _ _) fun p => bind (binary hP _ _) fun q hq => hw _ _ hq
  case short n => exact bind (binary hP _ _) fun q hq => hw _ _ hq
  case undef => exact ite (hd _ _ trivial) (hw _ _ trivial)
  case cundef => exact ite (hw _ _ trivial) (hw _ _ trivial)
  case copy =>
    exact bind get fun _ _ => bind failIf fun _ _ => bind' (varintAt _ _) fun p => bind failIf fun _ _ =>
      bind' (withCopy (hrec _ _)) fun _ => pure trivial
  case refn => exact refn hrec cfg _ _ _
  case refp => exact refpAlias cfg _ _ _
  case alias => exact refpAlias cfg _ _ _
  case weaken => exact ite (bind' (allocVar (v := .weak .nil) trivial) fun _ => bind' (writeLoc _ trivial) fun _ => hrec _ _) (hrec _ _)
  case regexp =>
    refine bind' ?_ fun p => hd _ _ trivial
    exact bind (stringish hP _) fun _ _ => bind (stringish hP _) fun _ _ => pure trivial
  case object => exact object hP hrec cfg _ _ _
  case objectv => exact object hP hrec cfg _ _ _
  case freeze => exact freeze hP hrec cfg _ _ _
  case freezev => exact freeze hP hrec cfg _ _ _
  case pad => exact err _
  case other => exact err _

end Tame
end

theorem decode_tame (cfg : DCfg) {buf : Bytes} (f : Nat) {P : Nat} (hP : buf.length ≤ P) (i : Nat) (loc : Loc) :
    Tame P (decode cfg buf f i loc) fun _ => True := by
  induction f generalizing i loc with
  | zero => exact Tame.fail _
  | succ f ih =>
    rw [decode_succ]
    refine Tame.bind' Tame.tick fun _ => Tame.bind' (Tame.lift _) fun p => Tame.ite ?_ ?_
    · exact Tame.bind' (Tame.track _ _) fun _ => Tame.decodeC hP ih cfg _ _ _ _ _
    · exact Tame.decodeC hP ih cfg _ _ _ _ _

end Sereal
