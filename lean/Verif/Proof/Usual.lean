import Verif.Proof.Peak
import Verif.Proof.SoundLoops
import Verif.Proof.Round
import Verif.Proof.ApiDoc
import Verif.Spec.Writable
import Verif.Spec.Kinds
/-
Which kinds of values the decoder puts into memory.
-/
namespace Sereal


theorem Heap.Usual.cell {d : DCfg} {h : Heap} (hs : h.Usual d) (a : Addr) : (h.cellAt a).Usual d := hs.1 a
theorem Heap.Usual.entry {d : DCfg} {h : Heap} (hs : h.Usual d) (m : Addr) (k : Bytes) (v : Val)
    (e : mapLookup k (h.mapAt m) = some v) : v.Usual d := hs.2 m k v e

/-- `x` keeps it so, and results satisfy `Q`. -/
def Usually (P : DCfg) (x : D α) (Q : α → Prop) : Prop :=
  ∀ s, s.heap.Usual P → (x s).2.heap.Usual P ∧ ∀ a, (x s).1 = .ok a → Q a

theorem high_of_neg {z : Int} (h1 : -2 ^ 63 ≤ z) (h2 : z < 0) : 2 ^ 63 ≤ (UInt64.ofBitVec (BitVec.ofInt 64 z)).toNat := by
  show 2 ^ 63 ≤ (BitVec.ofInt 64 z).toNat
  rw [BitVec.toNat_ofInt]
  omega

section
variable {P : DCfg}

theorem Heap.Usual.read {h : Heap} (hs : h.Usual P) (l : Loc) : (h.read l).Usual P := by
  cases l with
  | cell a => exact hs.cell a
  | field a =>
    have := hs.cell a
    unfold Heap.read
    dsimp only
    split
    · next e => rw [e] at this; exact this.2
    · next e => rw [e] at this; exact this.2
    · trivial

theorem Heap.Usual.put {h : Heap} (hs : h.Usual P) (a : Addr) {o : HObj} (h1 : ∀ v, o = .cell v → v.Usual P)
    (h2 : ∀ es, o = .mp es → ∀ k v, mapLookup k es = some v → v.Usual P) : (h.set a o).Usual P := by
  constructor
  · intro b
    have := hs.cell b
    unfold Heap.cellAt Heap.set at *
    dsimp only
    by_cases hb : b = a
    · rw [if_pos hb]
      cases o with
      | cell v => exact h1 v rfl
      | _ => trivial
    · rw [if_neg hb]; exact this
  · intro b k v
    have := hs.entry b k v
    unfold Heap.mapAt Heap.set at *
    dsimp only
    by_cases hb : b = a
    · rw [if_pos hb]
      cases o with
      | mp es => exact h2 es rfl k v
      | _ => intro h; cases h
    · rw [if_neg hb]; exact this

theorem Heap.Usual.set {h : Heap} (hs : h.Usual P) (a : Addr) {v : Val} (hv : v.Usual P) : (h.set a (.cell v)).Usual P :=
  hs.put a (fun _ e => by cases e; exact hv) (fun _ e => by cases e)

theorem Heap.Usual.write {h : Heap} (hs : h.Usual P) (l : Loc) {v : Val} (hv : v.Usual P) : (h.write l v).Usual P := by
  cases l with
  | cell a => exact hs.set a hv
  | field a =>
    have := hs.cell a
    unfold Heap.write
    dsimp only
    split
    · next e => rw [e] at this; exact hs.set a (v := .obj _ v) ⟨this.1, hv⟩
    · next e => rw [e] at this; exact hs.set a (v := .weak v) ⟨this.1, hv⟩
    · exact hs

namespace Usually

theorem bind {x : D α} {f : α → D β} {Q : α → Prop} {R : β → Prop} (hx : Usually P x Q) (hf : ∀ a, Q a → Usually P (f a) R) :
    Usually P (x >>= f) R := by
  intro s hs
  obtain ⟨h1, h2⟩ := hx s hs
  rw [D.bind_apply]
  rcases hr : x s with ⟨r, s'⟩
  rw [hr] at h1 h2
  cases r with
  | ok a => exact hf a (h2 a rfl) s' h1
  | error e => exact ⟨h1, fun b hb => by cases hb⟩

theorem mono {x : D α} {Q R : α → Prop} (hx : Usually P x Q) (h : ∀ a, Q a → R a) : Usually P x R :=
  fun s hs => ⟨(hx s hs).1, fun a ha => h a ((hx s hs).2 a ha)⟩

theorem bind' {x : D α} {f : α → D β} {R : β → Prop} (hx : Usually P x fun _ => True) (hf : ∀ a, Usually P (f a) R) :
    Usually P (x >>= f) R := bind hx fun a _ => hf a

theorem pure {a : α} {Q : α → Prop} (h : Q a) : Usually P (Pure.pure a : D α) Q := fun _ hs => ⟨hs, fun b hb => by cases hb; exact h⟩
theorem fail {Q : α → Prop} (e : Exn) : Usually P (D.fail e : D α) Q := fun _ hs => ⟨hs, fun b hb => by cases hb⟩
theorem err {Q : α → Prop} (e : Err) : Usually P (D.err e : D α) Q := fail _
/-- Something that does not touch the heap. -/
theorem still {x : D α} {Q : α → Prop} (h : ∀ s, (x s).2.heap = s.heap) (hq : ∀ s a, (x s).1 = .ok a → Q a) : Usually P x Q :=
  fun s hs => ⟨by rw [h]; exact hs, hq s⟩
theorem lift (r : Res α) : Usually P (D.lift r) fun _ => True := fun _ hs => ⟨hs, fun _ _ => trivial⟩
theorem get : Usually P D.get fun s => s.heap.Usual P := fun _ hs => ⟨hs, fun a ha => by cases ha; exact hs⟩
theorem tick : Usually P Sereal.tick fun _ => True := fun _ hs => ⟨hs, fun _ _ => trivial⟩
theorem charge (n : Nat) : Usually P (Sereal.charge n) fun _ => True := fun _ hs => ⟨hs, fun _ _ => trivial⟩
theorem track (i : Nat) (l : Loc) : Usually P (Sereal.track i l) fun _ => True := fun _ hs => ⟨hs, fun _ _ => trivial⟩
theorem readLoc (l : Loc) : Usually P (Sereal.readLoc l) fun v => v.Usual P := fun _ hs => ⟨hs, fun a ha => by cases ha; exact hs.read l⟩
theorem writeLoc (l : Loc) {v : Val} (hv : v.Usual P) : Usually P (Sereal.writeLoc l v) fun _ => True :=
  fun _ hs => ⟨hs.write l hv, fun _ _ => trivial⟩
theorem allocVar {v : Val} (hv : v.Usual P) : Usually P (Sereal.allocVar v) fun _ => True :=
  fun s hs => ⟨hs.set s.heap.next hv, fun _ _ => trivial⟩
theorem allocMap : Usually P (Sereal.allocObj (.mp [])) fun _ => True :=
  fun s hs => ⟨hs.put (o := .mp []) s.heap.next (fun _ h => by cases h) (fun _ h k v e => by cases h; cases e), fun _ _ => trivial⟩
theorem allocSlice (n : Nat) : Usually P (Sereal.allocSlice n) fun _ => True := by
  intro s hs
  refine ⟨⟨fun a => ?_, fun a k v => ?_⟩, fun _ _ => trivial⟩
  · have := hs.cell a
    unfold Heap.cellAt at *
    simp only [Sereal.allocSlice, Heap.allocCells]
    by_cases h : s.heap.next ≤ a ∧ a < s.heap.next + max n 1
    · rw [if_pos h]; trivial
    · rw [if_neg h]; exact this
  · have := hs.entry a k v
    unfold Heap.mapAt at *
    simp only [Sereal.allocSlice, Heap.allocCells]
    by_cases h : s.heap.next ≤ a ∧ a < s.heap.next + max n 1
    · rw [if_pos h]; intro e; cases e
    · rw [if_neg h]; exact this
theorem mapSet (m : Addr) (k : Bytes) {v : Val} (hv : v.Usual P) : Usually P (Sereal.mapSet m k v) fun _ => True :=
  fun s hs => ⟨hs.put m (fun _ h => by cases h) (fun es h k' v' e => by
    cases h
    rw [mapLookup_insert] at e
    split at e
    · cases e; exact hv
    · exact hs.entry m k' v' e), fun _ _ => trivial⟩

theorem ite {c : Prop} [Decidable c] {x y : D α} {Q : α → Prop} (h1 : Usually P x Q) (h2 : Usually P y Q) :
    Usually P (if c then x else y) Q := by
  split
  · exact h1
  · exact h2

theorem failIf {c : Prop} [Decidable c] {e : Exn} : Usually P (D.failIf c e) fun _ => ¬ c := by
  unfold D.failIf
  split
  · exact fail _
  · next h => exact pure h

theorem byteAt (buf : Bytes) (i : Nat) : Usually P (Sereal.byteAt buf i) fun _ => True := by
  unfold Sereal.byteAt; split
  · exact pure trivial
  · exact fail _

theorem sliceRange {buf : Bytes} (i j : Nat) : Usually P (Sereal.sliceRange buf i j) fun _ => True := by
  unfold Sereal.sliceRange
  exact ite (pure trivial) (fail _)

theorem varintAt_range (buf : Bytes) (i : Nat) : Usually P (Sereal.varintAt buf i) fun p => -2 ^ 63 ≤ p.1 := by
  unfold Sereal.varintAt
  refine bind' (x := Sereal.sliceFrom buf i) ?_ fun t => ?_
  · unfold Sereal.sliceFrom
    exact ite (pure trivial) (fail _)
  · refine still (fun _ => rfl) fun s p hp => ?_
    obtain ⟨_, _, _, _, _, _, h⟩ := varintdecode_ok (show varintdecode t = .ok p from hp)
    rw [h]
    exact BitVec.le_toInt _

theorem varintAt (buf : Bytes) (i : Nat) : Usually P (Sereal.varintAt buf i) fun _ => True :=
  (varintAt_range buf i).mono fun _ _ => trivial

theorem withCopy {x : D α} {Q : α → Prop} (h : Usually P x Q) : Usually P (Sereal.withCopy x) Q := by
  intro s hs
  obtain ⟨h1, h2⟩ := h { s with copyDepth := s.copyDepth + 1 } hs
  unfold Sereal.withCopy
  rcases hr : x { s with copyDepth := s.copyDepth + 1 } with ⟨r, s'⟩
  rw [hr] at h1 h2
  cases r with
  | ok a => exact ⟨h1, fun b hb => h2 b hb⟩
  | error e =>
    cases e with
    | err e => exact ⟨h1, fun b hb => by cases hb⟩
    | _ => exact ⟨h1, fun b hb => by cases hb⟩

variable {buf : Bytes}
theorem stringishF (f i : Nat) : Usually P (decodeStringishF buf f i) fun _ => True := by
  induction f generalizing i with
  | zero => exact fail _
  | succ f ih =>
    unfold decodeStringishF
    refine bind' tick fun _ => bind' (lift _) fun p => ?_
    dsimp only
    refine ite ?_ (ite ?_ (ite ?_ (err _)))
    · exact bind' (varintAt _ _) fun p => bind failIf fun _ _ => bind failIf fun _ _ => bind (sliceRange _ _) fun _ h => pure h
    · exact bind failIf fun _ _ => bind (sliceRange _ _) fun _ h => pure h
    · exact bind get fun _ _ => bind failIf fun _ _ => bind' (varintAt _ _) fun p => bind failIf fun _ _ =>
        bind (withCopy (ih _)) fun _ h => pure h

theorem stringish (i : Nat) : Usually P (decodeStringish buf i) fun _ => True := stringishF 2 i

theorem className (i : Nat) (v : Bool) : Usually P (decodeClassName buf i v) fun _ => True := by
  unfold decodeClassName
  exact ite (bind' (varintAt _ _) fun p => bind failIf fun _ _ => bind (stringish _) fun _ h => pure h) (stringish _)

theorem binary (i : Nat) (ln : Int) : Usually P (decodeBinary buf i ln) fun _ => True := by
  unfold decodeBinary
  exact bind failIf fun _ _ => bind failIf fun _ _ => bind (sliceRange _ _) fun _ h => bind' (charge _) fun _ => pure h

theorem float (i : Nat) : Usually P (decodeFloat buf i) fun _ => True := by
  unfold decodeFloat
  refine bind failIf fun _ _ => ?_
  repeat (refine bind' (byteAt _ _) fun _ => ?_)
  exact pure trivial

theorem double (i : Nat) : Usually P (decodeDouble buf i) fun _ => True := by
  unfold decodeDouble
  refine bind failIf fun _ _ => ?_
  repeat (refine bind' (byteAt _ _) fun _ => ?_)
  exact pure trivial

variable {rec : Nat → Loc → D Nat} (hrec : ∀ i l, Usually P (rec i l) fun _ => True)
include hrec

theorem arrayLoop (n a i : Nat) : Usually P (Sereal.arrayLoop rec n a i) fun _ => True := by
  induction n generalizing a i with
  | zero => exact pure trivial
  | succ n ih => exact bind' (hrec _ _) fun _ => ih _ _

theorem hashLoop (m n i : Nat) : Usually P (Sereal.hashLoop buf rec m n i) fun _ => True := by
  induction n generalizing i with
  | zero => exact pure trivial
  | succ n ih =>
    exact bind (stringish _) fun p _ => bind' (charge _) fun _ => bind' (allocVar trivial) fun _ => bind' (hrec _ _) fun _ =>
      bind (readLoc _) fun _ hv => bind' (mapSet _ _ hv) fun _ => ih _

theorem decodeHash (i : Nat) (ln : Int) (loc : Loc) (r : Bool) : Usually P (Sereal.decodeHash buf rec i ln loc r) fun _ => True := by
  unfold Sereal.decodeHash
  refine bind failIf fun _ _ => bind failIf fun _ _ => bind' (charge _) fun _ => bind' allocMap fun _ => ite ?_ ?_
  · exact bind' (allocVar trivial) fun _ => bind' (writeLoc _ trivial) fun _ => hashLoop hrec _ _ _
  · exact bind' (writeLoc _ trivial) fun _ => hashLoop hrec _ _ _

theorem decodeArray (i : Nat) (ln : Int) (loc : Loc) (r : Bool) : Usually P (Sereal.decodeArray buf rec i ln loc r) fun _ => True := by
  unfold Sereal.decodeArray
  refine bind failIf fun _ _ => bind failIf fun _ _ => bind' (charge _) fun _ => bind' (allocSlice _) fun _ => ite ?_ ?_
  · exact bind' (allocVar trivial) fun _ => bind' (writeLoc _ trivial) fun _ => arrayLoop hrec _ _ _
  · exact bind' (writeLoc _ trivial) fun _ => arrayLoop hrec _ _ _

omit hrec in
theorem refpAlias (i : Nat) (r : Bool) (loc : Loc) : Usually P (decodeRefpAlias P buf i r loc) fun _ => True := by
  unfold decodeRefpAlias
  refine bind' (varintAt _ _) fun p => bind failIf fun _ _ => bind get fun s _ => ?_
  split
  · exact ite (err _) (err _)
  · refine bind (readLoc _) fun v hv => ite (ite (fail _) (ite ?_ ?_)) ?_
    · exact bind' (writeLoc _ hv) fun _ => pure trivial
    · exact bind' (allocVar hv) fun _ => bind' (writeLoc _ trivial) fun _ => pure trivial
    · exact bind' (writeLoc _ hv) fun _ => pure trivial

theorem iface (i : Nat) (loc : Loc) : Usually P (decodeIface buf rec i loc) fun _ => True := by
  unfold decodeIface
  refine bind failIf fun _ _ => bind (readLoc _) fun _ _ => bind failIf fun _ _ => bind' (allocVar trivial) fun _ =>
    bind' (hrec _ _) fun _ => bind (readLoc _) fun v hv => ite ?_ ?_
  · exact bind' (writeLoc _ hv) fun _ => pure trivial
  · exact pure trivial

theorem object (i : Nat) (loc : Loc) (v : Bool) : Usually P (decodeObject P buf rec i loc v) fun _ => True := by
  unfold decodeObject
  refine bind (className _ _) fun p _ => ?_
  dsimp only
  by_cases hp : P.perlCompat = true
  case neg => rw [if_neg hp]; exact iface hrec _ _
  rw [if_pos hp]
  exact bind' (charge _) fun _ => bind' (allocVar (v := .obj _ .nil) ⟨hp, trivial⟩) fun _ => bind' (writeLoc _ trivial) fun _ => hrec _ _

theorem freeze (i : Nat) (loc : Loc) (v : Bool) : Usually P (decodeFreeze P buf rec i loc v) fun _ => True := by
  unfold decodeFreeze
  refine bind (className _ _) fun p hp => bind failIf fun _ _ => bind' (byteAt _ _) fun _ => bind' (byteAt _ _) fun _ =>
    bind failIf fun _ _ => bind' (allocVar trivial) fun _ => bind' (hrec _ _) fun _ => bind (readLoc _) fun w hw => ?_
  have hd : ∀ (o : Val) (j : Nat), o.Usual P → Usually P (do let o ← Sereal.allocVar o; Sereal.writeLoc loc (.ptr false o); Pure.pure j) fun _ => True :=
    fun o j ho => bind' (allocVar ho) fun _ => bind' (writeLoc _ trivial) fun _ => pure trivial
  split
  · refine bind failIf fun _ _ => bind (readLoc _) fun x hx => ?_
    split
    · refine bind' (charge _) fun _ => ite (hd _ _ trivial) ?_
      refine bind (readLoc _) fun _ _ => bind failIf fun _ _ => ?_
      split
      · next hr =>
        split
        · exact fail _
        · exact hd (.thawed _ _) _ (by show Option.isSome _ = true; rw [hr]; rfl)
      · exact hd _ _ trivial
    · exact err _
  · exact err _

theorem refn (t : Bool) (i : Nat) (loc : Loc) :
    Usually P (decodeRefn P rec t i loc) fun _ => True := by
  unfold decodeRefn
  split
  case isFalse => exact hrec _ _
  next hp =>
  refine bind' (allocVar trivial) fun _ => bind' (writeLoc _ hp) fun _ => bind' (hrec _ _) fun _ => ite (pure trivial) ?_
  refine bind (readLoc _) fun v hv => ite (fail _) ?_
  exact bind' (allocVar hv) fun _ => bind' (writeLoc _ trivial) fun _ => pure trivial

theorem decodeC (c : TagC) (t : Bool) (i : Nat) (loc : Loc) (tag : Nat) :
    Usually P (Sereal.decodeC P buf rec c t i loc tag) fun _ => True := by
  have hw : ∀ (v : Val) (j : Nat), v.Usual P → Usually P (do Sereal.writeLoc loc v; Pure.pure j) fun _ => True :=
    fun v j hv => bind' (writeLoc _ hv) fun _ => pure trivial
  have hd : ∀ (o : Val) (j : Nat), o.Usual P → Usually P (do let o ← Sereal.allocVar o; Sereal.writeLoc loc (.ptr false o); Pure.pure j) fun _ => True :=
    fun o j ho => bind' (allocVar ho) fun _ => bind' (writeLoc _ trivial) fun _ => pure trivial
  unfold Sereal.decodeC
  cases c <;> dsimp only
  case int n => exact hw _ _ trivial
  case varint =>
    refine bind (varintAt_range _ _) fun p hp => ?_
    split
    · next hneg => exact hw (.uint .uint _) _ (high_of_neg hp hneg)
    · exact hw _ _ trivial
  case zigzag => exact bind' (varintAt _ _) fun p => hw _ _ trivial
  case float => exact bind' (float _) fun p => hw _ _ trivial
  case double => exact bind' (double _) fun p => hw _ _ trivial
  case true_ => exact hw _ _ trivial
  case false_ => exact hw _ _ trivial
  case hash => exact bind' (varintAt _ _) fun p => decodeHash hrec _ _ _ _
  case hashref n => exact decodeHash hrec _ _ _ _
  case array => exact bind' (varintAt _ _) fun p => decodeArray hrec _ _ _ _
  case arrayref n => exact decodeArray hrec _ _ _ _
  case strUtf8 => exact bind' (varintAt _ _) fun p => bind (binary _ _) fun q hq => hw _ _ hq
  case binary => exact bind' (varintAt _ _) fun p => bind (binary _ _) fun q hq => hw _ _ hq
  case short n => exact bind (binary _ _) fun q hq => hw _ _ hq
  case undef =>
    split
    · next hp => exact hd (.undef false) _ (.inl hp)
    · exact hw _ _ trivial
  case cundef => exact ite (hw _ _ trivial) (hw _ _ trivial)
  case copy =>
    exact bind get fun _ _ => bind failIf fun _ _ => bind' (varintAt _ _) fun p => bind failIf fun _ _ =>
      bind' (withCopy (hrec _ _)) fun _ => pure trivial
  case refn => exact refn hrec _ _ _
  case refp => exact refpAlias _ _ _
  case alias => exact refpAlias _ _ _
  case weaken =>
    split
    · next hp => exact bind' (allocVar (v := .weak .nil) ⟨hp, trivial⟩) fun _ => bind' (writeLoc _ trivial) fun _ => hrec _ _
    · exact hrec _ _
  case regexp =>
    refine bind' ?_ fun p => hd _ _ trivial
    exact bind (stringish _) fun _ _ => bind (stringish _) fun _ _ => pure trivial
  case object => exact object hrec _ _ _
  case objectv => exact object hrec _ _ _
  case freeze => exact freeze hrec _ _ _
  case freezev => exact freeze hrec _ _ _
  case pad => exact err _
  case other => exact err _

end Usually
end

theorem decode_usual (cfg : DCfg) {buf : Bytes} (f : Nat) (i : Nat) (loc : Loc) :
    Usually cfg (decode cfg buf f i loc) fun _ => True := by
  induction f generalizing i loc with
  | zero => exact Usually.fail _
  | succ f ih =>
    rw [decode_succ]
    refine Usually.bind' Usually.tick fun _ => Usually.bind' (Usually.lift _) fun p => Usually.ite ?_ ?_
    · exact Usually.bind' (Usually.track _ _) fun _ => Usually.decodeC ih _ _ _ _ _
    · exact Usually.decodeC ih _ _ _ _ _

/-- After Unmarshal. -/
theorem unmarshal_usual {cfg : DCfg} {cs : Codecs} {b : Bytes} {h : Heap} {v : Val}
    (hu : unmarshal cfg cs b = .ok (h, v)) : h.Usual cfg ∧ v.Usual cfg := by
  obtain ⟨buf, i, j, s', -, hd, rfl, rfl⟩ := unmarshal_ok.1 hu
  have h0 : Heap.Usual cfg ({ DState.init with tracked := fun _ => none } : DState).heap := by
    refine Heap.Usual.set (h := Heap.init) ⟨fun a => ?_, fun m k v => ?_⟩ 1 (v := .nil) trivial
    · unfold Heap.cellAt Heap.init
      dsimp only
      by_cases ha : a = canonicalUndefAddr
      · rw [if_pos ha]; exact .inr rfl
      · rw [if_neg ha]; trivial
    · unfold Heap.mapAt Heap.init
      dsimp only
      by_cases ha : m = canonicalUndefAddr
      · rw [if_pos ha]; intro e; cases e
      · rw [if_neg ha]; intro e; cases e
  have := (decode_usual cfg (buf := buf) (fuelFor buf.length) i (.cell 1) _ h0).1
  rw [hd] at this
  exact ⟨this, this.cell 1⟩

theorem Usual.leads {c : ECfg} {h : Heap} {d : DCfg} (hh : h.Usual d) {w u : Val} (hw : w.Usual d) (hl : Leads c h w u) :
    u.Usual d := by
  rcases hl with hl | hl | ⟨a, -, rfl⟩
  · cases hl with
    | elem _ => exact hh.cell _
    | relem _ => exact hh.cell _
    | entry e => exact hh.entry _ _ _ e
    | rentry e => exact hh.entry _ _ _ e
    | field _ => exact hw.elim
    | cls => trivial
    | data => trivial
    | perl _ => exact hh.cell _
  · cases hl with
    | obj => exact hw.2
    | weak => exact hw.2
    | under _ => exact hw.elim
  · exact hh.cell _

/-- Marshal has a form for everything in such memory, except for *interface{} pointers to strings. -/
theorem Usual.handled {c : ECfg} {h : Heap} {d : DCfg} (hreg : ∀ cls, d.registry cls = none) (hh : h.Usual d) {v : Val}
    (hv : v.Usual d) (hp : d.perlCompat = true → ∀ a, ReachesVal c h v (.ptr true a) → ¬ Stringy (h.cellAt a)) : Handled c h v := by
  refine ⟨fun w => ReachesVal c h v w ∧ w.Usual d, ⟨.refl, hv⟩, ?_⟩
  rintro w ⟨h1, h2⟩
  refine ⟨fun hr => ?_, fun u hu => ⟨h1.step hu, Usual.leads hh h2 hu⟩⟩
  cases w with
  | ptr b a =>
    cases b with
    | true => exact hp h2 a h1 hr
    | false => exact hr
  | thawed cls _ => exact absurd (show (d.registry cls).isSome = true from h2) (by rw [hreg]; decide)
  | _ => first | exact hr | exact h2

theorem Writable.more {c : ECfg} {h : Heap} {S : Addr → Prop} {n : Nat} {v : Val} (hw : Writable c h S n v) :
    ∀ {m}, n ≤ m → Writable c h S m v := by
  induction hw with
  | plain h => intro m _; exact .plain h
  | level h1 h2 h3 _ ih =>
    intro m hm
    obtain ⟨k, rfl⟩ : ∃ k, m = k + 1 := ⟨m - 1, by omega⟩
    exact .level h1 h2 h3 fun w hw => ih w hw (by omega)
  | seen h1 h2 h3 =>
    intro m hm
    obtain ⟨k, rfl⟩ : ∃ k, m = k + 1 := ⟨m - 1, by omega⟩
    exact .seen h1 h2 h3
  | ptr h1 h2 _ ih =>
    intro m hm
    obtain ⟨k, rfl⟩ : ∃ k, m = k + 1 := ⟨m - 1, by omega⟩
    exact .ptr h1 h2 (ih (by omega))
  | same h1 _ ih => intro m hm; exact .same h1 (ih hm)
  | freeze h => intro m _; exact .freeze h

/-- The limit does not matter for what can be written in a number of levels. -/
theorem Writable.limit {c : ECfg} {h : Heap} {S : Addr → Prop} {n : Nat} {v : Val} (hw : Writable c h S n v) (d : Int) :
    Writable { c with maxRecursionDepth := d } h S n v := by
  have ref : ∀ v, ¬ Refused c h v → ¬ Refused { c with maxRecursionDepth := d } h v := by
    intro v h1 h2
    apply h1
    cases v <;> exact h2
  induction hw with
  | plain h => exact .plain h
  | level h1 h2 h3 _ ih => exact .level h1 (ref _ h2) h3 ih
  | seen h1 h2 h3 => exact .seen h1 (ref _ h2) h3
  | ptr h1 h2 _ ih => exact .ptr h1 (ref _ h2) ih
  | same h1 _ ih =>
    refine .same ?_ ih
    cases h1 with
    | obj => exact .obj
    | weak => exact .weak
    | under h => exact .under h
  | freeze h => exact .freeze h

/-- One number for finitely many values. -/
theorem exists_bound {Q : Nat → Val → Prop} (mono : ∀ {n m v}, n ≤ m → Q n v → Q m v) (vs : List Val)
    (hq : ∀ v ∈ vs, ∃ n, Q n v) : ∃ n, ∀ v ∈ vs, Q n v := by
  induction vs with
  | nil => exact ⟨0, fun v hv => by cases hv⟩
  | cons x xs ih =>
    obtain ⟨n, hn⟩ := ih fun v hv => hq v (List.mem_cons_of_mem _ hv)
    obtain ⟨m, hm⟩ := hq x List.mem_cons_self
    refine ⟨max n m, fun v hv => ?_⟩
    rcases List.mem_cons.1 hv with rfl | hv
    · exact mono (by omega) hm
    · exact mono (by omega) (hn v hv)

/-- The values one level down are finitely many. -/
theorem Inner.finite (h : Heap) (v : Val) : ∃ vs : List Val, ∀ w, Inner h v w → w ∈ vs := by
  cases v with
  | slice p n =>
    refine ⟨(List.range n).map fun i => h.cellAt (p + i), fun w hw => ?_⟩
    cases hw with
    | elem hi => exact List.mem_map.2 ⟨_, List.mem_range.2 hi, rfl⟩
  | rslice p n =>
    refine ⟨(List.range n).map fun i => h.cellAt (p + i), fun w hw => ?_⟩
    cases hw with
    | relem hi => exact List.mem_map.2 ⟨_, List.mem_range.2 hi, rfl⟩
  | smap m =>
    refine ⟨(h.mapAt m).map Prod.snd, fun w hw => ?_⟩
    cases hw with
    | entry e => exact List.mem_map.2 ⟨_, mapLookup_mem e, rfl⟩
  | rmap m =>
    refine ⟨(h.mapAt m).map Prod.snd, fun w hw => ?_⟩
    cases hw with
    | rentry e => exact List.mem_map.2 ⟨_, mapLookup_mem e, rfl⟩
  | strct name a =>
    refine ⟨(h.fieldsAt a).map Field.val, fun w hw => ?_⟩
    cases hw with
    | field hf =>
      have := lastLookup_mem hf
      rw [List.mem_filterMap] at this
      obtain ⟨f, h1, h2⟩ := this
      rw [Option.map_eq_some_iff] at h2
      obtain ⟨k, -, h3⟩ := h2
      cases h3
      exact List.mem_map.2 ⟨_, h1, rfl⟩
  | frozen c d =>
    refine ⟨[.str c, .bin d], fun w hw => ?_⟩
    cases hw with
    | cls => exact List.mem_cons_self
    | data => exact List.mem_cons_of_mem _ List.mem_cons_self
  | ptr b a =>
    refine ⟨[h.cellAt a], fun w hw => ?_⟩
    cases hw with
    | perl _ => exact List.mem_cons_self
  | _ => exact ⟨[], fun w hw => by cases hw⟩

/-- Finite data for which Marshal has a form can be written. -/
theorem Handled.writable {c : ECfg} {h : Heap} {v : Val} (hh : Handled c h v) (hfin : Acc (fun u w => Leads c h w u) v) :
    ∃ n, ∀ S, Writable c h S n v := by
  obtain ⟨T, hT, hclosed⟩ := hh
  induction hfin with
  | intro v _ ih =>
  obtain ⟨hr, hl⟩ := hclosed v hT
  have sub : ∀ u, Leads c h v u → ∃ n, ∀ S, Writable c h S n u := fun u hu => ih u hu (hl u hu)
  have level : Level v → (∀ a, ¬ OrdPtr h v a) → ∃ n, ∀ S, Writable c h S n v := by
    intro h1 h2
    obtain ⟨vs, hvs⟩ := Inner.finite h v
    obtain ⟨n, hn⟩ := exists_bound (Q := fun n w => Inner h v w → ∀ S, Writable c h S n w)
      (fun hnm hq hi S => (hq hi S).more hnm) vs (fun w _ => by
        by_cases hi : Inner h v w
        · obtain ⟨n, hn⟩ := sub w (.inl hi)
          exact ⟨n, fun _ => hn⟩
        · exact ⟨0, fun g => (hi g).elim⟩)
    exact ⟨n + 1, fun S => .level h1 hr h2 fun w hw => hn w (hvs w hw) hw S⟩
  have same : ∀ {u}, SameLevel c v u → ∃ n, ∀ S, Writable c h S n v := by
    intro u hs
    obtain ⟨n, hn⟩ := sub u (.inr (.inl hs))
    exact ⟨n, fun S => .same hs (hn S)⟩
  have ptr : ∀ {a}, OrdPtr h v a → ∃ n, ∀ S, Writable c h S n v := by
    intro a ha
    obtain ⟨n, hn⟩ := sub _ (.inr (.inr ⟨a, ha, rfl⟩))
    exact ⟨n + 1, fun S => .ptr ha hr (hn _)⟩
  have noOrd : (∀ b a, v ≠ .ptr b a) → ∀ a, ¬ OrdPtr h v a := by
    rintro hn a (e | ⟨e, -⟩) <;> exact hn _ _ e
  cases v with
  | ptr b a =>
    cases b with
    | true => exact ptr (.inl rfl)
    | false =>
      by_cases hp : PerlThing (h.cellAt a)
      · refine level trivial ?_
        rintro a' (e | ⟨e, g⟩)
        · cases e
        · cases e; exact g hp
      · exact ptr (.inr ⟨rfl, hp⟩)
  | slice p n => exact level trivial (noOrd fun _ _ e => by cases e)
  | rslice p n => exact level trivial (noOrd fun _ _ e => by cases e)
  | smap m => exact level trivial (noOrd fun _ _ e => by cases e)
  | rmap m => exact level trivial (noOrd fun _ _ e => by cases e)
  | frozen a b => exact level trivial (noOrd fun _ _ e => by cases e)
  | nilptr => exact level trivial (noOrd fun _ _ e => by cases e)
  | strct a b => exact level trivial (noOrd fun _ _ e => by cases e)
  | obj cls r => exact same .obj
  | weak r => exact same .weak
  | marshaler cls res u =>
    by_cases hd : c.disableFreeze = true
    · exact same (.under hd)
    · have hd : c.disableFreeze = false := by simpa using hd
      cases res with
      | error e => exact (hr hd).elim
      | ok d => exact ⟨0, fun S => .freeze hd⟩
  | unsupported => exact (hr trivial).elim
  | thawed _ _ => exact (hr trivial).elim
  | nuint _ _ => exact (hr trivial).elim
  | _ => exact ⟨0, fun S => .plain trivial⟩

end Sereal
