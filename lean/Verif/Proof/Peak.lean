import Verif.Proof.SafeDecode
/-
No single allocation of the decoder is larger than the buffer.
-/
namespace Sereal

/-- `x` makes no allocation larger than `P`. -/
def Peak (P : Nat) (x : D α) : Prop := ∀ s, s.peak ≤ P → (x s).2.peak ≤ P

section
variable {P : Nat}

theorem Peak.bind {x : D α} {f : α → D β} (hx : Peak P x)
    (hf : ∀ a s s1, x s = (.ok a, s1) → Peak P (f a)) : Peak P (x >>= f) := by
  intro s hs
  have h1 := hx s hs
  rw [D.bind_apply]
  split
  · rename_i a s1 he
    rw [he] at h1
    exact hf a s s1 he s1 h1
  · rename_i e s1 he
    rw [he] at h1
    exact h1

theorem Peak.bind' {x : D α} {f : α → D β} (hx : Peak P x) (hf : ∀ a, Peak P (f a)) :
    Peak P (x >>= f) := Peak.bind hx fun a _ _ _ => hf a

theorem Peak.pure (a : α) : Peak P (Pure.pure a : D α) := fun _ h => h
theorem Peak.fail (e : Exn) : Peak P (D.fail e : D α) := fun _ h => h
theorem Peak.err (e : Err) : Peak P (D.err e : D α) := fun _ h => h
theorem Peak.lift (r : Res α) : Peak P (D.lift r) := fun _ h => h
theorem Peak.get : Peak P D.get := fun _ h => h
theorem Peak.tick : Peak P Sereal.tick := fun _ h => h
theorem Peak.readLoc (l : Loc) : Peak P (Sereal.readLoc l) := fun _ h => h
theorem Peak.writeLoc (l : Loc) (v : Val) : Peak P (Sereal.writeLoc l v) := fun _ h => h
theorem Peak.allocVar (v : Val) : Peak P (Sereal.allocVar v) := fun _ h => h
theorem Peak.allocObj (o : HObj) : Peak P (Sereal.allocObj o) := fun _ h => h
theorem Peak.allocSlice (n : Nat) : Peak P (Sereal.allocSlice n) := fun _ h => h
theorem Peak.mapSet (m : Addr) (k : Bytes) (v : Val) : Peak P (Sereal.mapSet m k v) := fun _ h => h
theorem Peak.track (i : Nat) (l : Loc) : Peak P (Sereal.track i l) := fun _ h => h
theorem Peak.charge {n : Nat} (hn : n ≤ P) : Peak P (Sereal.charge n) := fun s h => by
  show max s.peak n ≤ P
  omega

theorem Peak.ite {c : Prop} [Decidable c] {x y : D α} (h1 : c → Peak P x) (h2 : ¬ c → Peak P y) :
    Peak P (if c then x else y) := by
  by_cases hc : c
  · rw [if_pos hc]; exact h1 hc
  · rw [if_neg hc]; exact h2 hc

theorem Peak.failIf {c : Prop} [Decidable c] {e : Exn} {f : Unit → D α} (h : ¬ c → Peak P (f ())) :
    Peak P (D.failIf c e >>= f) := by
  refine Peak.bind ?_ fun a s s1 h1 => h (D.failIf_ok.1 h1).1
  unfold D.failIf
  exact Peak.ite (fun _ => fun _ h => h) (fun _ => fun _ h => h)

theorem Peak.byteAt (buf : Bytes) (i : Nat) : Peak P (Sereal.byteAt buf i) := by
  unfold Sereal.byteAt; split
  · exact Peak.pure _
  · exact Peak.fail _

theorem Peak.sliceRange (buf : Bytes) (i j : Nat) : Peak P (Sereal.sliceRange buf i j) := by
  unfold Sereal.sliceRange
  exact Peak.ite (fun _ => Peak.pure _) (fun _ => Peak.fail _)

theorem Peak.varintAt (buf : Bytes) (i : Nat) : Peak P (Sereal.varintAt buf i) := by
  unfold Sereal.varintAt
  refine Peak.bind' ?_ fun _ => Peak.lift _
  unfold Sereal.sliceFrom
  exact Peak.ite (fun _ => Peak.pure _) (fun _ => Peak.fail _)

theorem Peak.withCopy {x : D α} (h : Peak P x) : Peak P (Sereal.withCopy x) := by
  intro s hs
  have := h { s with copyDepth := s.copyDepth + 1 } hs
  unfold Sereal.withCopy
  split <;> rename_i he <;> rw [he] at this <;> exact this

theorem Peak.stringishF (buf : Bytes) (f i : Nat) : Peak P (decodeStringishF buf f i) := by
  induction f generalizing i with
  | zero => exact Peak.fail _
  | succ f ih =>
    unfold decodeStringishF
    refine Peak.bind' Peak.tick fun _ => Peak.bind' (Peak.lift _) fun ⟨k, b⟩ => ?_
    dsimp only
    refine Peak.ite (fun _ => ?_) fun _ => Peak.ite (fun _ => ?_) fun _ => Peak.ite (fun _ => ?_)
      fun _ => Peak.err _
    · exact Peak.bind' (Peak.varintAt _ _) fun ⟨n, sz⟩ => Peak.failIf fun _ => Peak.failIf fun _ =>
        Peak.bind' (Peak.sliceRange _ _ _) fun _ => Peak.pure _
    · exact Peak.failIf fun _ => Peak.bind' (Peak.sliceRange _ _ _) fun _ => Peak.pure _
    · exact Peak.bind' Peak.get fun _ => Peak.failIf fun _ => Peak.bind' (Peak.varintAt _ _)
        fun ⟨n, sz⟩ => Peak.failIf fun _ => Peak.bind' (Peak.withCopy (ih _)) fun _ => Peak.pure _

theorem Peak.stringish (buf : Bytes) (i : Nat) : Peak P (decodeStringish buf i) :=
  Peak.stringishF buf 2 i

theorem Peak.className (buf : Bytes) (i : Nat) (v : Bool) : Peak P (decodeClassName buf i v) := by
  unfold decodeClassName
  exact Peak.ite (fun _ => Peak.bind' (Peak.varintAt _ _) fun ⟨n, sz⟩ => Peak.failIf fun _ =>
    Peak.bind' (Peak.stringish _ _) fun _ => Peak.pure _) (fun _ => Peak.stringish _ _)

theorem stringish_len {buf : Bytes} {i : Nat} {p : Bytes × Nat} {s s1 : DState}
    (h : decodeStringish buf i s = (.ok p, s1)) : p.1.length ≤ buf.length :=
  ((stringishF_spec buf 1 i s (Or.inl (Nat.le_refl _))).1 p s1 h).2.2.1

theorem className_len {buf : Bytes} {i : Nat} {v : Bool} {p : Bytes × Nat} {s s1 : DState}
    (h : decodeClassName buf i v s = (.ok p, s1)) : p.1.length ≤ buf.length := by
  unfold decodeClassName at h
  cases v with
  | false => exact stringish_len h
  | true =>
    simp only [if_true] at h
    obtain ⟨⟨n, sz⟩, s2, h1, h⟩ := D.bind_ok.1 h
    obtain ⟨_, s3, h2, h⟩ := D.bind_ok.1 h
    obtain ⟨q, s4, h3, h⟩ := D.bind_ok.1 h
    rw [D.pure_ok] at h
    have h4 : q.1.length ≤ buf.length := stringish_len h3
    rw [← h.1]
    exact h4

theorem Peak.binary {buf : Bytes} (i : Nat) (ln : Int) (hP : buf.length ≤ P) :
    Peak P (decodeBinary buf i ln) := by
  unfold decodeBinary
  exact Peak.failIf fun _ => Peak.failIf fun _ => Peak.bind' (Peak.sliceRange _ _ _) fun _ =>
    Peak.bind' (Peak.charge (by omega)) fun _ => Peak.pure _

theorem Peak.float (buf : Bytes) (i : Nat) : Peak P (decodeFloat buf i) := by
  unfold decodeFloat
  refine Peak.failIf fun _ => ?_
  repeat (refine Peak.bind' (Peak.byteAt _ _) fun _ => ?_)
  exact Peak.pure _

theorem Peak.double (buf : Bytes) (i : Nat) : Peak P (decodeDouble buf i) := by
  unfold decodeDouble
  refine Peak.failIf fun _ => ?_
  repeat (refine Peak.bind' (Peak.byteAt _ _) fun _ => ?_)
  exact Peak.pure _

variable {rec : Nat → Loc → D Nat} (hrec : ∀ i l, Peak P (rec i l)) (cfg : DCfg) (buf : Bytes)
  (hP : buf.length ≤ P)
include hrec

theorem Peak.arrayLoop (n a i : Nat) : Peak P (Sereal.arrayLoop rec n a i) := by
  induction n generalizing a i with
  | zero => exact Peak.pure _
  | succ n ih => exact Peak.bind' (hrec _ _) fun _ => ih _ _

include hP

theorem Peak.hashLoop (m n i : Nat) : Peak P (Sereal.hashLoop buf rec m n i) := by
  induction n generalizing i with
  | zero => exact Peak.pure _
  | succ n ih =>
    refine Peak.bind (Peak.stringish _ _) fun p s s1 hp => Peak.bind' (Peak.charge ?_) fun _ =>
      Peak.bind' (Peak.allocVar _) fun _ => Peak.bind' (hrec _ _) fun _ =>
      Peak.bind' (Peak.readLoc _) fun _ => Peak.bind' (Peak.mapSet _ _ _) fun _ => ih _
    have := stringish_len hp
    omega

theorem Peak.decodeHash (i : Nat) (ln : Int) (loc : Loc) (r : Bool) :
    Peak P (Sereal.decodeHash buf rec i ln loc r) := by
  unfold Sereal.decodeHash
  refine Peak.failIf fun _ => Peak.failIf fun _ => Peak.bind' (Peak.charge (by omega)) fun _ =>
    Peak.bind' (Peak.allocObj _) fun _ => Peak.ite (fun _ => ?_) (fun _ => ?_)
  · exact Peak.bind' (Peak.allocVar _) fun _ => Peak.bind' (Peak.writeLoc _ _) fun _ =>
      Peak.hashLoop hrec buf hP _ _ _
  · exact Peak.bind' (Peak.writeLoc _ _) fun _ => Peak.hashLoop hrec buf hP _ _ _

theorem Peak.decodeArray (i : Nat) (hi : 0 < i) (ln : Int) (loc : Loc) (r : Bool) :
    Peak P (Sereal.decodeArray buf rec i ln loc r) := by
  unfold Sereal.decodeArray
  refine Peak.failIf fun _ => Peak.failIf fun _ => Peak.bind' (Peak.charge (by omega)) fun _ =>
    Peak.bind' (Peak.allocSlice _) fun _ => Peak.ite (fun _ => ?_) (fun _ => ?_)
  · exact Peak.bind' (Peak.allocVar _) fun _ => Peak.bind' (Peak.writeLoc _ _) fun _ =>
      Peak.arrayLoop hrec _ _ _
  · exact Peak.bind' (Peak.writeLoc _ _) fun _ => Peak.arrayLoop hrec _ _ _

omit hrec hP in
theorem Peak.refpAlias (i : Nat) (r : Bool) (loc : Loc) :
    Peak P (decodeRefpAlias cfg buf i r loc) := by
  unfold decodeRefpAlias
  refine Peak.bind' (Peak.varintAt _ _) fun ⟨n, sz⟩ => Peak.failIf fun _ =>
    Peak.bind' Peak.get fun s => ?_
  split
  · exact Peak.ite (fun _ => Peak.err _) (fun _ => Peak.err _)
  · refine Peak.bind' (Peak.readLoc _) fun _ => Peak.ite (fun _ => Peak.ite (fun _ => Peak.fail _)
      (fun _ => Peak.ite (fun _ => ?_) (fun _ => ?_))) (fun _ => ?_)
    · exact Peak.bind' (Peak.writeLoc _ _) fun _ => Peak.pure _
    · exact Peak.bind' (Peak.allocVar _) fun _ => Peak.bind' (Peak.writeLoc _ _) fun _ => Peak.pure _
    · exact Peak.bind' (Peak.writeLoc _ _) fun _ => Peak.pure _

omit hP in
theorem Peak.iface (i : Nat) (loc : Loc) : Peak P (decodeIface buf rec i loc) := by
  unfold decodeIface
  refine Peak.failIf fun _ => Peak.bind' (Peak.readLoc _) fun _ => Peak.failIf fun _ =>
    Peak.bind' (Peak.allocVar _) fun _ => Peak.bind' (hrec _ _) fun _ =>
    Peak.bind' (Peak.readLoc _) fun _ => Peak.ite (fun _ => ?_) (fun _ => ?_)
  · exact Peak.bind' (Peak.writeLoc _ _) fun _ => Peak.pure _
  · exact Peak.pure _

theorem Peak.object (i : Nat) (loc : Loc) (v : Bool) :
    Peak P (decodeObject cfg buf rec i loc v) := by
  unfold decodeObject
  refine Peak.bind (Peak.className _ _ _) fun p s s1 hp => Peak.ite (fun _ => ?_)
    (fun _ => Peak.iface hrec _ _ _)
  have := className_len hp
  exact Peak.bind' (Peak.charge (by omega)) fun _ => Peak.bind' (Peak.allocVar _) fun _ =>
    Peak.bind' (Peak.writeLoc _ _) fun _ => hrec _ _

theorem Peak.freeze (i : Nat) (loc : Loc) (v : Bool) :
    Peak P (decodeFreeze cfg buf rec i loc v) := by
  unfold decodeFreeze
  refine Peak.bind (Peak.className _ _ _) fun p s s1 hp => Peak.failIf fun _ =>
    Peak.bind' (Peak.byteAt _ _) fun _ => Peak.bind' (Peak.byteAt _ _) fun _ => Peak.failIf fun _ =>
    Peak.bind' (Peak.allocVar _) fun _ => Peak.bind' (hrec _ _) fun _ =>
    Peak.bind' (Peak.readLoc _) fun _ => ?_
  have := className_len hp
  have hd : ∀ (o : Val) (j : Nat), Peak P (do let o ← Sereal.allocVar o; Sereal.writeLoc loc (.ptr false o); Pure.pure j) :=
    fun o j => Peak.bind' (Peak.allocVar _) fun _ => Peak.bind' (Peak.writeLoc _ _) fun _ => Peak.pure _
  split
  · refine Peak.failIf fun _ => Peak.bind' (Peak.readLoc _) fun _ => ?_
    split
    · refine Peak.bind' (Peak.charge (by omega)) fun _ => Peak.ite (fun _ => hd _ _) (fun _ => ?_)
      refine Peak.bind' (Peak.readLoc _) fun _ => Peak.failIf fun _ => ?_
      split
      · split
        · exact Peak.fail _
        · exact hd _ _
      · exact hd _ _
    · exact Peak.err _
  · exact Peak.err _

omit hP in
theorem Peak.refn (t : Bool) (i : Nat) (loc : Loc) : Peak P (decodeRefn cfg rec t i loc) := by
  unfold decodeRefn
  refine Peak.ite (fun _ => ?_) (fun _ => hrec _ _)
  refine Peak.bind' (Peak.allocVar _) fun _ => Peak.bind' (Peak.writeLoc _ _) fun _ =>
    Peak.bind' (hrec _ _) fun _ => Peak.ite (fun _ => Peak.pure _) (fun _ => ?_)
  refine Peak.bind' (Peak.readLoc _) fun _ => Peak.ite (fun _ => Peak.fail _) (fun _ => ?_)
  exact Peak.bind' (Peak.allocVar _) fun _ => Peak.bind' (Peak.writeLoc _ _) fun _ => Peak.pure _

theorem Peak.decodeC (c : TagC) (t : Bool) (i : Nat) (hi : 0 < i) (loc : Loc) (tag : Nat) :
    Peak P (Sereal.decodeC cfg buf rec c t i loc tag) := by
  have hw : ∀ (v : Val) (j : Nat), Peak P (do Sereal.writeLoc loc v; Pure.pure j) :=
    fun v j => Peak.bind' (Peak.writeLoc _ _) fun _ => Peak.pure _
  have hd : ∀ (o : Val) (j : Nat), Peak P (do let o ← Sereal.allocVar o; Sereal.writeLoc loc (.ptr false o); Pure.pure j) :=
    fun o j => Peak.bind' (Peak.allocVar _) fun _ => Peak.bind' (Peak.writeLoc _ _) fun _ => Peak.pure _
  unfold Sereal.decodeC
  cases c <;> dsimp only
  case int n => exact hw _ _
  case varint =>
    exact Peak.bind' (Peak.varintAt _ _) fun ⟨n, sz⟩ => Peak.ite (fun _ => hw _ _) (fun _ => hw _ _)
  case zigzag => exact Peak.bind' (Peak.varintAt _ _) fun ⟨n, sz⟩ => hw _ _
  case float => exact Peak.bind' (Peak.float _ _) fun ⟨n, sz⟩ => hw _ _
  case double => exact Peak.bind' (Peak.double _ _) fun ⟨n, sz⟩ => hw _ _
  case true_ => exact hw _ _
  case false_ => exact hw _ _
  case hash => exact Peak.bind' (Peak.varintAt _ _) fun ⟨n, sz⟩ => Peak.decodeHash hrec buf hP _ _ _ _
  case hashref n => exact Peak.decodeHash hrec buf hP _ _ _ _
  case array =>
    exact Peak.bind' (Peak.varintAt _ _) fun ⟨n, sz⟩ => Peak.decodeArray hrec buf hP _ (by omega) _ _ _
  case arrayref n => exact Peak.decodeArray hrec buf hP _ hi _ _ _
  case strUtf8 =>
    exact Peak.bind' (Peak.varintAt _ _) fun ⟨n, sz⟩ => Peak.bind' (Peak.binary _ _ hP)
      fun ⟨t, j⟩ => hw _ _
  case binary =>
    exact Peak.bind' (Peak.varintAt _ _) fun ⟨n, sz⟩ => Peak.bind' (Peak.binary _ _ hP)
      fun ⟨t, j⟩ => hw _ _
  case short n => exact Peak.bind' (Peak.binary _ _ hP) fun ⟨t, j⟩ => hw _ _
  case undef => exact Peak.ite (fun _ => hd _ _) (fun _ => hw _ _)
  case cundef => exact Peak.ite (fun _ => hw _ _) (fun _ => hw _ _)
  case copy =>
    exact Peak.bind' Peak.get fun _ => Peak.failIf fun _ => Peak.bind' (Peak.varintAt _ _)
      fun ⟨n, sz⟩ => Peak.failIf fun _ => Peak.bind' (Peak.withCopy (hrec _ _)) fun _ => Peak.pure _
  case refn => exact Peak.refn hrec cfg _ _ _
  case refp => exact Peak.refpAlias cfg buf _ _ _
  case alias => exact Peak.refpAlias cfg buf _ _ _
  case weaken =>
    exact Peak.ite (fun _ => Peak.bind' (Peak.allocVar _) fun _ => Peak.bind' (Peak.writeLoc _ _)
      fun _ => hrec _ _) (fun _ => hrec _ _)
  case regexp =>
    refine Peak.bind' ?_ fun ⟨p, m, j⟩ => hd _ _
    exact Peak.bind' (Peak.stringish _ _) fun _ => Peak.bind' (Peak.stringish _ _) fun _ => Peak.pure _
  case object => exact Peak.object hrec cfg buf hP _ _ _
  case objectv => exact Peak.object hrec cfg buf hP _ _ _
  case freeze => exact Peak.freeze hrec cfg buf hP _ _ _
  case freezev => exact Peak.freeze hrec cfg buf hP _ _ _
  case pad => exact Peak.err _
  case other => exact Peak.err _

end

theorem decode_peak (cfg : DCfg) (buf : Bytes) (f P : Nat) (hP : buf.length ≤ P) (i : Nat)
    (loc : Loc) : Peak P (decode cfg buf f i loc) := by
  induction f generalizing i loc with
  | zero => exact Peak.fail _
  | succ f ih =>
    rw [decode_succ]
    refine Peak.bind' Peak.tick fun _ => Peak.bind' (Peak.lift _) fun p => Peak.ite (fun _ => ?_)
      (fun _ => ?_)
    · exact Peak.bind' (Peak.track _ _) fun _ => Peak.decodeC ih cfg buf hP _ _ _ (by omega) _ _
    · exact Peak.decodeC ih cfg buf hP _ _ _ (by omega) _ _

end Sereal
