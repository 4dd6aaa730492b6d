import Verif.Proof.Checked
import Verif.Proof.SafeDecode
/-
copyDepth is restored by every call that returns normally or with an error.
-/
namespace Sereal

/-- Failures that are returned errors. -/
def Returned (r : Except Exn α) : Prop := ∀ e, r = .error e → ∃ er, e = .err er

/-- If `x` returns normally or with an error, copyDepth is what it was before. -/
def Keeps (x : D α) : Prop := ∀ s, Returned (x s).1 → (x s).2.copyDepth = s.copyDepth

section

theorem Keeps.bind {x : D α} {f : α → D β} (hx : Keeps x)
    (hf : ∀ a s s1, x s = (.ok a, s1) → Keeps (f a)) : Keeps (x >>= f) := by
  intro s hs
  have h1 := hx s
  rw [D.bind_apply] at hs ⊢
  split at hs
  · rename_i a s1 he
    rw [he] at h1
    have h2 := hf a s s1 he s1 hs
    have h3 := h1 (by intro e h; cases h)
    exact h2.trans h3
  · rename_i e s1 he
    rw [he] at h1
    exact h1 (by intro e' h; exact hs e' (by cases h; rfl))

theorem Keeps.bind' {x : D α} {f : α → D β} (hx : Keeps x) (hf : ∀ a, Keeps (f a)) :
    Keeps (x >>= f) := Keeps.bind hx fun a _ _ _ => hf a

theorem Keeps.pure (a : α) : Keeps (Pure.pure a : D α) := fun _ _ => rfl
theorem Keeps.fail (e : Exn) : Keeps (D.fail e : D α) := fun _ _ => rfl
theorem Keeps.err (e : Err) : Keeps (D.err e : D α) := fun _ _ => rfl
theorem Keeps.lift (r : Res α) : Keeps (D.lift r) := fun _ _ => rfl
theorem Keeps.get : Keeps D.get := fun _ _ => rfl
theorem Keeps.tick : Keeps Sereal.tick := fun _ _ => rfl
theorem Keeps.readLoc (l : Loc) : Keeps (Sereal.readLoc l) := fun _ _ => rfl
theorem Keeps.writeLoc (l : Loc) (v : Val) : Keeps (Sereal.writeLoc l v) := fun _ _ => rfl
theorem Keeps.allocVar (v : Val) : Keeps (Sereal.allocVar v) := fun _ _ => rfl
theorem Keeps.allocObj (o : HObj) : Keeps (Sereal.allocObj o) := fun _ _ => rfl
theorem Keeps.allocSlice (n : Nat) : Keeps (Sereal.allocSlice n) := fun _ _ => rfl
theorem Keeps.mapSet (m : Addr) (k : Bytes) (v : Val) : Keeps (Sereal.mapSet m k v) := fun _ _ => rfl
theorem Keeps.track (i : Nat) (l : Loc) : Keeps (Sereal.track i l) := fun _ _ => rfl
theorem Keeps.charge (n : Nat) : Keeps (Sereal.charge n) := fun _ _ => rfl

theorem Keeps.ite {c : Prop} [Decidable c] {x y : D α} (h1 : c → Keeps x) (h2 : ¬ c → Keeps y) :
    Keeps (if c then x else y) := by
  by_cases hc : c
  · rw [if_pos hc]; exact h1 hc
  · rw [if_neg hc]; exact h2 hc

theorem Keeps.failIf {c : Prop} [Decidable c] {e : Exn} {f : Unit → D α} (h : ¬ c → Keeps (f ())) :
    Keeps (D.failIf c e >>= f) := by
  refine Keeps.bind ?_ fun a s s1 h1 => h (D.failIf_ok.1 h1).1
  unfold D.failIf
  exact Keeps.ite (fun _ => fun _ _ => rfl) (fun _ => fun _ _ => rfl)

theorem Keeps.byteAt (buf : Bytes) (i : Nat) : Keeps (Sereal.byteAt buf i) := by
  unfold Sereal.byteAt; split
  · exact Keeps.pure _
  · exact Keeps.fail _

theorem Keeps.sliceRange (buf : Bytes) (i j : Nat) : Keeps (Sereal.sliceRange buf i j) := by
  unfold Sereal.sliceRange
  exact Keeps.ite (fun _ => Keeps.pure _) (fun _ => Keeps.fail _)

theorem Keeps.varintAt (buf : Bytes) (i : Nat) : Keeps (Sereal.varintAt buf i) := by
  unfold Sereal.varintAt
  refine Keeps.bind' ?_ fun _ => Keeps.lift _
  unfold Sereal.sliceFrom
  exact Keeps.ite (fun _ => Keeps.pure _) (fun _ => Keeps.fail _)

theorem Keeps.withCopy {x : D α} (h : Keeps x) : Keeps (Sereal.withCopy x) := by
  intro s hs
  have h1 := h { s with copyDepth := s.copyDepth + 1 }
  unfold Sereal.withCopy at hs ⊢
  split at hs
  · rename_i a s' he
    rw [he] at h1
    have h2 : s'.copyDepth = s.copyDepth + 1 := h1 (by intro e h; cases h)
    show s'.copyDepth - 1 = _
    omega
  · rename_i a s' he
    rw [he] at h1
    have h2 : s'.copyDepth = s.copyDepth + 1 := h1 (by intro e h; exact ⟨_, (Except.error.inj h).symm⟩)
    show s'.copyDepth - 1 = _
    omega
  · rename_i e s' hne he
    obtain ⟨er, her⟩ := hs e rfl
    exact absurd her (hne er)

theorem Keeps.stringishF (buf : Bytes) (f i : Nat) : Keeps (decodeStringishF buf f i) := by
  induction f generalizing i with
  | zero => exact Keeps.fail _
  | succ f ih =>
    unfold decodeStringishF
    refine Keeps.bind' Keeps.tick fun _ => Keeps.bind' (Keeps.lift _) fun ⟨k, b⟩ => ?_
    dsimp only
    refine Keeps.ite (fun _ => ?_) fun _ => Keeps.ite (fun _ => ?_) fun _ => Keeps.ite (fun _ => ?_)
      fun _ => Keeps.err _
    · exact Keeps.bind' (Keeps.varintAt _ _) fun ⟨n, sz⟩ => Keeps.failIf fun _ => Keeps.failIf fun _ =>
        Keeps.bind' (Keeps.sliceRange _ _ _) fun _ => Keeps.pure _
    · exact Keeps.failIf fun _ => Keeps.bind' (Keeps.sliceRange _ _ _) fun _ => Keeps.pure _
    · exact Keeps.bind' Keeps.get fun _ => Keeps.failIf fun _ => Keeps.bind' (Keeps.varintAt _ _)
        fun ⟨n, sz⟩ => Keeps.failIf fun _ => Keeps.bind' (Keeps.withCopy (ih _)) fun _ => Keeps.pure _

theorem Keeps.stringish (buf : Bytes) (i : Nat) : Keeps (decodeStringish buf i) :=
  Keeps.stringishF buf 2 i

theorem Keeps.className (buf : Bytes) (i : Nat) (v : Bool) : Keeps (decodeClassName buf i v) := by
  unfold decodeClassName
  exact Keeps.ite (fun _ => Keeps.bind' (Keeps.varintAt _ _) fun ⟨n, sz⟩ => Keeps.failIf fun _ =>
    Keeps.bind' (Keeps.stringish _ _) fun _ => Keeps.pure _) (fun _ => Keeps.stringish _ _)

theorem Keeps.binary {buf : Bytes} (i : Nat) (ln : Int) :
    Keeps (decodeBinary buf i ln) := by
  unfold decodeBinary
  exact Keeps.failIf fun _ => Keeps.failIf fun _ => Keeps.bind' (Keeps.sliceRange _ _ _) fun _ =>
    Keeps.bind' (Keeps.charge _) fun _ => Keeps.pure _

theorem Keeps.float (buf : Bytes) (i : Nat) : Keeps (decodeFloat buf i) := by
  unfold decodeFloat
  refine Keeps.failIf fun _ => ?_
  repeat (refine Keeps.bind' (Keeps.byteAt _ _) fun _ => ?_)
  exact Keeps.pure _

theorem Keeps.double (buf : Bytes) (i : Nat) : Keeps (decodeDouble buf i) := by
  unfold decodeDouble
  refine Keeps.failIf fun _ => ?_
  repeat (refine Keeps.bind' (Keeps.byteAt _ _) fun _ => ?_)
  exact Keeps.pure _

variable {rec : Nat → Loc → D Nat} (hrec : ∀ i l, Keeps (rec i l)) (cfg : DCfg) (buf : Bytes)
include hrec

theorem Keeps.arrayLoop (n a i : Nat) : Keeps (Sereal.arrayLoop rec n a i) := by
  induction n generalizing a i with
  | zero => exact Keeps.pure _
  | succ n ih => exact Keeps.bind' (hrec _ _) fun _ => ih _ _


theorem Keeps.hashLoop (m n i : Nat) : Keeps (Sereal.hashLoop buf rec m n i) := by
  induction n generalizing i with
  | zero => exact Keeps.pure _
  | succ n ih =>
    refine Keeps.bind (Keeps.stringish _ _) fun p s s1 hp => Keeps.bind' (Keeps.charge _) fun _ =>
      Keeps.bind' (Keeps.allocVar _) fun _ => Keeps.bind' (hrec _ _) fun _ =>
      Keeps.bind' (Keeps.readLoc _) fun _ => Keeps.bind' (Keeps.mapSet _ _ _) fun _ => ih _

theorem Keeps.decodeHash (i : Nat) (ln : Int) (loc : Loc) (r : Bool) :
    Keeps (Sereal.decodeHash buf rec i ln loc r) := by
  unfold Sereal.decodeHash
  refine Keeps.failIf fun _ => Keeps.failIf fun _ => Keeps.bind' (Keeps.charge _) fun _ =>
    Keeps.bind' (Keeps.allocObj _) fun _ => Keeps.ite (fun _ => ?_) (fun _ => ?_)
  · exact Keeps.bind' (Keeps.allocVar _) fun _ => Keeps.bind' (Keeps.writeLoc _ _) fun _ =>
      Keeps.hashLoop hrec buf _ _ _
  · exact Keeps.bind' (Keeps.writeLoc _ _) fun _ => Keeps.hashLoop hrec buf _ _ _

theorem Keeps.decodeArray (i : Nat) (_ : 0 < i) (ln : Int) (loc : Loc) (r : Bool) :
    Keeps (Sereal.decodeArray buf rec i ln loc r) := by
  unfold Sereal.decodeArray
  refine Keeps.failIf fun _ => Keeps.failIf fun _ => Keeps.bind' (Keeps.charge _) fun _ =>
    Keeps.bind' (Keeps.allocSlice _) fun _ => Keeps.ite (fun _ => ?_) (fun _ => ?_)
  · exact Keeps.bind' (Keeps.allocVar _) fun _ => Keeps.bind' (Keeps.writeLoc _ _) fun _ =>
      Keeps.arrayLoop hrec _ _ _
  · exact Keeps.bind' (Keeps.writeLoc _ _) fun _ => Keeps.arrayLoop hrec _ _ _

omit hrec in
theorem Keeps.refpAlias (i : Nat) (r : Bool) (loc : Loc) :
    Keeps (decodeRefpAlias cfg buf i r loc) := by
  unfold decodeRefpAlias
  refine Keeps.bind' (Keeps.varintAt _ _) fun ⟨n, sz⟩ => Keeps.failIf fun _ =>
    Keeps.bind' Keeps.get fun s => ?_
  split
  · exact Keeps.ite (fun _ => Keeps.err _) (fun _ => Keeps.err _)
  · refine Keeps.bind' (Keeps.readLoc _) fun _ => Keeps.ite (fun _ => Keeps.ite (fun _ => Keeps.fail _)
      (fun _ => Keeps.ite (fun _ => ?_) (fun _ => ?_))) (fun _ => ?_)
    · exact Keeps.bind' (Keeps.writeLoc _ _) fun _ => Keeps.pure _
    · exact Keeps.bind' (Keeps.allocVar _) fun _ => Keeps.bind' (Keeps.writeLoc _ _) fun _ => Keeps.pure _
    · exact Keeps.bind' (Keeps.writeLoc _ _) fun _ => Keeps.pure _

theorem Keeps.iface (i : Nat) (loc : Loc) : Keeps (decodeIface buf rec i loc) := by
  unfold decodeIface
  refine Keeps.failIf fun _ => Keeps.bind' (Keeps.readLoc _) fun _ => Keeps.failIf fun _ =>
    Keeps.bind' (Keeps.allocVar _) fun _ => Keeps.bind' (hrec _ _) fun _ =>
    Keeps.bind' (Keeps.readLoc _) fun _ => Keeps.ite (fun _ => ?_) (fun _ => ?_)
  · exact Keeps.bind' (Keeps.writeLoc _ _) fun _ => Keeps.pure _
  · exact Keeps.pure _

theorem Keeps.object (i : Nat) (loc : Loc) (v : Bool) :
    Keeps (decodeObject cfg buf rec i loc v) := by
  unfold decodeObject
  refine Keeps.bind (Keeps.className _ _ _) fun p s s1 hp => Keeps.ite (fun _ => ?_)
    (fun _ => Keeps.iface hrec _ _ _)
  exact Keeps.bind' (Keeps.charge _) fun _ => Keeps.bind' (Keeps.allocVar _) fun _ =>
    Keeps.bind' (Keeps.writeLoc _ _) fun _ => hrec _ _

theorem Keeps.freeze (i : Nat) (loc : Loc) (v : Bool) :
    Keeps (decodeFreeze cfg buf rec i loc v) := by
  unfold decodeFreeze
  refine Keeps.bind (Keeps.className _ _ _) fun p s s1 hp => Keeps.failIf fun _ =>
    Keeps.bind' (Keeps.byteAt _ _) fun _ => Keeps.bind' (Keeps.byteAt _ _) fun _ => Keeps.failIf fun _ =>
    Keeps.bind' (Keeps.allocVar _) fun _ => Keeps.bind' (hrec _ _) fun _ =>
    Keeps.bind' (Keeps.readLoc _) fun _ => ?_
  have hd : ∀ (o : Val) (j : Nat), Keeps (do let o ← Sereal.allocVar o; Sereal.writeLoc loc (.ptr false o); Pure.pure j) :=
    fun o j => Keeps.bind' (Keeps.allocVar _) fun _ => Keeps.bind' (Keeps.writeLoc _ _) fun _ => Keeps.pure _
  split
  · refine Keeps.failIf fun _ => Keeps.bind' (Keeps.readLoc _) fun _ => ?_
    split
    · refine Keeps.bind' (Keeps.charge _) fun _ => Keeps.ite (fun _ => hd _ _) (fun _ => ?_)
      refine Keeps.bind' (Keeps.readLoc _) fun _ => Keeps.failIf fun _ => ?_
      split
      · split
        · exact Keeps.fail _
        · exact hd _ _
      · exact hd _ _
    · exact Keeps.err _
  · exact Keeps.err _

theorem Keeps.refn (t : Bool) (i : Nat) (loc : Loc) : Keeps (decodeRefn cfg rec t i loc) := by
  unfold decodeRefn
  refine Keeps.ite (fun _ => ?_) (fun _ => hrec _ _)
  refine Keeps.bind' (Keeps.allocVar _) fun _ => Keeps.bind' (Keeps.writeLoc _ _) fun _ =>
    Keeps.bind' (hrec _ _) fun _ => Keeps.ite (fun _ => Keeps.pure _) (fun _ => ?_)
  refine Keeps.bind' (Keeps.readLoc _) fun _ => Keeps.ite (fun _ => Keeps.fail _) (fun _ => ?_)
  exact Keeps.bind' (Keeps.allocVar _) fun _ => Keeps.bind' (Keeps.writeLoc _ _) fun _ => Keeps.pure _

theorem Keeps.decodeC (c : TagC) (t : Bool) (i : Nat) (hi : 0 < i) (loc : Loc) (tag : Nat) :
    Keeps (Sereal.decodeC cfg buf rec c t i loc tag) := by
  have hw : ∀ (v : Val) (j : Nat), Keeps (do Sereal.writeLoc loc v; Pure.pure j) :=
    fun v j => Keeps.bind' (Keeps.writeLoc _ _) fun _ => Keeps.pure _
  have hd : ∀ (o : Val) (j : Nat), Keeps (do let o ← Sereal.allocVar o; Sereal.writeLoc loc (.ptr false o); Pure.pure j) :=
    fun o j => Keeps.bind' (Keeps.allocVar _) fun _ => Keeps.bind' (Keeps.writeLoc _ _) fun _ => Keeps.pure _
  unfold Sereal.decodeC
  cases c <;> dsimp only
  case int n => exact hw _ _
  case varint =>
    exact Keeps.bind' (Keeps.varintAt _ _) fun ⟨n, sz⟩ => Keeps.ite (fun _ => hw _ _) (fun _ => hw _ _)
  case zigzag => exact Keeps.bind' (Keeps.varintAt _ _) fun ⟨n, sz⟩ => hw _ _
  case float => exact Keeps.bind' (Keeps.float _ _) fun ⟨n, sz⟩ => hw _ _
  case double => exact Keeps.bind' (Keeps.double _ _) fun ⟨n, sz⟩ => hw _ _
  case true_ => exact hw _ _
  case false_ => exact hw _ _
  case hash => exact Keeps.bind' (Keeps.varintAt _ _) fun ⟨n, sz⟩ => Keeps.decodeHash hrec buf _ _ _ _
  case hashref n => exact Keeps.decodeHash hrec buf _ _ _ _
  case array =>
    exact Keeps.bind' (Keeps.varintAt _ _) fun ⟨n, sz⟩ => Keeps.decodeArray hrec buf _ (by omega) _ _ _
  case arrayref n => exact Keeps.decodeArray hrec buf _ hi _ _ _
  case strUtf8 =>
    exact Keeps.bind' (Keeps.varintAt _ _) fun ⟨n, sz⟩ => Keeps.bind' (Keeps.binary _ _)
      fun ⟨t, j⟩ => hw _ _
  case binary =>
    exact Keeps.bind' (Keeps.varintAt _ _) fun ⟨n, sz⟩ => Keeps.bind' (Keeps.binary _ _)
      fun ⟨t, j⟩ => hw _ _
  case short n => exact Keeps.bind' (Keeps.binary _ _) fun ⟨t, j⟩ => hw _ _
  case undef => exact Keeps.ite (fun _ => hd _ _) (fun _ => hw _ _)
  case cundef => exact Keeps.ite (fun _ => hw _ _) (fun _ => hw _ _)
  case copy =>
    exact Keeps.bind' Keeps.get fun _ => Keeps.failIf fun _ => Keeps.bind' (Keeps.varintAt _ _)
      fun ⟨n, sz⟩ => Keeps.failIf fun _ => Keeps.bind' (Keeps.withCopy (hrec _ _)) fun _ => Keeps.pure _
  case refn => exact Keeps.refn hrec cfg _ _ _
  case refp => exact Keeps.refpAlias cfg buf _ _ _
  case alias => exact Keeps.refpAlias cfg buf _ _ _
  case weaken =>
    exact Keeps.ite (fun _ => Keeps.bind' (Keeps.allocVar _) fun _ => Keeps.bind' (Keeps.writeLoc _ _)
      fun _ => hrec _ _) (fun _ => hrec _ _)
  case regexp =>
    refine Keeps.bind' ?_ fun ⟨p, m, j⟩ => hd _ _
    exact Keeps.bind' (Keeps.stringish _ _) fun _ => Keeps.bind' (Keeps.stringish _ _) fun _ => Keeps.pure _
  case object => exact Keeps.object hrec cfg buf _ _ _
  case objectv => exact Keeps.object hrec cfg buf _ _ _
  case freeze => exact Keeps.freeze hrec cfg buf _ _ _
  case freezev => exact Keeps.freeze hrec cfg buf _ _ _
  case pad => exact Keeps.err _
  case other => exact Keeps.err _

end

theorem decode_keeps (cfg : DCfg) (buf : Bytes) (f : Nat) (i : Nat)
    (loc : Loc) : Keeps (decode cfg buf f i loc) := by
  induction f generalizing i loc with
  | zero => exact Keeps.fail _
  | succ f ih =>
    rw [decode_succ]
    refine Keeps.bind' Keeps.tick fun _ => Keeps.bind' (Keeps.lift _) fun p => Keeps.ite (fun _ => ?_)
      (fun _ => ?_)
    · exact Keeps.bind' (Keeps.track _ _) fun _ => Keeps.decodeC ih cfg buf _ _ _ (by omega) _ _
    · exact Keeps.decodeC ih cfg buf _ _ _ (by omega) _ _

theorem Keeps.withTracked {x : D α} (h : Keeps x) : Keeps (Sereal.withTracked x) := by
  intro s hs
  exact h { s with tracked := fun _ => none } hs

theorem unmarshalRaw_keeps (cfg : DCfg) (cs : Codecs) (b : Bytes) (vh vb : Option Loc) :
    Keeps (unmarshalRaw cfg cs b vh vb) := by
  have hb : ∀ (i : Nat) (b : Bytes) (loc : Loc),
      Keeps (Sereal.withTracked (decode cfg b (fuelFor b.length) i loc)) := fun i b loc =>
    Keeps.withTracked (decode_keeps cfg b _ i loc)
  rw [unmarshalRaw_eq]; unfold unmarshalRaw'
  refine Keeps.bind' (Keeps.lift _) fun hd => Keeps.bind' (Keeps.lift _) fun dc => Keeps.failIf fun _ => ?_
  have body : ∀ n : Nat, Keeps (match vb with
        | some ptr => do
          let b ← match dc with
            | some c => do
              let decompBody ← D.lift (decompress cs c (b.drop n))
              Pure.pure (b.take n ++ decompBody)
            | none => Pure.pure b
          if hd.version = 1 then
            let _ ← Sereal.withTracked (decode cfg b (fuelFor b.length) n ptr)
          else
            D.failIf (n = 0) (.crash "slice bounds out of range")
            let by_ := b.drop (n - 1)
            let _ ← Sereal.withTracked (decode cfg by_ (fuelFor by_.length) 1 ptr)
        | none => Pure.pure ()) := by
    intro n
    cases vb with
    | none => exact Keeps.pure _
    | some ptr =>
      have fin : ∀ b' : Bytes, Keeps (if hd.version = 1 then do
            let _ ← Sereal.withTracked (decode cfg b' (fuelFor b'.length) n ptr)
            Pure.pure ()
          else do
            D.failIf (n = 0) (.crash "slice bounds out of range")
            let by_ := b'.drop (n - 1)
            let _ ← Sereal.withTracked (decode cfg by_ (fuelFor by_.length) 1 ptr)
            Pure.pure ()) := fun b' =>
        Keeps.ite (fun _ => Keeps.bind' (hb _ _ _) fun _ => Keeps.pure _)
          (fun _ => Keeps.failIf fun _ => Keeps.bind' (hb _ _ _) fun _ => Keeps.pure _)
      cases dc with
      | none => exact Keeps.bind' (Keeps.pure _) fun _ => fin _
      | some c => exact Keeps.bind' (Keeps.lift _) fun _ => Keeps.bind' (Keeps.pure _) fun _ => fin _
  cases vh with
  | none => exact body _
  | some ptr =>
    dsimp only
    refine Keeps.ite (fun _ => Keeps.bind' (Keeps.byteAt _ _) fun _ => Keeps.ite (fun _ => ?_)
      (fun _ => body _)) (fun _ => body _)
    exact Keeps.bind' (Keeps.withTracked (decode_keeps cfg _ _ _ _)) fun _ => body _

end Sereal
