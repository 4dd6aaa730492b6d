import Verif.Model.TypedCall
import Verif.Proof.DepthMem
import Verif.Proof.MemSafe
/-
UnmarshalHeaderBody with every kind of argument: what it leaves in the Decoder, and that it agrees with the models of the
special cases.
-/
namespace Sereal

/-- The state between two calls: nothing is tracked. -/
def Rested (s : MSt) : Prop := (∀ i, s.d.tracked i = none) ∧ ∀ i, s.typed i = none

/-- `x` leaves nothing tracked. -/
def Rests (x : M α) : Prop := ∀ s, Rested s → Rested (x s).2

namespace Rests

theorem bind {x : M α} {f : α → M β} (hx : Rests x) (hf : ∀ a, Rests (f a)) : Rests (x >>= f) := by
  intro s hs
  have h1 := hx s hs
  rw [M.bind_apply]
  rcases hr : x s with ⟨r, s'⟩
  rw [hr] at h1
  cases r with
  | ok a => exact hf a s' h1
  | error e => exact h1

theorem pure (a : α) : Rests (Pure.pure a : M α) := fun _ h => h
theorem err (e : Err) : Rests (M.err e : M α) := fun _ h => h
theorem failIf {c : Prop} [Decidable c] (e : Exn) : Rests (M.failIf c e) := by
  unfold M.failIf; split <;> exact fun _ h => h
theorem ite {c : Prop} [Decidable c] {x y : M α} (h1 : Rests x) (h2 : Rests y) : Rests (if c then x else y) := by
  split
  · exact h1
  · exact h2
theorem lift (r : Res α) : Rests (M.lift (D.lift r)) := fun _ h => h
theorem byteAt (b : Bytes) (i : Nat) : Rests (M.lift (Sereal.byteAt b i)) := by
  unfold Sereal.byteAt; split <;> exact fun _ h => h
theorem sliceRange (b : Bytes) (i j : Nat) : Rests (M.lift (Sereal.sliceRange b i j)) := by
  unfold Sereal.sliceRange; split <;> exact fun _ h => h
theorem withTracked (x : M α) : Rests (withTrackedMem x) := fun _ _ => ⟨fun _ => rfl, fun _ => rfl⟩

theorem dest (cfg : DCfg) (tc : TCfg) (e : Err) (buf : Bytes) (i : Nat) (d : Dest) : Rests (decodeDest cfg tc e buf i d) := by
  cases d with
  | none => exact pure _
  | value => exact err _
  | any l => exact withTracked _
  | var ty l => exact withTracked _

theorem header (cfg : DCfg) (tc : TCfg) (b : Bytes) (hd : Hdr) (n : Nat) (d : Dest) : Rests (headerDest cfg tc b hd n d) := by
  unfold headerDest
  split
  · exact pure _
  · exact ite (pure _) (bind (failIf _) fun _ => bind (byteAt _ _) fun _ =>
      ite (bind (sliceRange _ _ _) fun _ => dest _ _ _ _ _ _) (pure _))

theorem body (cfg : DCfg) (tc : TCfg) (cs : Codecs) (b : Bytes) (hd : Hdr) (dc : Option Compressor) (n : Nat) (d : Dest) :
    Rests (bodyDest cfg tc cs b hd dc n d) := by
  unfold bodyDest
  have fin : ∀ (b' : Bytes) (d : Dest), Rests (do
      M.failIf (d = .value) (.err .bodyPointer)
      if hd.version = 1 then decodeDest cfg tc .bodyPointer b' n d
      else do
        M.failIf (n = 0) (.crash "slice bounds out of range")
        decodeDest cfg tc .bodyPointer (b'.drop (n - 1)) 1 d) := fun b' d =>
    bind (failIf _) fun _ => ite (dest _ _ _ _ _ _) (bind (failIf _) fun _ => dest _ _ _ _ _ _)
  split
  · exact pure _
  · cases dc with
    | none => exact bind (pure _) fun _ => fin _ _
    | some c => exact bind (lift _) fun _ => bind (pure _) fun _ => fin _ _

theorem callRaw (cfg : DCfg) (tc : TCfg) (cs : Codecs) (b : Bytes) (vh vb : Dest) : Rests (callRaw cfg tc cs b vh vb) := by
  unfold Sereal.callRaw
  exact bind (lift _) fun _ => bind (lift _) fun _ => bind (failIf _) fun _ => bind (header _ _ _ _ _ _) fun _ => body _ _ _ _ _ _ _ _

end Rests

namespace KeepsM

theorem withTracked {x : M α} (h : KeepsM x) : KeepsM (withTrackedMem x) := by
  intro s hs
  exact h { s with d := { s.d with tracked := fun _ => none }, typed := fun _ => none } hs

theorem dest (cfg : DCfg) (tc : TCfg) (e : Err) (buf : Bytes) (i : Nat) (d : Dest) : KeepsM (decodeDest cfg tc e buf i d) := by
  cases d with
  | none => exact pure _
  | value => exact err _
  | any l => exact withTracked (bind (lift (decode_keeps _ _ _ _ _)) fun _ => pure _)
  | var ty l => exact withTracked (bind (decode _ _ _ _ _ _) fun _ => pure _)

theorem header (cfg : DCfg) (tc : TCfg) (b : Bytes) (hd : Hdr) (n : Nat) (d : Dest) : KeepsM (headerDest cfg tc b hd n d) := by
  unfold headerDest
  split
  · exact pure _
  · exact ite (pure _) (bind (failIf _) fun _ => bind (lift (Keeps.byteAt _ _)) fun _ =>
      ite (bind (lift (Keeps.sliceRange _ _ _)) fun _ => dest _ _ _ _ _ _) (pure _))

theorem bodyDest (cfg : DCfg) (tc : TCfg) (cs : Codecs) (b : Bytes) (hd : Hdr) (dc : Option Compressor) (n : Nat) (d : Dest) :
    KeepsM (bodyDest cfg tc cs b hd dc n d) := by
  unfold Sereal.bodyDest
  have fin : ∀ (b' : Bytes) (d : Dest), KeepsM (do
      M.failIf (d = .value) (.err .bodyPointer)
      if hd.version = 1 then decodeDest cfg tc .bodyPointer b' n d
      else do
        M.failIf (n = 0) (.crash "slice bounds out of range")
        decodeDest cfg tc .bodyPointer (b'.drop (n - 1)) 1 d) := fun b' d =>
    bind (failIf _) fun _ => ite (dest _ _ _ _ _ _) (bind (failIf _) fun _ => dest _ _ _ _ _ _)
  split
  · exact pure _
  · cases dc with
    | none => exact bind (pure _) fun _ => fin _ _
    | some c => exact bind (lift (Keeps.lift _)) fun _ => bind (pure _) fun _ => fin _ _

theorem callRaw (cfg : DCfg) (tc : TCfg) (cs : Codecs) (b : Bytes) (vh vb : Dest) : KeepsM (callRaw cfg tc cs b vh vb) := by
  unfold Sereal.callRaw
  exact bind (lift (Keeps.lift _)) fun _ => bind (lift (Keeps.lift _)) fun _ => bind (failIf _) fun _ =>
    bind (header _ _ _ _ _ _) fun _ => bodyDest _ _ _ _ _ _ _ _

end KeepsM

namespace M

theorem pure_then (a : α) (f : α → M β) : (Pure.pure a >>= f) = f a := rfl

theorem lift_then (r : Res α) (f : α → M β) (s : MSt) : (M.lift (D.lift r) >>= f) s =
    match r with
    | .ok a => f a s
    | .error e => (.error e, s) := by
  cases r <;> rfl

theorem failIf_then (c : Prop) [Decidable c] (e : Exn) (f : Unit → M β) (s : MSt) : (M.failIf c e >>= f) s =
    if c then (.error e, s) else f () s := by
  unfold M.failIf
  split <;> rfl

end M

theorem decompress_recovered {cs : Codecs} {c : Compressor} {b : Bytes} {e : Exn} (h : decompress cs c b = .error e) :
    recovered (.error e : Except Exn α) = .error e := by
  rcases decompress_error h with ⟨_, rfl⟩ | ⟨_, _, _, rfl, _⟩ <;> rfl

/-- The state with nothing tracked. -/
def MSt.rest (s : MSt) : MSt := { s with d := { s.d with tracked := fun _ => none }, typed := fun _ => none }

theorem decodeDest_var (cfg : DCfg) (tc : TCfg) (e : Err) (buf : Bytes) (i : Nat) (ty : Ty) (l : Spot) (s : MSt) :
    decodeDest cfg tc e buf i (.var ty l) s =
      match decodeMem cfg tc buf (fuelFor buf.length) i { ty := ty, place := .var l } s.rest with
      | (.ok _, s') => (.ok (), s'.rest)
      | (.error e, s') => (.error e, s'.rest) := by
  show (match (decodeMem cfg tc buf (fuelFor buf.length) i { ty := ty, place := .var l } >>= fun _ => Pure.pure ()) s.rest with
    | (r, s') => (r, s'.rest)) = _
  rw [M.bind_apply]
  rcases decodeMem cfg tc buf (fuelFor buf.length) i { ty := ty, place := .var l } s.rest with ⟨r, s'⟩
  cases r <;> rfl

theorem decodeDest_any (cfg : DCfg) (tc : TCfg) (e : Err) (buf : Bytes) (i : Nat) (l : Loc) (s : MSt) :
    decodeDest cfg tc e buf i (.any l) s =
      match withTracked (decode cfg buf (fuelFor buf.length) i l) s.d with
      | (.ok _, d) => (.ok (), { s with d := d, typed := fun _ => none })
      | (.error e, d) => (.error e, { s with d := d, typed := fun _ => none }) := by
  show (match (M.lift (decode cfg buf (fuelFor buf.length) i l) >>= fun _ => Pure.pure ()) s.rest with
    | (r, s') => (r, s'.rest)) = _
  rw [M.bind_apply]
  rcases hr : decode cfg buf (fuelFor buf.length) i l s.rest.d with ⟨r, d⟩
  have h1 : M.lift (decode cfg buf (fuelFor buf.length) i l) s.rest = (r, { s.rest with d := d }) := by
    unfold M.lift
    rw [hr]
  have h2 : withTracked (decode cfg buf (fuelFor buf.length) i l) s.d = (r, { d with tracked := fun _ => none }) := by
    show (match decode cfg buf (fuelFor buf.length) i l s.rest.d with
      | (r, s') => (r, { s' with tracked := fun _ => none })) = _
    rw [hr]
  rw [h1, h2]
  cases r <;> rfl

/-- What stops Unmarshal before it decodes is not a panic that it recovers. -/
theorem bodyInput_recovered {cs : Codecs} {b : Bytes} {e : Exn} (h : bodyInput cs b = .error e) :
    recovered (.error e : Except Exn α) = .error e := by
  unfold bodyInput at h
  cases hc : checkHeader b with
  | error e' => rw [hc] at h; cases h; obtain ⟨er, rfl⟩ := checkHeader_error hc; rfl
  | ok hd =>
    rw [hc] at h
    dsimp only at h
    cases hd1 : documentDecompressor hd.version hd.doctype with
    | error e' => rw [hd1] at h; cases h; obtain ⟨er, rfl⟩ := documentDecompressor_error hd1; rfl
    | ok dc =>
      rw [hd1] at h
      dsimp only at h
      split at h
      · cases h; rfl
      · split at h
        · next he =>
          cases dc with
          | none => cases he
          | some c =>
            dsimp only at he
            split at he
            · next hd2 => cases he; cases h; exact decompress_recovered hd2
            · cases he
        · split at h
          · cases h
          · split at h
            · cases h; rfl
            · cases h

/-- A call with something for the body and nil for the header. -/
theorem callRaw_body (cfg : DCfg) (tc : TCfg) (cs : Codecs) (b : Bytes) (dest : Dest) (hn : dest ≠ .none)
    (hv : dest = .value → ∀ m, bodyInput cs b ≠ .error (.crash m)) (s : MSt) : callRaw cfg tc cs b .none dest s =
      match bodyInput cs b with
      | .error e => (.error e, s)
      | .ok (buf, i) => decodeDest cfg tc .bodyPointer buf i dest s := by
  revert hv
  unfold callRaw bodyInput
  rw [M.lift_then]
  cases hc : checkHeader b with
  | error e => exact fun _ => rfl
  | ok hd =>
    dsimp only
    rw [M.lift_then]
    cases hd1 : documentDecompressor hd.version hd.doctype with
    | error e => exact fun _ => rfl
    | ok dc =>
      dsimp only
      rw [M.failIf_then]
      by_cases hb : wrapInt (headerSize + hd.suffixSize) > b.length ∨ wrapInt (headerSize + hd.suffixSize) < 0
      · simp only [if_pos hb]; exact fun _ => trivial
      · simp only [if_neg hb]
        rw [show headerDest cfg tc b hd (wrapInt (headerSize + hd.suffixSize)).toNat .none = Pure.pure () from rfl, M.pure_then]
        generalize (wrapInt (headerSize + hd.suffixSize)).toNat = n
        have fin : ∀ b' : Bytes, (dest = .value → ∀ m, (if hd.version = 1 then .ok (b', n)
              else if n = 0 then .error (.crash "slice bounds out of range")
              else .ok (b'.drop (n - 1), 1) : Res (Bytes × Nat)) ≠ .error (.crash m)) → (do
            M.failIf (dest = .value) (.err .bodyPointer)
            if hd.version = 1 then decodeDest cfg tc .bodyPointer b' n dest
            else do
              M.failIf (n = 0) (.crash "slice bounds out of range")
              decodeDest cfg tc .bodyPointer (b'.drop (n - 1)) 1 dest : M Unit) s =
            match (if hd.version = 1 then .ok (b', n)
              else if n = 0 then .error (.crash "slice bounds out of range")
              else .ok (b'.drop (n - 1), 1) : Res (Bytes × Nat)) with
            | .error e => (.error e, s)
            | .ok (buf, i) => decodeDest cfg tc .bodyPointer buf i dest s := by
          intro b' hv
          rw [M.failIf_then]
          by_cases hd0 : dest = .value
          · subst hd0
            rw [if_pos rfl]
            have hv := hv rfl
            by_cases h1 : hd.version = 1
            · rw [if_pos h1]; rfl
            · rw [if_neg h1] at hv ⊢
              by_cases h2 : n = 0
              · rw [if_pos h2] at hv; exact absurd rfl (hv _)
              · rw [if_neg h2]; rfl
          rw [if_neg hd0]
          by_cases h1 : hd.version = 1
          · rw [if_pos h1, if_pos h1]
          · rw [if_neg h1, if_neg h1, M.failIf_then]
            by_cases h2 : n = 0
            · rw [if_pos h2, if_pos h2]
            · rw [if_neg h2, if_neg h2]
        intro hv
        unfold bodyDest
        split
        · exact absurd rfl hn
        · cases dc with
          | none => exact fin b hv
          | some c =>
            revert hv
            dsimp only
            rw [M.lift_then]
            cases decompress cs c (b.drop n) with
            | error e => exact fun _ => rfl
            | ok body => exact fin _

/-- A typed variable and a new Decoder: the call is `unmarshalInto`. -/
theorem call_into (cfg : DCfg) (tc : TCfg) (cs : Codecs) (b : Bytes) (ty : Ty) (l : Spot) (mem : Mem) :
    unmarshalInto cfg tc cs b ty l mem =
      match call cfg tc cs b .none (.var ty l) { d := DState.init, mem := mem } with
      | (.ok _, s) => .ok (s.d.heap, s.mem)
      | (.error e, _) => .error e := by
  have fin : ∀ (buf : Bytes) (i : Nat),
      (match decodeMem cfg tc buf (fuelFor buf.length) i { ty := ty, place := .var l } { d := DState.init, mem := mem } with
        | (.ok _, s) => .ok (s.d.heap, s.mem)
        | (.error (.panic m), _) => .error (.err (.msg m))
        | (.error e, _) => .error e : Res (Heap × Mem)) =
      match (let (r, s') := decodeDest cfg tc .bodyPointer buf i (.var ty l) { d := DState.init, mem := mem }
             (recovered r, s') : Except Exn Unit × MSt) with
      | (.ok _, s) => .ok (s.d.heap, s.mem)
      | (.error e, _) => .error e := by
    intro buf i
    rw [decodeDest_var]
    have : MSt.rest { d := DState.init, mem := mem } = { d := DState.init, mem := mem } := rfl
    rw [this]
    rcases decodeMem cfg tc buf (fuelFor buf.length) i { ty := ty, place := .var l } { d := DState.init, mem := mem } with ⟨r, s'⟩
    cases r with
    | ok a => rfl
    | error e => cases e <;> rfl
  unfold unmarshalInto call
  rw [bodyOf_eq, callRaw_body _ _ _ _ _ (by simp) (by simp)]
  cases hb : bodyInput cs b with
  | error e =>
    dsimp only
    rw [bodyInput_recovered hb]
  | ok p => exact fin p.1 p.2

/-- `x` does to the Decoder and the heap what `y` does, and nothing else. -/
def Lifts (x : M α) (y : D α) : Prop := ∀ s, s.typed = (fun _ => none) → x s = M.lift y s

namespace Lifts

theorem self (y : D α) : Lifts (M.lift y) y := fun _ _ => rfl
theorem pure (a : α) : Lifts (Pure.pure a) (Pure.pure a) := fun _ _ => rfl

theorem bind {x : M α} {y : D α} {f : α → M β} {g : α → D β} (h : Lifts x y) (hf : ∀ a, Lifts (f a) (g a)) :
    Lifts (x >>= f) (y >>= g) := by
  intro s hs
  rw [M.bind_apply, h s hs]
  unfold M.lift
  rw [D.bind_apply]
  rcases y s.d with ⟨r, d⟩
  cases r with
  | ok a => exact hf a _ hs
  | error e => rfl

theorem failIf {c : Prop} [Decidable c] (e : Exn) : Lifts (M.failIf c e) (D.failIf c e) := by
  unfold M.failIf D.failIf; split <;> exact fun _ _ => rfl

theorem ite {c : Prop} [Decidable c] {x1 x2 : M α} {y1 y2 : D α} (h1 : c → Lifts x1 y1) (h2 : ¬ c → Lifts x2 y2) :
    Lifts (if c then x1 else x2) (if c then y1 else y2) := by
  by_cases hc : c
  · rw [if_pos hc, if_pos hc]; exact h1 hc
  · rw [if_neg hc, if_neg hc]; exact h2 hc

theorem any (cfg : DCfg) (tc : TCfg) (e : Err) (buf : Bytes) (i : Nat) (l : Loc) :
    Lifts (decodeDest cfg tc e buf i (.any l))
      (do let _ ← withTracked (decode cfg buf (fuelFor buf.length) i l); Pure.pure ()) := by
  intro s hs
  rw [decodeDest_any]
  unfold M.lift
  rw [D.bind_apply]
  rcases withTracked (decode cfg buf (fuelFor buf.length) i l) s.d with ⟨r, d⟩
  cases r <;> simp only [hs] <;> rfl

end Lifts

/-- nil or a pointer to a nil `interface{}` variable. -/
def anyDest : Option Loc → Dest
  | none => .none
  | some l => .any l

theorem bodyDest_any (cfg : DCfg) (tc : TCfg) (cs : Codecs) (b : Bytes) (hd : Hdr) (dc : Option Compressor) (n : Nat)
    (vb : Option Loc) : Lifts (bodyDest cfg tc cs b hd dc n (anyDest vb)) (match vb with
      | some ptr => do
        let b ← match dc with
          | some c => do
            let decompBody ← D.lift (decompress cs c (b.drop n))
            Pure.pure (b.take n ++ decompBody)
          | none => Pure.pure b
        if hd.version = 1 then
          let _ ← withTracked (decode cfg b (fuelFor b.length) n ptr)
        else
          D.failIf (n = 0) (.crash "slice bounds out of range")
          let by_ := b.drop (n - 1)
          let _ ← withTracked (decode cfg by_ (fuelFor by_.length) 1 ptr)
      | none => Pure.pure ()) := by
  cases vb with
  | none => exact Lifts.pure _
  | some l =>
    have fin : ∀ b' : Bytes, Lifts (do
        M.failIf (Dest.any l = .value) (.err .bodyPointer)
        if hd.version = 1 then decodeDest cfg tc .bodyPointer b' n (.any l)
        else do
          M.failIf (n = 0) (.crash "slice bounds out of range")
          decodeDest cfg tc .bodyPointer (b'.drop (n - 1)) 1 (.any l)) (if hd.version = 1 then do
            let _ ← withTracked (decode cfg b' (fuelFor b'.length) n l)
            Pure.pure ()
          else do
            D.failIf (n = 0) (.crash "slice bounds out of range")
            let by_ := b'.drop (n - 1)
            let _ ← withTracked (decode cfg by_ (fuelFor by_.length) 1 l)
            Pure.pure ()) := by
      intro b' s hs
      rw [M.failIf_then, if_neg (by simp)]
      exact Lifts.ite (fun _ => Lifts.any _ _ _ _ _ _) (fun _ => Lifts.bind (Lifts.failIf _) fun _ => Lifts.any _ _ _ _ _ _) s hs
    cases dc with
    | none => exact Lifts.bind (Lifts.pure _) fun _ => fin _
    | some c => exact Lifts.bind (Lifts.self _) fun _ => Lifts.bind (Lifts.pure _) fun _ => fin _

/-- Pointers to nil `interface{}` variables: the call is `unmarshalHeaderBody`. -/
theorem call_any (cfg : DCfg) (tc : TCfg) (cs : Codecs) (b : Bytes) (vh vb : Option Loc) (s : MSt) (hs : s.typed = fun _ => none) :
    call cfg tc cs b (anyDest vh) (anyDest vb) s = M.lift (unmarshalHeaderBody cfg cs b vh vb) s := by
  have key : Lifts (callRaw cfg tc cs b (anyDest vh) (anyDest vb)) (unmarshalRaw cfg cs b vh vb) := by
    rw [unmarshalRaw_eq]
    unfold callRaw unmarshalRaw'
    refine Lifts.bind (Lifts.self _) fun hd => Lifts.bind (Lifts.self _) fun dc => ?_
    intro s hs
    show _ = M.lift _ s
    dsimp only
    rw [M.failIf_then]
    by_cases hbs : wrapInt (headerSize + hd.suffixSize) > b.length ∨ wrapInt (headerSize + hd.suffixSize) < 0
    · rw [if_pos hbs]
      unfold M.lift D.failIf
      rw [if_pos hbs]
      rfl
    · rw [if_neg hbs]
      have hf : D.failIf (wrapInt (headerSize + hd.suffixSize) > b.length ∨ wrapInt (headerSize + hd.suffixSize) < 0)
          (.err (.corrupt .badOffset)) = Pure.pure () := by
        unfold D.failIf; rw [if_neg hbs]; rfl
      rw [hf, show ∀ f : Unit → D Unit, (Pure.pure () >>= f) = f () from fun _ => rfl]
      have hle : (wrapInt (headerSize + hd.suffixSize)).toNat ≤ b.length := by omega
      generalize (wrapInt (headerSize + hd.suffixSize)).toNat = n at hle
      have hb := bodyDest_any cfg tc cs b hd dc n vb
      cases vh with
      | none => exact hb s hs
      | some ptr =>
        revert s hs
        show Lifts (headerDest cfg tc b hd n (.any ptr) >>= fun _ => bodyDest cfg tc cs b hd dc n (anyDest vb)) _
        unfold headerDest
        dsimp only
        intro s hs
        by_cases h1 : hd.suffixSize = 1
        · rw [if_pos h1, if_neg (by simp [h1])]
          exact hb s hs
        · rw [if_neg h1, if_pos h1]
          have hm : ∀ (x : UInt8 → M Unit), (do
              M.failIf (Dest.any ptr = .value) (.err .headerPointer)
              let suffixFlags ← M.lift (byteAt b hd.suffixStart)
              x suffixFlags : M Unit) = (do
              let suffixFlags ← M.lift (byteAt b hd.suffixStart)
              x suffixFlags) := by
            intro x
            funext s
            rw [M.failIf_then, if_neg (by simp)]
          rw [hm]
          have hassoc : ∀ {α β γ : Type} (x : M α) (f : α → M β) (g : β → M γ),
              ((x >>= f) >>= g) = (x >>= fun a => f a >>= g) := by
            intro α β γ x f g
            funext s
            rw [M.bind_apply, M.bind_apply, M.bind_apply]
            rcases x s with ⟨r, s'⟩
            cases r <;> rfl
          rw [hassoc]
          refine Lifts.bind (Lifts.self _) (fun fl => ?_) s hs
          intro s hs
          by_cases h2 : fl &&& 1 = 1
          · rw [if_pos h2, if_pos h2, hassoc]
            rw [sliceRange_zero hle]
            have hlen : (b.take n).length = n := by rw [List.length_take]; omega
            have h3 := Lifts.any cfg tc .headerPointer (b.take n) (hd.suffixStart + 1) ptr
            rw [hlen] at h3
            have h4 := Lifts.bind h3 fun _ => hb
            refine (h4 s hs).trans ?_
            unfold M.lift
            rw [D.bind_apply, D.bind_apply, D.bind_apply]
            rcases withTracked (decode cfg (List.take n b) (fuelFor n) (hd.suffixStart + 1) ptr) s.d with ⟨r, d⟩
            cases r <;> rfl
          · rw [if_neg h2, if_neg h2]
            exact hb s hs
  unfold call
  rw [key s hs]
  unfold M.lift unmarshalHeaderBody
  rfl

end Sereal
