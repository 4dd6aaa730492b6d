import Verif.Proof.CallMem
import Verif.Props.C42
import Verif.Props.C28
/-
C59: UnmarshalHeaderBody is UnmarshalHeader followed by Unmarshal.
-/
namespace Sereal

/-- `err := f(); if err == nil { err = g() }`. -/
def andThen (f g : M Unit) : M Unit := fun s =>
  match f s with
  | (.ok _, s') => g s'
  | (.error e, s') => (.error e, s')

/-- For every document, every pair of arguments (nil, not a pointer, a pointer to an `interface{}` variable or to a typed
variable, the same variable twice included), every Decoder state and every memory: UnmarshalHeaderBody returns the same
error and leaves the same memory and the same Decoder state as UnmarshalHeader followed, if there was no error, by
Unmarshal. -/
theorem C59 (cfg : DCfg) (tc : TCfg) (cs : Codecs) (b : Bytes) (vh vb : Dest) :
    call cfg tc cs b vh vb = andThen (call cfg tc cs b vh .none) (call cfg tc cs b .none vb) := by
  funext s
  have hcall : ∀ vh vb s, call cfg tc cs b vh vb s =
      ((recovered (callRaw cfg tc cs b vh vb s).1), (callRaw cfg tc cs b vh vb s).2) := fun _ _ _ => rfl
  unfold andThen
  rw [hcall, hcall vh .none]
  have hraw : ∀ vh vb s, callRaw cfg tc cs b vh vb s =
      match checkHeader b with
      | .error e => (.error e, s)
      | .ok hd => match documentDecompressor hd.version hd.doctype with
        | .error e => (.error e, s)
        | .ok dc =>
          if wrapInt (headerSize + hd.suffixSize) > b.length ∨ wrapInt (headerSize + hd.suffixSize) < 0 then
            (.error (.err (.corrupt .badOffset)), s)
          else
            match headerDest cfg tc b hd (wrapInt (headerSize + hd.suffixSize)).toNat vh s with
            | (.ok _, s') => bodyDest cfg tc cs b hd dc (wrapInt (headerSize + hd.suffixSize)).toNat vb s'
            | (.error e, s') => (.error e, s') := by
    intro vh vb s
    unfold callRaw
    rw [M.lift_then]
    cases checkHeader b with
    | error e => rfl
    | ok hd =>
      dsimp only
      rw [M.lift_then]
      cases documentDecompressor hd.version hd.doctype with
      | error e => rfl
      | ok dc =>
        dsimp only
        rw [M.failIf_then, M.bind_apply]
        split
        · rfl
        · rcases headerDest cfg tc b hd (wrapInt (headerSize + hd.suffixSize)).toNat vh s with ⟨r, s'⟩
          cases r <;> rfl
  rw [hraw vh vb, hraw vh .none]
  cases hc : checkHeader b with
  | error e => cases e <;> rfl
  | ok hd =>
    dsimp only
    cases hd1 : documentDecompressor hd.version hd.doctype with
    | error e => cases e <;> rfl
    | ok dc =>
      dsimp only
      by_cases hbs : wrapInt (headerSize + hd.suffixSize) > b.length ∨ wrapInt (headerSize + hd.suffixSize) < 0
      · rw [if_pos hbs, if_pos hbs]; rfl
      · rw [if_neg hbs, if_neg hbs]
        rcases headerDest cfg tc b hd (wrapInt (headerSize + hd.suffixSize)).toNat vh s with ⟨r, s'⟩
        cases r with
        | error e => cases e <;> rfl
        | ok u =>
          show _ = call cfg tc cs b .none vb s'
          rw [hcall .none vb s', hraw .none vb s', hc]
          dsimp only
          rw [hd1]
          dsimp only
          rw [if_neg hbs]
          rfl

/-- The same for pointers to nil `interface{}` variables, in the model of Model/Decode. -/
theorem C59_any (cfg : DCfg) (cs : Codecs) (b : Bytes) (vh vb : Option Loc) (s : DState) :
    unmarshalHeaderBody cfg cs b vh vb s =
      match unmarshalHeaderBody cfg cs b vh none s with
      | (.ok _, s') => unmarshalHeaderBody cfg cs b none vb s'
      | (.error e, s') => (.error e, s') := by
  have tc : TCfg := { widen := fun u => u.toUInt64, narrow := fun u => u.toUInt32 }
  have h := congrFun (C59 cfg tc cs b (anyDest vh) (anyDest vb)) { d := s, mem := {} }
  rw [call_any _ _ _ _ _ _ _ rfl] at h
  unfold andThen at h
  have h1 := call_any cfg tc cs b vh none { d := s, mem := {} } rfl
  rw [show (Dest.none) = anyDest none from rfl, h1] at h
  unfold M.lift at h
  dsimp only at h
  rcases hr : unmarshalHeaderBody cfg cs b vh vb s with ⟨r, d⟩
  rcases hr1 : unmarshalHeaderBody cfg cs b vh none s with ⟨r1, d1⟩
  rw [hr, hr1] at h
  dsimp only at h ⊢
  cases r1 with
  | error e =>
    dsimp only at h ⊢
    rw [show r = .error e from congrArg (·.1) h, show d = d1 from congrArg (·.2.d) h]
  | ok u =>
    dsimp only at h ⊢
    rw [call_any cfg tc cs b none vb { d := d1, mem := {} } rfl] at h
    unfold M.lift at h
    dsimp only at h
    rcases hr2 : unmarshalHeaderBody cfg cs b none vb d1 with ⟨r2, d2⟩
    rw [hr2] at h
    rw [show r = r2 from congrArg (·.1) h, show d = d2 from congrArg (·.2.d) h]

/-- A document with the user header [1, 2] and the body "hi". -/
def docHeaderBody : Bytes := [0x3d, 0xf3, 0x72, 0x6c, 3, 4, 1, 0x42, 1, 2, 0x62, 104, 105]

/-- Non-vacuity: header into a []int, body into a string. -/
example :
    (match call {} noFloats dummyCodecs docHeaderBody (.var (.slice (.int .int)) ⟨0, []⟩) (.var .str ⟨1, []⟩)
        { d := DState.init, mem := { next := 2 } } with
      | (.ok _, s) => match s.mem.vars 0, s.mem.vars 1, s.mem.vars 2 with
        | .slice l 0 2 2, .str x, .multi [.int a, .int b] => some (l, x, a, b)
        | _, _, _ => none
      | _ => none) = some (⟨2, []⟩, [104, 105], 1, 2) := by
  decide +kernel

end Sereal
