import Verif.Proof.Checked
import Verif.Proof.Peak
/-
From decode to Unmarshal: the header checks and the buffer handed to decode.
-/
namespace Sereal

/-- The buffer and start index that Unmarshal hands to decode. -/
def bodyInput (cs : Codecs) (b : Bytes) : Res (Bytes × Nat) :=
  match checkHeader b with
  | .error e => .error e
  | .ok hd =>
    match documentDecompressor hd.version hd.doctype with
    | .error e => .error e
    | .ok dc =>
      if wrapInt (headerSize + hd.suffixSize) > b.length ∨ wrapInt (headerSize + hd.suffixSize) < 0 then
        .error (.err (.corrupt .badOffset))
      else
        let bodyStart := (wrapInt (headerSize + hd.suffixSize)).toNat
        match (match dc with
            | none => .ok b
            | some c => match decompress cs c (b.drop bodyStart) with
              | .error e => .error e
              | .ok body => .ok (b.take bodyStart ++ body) : Res Bytes) with
        | .error e => .error e
        | .ok b =>
          if hd.version = 1 then .ok (b, bodyStart)
          else if bodyStart = 0 then .error (.crash "slice bounds out of range")
          else .ok (b.drop (bodyStart - 1), 1)

/-- Unmarshal after the header checks. -/
def decodeBody (cfg : DCfg) (buf : Bytes) (i : Nat) (ptr : Loc) : D Unit := fun s =>
  match withTracked (decode cfg buf (fuelFor buf.length) i ptr) s with
  | (.ok _, s') => (.ok (), s')
  | (.error e, s') => (.error e, s')

theorem Res.bind_ok {x : Res α} {f : α → Res β} {b : β} :
    (x >>= f) = .ok b ↔ ∃ a, x = .ok a ∧ f a = .ok b := by
  cases x with
  | error e => simp [bind, Except.bind]
  | ok a => simp [bind, Except.bind]

theorem Res.bind_error {x : Res α} {f : α → Res β} {e : Exn} :
    (x >>= f) = .error e ↔ x = .error e ∨ ∃ a, x = .ok a ∧ f a = .error e := by
  cases x with
  | error e' => simp [bind, Except.bind]
  | ok a => simp [bind, Except.bind]

theorem decodeBody_eq (cfg : DCfg) (buf : Bytes) (i : Nat) (ptr : Loc) :
    (do let _ ← withTracked (decode cfg buf (fuelFor buf.length) i ptr); Pure.pure () : D Unit) =
      decodeBody cfg buf i ptr := by
  funext s
  rw [D.bind_apply]
  unfold decodeBody
  split <;> simp_all [D.pure_apply]

theorem D.bind_err {x : D α} {f : α → D β} {s s1 : DState} {e : Exn} (h : x s = (.error e, s1)) :
    (x >>= f) s = (.error e, s1) := by rw [D.bind_apply, h]

theorem unmarshalRaw_body (cfg : DCfg) (cs : Codecs) (b : Bytes) (ptr : Loc) (s : DState) :
    unmarshalRaw cfg cs b none (some ptr) s =
      match bodyInput cs b with
      | .ok (buf, i) => decodeBody cfg buf i ptr s
      | .error e => (.error e, s) := by
  rw [unmarshalRaw_eq]; unfold unmarshalRaw' bodyInput
  cases h1 : checkHeader b with
  | error e => rw [D.bind_err (D.lift_error.2 ⟨rfl, rfl⟩)]
  | ok hd =>
    rw [D.bind_eq (D.lift_ok.2 ⟨rfl, rfl⟩)]
    dsimp only
    cases h2 : documentDecompressor hd.version hd.doctype with
    | error e => rw [D.bind_err (D.lift_error.2 ⟨rfl, rfl⟩)]
    | ok dc =>
      rw [D.bind_eq (D.lift_ok.2 ⟨rfl, rfl⟩)]
      dsimp only
      by_cases h3 : wrapInt (headerSize + hd.suffixSize) > b.length ∨
          wrapInt (headerSize + hd.suffixSize) < 0
      · rw [if_pos h3, D.bind_err (D.failIf_error.2 ⟨h3, rfl, rfl⟩)]
      · rw [if_neg h3, D.bind_eq (D.failIf_pass h3)]
        have fin : ∀ b : Bytes, (if hd.version = 1 then do
              let _ ← withTracked (decode cfg b (fuelFor b.length)
                (wrapInt (headerSize + hd.suffixSize)).toNat ptr)
              Pure.pure ()
            else do
              D.failIf ((wrapInt (headerSize + hd.suffixSize)).toNat = 0)
                (.crash "slice bounds out of range")
              let _ ← withTracked (decode cfg
                (b.drop ((wrapInt (headerSize + hd.suffixSize)).toNat - 1))
                (fuelFor (b.drop ((wrapInt (headerSize + hd.suffixSize)).toNat - 1)).length) 1 ptr)
              Pure.pure () : D Unit) s =
            (match (if hd.version = 1 then .ok (b, (wrapInt (headerSize + hd.suffixSize)).toNat)
              else if (wrapInt (headerSize + hd.suffixSize)).toNat = 0 then
                .error (.crash "slice bounds out of range")
              else .ok (b.drop ((wrapInt (headerSize + hd.suffixSize)).toNat - 1), 1) :
                Res (Bytes × Nat)) with
            | .ok (buf, i) => decodeBody cfg buf i ptr s
            | .error e => (.error e, s)) := by
          intro b
          by_cases hv : hd.version = 1
          · rw [if_pos hv, if_pos hv]
            exact congrFun (decodeBody_eq _ _ _ _) s
          · rw [if_neg hv, if_neg hv]
            by_cases h0 : (wrapInt (headerSize + hd.suffixSize)).toNat = 0
            · rw [if_pos h0, D.bind_err (D.failIf_error.2 ⟨h0, rfl, rfl⟩)]
            · rw [if_neg h0, D.bind_eq (D.failIf_pass h0)]
              exact congrFun (decodeBody_eq _ _ _ _) s
        cases dc with
        | none =>
          dsimp only
          rw [D.bind_eq (D.pure_apply _ _)]
          exact fin b
        | some c =>
          dsimp only
          cases h4 : decompress cs c (b.drop (wrapInt (headerSize + hd.suffixSize)).toNat) with
          | error e => rw [D.bind_err (D.lift_error.2 ⟨rfl, rfl⟩)]
          | ok body =>
            rw [D.bind_eq (D.lift_ok.2 ⟨rfl, rfl⟩), D.bind_eq (D.pure_apply _ _)]
            exact fin _

end Sereal
