import Verif.Proof.ApiDoc
import Verif.Proof.TypedComp
/-
From decodeViaReflection to Unmarshal into a typed variable.
-/
namespace Sereal

/-- Unmarshal into a typed variable, after the header checks. -/
def typedBody (cfg : DCfg) (tc : TCfg) (buf : Bytes) (i : Nat) (ty : Ty) (cur : TVal) : D TVal := do
  let p ← withTracked (decodeTyped cfg tc buf (fuelFor buf.length) i ty cur .rw)
  pure p.2

theorem unmarshalTypedRaw_body (cfg : DCfg) (tc : TCfg) (cs : Codecs) (b : Bytes) (ty : Ty) (cur : TVal) (s : DState) :
    unmarshalTypedRaw cfg tc cs b ty cur s =
      match bodyInput cs b with
      | .ok (buf, i) => typedBody cfg tc buf i ty cur s
      | .error e => (.error e, s) := by
  unfold unmarshalTypedRaw bodyInput
  cases h1 : checkHeader b with
  | error e => rw [D.bind_err (D.lift_error.2 ⟨rfl, rfl⟩)]
  | ok hd =>
    rw [D.bind_eq (D.lift_ok.2 ⟨rfl, rfl⟩)]
    dsimp only
    cases h2 : documentDecompressor hd.version hd.doctype with
    | error e => rw [D.bind_err (D.lift_error.2 ⟨rfl, rfl⟩)]
    | ok dc =>
      rw [D.bind_eq (D.lift_ok.2 ⟨rfl, rfl⟩)]
      dsimp only
      by_cases h3 : wrapInt (headerSize + hd.suffixSize) > b.length ∨
          wrapInt (headerSize + hd.suffixSize) < 0
      · rw [if_pos h3, D.bind_err (D.failIf_error.2 ⟨h3, rfl, rfl⟩)]
      · rw [if_neg h3, D.bind_eq (D.failIf_pass h3)]
        generalize hbs : (wrapInt (headerSize + hd.suffixSize)).toNat = bs
        have hle : bs ≤ b.length := by omega
        have hpure : ∀ {α β : Type} (a : α) (f : α → D β), ((Pure.pure a : D α) >>= f) = f a := fun _ _ => rfl
        have fin : ∀ b : Bytes, bs ≤ b.length → (if hd.version = 1 then do
              let p ← withTracked (decodeTyped cfg tc b (fuelFor b.length) bs ty cur .rw)
              Pure.pure p.2
            else do
              D.failIf (bs = 0) (.crash "slice bounds out of range")
              let by_ ← sliceFrom b (bs - 1)
              let p ← withTracked (decodeTyped cfg tc by_ (fuelFor by_.length) 1 ty cur .rw)
              Pure.pure p.2 : D TVal) s =
            (match (if hd.version = 1 then .ok (b, bs)
              else if bs = 0 then .error (.crash "slice bounds out of range")
              else .ok (b.drop (bs - 1), 1) : Res (Bytes × Nat)) with
            | .ok (buf, i) => typedBody cfg tc buf i ty cur s
            | .error e => (.error e, s)) := by
          intro b hb
          by_cases hv : hd.version = 1
          · rw [if_pos hv, if_pos hv]
            rfl
          · rw [if_neg hv, if_neg hv]
            by_cases h0 : bs = 0
            · rw [if_pos h0, D.bind_err (D.failIf_error.2 ⟨h0, rfl, rfl⟩)]
            · rw [if_neg h0, D.bind_eq (D.failIf_pass h0), sliceFrom_pure (by omega), hpure]
              rfl
        cases dc with
        | none =>
          dsimp only
          rw [D.bind_eq (D.pure_apply _ _)]
          exact fin b hle
        | some c =>
          dsimp only
          rw [sliceFrom_pure hle, hpure]
          cases h4 : decompress cs c (b.drop bs) with
          | error e =>
            dsimp only
            rw [D.bind_err (D.lift_error.2 ⟨rfl, rfl⟩)]
          | ok body =>
            rw [sliceRange_zero hle]
            dsimp only
            rw [D.bind_eq (D.lift_ok.2 ⟨rfl, rfl⟩), hpure, hpure]
            exact fin _ (by simp; omega)

/-- The result of Unmarshal. -/
theorem unmarshalTyped_ok {cfg : DCfg} {tc : TCfg} {cs : Codecs} {b : Bytes} {ty : Ty} {cur : TVal} {h : Heap} {v : TVal} :
    unmarshalTyped cfg tc cs b ty cur = .ok (h, v) ↔ ∃ buf i j s', bodyInput cs b = .ok (buf, i) ∧
      decodeTyped cfg tc buf (fuelFor buf.length) i ty cur .rw
        { DState.init with tracked := fun _ => none } = (.ok (j, v), s') ∧ h = s'.heap := by
  unfold unmarshalTyped
  rw [unmarshalTypedRaw_body]
  cases hb : bodyInput cs b with
  | error e =>
    constructor
    · intro hh
      cases e <;> simp at hh
    · rintro ⟨_, _, _, _, hh, _⟩; cases hh
  | ok p =>
    obtain ⟨buf, i⟩ := p
    dsimp only
    unfold typedBody
    rw [D.bind_apply]
    unfold withTracked
    cases hr : decodeTyped cfg tc buf (fuelFor buf.length) i ty cur .rw
        { DState.init with tracked := fun _ => none } with
    | mk r s1 =>
      cases r with
      | error e =>
        constructor
        · intro hh
          cases e <;> simp at hh
        · rintro ⟨_, _, _, _, hh, h2, _⟩
          cases hh
          rw [hr] at h2; cases h2
      | ok p =>
        obtain ⟨j, w⟩ := p
        constructor
        · intro hh
          simp only [D.pure_apply, Except.ok.injEq, Prod.mk.injEq] at hh
          obtain ⟨rfl, rfl⟩ := hh
          exact ⟨buf, i, j, s1, rfl, hr, rfl⟩
        · rintro ⟨_, _, _, _, hh, h2, rfl⟩
          cases hh
          rw [hr] at h2
          cases h2
          rfl

/-- Every item that fits the variable is accepted and fills it. -/
theorem unmarshalTyped_complete {cfg : DCfg} {tc : TCfg} {cs : Codecs} {b : Bytes} {ty : Ty} {cur : TVal} {buf : Bytes}
    {i j : Nat} {t : Tree} (hb : bodyInput cs b = .ok (buf, i)) (hlen : buf.length < 2 ^ 63)
    (hd : Denotes goDialect buf i t j) (hr : NoRefs t) (ht : Takes cfg.view tc ty cur t) :
    ∃ h v, unmarshalTyped cfg tc cs b ty cur = .ok (h, v) ∧ Fills cfg.view tc (Shows cfg.view h) ty cur t v := by
  obtain ⟨T', g⟩ := hd
  obtain ⟨s', v, h1, -, h3⟩ := typed_complete (cfg := cfg) (tc := tc) hlen g hr ty cur ht (fuelFor buf.length)
    (by unfold need fuelFor; simp; omega) { DState.init with tracked := fun _ => none } ⟨by decide, rfl⟩ rfl
  exact ⟨_, v, unmarshalTyped_ok.2 ⟨buf, i, j, s', hb, h1, rfl⟩, h3 _ (Frame.refl _ _)⟩

end Sereal
