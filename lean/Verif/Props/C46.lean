import Verif.Proof.Varint
/-
C46: varint decoding is exact or an error; encoding is its left inverse and minimal.
-/
namespace Sereal

/-- The value of a Go `int` holding the number `n` (two's complement, 64 bits). -/
def asInt (n : Nat) : Int := if n < 2 ^ 63 then n else (n : Int) - 2 ^ 64

theorem asInt_eq {n : Nat} (h : n < 2 ^ 64) : (BitVec.ofNat 64 n).toInt = asInt n := by
  simp only [BitVec.toInt, BitVec.toNat_ofNat, asInt]
  split <;> split <;> omega

/-- The full claim: a varint decodes to its value if that fits in 64 bits, and is an error
otherwise. -/
def VarintExact : Prop :=
  ∀ v rest, IsVarint v →
    (groups v < 2 ^ 64 → varintdecode (v ++ rest) = .ok (asInt (groups v), v.length)) ∧
    (2 ^ 64 ≤ groups v → ∃ e, varintdecode (v ++ rest) = .error e)

/-- 2^64 written as a ten-byte varint. -/
def varintTooBig : Bytes := [0x80, 0x80, 0x80, 0x80, 0x80, 0x80, 0x80, 0x80, 0x80, 2]

/-- The code does not satisfy the full claim: a ten-byte varint whose value is 2^64 decodes to 0. -/
theorem C46_exact_fails :
    IsVarint varintTooBig ∧ groups varintTooBig = 2 ^ 64 ∧
      varintdecode varintTooBig = .ok (0, 10) ∧ ¬ VarintExact := by
  have h1 : IsVarint varintTooBig := by simp [varintTooBig, IsVarint]
  have h2 : groups varintTooBig = 2 ^ 64 := by decide
  have h3 : varintdecode varintTooBig = .ok (0, 10) := by decide
  refine ⟨h1, h2, h3, fun h => ?_⟩
  obtain ⟨e, he⟩ := (h varintTooBig [] h1).2 (by rw [h2]; exact Nat.le_refl _)
  rw [List.append_nil, h3] at he
  cases he

/-- What holds: a varint of at most ten bytes whose value fits in 64 bits decodes exactly; one of
more than ten bytes is an error; a buffer without a varint at its start is an error.
Missing from the full claim: ten-byte varints with value ≥ 2^64 are not rejected (they decode to
the value modulo 2^64), and values that fit but are padded beyond ten bytes are rejected. -/
theorem C46_exact_partial :
    (∀ v rest, IsVarint v → v.length ≤ 10 → groups v < 2 ^ 64 →
      varintdecode (v ++ rest) = .ok (asInt (groups v), v.length)) ∧
    (∀ v rest, IsVarint v → 10 < v.length →
      varintdecode (v ++ rest) = .error (.err (.corrupt .badVarint))) ∧
    (∀ b, (∀ v rest, b = v ++ rest → ¬ IsVarint v) →
      varintdecode b = .error (.err (.corrupt .badVarint))) := by
  refine ⟨fun v rest hv hl hg => ?_, fun v rest hv hl => ?_, fun b hb => ?_⟩
  · rw [varintdecode_of_isVarint v rest hv hl, asInt_eq hg]
  · cases h : varintdecode (v ++ rest) with
    | error e => rw [varintdecode_error h]
    | ok r =>
      obtain ⟨r, sz⟩ := r
      obtain ⟨w, rest', h1, h2, h3, h4, h5⟩ := varintdecode_ok h
      exfalso
      have key : ∀ (v w r1 r2 : Bytes), IsVarint v → IsVarint w → v ++ r1 = w ++ r2 →
          v.length = w.length := by
        intro v
        induction v with
        | nil => intro w _ _ h; simp [IsVarint] at h
        | cons a v ih =>
          intro w r1 r2 hv hw he
          cases w with
          | nil => simp [IsVarint] at hw
          | cons c w =>
            simp at he
            obtain ⟨rfl, he⟩ := he
            cases v with
            | nil =>
              cases w with
              | nil => rfl
              | cons d w => have h1 : a.toNat < 128 := hv; have := hw.1; omega
            | cons d v =>
              cases w with
              | nil => have h1 : a.toNat < 128 := hw; have := hv.1; omega
              | cons e w =>
                have := ih (e :: w) r1 r2 hv.2 hw.2 he
                simpa using this
      have := key v w rest rest' hv h2 h1
      omega
  · cases h : varintdecode b with
    | error e => rw [varintdecode_error h]
    | ok r =>
      obtain ⟨r, sz⟩ := r
      obtain ⟨w, rest', h1, h2, h3, h4, h5⟩ := varintdecode_ok h
      exact absurd h2 (hb w rest' h1)

/-- Every 64-bit number is encoded as a varint spelling it, no longer than any other varint that
spells it, and decoding it gives it back whatever follows. -/
theorem C46_encode (n : Nat) (rest : Bytes) (h : n < 2 ^ 64) :
    IsVarint (varint n) ∧ groups (varint n) = n ∧
    (∀ v, IsVarint v → groups v = n → (varint n).length ≤ v.length) ∧
    varintdecode (varint n ++ rest) = .ok (asInt n, (varint n).length) := by
  refine ⟨isVarint_varint n, groups_varint n, fun v hv hg => ?_, ?_⟩
  · rw [← hg]; exact varint_minimal v hv
  · rw [varintdecode_varint n rest h, asInt_eq h]

/-- Non-vacuity: a three-byte varint in context. -/
example : IsVarint [0xac, 0x82, 0x01] ∧ groups [0xac, 0x82, 0x01] = 16684 ∧
    varintdecode ([0xac, 0x82, 0x01] ++ [7, 7]) = .ok (16684, 3) := by
  refine ⟨by simp [IsVarint], by decide, by decide⟩
example : varint 300 = [0xac, 2] := by simp [varint]; decide

end Sereal
