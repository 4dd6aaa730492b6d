import Verif.Spec.Varint
/-
Documents without offsets that lead in front of a given position.
-/
namespace Sereal

/-- Nowhere in the bytes `x` does the byte of a COPY, OBJECTV or OBJECTV_FREEZE tag precede a varint for a number below
`lo` (modulo 2^64, as the decoder reads varints). -/
def NoOffsetBelow (lo : Nat) (x : Bytes) : Prop :=
  ∀ p b v r, x = p ++ b :: (v ++ r) → IsVarint v → v.length ≤ 10 → groups v % 2 ^ 64 < lo →
    b.toNat % 128 ≠ 0x2f ∧ b.toNat % 128 ≠ 0x2d ∧ b.toNat % 128 ≠ 0x33

end Sereal
