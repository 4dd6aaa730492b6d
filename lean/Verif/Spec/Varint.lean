import Verif.Model.Basic
/-
What a varint is (sereal_spec.pod, "Varints"): a sequence of bytes of which all but the last have
the high bit set; the low seven bits of each byte, least significant group first, spell a number.
Independent of the model's encoder and decoder.
-/
namespace Sereal

/-- The shape of a varint. -/
def IsVarint : Bytes → Prop
  | [] => False
  | [b] => b.toNat < 128
  | b :: rest => 128 ≤ b.toNat ∧ IsVarint rest

/-- The number spelled by the 7-bit groups, least significant first. -/
def groups : Bytes → Nat
  | [] => 0
  | b :: rest => b.toNat % 128 + 128 * groups rest

end Sereal
