import Verif.Spec.Grammar
/-
Documents as rows of tokens: what the merger looks at.  No nesting.
-/
namespace Sereal

/-- A name written out at `i`, not empty, without padding and without track bit. -/
def Name (D : Bytes) (i k : Nat) : Prop :=
  ∃ b s, D[i]? = some b ∧ b.toNat < 128 ∧ b.toNat ≠ 0x3f ∧ s ≠ [] ∧ Lit wrtDialect D i s k

/-- Tags that are tokens by themselves. -/
def TagC.single : TagC → Bool
  | .int _ | .undef | .cundef | .true_ | .false_ | .pad | .refn | .weaken | .arrayref _ | .hashref _ => true
  | _ => false

/-- Tags with an offset. -/
def TagC.points : TagC → Bool
  | .copy | .refp | .alias | .objectv | .freezev => true
  | _ => false

/-- The byte `b` at `i` begins a token that ends at `k`.  `vs` are the places of earlier tokens: offsets name
one of them, but not the byte just before the token. -/
inductive Tok (D : Bytes) (vs : List Nat) (i : Nat) (b : UInt8) : Nat → Prop
  | single : (classify (b.toNat % 128)).single = true → Tok D vs i b (i + 1)
  | number {n k} : classify (b.toNat % 128) = .varint ∨ classify (b.toNat % 128) = .zigzag →
      Vint wrtDialect D (i + 1) n k → Tok D vs i b k
  | float : classify (b.toNat % 128) = .float → i + 5 ≤ D.length → Tok D vs i b (i + 5)
  | double : classify (b.toNat % 128) = .double → i + 9 ≤ D.length → Tok D vs i b (i + 9)
  | long {n j} : classify (b.toNat % 128) = .binary ∨ classify (b.toNat % 128) = .strUtf8 →
      Vint wrtDialect D (i + 1) n j → n ≤ maxSize → j + n ≤ D.length → Tok D vs i b (j + n)
  | short {n} : classify (b.toNat % 128) = .short n → i + 1 + n ≤ D.length → Tok D vs i b (i + 1 + n)
  | box {n k} : classify (b.toNat % 128) = .array ∨ classify (b.toNat % 128) = .hash →
      Vint wrtDialect D (i + 1) n k → n ≤ maxSize → Tok D vs i b k
  | offset {o k} : (classify (b.toNat % 128)).points = true → Vint wrtDialect D (i + 1) o k → o ∈ vs → o + 1 < i →
      Tok D vs i b k
  | object {k} : classify (b.toNat % 128) = .object ∨ classify (b.toNat % 128) = .freeze →
      Name D (i + 1) k → Tok D vs i b k
  | regexp {j k} : classify (b.toNat % 128) = .regexp → Name D (i + 1) j → Name D j k → Tok D vs i b k

/-- Tokens from `i` to `j`; their places are added to `vs`. -/
inductive Toks (D : Bytes) : List Nat → Nat → List Nat → Nat → Prop
  | nil {vs i} : Toks D vs i vs i
  | cons {vs i b k vs' j} : D[i]? = some b → Tok D vs i b k → Toks D (i :: vs) k vs' j → Toks D vs i vs' j

end Sereal
