import Verif.Spec.Varint
import Verif.Spec.Merged
/-
Bodies in which an item is cut off at the end.
-/
namespace Sereal

/-- `y` is one string and nothing behind it, read as the merger reads strings: SHORT_BINARY of length 1 to 31, or one of
BINARY, STR_UTF8 and SHORT_BINARY_0 with its length as a varint. -/
def OneString (y : Bytes) : Prop :=
  ∃ c str, (y = c :: str ∧ str ≠ [] ∧ c.toNat % 128 = 0x60 + str.length) ∨
    ∃ v, y = c :: (v ++ str) ∧ IsVarint v ∧ groups v % 2 ^ 64 = str.length ∧
      (c.toNat % 128 = 0x26 ∨ c.toNat % 128 = 0x27 ∨ c.toNat % 128 = 0x60)

/-- What should follow the tag `t` at position `p` is not all there.  The tags are FLOAT, DOUBLE, LONG_DOUBLE,
SHORT_BINARY of length 1, and OBJECT, OBJECT_FREEZE and REGEXP, which are followed by one or two strings. -/
def CutAt (x : Bytes) (p t : Nat) : Prop :=
  (t = 0x22 ∧ x.length < p + 5) ∨ (t = 0x23 ∧ x.length < p + 9) ∨ (t = 0x24 ∧ x.length < p + 17) ∨
  (t = 0x61 ∧ x.length < p + 2) ∨ ((t = 0x2c ∨ t = 0x32 ∨ t = 0x31) ∧ x.length = p + 1) ∨
  (t = 0x31 ∧ OneString (x.drop (p + 1)))

/-- Some byte of `x` is such a tag, with what should follow not all there.  (Whether the byte is a tag or part of
something else is not asked.) -/
def CutShort (x : Bytes) : Prop := ∃ p b, x[p]? = some b ∧ CutAt x p (b.toNat % 128)

/-- The document is long enough for its user header. -/
def HeaderFits (b : Bytes) : Prop := ∀ v rest, b.drop 5 = v ++ rest → IsVarint v → groups v ≤ rest.length

/-- The outcome is a value or an error. -/
def Returns {α : Type} (r : Res α) : Prop := ∀ e, r = .error e → ∃ er, e = .err er

/-- What `Append` asks of a document. -/
structure Appendable (c : MCfg) (cs : Codecs) (b : Bytes) : Prop where
  size : b.length < 2 ^ 63
  header : HeaderFits b
  zlib : SaneZlibSize b
  whole : ∀ body, mergeBody cs b = .ok body → ¬ CutShort body
  flat : c.keepFlat = true → ∀ body, mergeBody cs b = .ok body → 2 ≤ body.length

end Sereal
