import Verif.Spec.Varint
/-
The layout of a Sereal document (sereal_spec.pod, "Document Header Format"): magic string,
version-type byte, header length as a varint, header, body.
-/
namespace Sereal

/-- The magic string of a protocol version. -/
def magicOf (version : Nat) : Bytes :=
  if version ≤ 2 then [0x3d, 0x73, 0x72, 0x6c]          -- "=srl"
  else [0x3d, 0xf3, 0x72, 0x6c]                          -- "=\xF3rl"

/-- `b` is a document of the given version and document type (0 raw, 1 snappy, 2 incremental snappy,
3 zlib, 4 zstd): `lenField` is the varint holding the length of `suffix` (the header after its length
field), `body` is what follows. -/
structure IsDoc (b : Bytes) (version doctype : Nat) (lenField suffix body : Bytes) : Prop where
  eq : b = magicOf version ++ [UInt8.ofNat (version + 16 * doctype)] ++ lenField ++ suffix ++ body
  version : 1 ≤ version ∧ version ≤ 4
  doctype : doctype < 16
  varint : IsVarint lenField
  short : lenField.length ≤ 10
  len : groups lenField = suffix.length
  /-- lengths are Go ints -/
  size : b.length < 2 ^ 63

/-- Where offsets in a body count from (sereal_spec.pod, "Body Format"): in version 1 from the start of
the document, later from the byte before the body, so that the first body byte has offset 1.
`head` is everything before the body.  The result is the buffer offsets refer to and the offset of the
first body byte. -/
def itemBuf (version : Nat) (head body : Bytes) : Bytes × Nat :=
  if version = 1 then (head ++ body, head.length) else (head.drop (head.length - 1) ++ body, 1)

/-- Everything before the body. -/
def headBytes (version doctype : Nat) (lenField suffix : Bytes) : Bytes :=
  magicOf version ++ [UInt8.ofNat (version + 16 * doctype)] ++ lenField ++ suffix

/-- The header length makes sense: the varint at offset 5 is below 2^63. -/
def SaneHeaderLength (b : Bytes) : Prop :=
  ∀ v rest, b.drop 5 = v ++ rest → IsVarint v → groups v < 2 ^ 63

/-- An empty header has a one-byte length field. -/
def ShortEmptyHeader (b : Bytes) : Prop :=
  ∀ v rest, b.drop 5 = v ++ rest → IsVarint v → groups v = 0 → v.length = 1

/-- If the document claims to be zlib-compressed (type nibble 3), the varint at the start of the
body (the uncompressed size) is at most 2^48. -/
def SaneZlibSize (b : Bytes) : Prop :=
  (∃ t : UInt8, b[4]? = some t ∧ t.toNat / 16 = 3) →
    ∀ v rest, b.drop 5 = v ++ rest → IsVarint v →
      ∀ u rest', rest.drop (groups v) = u ++ rest' → IsVarint u → groups u ≤ 2 ^ 48

end Sereal
