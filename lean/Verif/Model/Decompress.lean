import Verif.Model.Header
import Verif.Model.Compress
/-
`DecompressDocument` and `hasSameBuffer` (decode.go:1320-1377).  Capacities matter here.

Assumed: `dst` does not overlap `b`, and begins at the start of its array.  (Nothing depends on what is
before `dst` in its array.)
-/
namespace Sereal

/-- A destination buffer: `arr` are the `cap(dst)` bytes of its array, `len` is `len(dst)`.
An empty array is nil (or as good as nil). -/
structure Buffer where
  arr : Bytes
  len : Nat
  fits : len ≤ arr.length

/-- Where a codec puts its result: at the start of the destination it was handed, in which case `tail`
are the remaining bytes up to the end of that array (the codec may have changed them), or in a new
array with `cap` bytes. -/
inductive Slot
  | inPlace (tail : Bytes)
  | fresh (cap : Nat)

/-- `put into body` is where a codec that was handed the destination `into` (the bytes up to the end of
its array, and its length; `none` for nil) puts the result `body`. -/
abbrev Placer := Option (Bytes × Nat) → Bytes → Slot

/-- What any codec can do: a result in place fits, a new array is large enough. -/
def Placer.Fits (put : Placer) : Prop :=
  ∀ into body, (∀ arr n, into = some (arr, n) → n ≤ arr.length) → match put into body with
    | .inPlace tail => ∃ arr n, into = some (arr, n) ∧ body.length + tail.length = arr.length
    | .fresh cap => body.length ≤ cap

/-- github.com/golang/snappy, Decode: the destination is used if its length suffices, otherwise there is
a new array of exactly the right size.  (For an empty result without a destination, `nil[:0]`.) -/
def snappyPut : Placer
  | some (arr, n), body => if body.length ≤ n then .inPlace (arr.drop body.length) else .fresh body.length
  | none, body => .fresh body.length

/-- `hasSameBuffer(decompBody, dst)` (decode.go:1372-1377): compares the addresses of the last elements
of the two arrays. -/
def hasSameBuffer (slot : Slot) (bodyLen : Nat) (dst : Buffer) : Res Bool :=
  match slot with
  | .inPlace tail =>
    if bodyLen + tail.length = 0 ∨ dst.arr.length = 0 then .error (.crash "index out of range") else .ok true
  | .fresh cap =>
    if cap = 0 ∨ dst.arr.length = 0 then .error (.crash "index out of range") else .ok false

/-- `dst[4] &= 0x0f` (decode.go:1363). -/
def clearType (b : Bytes) : Res Bytes :=
  if 4 < b.length then .ok (b.modify 4 (· &&& 0x0f)) else .error (.crash "index out of range")

/-- The destination handed to the codec: `dst[bodyStart:]` if `len(dst) >= len(b)`, else nil
(decode.go:1343-1346). -/
def codecDst (dst : Buffer) (b : Bytes) (bodyStart : Nat) : Res (Option (Bytes × Nat)) :=
  if dst.len ≥ b.length then
    if bodyStart ≤ dst.len then .ok (some (dst.arr.drop bodyStart, dst.len - bodyStart))
    else .error (.crash "slice bounds out of range")
  else .ok none

/-- decode.go:1353-1363, after decompression: in the same buffer, copy the head in front of the result,
otherwise append both to `dst[:0]`. -/
def assemble (slot : Slot) (dst : Buffer) (b : Bytes) (bodyStart : Nat) (body : Bytes) : Res Bytes := do
  let same ← (if dst.len > 0 then hasSameBuffer slot body.length dst else .ok false)
  let head ← cut b 0 bodyStart
  match same, slot with
  | true, .inPlace tail =>                                  -- the array holds the head, the result, the tail
    let doc ← cut (head ++ body ++ tail) 0 (bodyStart + body.length)
    clearType doc
  | _, _ => clearType (head ++ body)

/-- `DecompressDocument` (decode.go:1323-1369). -/
def decompressDocument (cs : Codecs) (put : Placer) (dst : Buffer) (b : Bytes) : Res Bytes := do
  let header ← checkHeader b
  let decomp ← documentDecompressor header.version header.doctype
  let bodyStart := wrapInt (headerSize + header.suffixSize)
  if bodyStart > b.length ∨ bodyStart < 0 then .error (.err (.corrupt .badOffset)) else
  match decomp with
  | none => .ok b                                          -- append(dst[:0], b...)
  | some c => do
    let into ← codecDst dst b bodyStart.toNat
    let input ← cutFrom b bodyStart.toNat
    let body ← decompress cs c input
    assemble (put into body) dst b bodyStart.toNat body

end Sereal
