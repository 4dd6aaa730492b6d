import Verif.Model.Varint
/-
Document header: const.go:6-32, decode.go:14-74 (`readHeader`, `LooksLikeSereal`),
decode.go:114-134 (`checkHeader`).
-/
namespace Sereal

/-- const.go:22. -/
def headerSize : Nat := 5

/-- const.go:8, little-endian bytes "=srl". -/
def magicHeaderBytes : Nat := 0x6c72733d
/-- const.go:14, "=\xF3rl". -/
def magicHeaderBytesHighBit : Nat := 0x6c72f33d
/-- const.go:20, "=\xC3\xB3r". -/
def magicHeaderBytesHighBitUTF8 : Nat := 0x72b3c33d

/-- `binary.LittleEndian.PutUint32`. -/
def putUint32 (n : Nat) : Bytes :=
  [UInt8.ofNat n, UInt8.ofNat (n / 2 ^ 8), UInt8.ofNat (n / 2 ^ 16), UInt8.ofNat (n / 2 ^ 24)]

/-- `binary.LittleEndian.Uint32` of (at least) four bytes. -/
def uint32 : Bytes → Nat
  | b0 :: b1 :: b2 :: b3 :: _ =>
    b0.toNat + b1.toNat * 2 ^ 8 + b2.toNat * 2 ^ 16 + b3.toNat * 2 ^ 24
  | _ => 0

/-- Wrap-around of 64-bit Go `int` addition. -/
def wrapInt (i : Int) : Int := (BitVec.ofInt 64 i).toInt

/-- `serealHeader` (decode.go:14-20) without suffixFlags, which is read later. -/
structure Hdr where
  doctype : Nat
  version : Nat
  suffixStart : Nat
  suffixSize : Int
  deriving DecidableEq, Repr

/-- `readHeader` (decode.go:22-63). -/
def readHeader (b : Bytes) : Res Hdr :=
  if b.length ≤ headerSize then .error (.err .badHeader) else do
  let first4 := uint32 (← cut b 0 4)
  let vt ← indexOf b 4
  let doctype := (vt >>> 4).toNat
  let version := (vt &&& 0x0f).toNat
  if first4 = magicHeaderBytesHighBitUTF8 then .error (.err .badHeaderUTF8)
  else
    let validHeader :=
      (first4 = magicHeaderBytes ∧ 1 ≤ version ∧ version ≤ 2) ∨
      (first4 = magicHeaderBytesHighBit ∧ 3 ≤ version)
    if ¬ validHeader then .error (.err .badHeader) else do
    let (ln, sz) ← varintdecode (← cutFrom b 5)
    .ok { doctype, version,
          suffixSize := wrapInt (ln + sz)      -- decode.go:59, 64-bit addition
          suffixStart := headerSize + sz }     -- decode.go:60

/-- `LooksLikeSereal` (decode.go:66-74). -/
def looksLikeSereal (b : Bytes) : Bool :=
  if b.length < 7 then false
  else match readHeader b with
    | .ok _ => true
    | .error _ => false

/-- `checkHeader` (decode.go:114-134). -/
def checkHeader (b : Bytes) : Res Hdr := do
  let h ← readHeader b
  if h.version = 1 ∨ h.version = 2 ∨ h.version = 3 ∨ h.version = 4 then .ok h
  else .error (.err (.versionUnsupported h.version))

end Sereal
