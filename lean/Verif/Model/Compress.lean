import Verif.Model.Varint
/-
Compression framing: snappy.go, zlib.go, zlib_purego.go, zstd.go, zstd_cgo.go / zstd_purego.go,
and `documentDecompressor` (decode.go:136-169).

The codecs themselves (github.com/golang/snappy, compress/zlib, github.com/DataDog/zstd) are not
part of the repository; they are a parameter.
-/
namespace Sereal

/-- The third-party codecs. Encoders may fail in any way (snappy.Encode panics on huge inputs,
zlibEncode returns an error for an unknown level); decoders return an error. -/
structure Codecs where
  snappyEnc : Bytes → Res Bytes
  snappyDec : Bytes → Except Nat Bytes
  zlibEnc : Int → Bytes → Res Bytes
  /-- `zlib.NewReader` (zlib_purego.go:50): checks the stream header. -/
  zlibOpen : Bytes → Except Nat Unit
  /-- reading the opened stream to its end (zlib_purego.go:57). -/
  zlibInflate : Bytes → Except Nat Bytes
  zstdEnc : Int → Bytes → Res Bytes
  zstdDec : Bytes → Except Nat Bytes

/-- An error returned by a codec becomes an error of the caller. -/
def liftCodec : Except Nat α → Res α
  | .ok a => .ok a
  | .error n => .error (.err (.codec n))

/-- Values of the `compressor` interface (encode.go:34-36; snappy.go:10-12, zlib.go:9-11,
zstd.go:8-10). -/
inductive Compressor
  | snappy (incremental : Bool)
  | zlib (level : Int)
  | zstd (level : Int)
  deriving DecidableEq, Repr

/-- const.go:26-32. -/
def serealRaw : Nat := 0
def serealSnappy : Nat := 1
def serealSnappyIncremental : Nat := 2
def serealZlib : Nat := 3
def serealZstd : Nat := 4

/-- `ZlibDefaultCompression` = zlib.DefaultCompression = -1 (zlib.go:17). -/
def zlibDefaultCompression : Int := -1
/-- zstd.go:16. -/
def zstdDefaultCompression : Int := 3

/-- The `compress` methods: snappy.go:14-36, zlib.go:20-44, zstd.go:19-42. -/
def compress (cs : Codecs) (c : Compressor) (b : Bytes) : Res Bytes :=
  match c with
  | .snappy incremental => do
    if (b.length : Int) ≥ maxUint32 then throw (.err .tooLarge)
    let compressed ← cs.snappyEnc b
    if incremental then .ok (varint compressed.length ++ compressed) else .ok compressed
  | .zlib level => do
    let level := if level = 0 then zlibDefaultCompression else level
    let tail ← cs.zlibEnc level b
    .ok (varint b.length ++ varint tail.length ++ tail)
  | .zstd level => do
    let level := if level = 0 then zstdDefaultCompression else level
    let tail ← cs.zstdEnc level b
    .ok (varint tail.length ++ tail)

/-- Largest capacity `make([]byte, 0, n)` accepts (runtime.maxAlloc on 64-bit platforms);
a larger or negative capacity is a runtime error. (Running out of memory below that limit is not
modelled.) -/
def maxAlloc : Int := 2 ^ 48

/-- `zlibDecode` (zlib_purego.go:49-64). -/
def zlibDecode (cs : Codecs) (uln : Int) (buf : Bytes) : Res Bytes := do
  liftCodec (cs.zlibOpen buf)
  if uln < 0 ∨ uln > maxAlloc then throw (.crash "makeslice: cap out of range")
  liftCodec (cs.zlibInflate buf)

/-- The `decompress` methods: snappy.go:38-57, zlib.go:46-69, zstd.go:44-58.  The destination
buffer `d` is only a hint where to put the result. -/
def decompress (cs : Codecs) (c : Compressor) (b : Bytes) : Res Bytes :=
  match c with
  | .snappy incremental =>
    if incremental then do
      let (ln, sz) ← varintdecode b
      if ln < 0 ∨ sz + ln > b.length ∨ ln > maxInt32 then throw (.err (.corrupt .badOffset))
      let b ← cut b sz (sz + ln.toNat)
      liftCodec (cs.snappyDec b)
    else liftCodec (cs.snappyDec b)
  | .zlib _ => do
    let (uln, usz) ← varintdecode b
    let buf ← cutFrom b usz
    let (cln, csz) ← varintdecode buf
    if cln < 0 ∨ cln > maxInt32 ∨ csz + cln > buf.length then throw (.err (.corrupt .badOffset))
    let buf ← cut buf csz (csz + cln.toNat)
    zlibDecode cs uln buf
  | .zstd _ => do
    let (ln, sz) ← varintdecode b
    if ln < 0 ∨ ln > maxInt32 ∨ sz + ln > b.length then throw (.err (.corrupt .badOffset))
    let b ← cut b sz (sz + ln.toNat)
    liftCodec (cs.zstdDec b)

/-- `documentDecompressor` (decode.go:136-169); `none` is the nil decompressor of raw documents. -/
def documentDecompressor (version doctype : Nat) : Res (Option Compressor) :=
  if doctype = serealRaw then .ok none
  else if doctype = serealSnappy then
    if version ≠ 1 then .error (.err .badSnappy) else .ok (some (.snappy false))
  else if doctype = serealSnappyIncremental then .ok (some (.snappy true))
  else if doctype = serealZlib then
    if version < 3 then .error (.err .badZlibV3) else .ok (some (.zlib 0))
  else if doctype = serealZstd then
    if version < 4 then .error (.err .badZstdV4) else .ok (some (.zstd 0))
  else .error (.err (.doctypeUnsupported doctype))

end Sereal
