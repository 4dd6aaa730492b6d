import Verif.Model.Header
import Verif.Model.Compress
import Verif.Model.Value
/-
`Merger` (merge.go): combines documents into one array without decoding them.

A Go `int` or `uint32` is a natural number or an integer here; where the code converts to `uint32` the
model reduces modulo 2^32.  The capacity of the merger's buffer and the bytes that lie behind the end of
a slice in its array are visible in this code; they are parameters.
-/
namespace Sereal

/-- `TopLevelElement` (merge.go:11-19); `invalid` is any other integer. -/
inductive TopLevel
  | array | arrayRef | invalid
  deriving DecidableEq, Repr

/-- The public fields of `Merger` and its version (merge.go:24-61); the constructors set `version` to 0, 2
or 3 (merge.go:73-96).  `ExpectedSize` only affects capacities.  Assumed not to change between calls. -/
structure MCfg where
  version : Nat := 0
  topLevel : TopLevel := .arrayRef
  compression : Option Compressor := none
  threshold : Int := 1024
  dedupeStrings : Bool := false
  keepFlat : Bool := false

/-- merge.go:113-115. -/
def MCfg.ver (c : MCfg) : Nat := if c.version = 0 then 3 else c.version

/-- The private fields (merge.go:25-31, 59-60).  `bodyOffset` is always 5. -/
structure MState where
  buf : Bytes := []
  strTable : List (Bytes × Nat) := []
  objTable : List (Bytes × Nat) := []
  length : Nat := 0
  lenOffset : Nat := 0
  inited : Bool := false
  finished : Bool := false
  deriving DecidableEq, Repr

/-- `m.bodyOffset` (merge.go:128): six header bytes, minus one. -/
def mergeBodyOffset : Nat := 5

/-- The tags of the outermost container (merge.go:131-138). -/
def topTags : TopLevel → Option Bytes
  | .array => some [typeARRAY]
  | .arrayRef => some [typeREFN, typeARRAY]
  | .invalid => none

/-- `initMerger` (merge.go:98-148).  When it fails `inited` stays false, and the next call starts over. -/
def initMerger (c : MCfg) (s : MState) : Res MState :=
  if s.inited then .ok s
  else if c.ver > 3 then .error (.err (.msg "protocol version not yet supported"))
  else
    let magic := if c.ver < 3 then putUint32 magicHeaderBytes else putUint32 magicHeaderBytesHighBit
    match topTags c.topLevel with
    | none => .error (.err (.msg "invalid TopLevelElement"))
    | some tags =>
      let head := magic ++ [UInt8.ofNat c.ver, 0] ++ tags
      .ok { s with buf := head ++ List.replicate 5 typePAD, strTable := [], objTable := [],
                   lenOffset := head.length, inited := true }

/-- Sorted insertion without repetition: the keys of a map, sorted (merge.go:346-350). -/
def insertIdx (x : Nat) : List Nat → List Nat
  | [] => [x]
  | y :: ys => if x < y then x :: y :: ys else if x = y then y :: ys else y :: insertIdx x ys

/-- Tags the first pass skips as a single byte (merge.go:271-276, 328-332). -/
def oneByteTag (tag : UInt8) : Bool :=
  tag < typeVARINT || tag = typePAD || tag = typeREFN || tag = typeWEAKEN || tag = typeUNDEF ||
  tag = typeCANONICAL_UNDEF || tag = typeTRUE || tag = typeFALSE || tag = typeEXTEND ||
  tag = typeREGEXP || tag = typeOBJECT || tag = typeOBJECT_FREEZE ||
  (typeARRAYREF_0 ≤ tag && tag < typeARRAYREF_0 + 16) || (typeHASHREF_0 ≤ tag && tag < typeHASHREF_0 + 16)

/-- Tags followed by an offset (merge.go:314-315, 479-480). -/
def offsetTag (tag : UInt8) : Bool :=
  tag = typeCOPY || tag = typeALIAS || tag = typeREFP || tag = typeOBJECTV || tag = typeOBJECTV_FREEZE

/-- One round of the first pass (merge.go:261-343) at `idx`: the offset to be tracked, if any, and the
next index.  (`tag` is without the track bit.) -/
def trackStep (buf : Bytes) (idx : Nat) (tag : UInt8) : Res (Option Nat × Nat) :=
  if oneByteTag tag then .ok (none, idx + 1)
  else if tag = typeVARINT ∨ tag = typeZIGZAG then do
    let (_, sz) ← varintdecode (buf.drop (idx + 1))
    .ok (none, idx + (sz + 1))
  else if tag = typeFLOAT then .ok (none, idx + 5)
  else if tag = typeDOUBLE then .ok (none, idx + 9)
  else if tag = typeLONG_DOUBLE then .ok (none, idx + 17)
  else if tag = typeBINARY ∨ tag = typeSTR_UTF8 then do
    let (ln, sz) ← varintdecode (buf.drop (idx + 1))
    if ln < 0 ∨ ln > maxUint32 then .error (.err (.msg "bad size for string"))
    else
      let idx := idx + (sz + ln.toNat + 1)
      if idx > buf.length then .error (.err (.msg "truncated document")) else .ok (none, idx)
  else if tag = typeARRAY ∨ tag = typeHASH then do
    let (_, sz) ← varintdecode (buf.drop (idx + 1))
    .ok (none, idx + (sz + 1))
  else if offsetTag tag then do
    let (offset, sz) ← varintdecode (buf.drop (idx + 1))
    if offset < 0 ∨ offset ≥ idx then .error (.err (.msg "tag refers to invalid offset"))
    else .ok (some offset.toNat, idx + (sz + 1))
  else if typeSHORT_BINARY_0 ≤ tag ∧ tag < typeSHORT_BINARY_0 + 32 then
    .ok (none, idx + (1 + (tag &&& 0x1f).toNat))
  else if tag = typePACKET_START then .error (.err (.msg "unexpected start of new document"))
  else .error (.err (.mergeUnknownTag tag.toNat idx))

/-- `buildTrackTable` (merge.go:250-352): the sorted keys of the track table.  Every value in the table is
-1 at this point.  `idx-doc.bodyOffset` is `idx+1`. -/
def buildTrack (buf : Bytes) : (fuel : Nat) → (idx : Nat) → List Nat → Res (List Nat)
  | 0, idx, keys => if idx < buf.length then .error .fuel else .ok keys
  | fuel + 1, idx, keys =>
    match buf[idx]? with
    | none => .ok keys
    | some b => do
      let keys := if b &&& trackFlag = trackFlag then insertIdx (idx + 1) keys else keys
      let (o, idx) ← trackStep buf idx (b &&& ~~~ trackFlag)
      buildTrack buf fuel idx (match o with
        | some o => insertIdx o keys
        | none => keys)

/-- `expectedElements` (merge.go:596-619): how many elements the document contributes, and where the first
one is. -/
def expectedElements (c : MCfg) (b : Bytes) : Res (Int × Nat) :=
  if c.keepFlat then do
    let b0 ← indexOf b 0
    let b1 ← indexOf b 1
    let tag0 := b0 &&& ~~~ trackFlag
    let tag1 := b1 &&& ~~~ trackFlag
    if c.topLevel = .array ∧ tag0 = typeARRAY then do
      let (ln, sz) ← varintdecode (b.drop 1)
      .ok (ln, sz + 1)
    else if c.topLevel = .arrayRef ∧ tag0 = typeREFN ∧ tag1 = typeARRAY then do
      let (ln, sz) ← varintdecode (b.drop 2)
      .ok (ln, sz + 2)
    else if c.topLevel = .arrayRef ∧ typeARRAYREF_0 ≤ tag0 ∧ tag0 < typeARRAYREF_0 + 16 then
      .ok ((tag0 &&& 0xf).toNat, 1)
    else .ok (1, 0)
  else .ok (1, 0)

/-- `isShallowStringish` (merge.go:621-623). -/
def isShallowStringish (tag : UInt8) : Bool :=
  tag = typeBINARY || tag = typeSTR_UTF8 || (typeSHORT_BINARY_0 ≤ tag && tag < typeSHORT_BINARY_0 + 32)

/-- `readString` (merge.go:625-652): the offset of the string's data and the string. -/
def readString (buf : Bytes) : Res (Nat × Bytes) := do
  let b ← indexOf buf 0
  let tag := b &&& ~~~ trackFlag
  if ¬ isShallowStringish tag then .error (.err (.msg "expected stringish"))
  else do
    let (ln, offset) ← (if tag > typeSHORT_BINARY_0 then .ok (((tag &&& 0x1f).toNat : Int), 0)
      else varintdecode (buf.drop 1))
    let offset := offset + 1
    if ln < 0 ∨ ln > maxUint32 then .error (.err (.msg "bad size for string"))
    else if offset + ln.toNat > buf.length then .error (.err (.msg "truncated document"))
    else .ok (offset, (buf.drop offset).take ln.toNat)

/-- `appendTagVarint` (merge.go:654-668) appends these bytes.  (`n` is below 2^63: the scratch buffer of ten
bytes suffices.) -/
def tagVarint (tag : UInt8) (n : Nat) : Bytes := tag :: varint n

/-- `b[lo:hi]` for a slice with the bytes `slack` behind its end: Go allows `hi` up to the capacity. -/
def cutCap (b slack : Bytes) (lo hi : Nat) : Res Bytes := cut (b ++ slack) lo hi

/-- `hashKeysValuesFlag` (merge.go:21). -/
def hashKeysValuesFlag : Nat := 2 ^ 31

/-- `uint32(ln*2) | hashKeysValuesFlag` (merge.go:515, 526). -/
def hashEntry (ln : Nat) : Nat := (ln * 2) % 2 ^ 31 + 2 ^ 31

/-- merge.go:386-394: remove finished containers from the stack (top first).  `x &^ 2^31 == 0` is
`x % 2^31 = 0` for 32-bit numbers. -/
def popZeros : List Nat → List Nat
  | [] => []
  | n :: rest => if n % 2 ^ 31 = 0 then popZeros rest else n :: rest

/-- The local variables of `mergeItems` (merge.go:354-375), and the parts of the merger and the document
it changes.  `mbuf` shares its array with `m.buf` as long as it fits into the capacity `cap`; `old` is what
`m.buf` shows meanwhile. -/
structure LState where
  didx : Nat
  mbuf : Bytes
  old : Bytes
  stack : List Nat
  trackIdxs : List Nat
  trackTable : List (Nat × Nat)              -- entries with value -1 are left out
  strTable : List (Bytes × Nat)
  objTable : List (Bytes × Nat)
  deriving DecidableEq, Repr

/-- Association lists; the first entry counts. -/
def idxLookup (o : Nat) : List (Nat × Nat) → Option Nat
  | [] => none
  | (k, v) :: rest => if k = o then some v else idxLookup o rest

/-- What one round does with an item (merge.go:406-580): the bytes appended, how far `didx` moves, the
offset to be remembered if the tag is tracked (`mrgRelativeIdx` afterwards), what is pushed, whether
the stack counter is left alone, the new tables, and the index whose track bit is set. -/
structure Moved where
  out : Bytes
  adv : Nat
  idx : Nat
  push : Option Nat := none
  fake : Bool := false
  strTable : List (Bytes × Nat)
  objTable : List (Bytes × Nat)
  flip : Option Nat := none

/-- `mrgRelativeIdx` (merge.go:383). -/
def LState.mrgIdx (s : LState) : Nat := s.mbuf.length - mergeBodyOffset

/-- An item that is copied as it is. -/
def Moved.copy (s : LState) (out : Bytes) (adv : Nat) (push : Option Nat := none) (fake : Bool := false) :
    Moved where
  out := out
  adv := adv
  idx := s.mrgIdx
  push := push
  fake := fake
  strTable := s.strTable
  objTable := s.objTable

/-- merge.go:438-477, strings; `ln` and `sz` as in the code. -/
def mergeString (s : LState) (dbuf : Bytes) (dedup : Bool) (ln : Int) (sz : Nat) : Res Moved :=
  if ln < 0 ∨ ln > maxUint32 then .error (.err (.msg "bad size for string"))
  else
    let length := sz + ln.toNat + 1
    if s.didx + length > dbuf.length then .error (.err (.msg "truncated document"))
    else
      let raw := (dbuf.drop s.didx).take length
      let val := raw.drop (sz + 1)
      if dedup then
        match mapLookup val s.strTable with
        | some saved => .ok { Moved.copy s (tagVarint typeCOPY saved) length with idx := saved }
        | none => .ok { Moved.copy s raw length with strTable := (val, s.mrgIdx) :: s.strTable }
      else .ok (Moved.copy s raw length)

/-- merge.go:479-499, COPY, REFP, ALIAS, OBJECTV, OBJECTV_FREEZE; `b` is the byte with its track bit. -/
def mergeOffset (s : LState) (dbuf : Bytes) (b tag : UInt8) : Res Moved := do
  let (offset, sz) ← varintdecode (dbuf.drop (s.didx + 1))
  match (if offset < 0 then none else idxLookup offset.toNat s.trackTable) with
  | none => .error (.err (.msg "bad target offset at COPY, ALIAS or REFP tag"))
  | some target =>
    let out := tagVarint b target
    if tag = typeALIAS ∨ tag = typeREFP then
      if target < s.mbuf.length + out.length then
        .ok { Moved.copy s out (sz + 1) with flip := some target }
      else .error (.crash "index out of range")
    else if tag = typeOBJECTV ∨ tag = typeOBJECTV_FREEZE then .ok (Moved.copy s out (sz + 1) (some 1))
    else .ok (Moved.copy s out (sz + 1))

/-- merge.go:501-518, ARRAY and HASH. -/
def mergeContainer (s : LState) (dbuf : Bytes) (tag : UInt8) : Res Moved := do
  let (ln, sz) ← varintdecode (dbuf.drop (s.didx + 1))
  if ln < 0 then .error (.err (.msg "bad array or hash length"))
  else
    let raw := (dbuf.drop s.didx).take (sz + 1)
    if tag = typeHASH then .ok (Moved.copy s raw (sz + 1) (some (hashEntry ln.toNat)))
    else .ok (Moved.copy s raw (sz + 1) (some (ln.toNat % 2 ^ 32)))

/-- merge.go:531-545, REGEXP. -/
def mergeRegexp (s : LState) (dbuf : Bytes) : Res Moved := do
  let (offset, str) ← readString (dbuf.drop (s.didx + 1))
  let size := offset + str.length + 1
  let (offset, str) ← readString (dbuf.drop (s.didx + size))
  let size := size + (offset + str.length)
  .ok (Moved.copy s ((dbuf.drop s.didx).take size) size)

/-- merge.go:547-572, OBJECT and OBJECT_FREEZE. -/
def mergeObject (s : LState) (dbuf : Bytes) (tag : UInt8) : Res Moved := do
  let (offset, str) ← readString (dbuf.drop (s.didx + 1))
  let length := offset + str.length + 1
  match mapLookup str s.objTable with
  | some saved =>
    let t := if tag = typeOBJECT then typeOBJECTV else typeOBJECTV_FREEZE
    .ok { Moved.copy s (tagVarint t saved) length (some 1) with idx := saved }
  | none =>
    .ok { Moved.copy s ((dbuf.drop s.didx).take length) length (some 1) with
            idx := s.mrgIdx + 1, objTable := (str, s.mrgIdx + 1) :: s.objTable }

/-- The switch of `mergeItems` (merge.go:406-580).  `b` is the byte at `didx`, `slack` what lies behind the
end of the document in its array. -/
def mergeTag (s : LState) (dbuf slack : Bytes) (dedup : Bool) (b : UInt8) : Res Moved :=
  let tag := b &&& ~~~ trackFlag
  if tag < typeVARINT ∨ tag = typeUNDEF ∨ tag = typeCANONICAL_UNDEF ∨ tag = typeTRUE ∨ tag = typeFALSE ∨
      tag = typeSHORT_BINARY_0 then
    .ok (Moved.copy s [b] 1)
  else if tag = typePAD ∨ tag = typeREFN ∨ tag = typeWEAKEN ∨ tag = typeEXTEND then
    .ok (Moved.copy s [b] 1 none true)
  else if tag = typeVARINT ∨ tag = typeZIGZAG then do
    let (_, sz) ← varintdecode (dbuf.drop (s.didx + 1))
    .ok (Moved.copy s ((dbuf.drop s.didx).take (sz + 1)) (sz + 1))
  else if tag = typeFLOAT then do
    .ok (Moved.copy s (← cutCap dbuf slack s.didx (s.didx + 5)) 5)
  else if tag = typeDOUBLE then do
    .ok (Moved.copy s (← cutCap dbuf slack s.didx (s.didx + 9)) 9)
  else if tag = typeLONG_DOUBLE then do
    .ok (Moved.copy s (← cutCap dbuf slack s.didx (s.didx + 17)) 17)
  else if tag = typeSHORT_BINARY_0 + 1 then do
    .ok (Moved.copy s (← cutCap dbuf slack s.didx (s.didx + 2)) 2)
  else if tag = typeBINARY ∨ tag = typeSTR_UTF8 then do
    let (ln, sz) ← varintdecode (dbuf.drop (s.didx + 1))
    mergeString s dbuf dedup ln sz
  else if tag > typeSHORT_BINARY_0 + 1 ∧ tag < typeSHORT_BINARY_0 + 32 then
    mergeString s dbuf dedup (tag &&& 0x1f).toNat 0
  else if offsetTag tag then mergeOffset s dbuf b tag
  else if tag = typeARRAY ∨ tag = typeHASH then mergeContainer s dbuf tag
  else if typeARRAYREF_0 ≤ tag ∧ tag < typeARRAYREF_0 + 16 then
    .ok (Moved.copy s [b] 1 (some (tag &&& 0xf).toNat))
  else if typeHASHREF_0 ≤ tag ∧ tag < typeHASHREF_0 + 16 then
    .ok (Moved.copy s [b] 1 (some (hashEntry (tag &&& 0xf).toNat)))
  else if tag = typeREGEXP then mergeRegexp s dbuf
  else if tag = typeOBJECT ∨ tag = typeOBJECT_FREEZE then mergeObject s dbuf tag
  else if tag = typePACKET_START then .error (.err (.msg "unexpected start of new document"))
  else .error (.err (.mergeUnknownTag tag.toNat s.didx))

/-- `dedupString` (merge.go:400). -/
def dedupHere (c : MCfg) (top : Nat) : Bool := c.dedupeStrings || (top ≥ 2 ^ 31 && top % 2 = 0)

/-- `x[i] |= trackFlag`. -/
def setFlag (x : Bytes) : Option Nat → Bytes
  | some i => x.modify i (· ||| trackFlag)
  | none => x

/-- The state after a round: merge.go:496 (the bit is set in the array `m.buf` may share), 414 and 582 (the
counter of the container, `uint32` arithmetic), 498, 515-517, 526-528, 571 (pushes), 584-588. -/
def LState.move (s : LState) (cap top : Nat) (rest : List Nat) (m : Moved) : LState where
  didx := s.didx + m.adv
  mbuf := setFlag (s.mbuf ++ m.out) m.flip
  old := if (s.mbuf ++ m.out).length ≤ cap then setFlag s.old m.flip else s.old
  stack := m.push.toList ++ (if m.fake then top else (top + 2 ^ 32 - 1) % 2 ^ 32) :: rest
  trackIdxs := if s.trackIdxs.head? = some (s.didx + 1) then s.trackIdxs.tail else s.trackIdxs
  trackTable := if s.trackIdxs.head? = some (s.didx + 1) then (s.didx + 1, m.idx) :: s.trackTable
    else s.trackTable
  strTable := m.strTable
  objTable := m.objTable

/-- The loop of `mergeItems` (merge.go:377-589).  A round that fails leaves no trace. -/
def mergeLoop (c : MCfg) (dbuf slack : Bytes) (cap : Nat) : (fuel : Nat) → LState → Res Unit × LState
  | 0, s => if s.didx < dbuf.length then (.error .fuel, s) else (.ok (), s)
  | fuel + 1, s =>
    match dbuf[s.didx]? with
    | none => (.ok (), s)                                    -- the condition of the loop
    | some b =>
      match popZeros s.stack with
      | [] => (.ok (), s)                                    -- break LOOP
      | top :: rest =>
        match mergeTag s dbuf slack (dedupHere c top) b with
        | .error e => (.error e, s)
        | .ok m => mergeLoop c dbuf slack cap fuel (s.move cap top rest m)

/-- `mergeItems` (merge.go:354-594).  On failure `m.buf` is whatever shows of the shared array, and the
string tables keep their new entries. -/
def mergeItems (c : MCfg) (dbuf slack : Bytes) (cap : Nat) (keys : List Nat) (s : MState) : Res Unit × MState :=
  match expectedElements c dbuf with
  | .error e => (.error e, s)
  | .ok (n, offset) =>
    if n < 0 ∨ n > maxUint32 then (.error (.err (.msg "bad amount of expected elements")), s)
    else
      match mergeLoop c dbuf slack cap (dbuf.length + 1)
          { didx := offset, mbuf := s.buf, old := s.buf, stack := [n.toNat], trackIdxs := keys,
            trackTable := [], strTable := s.strTable, objTable := s.objTable } with
      | (.ok _, l) => (.ok (), { s with buf := l.mbuf, length := s.length + n.toNat,
                                        strTable := l.strTable, objTable := l.objTable })
      | (.error e, l) => (.error e, { s with buf := l.old, strTable := l.strTable, objTable := l.objTable })

/-- merge.go:160-178: the body of a document, decompressed.  An error of `documentDecompressor` is
overwritten before it is looked at. -/
def mergeBody (cs : Codecs) (b : Bytes) : Res Bytes := do
  let h ← readHeader b
  let lo := wrapInt (headerSize + h.suffixSize)
  if lo < 0 ∨ lo > b.length then .error (.crash "slice bounds out of range")
  else match documentDecompressor h.version h.doctype with
    | .ok (some c) => decompress cs c (b.drop lo.toNat)
    | _ => .ok (b.drop lo.toNat)

/-- `Append` (merge.go:151-202).  `extra` is what lies behind the end of the body in its array, and `cap`
the capacity of the merger's buffer after the preallocation. -/
def mergeAppend (c : MCfg) (cs : Codecs) (extra : Bytes) (cap : Nat) (b : Bytes) (s : MState) :
    Res Nat × MState :=
  match initMerger c s with
  | .error e => (.error e, s)
  | .ok s =>
    if s.finished then (.error (.err (.msg "finished document")), s)
    else match mergeBody cs b with
      | .error e => (.error e, s)
      | .ok body =>
        match buildTrack body (body.length + 1) 0 [] with
        | .error e => (.error e, s)
        | .ok keys =>
          match mergeItems c body extra cap keys s with
          | (.error e, s') => (.error e, s')
          | (.ok _, s') => (.ok (s'.length - s.length), s')

/-- `binary.PutUvarint(m.buf[m.lenOffset:], ...)` (merge.go:212). -/
def putLength (buf : Bytes) (lenOffset n : Nat) : Res Bytes :=
  if lenOffset + (varint n).length ≤ buf.length then
    .ok (buf.take lenOffset ++ varint n ++ buf.drop (lenOffset + (varint n).length))
  else .error (.crash "index out of range")

/-- merge.go:221-222.  `slack` is what lies behind the end of `m.buf` in its array.  The incremental Snappy
compressor has already written its result into `m.buf`'s array (snappy.go:28-30), beyond the end of
`m.buf` if need be. -/
def placeCompressed (c : Compressor) (buf slack comp : Bytes) : Res Bytes :=
  if comp.length + 6 > buf.length + slack.length then .error (.crash "slice bounds out of range")
  else if c = .snappy true then .ok (buf.take 6 ++ comp)
  else .ok (buf.take 6 ++ comp.take (buf.length - 6) ++ slack.take (comp.length - (buf.length - 6)))

/-- merge.go:226-243: the document type, and which compressors are refused. -/
def mergeDocType (c : MCfg) : Compressor → Res Nat
  | .snappy true => .ok serealSnappyIncremental
  | .snappy false => .error (.err (.msg "non-incremental snappy compression is not supported"))
  | .zlib _ =>
    if c.ver < 3 then .error (.err (.msg "zlib compression only valid for v3 documents and up"))
    else .ok serealZlib
  | .zstd _ => .error (.err (.msg "unknown compressor"))

/-- merge.go:214. -/
def mergeCompresses (c : MCfg) (buf : Bytes) : Option Compressor :=
  if c.threshold = 0 ∨ (buf.length : Int) ≥ c.threshold then c.compression else none

/-- `Finish` (merge.go:205-248).  The bytes returned together with an error are not modelled. -/
def mergeFinish (c : MCfg) (cs : Codecs) (slack : Bytes) (s : MState) : Res Bytes × MState :=
  match initMerger c s with
  | .error e => (.error e, s)
  | .ok s =>
    if s.finished then (.ok s.buf, s)
    else
      let s := { s with finished := true }
      match putLength s.buf s.lenOffset s.length with
      | .error e => (.error e, s)
      | .ok buf =>
        let s := { s with buf }
        match mergeCompresses c buf with
        | none => (.ok buf, s)
        | some comp =>
          match compress cs comp (buf.drop 6) with
          | .error e => (.error e, s)
          | .ok z =>
            match placeCompressed comp buf slack z with
            | .error e => (.error e, s)
            | .ok buf =>
              match mergeDocType c comp with
              | .error e => (.error e, { s with buf })
              | .ok dt =>
                let buf := buf.modify 4 (· ||| (UInt8.ofNat dt <<< 4))
                (.ok buf, { s with buf })

end Sereal
