import Verif.Model.Value
import Verif.Model.Header
import Verif.Model.Compress
/-
Encoding: encode.go:16-714, tagscache.go:9-51.

Input values live in an immutable heap `inp` (Marshal does not modify its argument).  The output
buffer and the tables of marshalState are the state; every error aborts Marshal, so the state
after an error is not observable and is dropped.
-/
namespace Sereal

/-- Encoder configuration (encode.go:17-27), plus what the Go runtime decides:
`ord n ks` is the order in which the `n`-th map iteration of this call visits the keys `ks`
(theorems assume only that it is a permutation of `ks`), and `dataPtr a` is the address of the
bytes of the string or []byte stored in the variable at `a` (StringHeader.Data, encode.go:697-698).
`parseFloat` is strconv.ParseFloat(s, 64), as bits. -/
structure ECfg where
  version : Nat := 3
  perlCompat : Bool := false
  compression : Option Compressor := none
  compressionThreshold : Int := 1024
  disableDedup : Bool := false
  disableFreeze : Bool := false
  maxRecursionDepth : Int := 0
  ord : Nat → List Bytes → List Bytes := fun _ ks => ks
  dataPtr : Addr → Addr := fun _ => 0
  parseFloat : Bytes → Option UInt64 := fun _ => none

/-- marshalState (encode.go:29-32) and the output buffer; `visits` counts map iterations. -/
structure EState where
  buf : Bytes
  strTable : Bytes → Option Nat := fun _ => none
  ptrTable : Addr → Option Nat := fun _ => none
  visits : Nat := 0

/-- Encoding actions. -/
abbrev E (α : Type) := EState → Except Exn (α × EState)

namespace E
def pure (a : α) : E α := fun s => .ok (a, s)
def bind (x : E α) (f : α → E β) : E β := fun s =>
  match x s with
  | .ok (a, s') => f a s'
  | .error e => .error e
instance : Monad E where
  pure := E.pure
  bind := E.bind
def fail (e : Exn) : E α := fun _ => .error e
def err (e : Err) : E α := fail (.err e)
def get : E EState := fun s => .ok (s, s)
end E

/-- `by = append(by, bs...)`. -/
def emit (bs : Bytes) : E Unit := fun s => .ok ((), { s with buf := s.buf ++ bs })
/-- `strTable[s] = len(by)`. -/
def rememberStr (k : Bytes) : E Unit := fun s =>
  .ok ((), { s with strTable := fun k' => if k' = k then some s.buf.length else s.strTable k' })
/-- `state.ptrTable[a] = offs`. -/
def rememberPtr (a : Addr) (offs : Nat) : E Unit := fun s =>
  .ok ((), { s with ptrTable := fun a' => if a' = a then some offs else s.ptrTable a' })
/-- `by[offs] |= trackFlag`. -/
def setTrackFlag (offs : Nat) : E Unit := fun s =>
  if offs < s.buf.length then
    .ok ((), { s with buf := s.buf.modify offs (· ||| trackFlag) })
  else .error (.crash "index out of range")
/-- The keys of a map in the order of this `range` statement. -/
def rangeKeys (cfg : ECfg) (ks : List Bytes) : E (List Bytes) := fun s =>
  .ok (cfg.ord s.visits ks, { s with visits := s.visits + 1 })

/-- The bytes `encodeInt` appends (encode.go:306-328); `isInt` is `k == reflect.Int`. -/
def encodeInt (isInt : Bool) (i : Int64) : Bytes :=
  if 0 ≤ i ∧ i ≤ 15 then [i.toUInt64.toUInt8 &&& 0x0f]
  else if -16 ≤ i ∧ i < 0 ∧ isInt then [0x10 ||| (i.toUInt64.toUInt8 &&& 0x0f)]
  else if i > 15 then typeVARINT :: varint i.toUInt64.toNat
  else if isInt then typeZIGZAG :: varint ((i <<< 1) ^^^ (i >>> 63)).toUInt64.toNat
  else typeVARINT :: varint i.toUInt64.toNat

/-- `encodeFloat` (encode.go:330-333). -/
def encodeFloat (u : UInt32) : Bytes :=
  [typeFLOAT, u.toUInt8, (u >>> 8).toUInt8, (u >>> 16).toUInt8, (u >>> 24).toUInt8]

/-- `encodeDouble` (encode.go:335-338). -/
def encodeDouble (u : UInt64) : Bytes :=
  [typeDOUBLE, u.toUInt8, (u >>> 8).toUInt8, (u >>> 16).toUInt8, (u >>> 24).toUInt8,
   (u >>> 32).toUInt8, (u >>> 40).toUInt8, (u >>> 48).toUInt8, (u >>> 56).toUInt8]

/-- The COPY item emitted for an already seen string (encode.go:366-367, 381-382). -/
def copyItem (offs : Nat) : Bytes := typeCOPY :: varint offs

/-- The literal form of a string (encode.go:373-375). -/
def strItem (s : Bytes) : Bytes := typeSTR_UTF8 :: varint s.length ++ s

/-- The literal form of a byte slice (encode.go:389-396). -/
def binItem (s : Bytes) : Bytes :=
  if s.length < 32 then (typeSHORT_BINARY_0 + UInt8.ofNat s.length) :: s
  else typeBINARY :: varint s.length ++ s

/-- `encodeString` (encode.go:363-376). -/
def encodeString (cfg : ECfg) (s : Bytes) (isKeyOrClass : Bool) : E Unit := do
  if !cfg.disableDedup && isKeyOrClass then
    match (← E.get).strTable s with
    | some offs => emit (copyItem offs)
    | none => do
      rememberStr s
      emit (strItem s)
  else emit (strItem s)

/-- `encodeBytes` (encode.go:378-397). -/
def encodeBytes (cfg : ECfg) (s : Bytes) (isKeyOrClass : Bool) : E Unit := do
  if !cfg.disableDedup && isKeyOrClass then
    match (← E.get).strTable s with
    | some offs => emit (copyItem offs)
    | none => do
      rememberStr s
      emit (binItem s)
  else emit (binItem s)

/-- Outcome of `json.Number.Int64`, i.e. strconv.ParseInt(s, 10, 64). -/
inductive ParseInt | ok (i : Int) | range | syn
  deriving DecidableEq, Repr

/-- The digit loop of strconv.ParseUint(s, 10, 64) (Go standard library): value so far `n`;
a range error is reported as soon as the value cannot fit in 64 bits. -/
def parseUintLoop : Bytes → Nat → ParseInt
  | [], n => .ok n
  | c :: rest, n =>
    if c < 48 ∨ 57 < c then .syn
    else if n ≥ 1844674407370955162 then .range            -- cutoff = maxUint64/10 + 1
    else
      let n1 := n * 10 + (c.toNat - 48)
      if n1 ≥ 2 ^ 64 then .range else parseUintLoop rest n1

/-- strconv.ParseInt(s, 10, 64) (Go standard library). -/
def parseInt (s : Bytes) : ParseInt :=
  match s with
  | [] => .syn
  | c :: rest =>
    let neg : Bool := c = 45
    let digits := if c = 43 ∨ c = 45 then rest else s
    if digits = [] then .syn else
    match parseUintLoop digits 0 with
    | .ok un =>
      if !neg && un ≥ 2 ^ 63 then .range
      else if neg && un > 2 ^ 63 then .range
      else .ok (if neg then -un else un)
    | r => r

/-- `encodeJsonNumber` (encode.go:340-361). -/
def encodeJsonNumber (cfg : ECfg) (s : Bytes) (isKeyOrClass : Bool) : E Unit :=
  match parseInt s with
  | .ok i => emit (encodeInt true (Int64.ofInt i))
  | .range => encodeString cfg s isKeyOrClass
  | .syn =>
    match cfg.parseFloat s with
    | some f => emit (encodeDouble f)
    | none => encodeString cfg s isKeyOrClass

/-- `tagsCache.Get` on a cache miss (tagscache.go:23-42): the map from field name to field, later
fields overwriting earlier ones of the same name.  A cache hit returns the same map
(tagscache.go:19-21, 49). -/
def structTags : List Field → List (Bytes × Field) → List (Bytes × Field)
  | [], m => m
  | f :: rest, m =>
    if f.tag = [45] then structTags rest m                 -- "-"
    else if f.tag = [] then
      if !f.exported then structTags rest m
      else structTags rest (mapInsert f.name f m)
    else structTags rest (mapInsert f.tag f m)

/-- "Class" and "Data", the field names of PerlFreeze (perl.go:46-49). -/
def nameClass : Bytes := [67, 108, 97, 115, 115]
def nameData : Bytes := [68, 97, 116, 97]
/-- "PerlFreeze". -/
def namePerlFreeze : Bytes := [80, 101, 114, 108, 70, 114, 101, 101, 122, 101]

/-- Loop over the elements of a slice or array (encode.go:416-420, 536-540), already read from the
heap. `rec` is `e.encode(..., false, false, state, remainingDepth)`. -/
def encodeElems (rec : Val → E Unit) : List Val → E Unit
  | [] => pure ()
  | v :: vs => do
    rec v
    encodeElems rec vs

/-- Loop over map keys and values (encode.go:441-446, 561-577). -/
def encodePairs (key : Bytes → E Unit) (rec : Val → E Unit) (kvs : List (Bytes × Val)) :
    List Bytes → E Unit
  | [] => pure ()
  | k :: ks => do
    key k
    rec ((mapLookup k kvs).getD .nil)
    encodePairs key rec kvs ks

/-- Loop over struct fields (encode.go:603-608). Reading an unexported field through reflection
panics (`value.Interface()`, encode.go:261). -/
def encodeFields (cfg : ECfg) (rec : Val → E Unit) (tags : List (Bytes × Field)) :
    List Bytes → E Unit
  | [] => pure ()
  | k :: ks => do
    encodeString cfg k true
    match mapLookup k tags with
    | none => pure ()
    | some f =>
      if !f.exported then E.fail (.panic "reflect.Value.Interface: unexported field")
      else rec f.val
    encodeFields cfg rec tags ks

/-- `[]interface{}` elements. -/
def sliceVals (inp : Heap) (p n : Nat) : List Val := (List.range n).map (fun i => inp.cellAt (p + i))

/-- `encodeIntfArray` / `encodeArray` after the depth check (encode.go:405-422, 527-542). -/
def encodeArr (cfg : ECfg) (rec : Val → E Unit) (vs : List Val) (isRefNext : Bool) : E Unit := do
  if cfg.perlCompat && !isRefNext then emit [typeREFN]
  emit (typeARRAY :: varint vs.length)
  encodeElems rec vs

/-- `encodeStrMap` / `encodeMap` after the depth check (encode.go:431-448, 551-580). `viaString`
tells whether keys go through encodeString with deduplication (always for map[string]interface{},
and for other maps in PerlCompat mode) or through encode with a reflect.Value, which drops the
isKeyOrClass flag (encode.go:261, 570). -/
def encodeMp (cfg : ECfg) (rec : Val → E Unit) (kvs : List (Bytes × Val)) (isRefNext : Bool)
    (viaString : Bool) : E Unit := do
  if cfg.perlCompat && !isRefNext then emit [typeREFN]
  emit (typeHASH :: varint kvs.length)
  let ks ← rangeKeys cfg (kvs.map (·.1))
  encodePairs (fun k => encodeString cfg k viaString) rec kvs ks

/-- `encodeStruct` after the depth check (encode.go:589-610). -/
def encodeStrct (cfg : ECfg) (rec : Val → E Unit) (name : Bytes) (fs : List Field) : E Unit := do
  let tags := structTags fs []
  emit [typeOBJECT]
  encodeBytes cfg name true
  if cfg.perlCompat then emit [typeREFN]
  emit (typeHASH :: varint tags.length)
  let ks ← rangeKeys cfg (tags.map (·.1))
  encodeFields cfg rec tags ks

/-- `getPointer(rv.Elem())` (encode.go:685-702) for a pointer to the variable at `a`;
0 stands for "no pointer".  A string inside an interface is not addressable, so UnsafeAddr panics. -/
def getPointer (cfg : ECfg) (inp : Heap) (iface : Bool) (a : Addr) : Res Addr :=
  match inp.cellAt a with
  | .smap m | .rmap m => .ok m
  | .slice p _ | .rslice p _ => .ok p
  | .bin _ => .ok (cfg.dataPtr a)
  | .ptr _ p => .ok p
  | .str _ | .nstr _ | .jnum _ =>
    if iface then .error (.panic "reflect.Value.UnsafeAddr of unaddressable value")
    else .ok (cfg.dataPtr a)
  | _ => .ok 0

/-- Is the variable a struct of one of the types of encode.go:623-632? -/
def isPerlStruct : Val → Bool
  | .regexp _ _ | .undef _ | .obj _ _ | .weak _ => true
  | _ => false

/-- The lookups of encodePointer in ptrTable (encode.go:638-645): the offset recorded for the pointer
itself, or else for the data it leads to. -/
def findPtr (st : EState) (a rvptr2 : Addr) : Option Nat :=
  match st.ptrTable a with
  | some offs => some offs
  | none => if rvptr2 ≠ 0 then st.ptrTable rvptr2 else none

/-- `encodePointer` after the depth check (encode.go:622-672) for a non-nil pointer.
`rec v isRefNext` is `e.encode(..., false, isRefNext, state, remainingDepth)`. -/
def encodePtr (cfg : ECfg) (inp : Heap) (rec : Val → Bool → E Unit) (iface : Bool) (a : Addr) :
    E Unit := do
  let v := inp.cellAt a
  if !iface && isPerlStruct v then rec v false
  else
    match getPointer cfg inp iface a with
    | .error e => E.fail e
    | .ok rvptr2 =>
      let st ← E.get
      match findPtr st a rvptr2 with
      | some offs => do
        emit (typeREFP :: varint offs)
        setTrackFlag offs
      | none => do
        let lenbOrig := st.buf.length
        emit [typeREFN]
        rememberPtr a lenbOrig
        rec v true
        if rvptr2 ≠ 0 then rememberPtr rvptr2 (lenbOrig + 1)

/-- `encode` and `encodeViaReflection` (encode.go:200-304, 454-519) on a value, one level:
`rec` is the recursive call for the children of arrays, maps, structs and pointers, which have one
unit of remainingDepth less, or `none` when that would leave none (encode.go:400-403 and the like).
The two structural recursions (Reference of PerlObject and PerlWeakRef) keep remainingDepth. -/
def encodeVal (cfg : ECfg) (inp : Heap) (rec : Option (Val → Bool → Bool → E Unit)) :
    Val → (isKeyOrClass isRefNext : Bool) → E Unit
  | .nil, _, _ => emit [typeUNDEF]
  | .bool b, _, _ => emit [if b then typeTRUE else typeFALSE]
  | .int _ i, _, _ => emit (encodeInt true i)
  | .uint _ n, _, _ => emit (encodeInt false n.toInt64)
  | .f32 u, _, _ => emit (encodeFloat u)
  | .f64 u, _, _ => emit (encodeDouble u)
  | .jnum s, ik, _ => encodeJsonNumber cfg s ik
  | .str s, ik, _ => encodeString cfg s ik
  | .bin s, ik, _ => encodeBytes cfg s ik
  | .slice p n, _, rn | .rslice p n, _, rn =>
    match rec with
    | none => E.err .maxRecursion
    | some rec => encodeArr cfg (fun v => rec v false false) (sliceVals inp p n) rn
  | .smap m, _, rn =>
    match rec with
    | none => E.err .maxRecursion
    | some rec => encodeMp cfg (fun v => rec v false false) (inp.mapAt m) rn true
  | .rmap m, _, rn =>
    match rec with
    | none => E.err .maxRecursion
    | some rec => encodeMp cfg (fun v => rec v false false) (inp.mapAt m) rn cfg.perlCompat
  | .undef canonical, _, _ => emit [if canonical then typeCANONICAL_UNDEF else typeUNDEF]
  | .obj cls ref, _, _ => do
    emit [typeOBJECT]
    encodeBytes cfg cls true
    encodeVal cfg inp rec ref false false
  | .regexp pat mods, _, _ => do
    emit [typeREGEXP]
    encodeBytes cfg pat false
    encodeBytes cfg mods false
  | .weak ref, _, _ => do
    emit [typeWEAKEN]
    encodeVal cfg inp rec ref false false
  | .frozen cls data, _, _ =>
    match rec with
    | none => E.err .maxRecursion
    | some rec => encodeStrct cfg (fun v => rec v false false) namePerlFreeze
        [⟨nameClass, [], true, .str cls⟩, ⟨nameData, [], true, .bin data⟩]
  | .thawed _ _, _, _ => E.fail (.panic "unmodelled: encoding a thawed object")
  | .ptr iface a, _, _ =>
    match rec with
    | none => E.err .maxRecursion
    | some rec => encodePtr cfg inp (fun v rn => rec v false rn) iface a
  | .nilptr, _, _ =>
    match rec with
    | none => E.err .maxRecursion
    | some _ => emit [typeREFN, typeUNDEF]
  | .nbool b, _, _ => emit [if b then typeTRUE else typeFALSE]
  | .nint k i, _, _ => emit (encodeInt (k = .int) i)
  | .nuint _ _, _, _ => E.fail (.panic "reflect: call of reflect.Value.Int on uint Value")
  | .nf32 u, _, _ => emit (encodeFloat u)
  | .nf64 u, _, _ => emit (encodeDouble u)
  | .nstr s, ik, _ => encodeString cfg s ik
  | .strct name a, _, _ =>
    match rec with
    | none => E.err .maxRecursion
    | some rec => encodeStrct cfg (fun v => rec v false false) name (inp.fieldsAt a)
  | .marshaler cls res under, ik, rn =>
    if cfg.disableFreeze then encodeVal cfg inp rec under ik rn
    else
      match res with
      | .error n => E.err (.user n)
      | .ok data => do
        emit [typeOBJECT_FREEZE]
        encodeString cfg cls true
        emit [typeREFN]
        emit (typeARRAY :: varint 1)
        encodeBytes cfg data false
  | .unsupported, _, _ => E.fail (.panic "no support for type")

/-- `encode` with `remainingDepth = d` (encode.go:200-304). -/
def encode (cfg : ECfg) (inp : Heap) : Nat → Val → (isKeyOrClass isRefNext : Bool) → E Unit
  | 0 => encodeVal cfg inp none
  | 1 => encodeVal cfg inp none
  | d + 2 => encodeVal cfg inp (some (encode cfg inp (d + 1)))

/-- `remainingRecursion` (encode.go:708-714). -/
def remainingRecursion (maxDepth : Int) : Nat :=
  if maxDepth ≤ 0 then 2147483647 else maxDepth.toNat

/-- Run `encode` on a buffer that already contains `pre`, with fresh tables; the bytes added. -/
def encodeAfter (cfg : ECfg) (inp : Heap) (pre : Bytes) (v : Val) : Res Bytes :=
  match encode cfg inp (remainingRecursion cfg.maxRecursionDepth) v false false { buf := pre } with
  | .ok ((), s) => .ok (s.buf.drop pre.length)
  | .error e => .error e

/-- The document type for a compressor and version (encode.go:164-189). -/
def compressionDoctype (version : Nat) (c : Compressor) : Res Nat :=
  match c with
  | .snappy incremental =>
    if version > 1 ∧ ¬ incremental then
      .error (.err (.msg "non-incremental snappy compression only valid for v1 documents"))
    else if version = 1 then .ok serealSnappy
    else .ok serealSnappyIncremental
  | .zlib _ =>
    if version < 3 then .error (.err (.msg "zlib compression only valid for v3 documents and up"))
    else .ok serealZlib
  | .zstd _ => .error (.panic "undefined compression")

/-- The effective version of an Encoder (encode.go:95-97, const.go:4). -/
def ECfg.ver (cfg : ECfg) : Nat := if cfg.version = 0 then 3 else cfg.version

/-- encode.go:101-105. -/
def magicFor (version : Nat) : Bytes :=
  putUint32 (if version < 3 then magicHeaderBytes else magicHeaderBytesHighBit)

/-- The part of the document after the version byte and before the body
(encode.go:110-129): varint length and user header. -/
def headerSuffix (cfg : ECfg) (inp : Heap) (header : Option Val) : Res Bytes :=
  match header with
  | some hv =>
    if cfg.ver ≥ 2 then do
      -- henv = [0x01]: flag byte, counted in the length
      let suf ← encodeAfter cfg inp [1] hv
      .ok (varint (1 + suf.length) ++ 1 :: suf)
    else .ok [0]
  | none => .ok [0]

/-- `MarshalWithHeader` (encode.go:78-195) up to the recover; versions other than 1, 2, 3 cannot be
configured from outside the package (encode.go:25, 38-63). -/
def marshalRaw (cfg : ECfg) (cs : Codecs) (inp : Heap) (header : Option Val) (body : Val) :
    Res Bytes := do
  let version := cfg.ver
  let suffix ← headerSuffix cfg inp header
  let encHeader := fun (doctype : Nat) =>
    magicFor version ++ (UInt8.ofNat version ||| (UInt8.ofNat doctype <<< 4)) :: suffix
  let encBody ← encodeAfter cfg inp (if version = 1 then encHeader serealRaw else [0]) body
  match cfg.compression with
  | some c =>
    if cfg.compressionThreshold = 0 ∨ (encBody.length : Int) ≥ cfg.compressionThreshold then do
      let encBody ← compress cs c encBody
      let doctype ← compressionDoctype version c
      .ok (encHeader doctype ++ encBody)
    else .ok (encHeader serealRaw ++ encBody)
  | none => .ok (encHeader serealRaw ++ encBody)

/-- The deferred recover of MarshalWithHeader (encode.go:79-92). -/
def marshalWithHeader (cfg : ECfg) (cs : Codecs) (inp : Heap) (header : Option Val) (body : Val) :
    Res Bytes :=
  match marshalRaw cfg cs inp header body with
  | .error (.panic s) => .error (.err (.msg s))
  | r => r

/-- `Encoder.Marshal` (encode.go:73-75). -/
def marshal (cfg : ECfg) (cs : Codecs) (inp : Heap) (body : Val) : Res Bytes :=
  marshalWithHeader cfg cs inp none body

end Sereal
