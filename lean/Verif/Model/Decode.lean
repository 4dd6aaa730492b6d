import Verif.Model.Value
import Verif.Model.Header
import Verif.Model.Compress
/-
Decoding into `interface{}`: decode.go:76-685 and the parts of decode.go:687-1204 reached from it.

A Go function that has an error result and mutates the Decoder or the heap becomes a function in
the state-passing monad `D`; the state survives errors, panics and crashes.
What `*ptr` is left holding by a decode function that returns an error is not modelled.
-/
namespace Sereal

/-- The error returned or the panic raised. -/
def Refusal.exn : Refusal → Exn
  | .user n => .err (.user n)
  | .unaddressable => .panic "reflect.Value.Addr of unaddressable value"

/-- Decoder flags (decode.go:83-86) and the registry filled by `RegisterName` (decode.go:1282-1300, see
Model/Registry): for a registered class, what comes of handing it given data (`none` = success). -/
structure DCfg where
  perlCompat : Bool := false
  disableRefInt : Bool := false
  registry : Bytes → Option (Bytes → Option Refusal) := fun _ => none

/-- Mutable state during decoding: the heap and the fields `tracked`, `copyDepth` of Decoder
(decode.go:77-81).  In this model `tracked` only ever holds `*interface{}` values (decode.go:288).
`steps`, `alloc` and `peak` do not exist in the Go code: they count calls of decode /
decodeStringish, and the elements and bytes allocated for containers and strings in total and by the
largest single allocation; no function reads them. -/
structure DState where
  heap : Heap
  tracked : Nat → Option Loc
  copyDepth : Nat
  steps : Nat := 0
  alloc : Nat := 0
  peak : Nat := 0

/-- State-passing computations that may fail. -/
abbrev D (α : Type) := DState → Except Exn α × DState

namespace D
def pure (a : α) : D α := fun s => (.ok a, s)
def bind (x : D α) (f : α → D β) : D β := fun s =>
  match x s with
  | (.ok a, s') => f a s'
  | (.error e, s') => (.error e, s')
instance : Monad D where
  pure := D.pure
  bind := D.bind
/-- Fail. -/
def fail (e : Exn) : D α := fun s => (.error e, s)
/-- Run a state-independent function. -/
def lift (r : Res α) : D α := fun s => (r, s)
/-- `return ..., err`. -/
def err (e : Err) : D α := fail (.err e)
/-- `if c { return ..., e }` (or a panic). -/
def failIf (c : Prop) [Decidable c] (e : Exn) : D Unit := if c then fail e else pure ()
def get : D DState := fun s => (.ok s, s)
def set (s : DState) : D Unit := fun _ => (.ok (), s)
end D

/-- Allocate an object. -/
def allocObj (o : HObj) : D Addr := fun s =>
  (.ok s.heap.next, { s with heap := (s.heap.alloc o).2 })
/-- A fresh variable holding `v` (e.g. `var iface interface{}`; `reflect.New(t)` + `Set`). -/
def allocVar (v : Val) : D Addr := allocObj (.cell v)
/-- `make([]interface{}, n)`. -/
def allocSlice (n : Nat) : D Addr := fun s =>
  (.ok s.heap.next, { s with heap := (s.heap.allocCells n).2 })
/-- `*ptr`. -/
def readLoc (l : Loc) : D Val := fun s => (.ok (s.heap.read l), s)
/-- `*ptr = v`. -/
def writeLoc (l : Loc) (v : Val) : D Unit := fun s =>
  (.ok (), { s with heap := s.heap.write l v })
/-- `hash[key] = value`. -/
def mapSet (m : Addr) (k : Bytes) (v : Val) : D Unit := fun s =>
  (.ok (), { s with heap := s.heap.set m (.mp (mapInsert k v (s.heap.mapAt m))) })
/-- `d.tracked[idx] = ptr`. -/
def track (idx : Nat) (l : Loc) : D Unit := fun s =>
  (.ok (), { s with tracked := fun i => if i = idx then some l else s.tracked i })

/-- Ghost: count one call. -/
def tick : D Unit := fun s => (.ok (), { s with steps := s.steps + 1 })
/-- Ghost: count an allocation of `n` elements or bytes. -/
def charge (n : Nat) : D Unit := fun s =>
  (.ok (), { s with alloc := s.alloc + n, peak := max s.peak n })

/-- `by[idx]` with the bounds check of the Go runtime. -/
def byteAt (buf : Bytes) (idx : Nat) : D UInt8 :=
  match buf[idx]? with
  | some b => pure b
  | none => D.fail (.crash "index out of range")

/-- `by[idx:]` with the bounds check of the Go runtime. -/
def sliceFrom (buf : Bytes) (idx : Nat) : D Bytes :=
  if idx ≤ buf.length then pure (buf.drop idx)
  else D.fail (.crash "slice bounds out of range")

/-- `by[lo:hi]` with the bounds check of the Go runtime (for slices whose capacity equals their
length; reading beyond the length into spare capacity is treated as a crash). -/
def sliceRange (buf : Bytes) (lo hi : Nat) : D Bytes :=
  if lo ≤ hi ∧ hi ≤ buf.length then pure ((buf.drop lo).take (hi - lo))
  else D.fail (.crash "slice bounds out of range")

/-- `varintdecode(by[idx:])`. -/
def varintAt (buf : Bytes) (idx : Nat) : D (Int × Nat) := do
  let t ← sliceFrom buf idx
  D.lift (varintdecode t)

/-- The entry check and padding loop shared by `decode` (decode.go:269-283), `decodeStringish`
(decode.go:594-608) and `decodeViaReflection` (decode.go:691-716): skip PAD bytes, with or without
track flag; running off the buffer is ErrTruncated. Returns the index and value of the tag byte. -/
def skipPad (buf : Bytes) (idx : Nat) : Res (Nat × UInt8) :=
  match h : buf[idx]? with
  | none => .error (.err .truncated)
  | some tag =>
    if tag = typePAD ∨ tag = typePAD ||| trackFlag then skipPad buf (idx + 1)
    else .ok (idx, tag)
termination_by buf.length - idx
decreasing_by
  have := (List.getElem?_eq_some_iff.mp h).1
  omega

/-- `decodeInt` (decode.go:468-473). -/
def decodeInt (tag : UInt8) : Int64 :=
  if tag &&& 0x10 = 0x10 then Int64.ofInt ((tag.toNat : Int) - 32)
  else Int64.ofInt tag.toNat

/-- The value part of `decodeZigzag` (decode.go:482): `int(-(1 + (uint64(i) >> 1)))`. -/
def zigzagValue (i : Int) : Int64 :=
  Int64.ofBitVec (-(1 + (BitVec.ofInt 64 i >>> 1)))

/-- `decodeFloat` (decode.go:485-492): four little-endian bytes. -/
def decodeFloat (buf : Bytes) (idx : Nat) : D (UInt32 × Nat) := do
  D.failIf (idx + 3 ≥ buf.length) (.err .truncated)
  let b0 ← byteAt buf idx
  let b1 ← byteAt buf (idx + 1)
  let b2 ← byteAt buf (idx + 2)
  let b3 ← byteAt buf (idx + 3)
  pure (b0.toUInt32 ||| (b1.toUInt32 <<< 8) ||| (b2.toUInt32 <<< 16) ||| (b3.toUInt32 <<< 24),
        idx + 4)

/-- `decodeDouble` (decode.go:494-501): eight little-endian bytes. -/
def decodeDouble (buf : Bytes) (idx : Nat) : D (UInt64 × Nat) := do
  D.failIf (idx + 7 ≥ buf.length) (.err .truncated)
  let b0 ← byteAt buf idx
  let b1 ← byteAt buf (idx + 1)
  let b2 ← byteAt buf (idx + 2)
  let b3 ← byteAt buf (idx + 3)
  let b4 ← byteAt buf (idx + 4)
  let b5 ← byteAt buf (idx + 5)
  let b6 ← byteAt buf (idx + 6)
  let b7 ← byteAt buf (idx + 7)
  pure (b0.toUInt64 ||| (b1.toUInt64 <<< 8) ||| (b2.toUInt64 <<< 16) ||| (b3.toUInt64 <<< 24) |||
        (b4.toUInt64 <<< 32) ||| (b5.toUInt64 <<< 40) ||| (b6.toUInt64 <<< 48) |||
        (b7.toUInt64 <<< 56), idx + 8)

/-- `decodeBinary` (decode.go:575-590). Copying or not makes no difference here: the model's byte
strings are immutable. -/
def decodeBinary (buf : Bytes) (idx : Nat) (ln : Int) : D (Bytes × Nat) := do
  D.failIf (ln < 0 ∨ ln > maxInt32) (.err (.corrupt .badStringSize))
  D.failIf (idx + ln.toNat > buf.length) (.err .truncated)
  let res ← sliceRange buf idx (idx + ln.toNat)
  charge ln.toNat
  pure (res, idx + ln.toNat)

/-- Run `x` with `copyDepth` incremented: `d.copyDepth++; ...; d.copyDepth--`
(decode.go:411-413, 656-658).  The decrement also happens when `x` returns an error, but not when
`x` panics. -/
def withCopy (x : D α) : D α := fun s =>
  match x { s with copyDepth := s.copyDepth + 1 } with
  | (.ok a, s') => (.ok a, { s' with copyDepth := s'.copyDepth - 1 })
  | (.error (.err e), s') => (.error (.err e), { s' with copyDepth := s'.copyDepth - 1 })
  | (.error e, s') => (.error e, s')

/-- `decodeStringish` (decode.go:593-669). The only recursion is the one for COPY (decode.go:657),
one level deep because of the `copyDepth` check; `f` is recursion fuel. -/
def decodeStringishF (buf : Bytes) : Nat → Nat → D (Bytes × Nat)
  | 0, _ => D.fail .fuel
  | f + 1, idx => do
    tick
    let (idx, tag) ← D.lift (skipPad buf idx)
    let tag := tag &&& ~~~ trackFlag
    let idx := idx + 1
    if tag = typeBINARY ∨ tag = typeSTR_UTF8 then
      let (ln, sz) ← varintAt buf idx
      let idx := idx + sz
      D.failIf (ln < 0 ∨ ln > maxInt32) (.err (.corrupt .badStringSize))
      D.failIf (idx + ln.toNat > buf.length) (.err .truncated)
      let res ← sliceRange buf idx (idx + ln.toNat)
      pure (res, idx + ln.toNat)
    else if typeSHORT_BINARY_0 ≤ tag ∧ tag < typeSHORT_BINARY_0 + 32 then
      let ln := (tag &&& 0x1f).toNat
      D.failIf (idx + ln > buf.length) (.err .truncated)
      let res ← sliceRange buf idx (idx + ln)
      pure (res, idx + ln)
    else if tag = typeCOPY then
      D.failIf ((← D.get).copyDepth > 0) (.err (.corrupt .nestedCOPY))
      let (offs, sz) ← varintAt buf idx
      D.failIf (offs < 0 ∨ offs ≥ idx) (.err (.corrupt .badOffset))
      let (res, _) ← withCopy (decodeStringishF buf f offs.toNat)
      pure (res, idx + sz)
    else D.err (.expectStringish idx tag.toNat)

/-- `decodeStringish`; two levels of fuel always suffice (`decodeStringish_no_fuel`). -/
def decodeStringish (buf : Bytes) (idx : Nat) : D (Bytes × Nat) := decodeStringishF buf 2 idx

/-- `decodeRegexp` (decode.go:671-685). -/
def decodeRegexp (buf : Bytes) (idx : Nat) : D (Bytes × Bytes × Nat) := do
  let (pattern, idx) ← decodeStringish buf idx
  let (modifiers, idx) ← decodeStringish buf idx
  pure (pattern, modifiers, idx)

/-- The loop of `decodeHash` (decode.go:521-535) over `n` remaining pairs. `rec` is `d.decode`. -/
def hashLoop (buf : Bytes) (rec : Nat → Loc → D Nat) (m : Addr) : Nat → Nat → D Nat
  | 0, idx => pure idx
  | n + 1, idx => do
    let (key, idx) ← decodeStringish buf idx
    charge key.length                         -- string(key)
    let a ← allocVar .nil                     -- var value interface{}
    let idx ← rec idx (.cell a)
    let value ← readLoc (.cell a)
    mapSet m key value
    hashLoop buf rec m n idx

/-- `decodeHash` (decode.go:503-538). -/
def decodeHash (buf : Bytes) (rec : Nat → Loc → D Nat) (idx : Nat) (ln : Int) (loc : Loc)
    (isRef : Bool) : D Nat := do
  D.failIf (ln < 0 ∨ ln > maxInt32) (.err (.corrupt .badHashSize))
  D.failIf (idx + 2 * ln.toNat > buf.length) (.err .truncated)
  charge ln.toNat
  let m ← allocObj (.mp [])
  if isRef then
    let a ← allocVar (.smap m)                -- &hash
    writeLoc loc (.ptr false a)
  else writeLoc loc (.smap m)
  hashLoop buf rec m ln.toNat idx

/-- The loop of `decodeArray` (decode.go:565-570): `n` elements left, the next one goes to cell
`a`. -/
def arrayLoop (rec : Nat → Loc → D Nat) : Nat → Addr → Nat → D Nat
  | 0, _, idx => pure idx
  | n + 1, a, idx => do
    let idx ← rec idx (.cell a)
    arrayLoop rec n (a + 1) idx

/-- `decodeArray` (decode.go:540-573). -/
def decodeArray (buf : Bytes) (rec : Nat → Loc → D Nat) (idx : Nat) (ln : Int) (loc : Loc)
    (isRef : Bool) : D Nat := do
  D.failIf (ln < 0 ∨ ln > maxInt32) (.err (.corrupt .badSliceSize))
  D.failIf (idx + ln.toNat > buf.length) (.err .truncated)
  charge (max ln.toNat 1)
  let p ← allocSlice ln.toNat
  if isRef then
    let a ← allocVar (.slice p ln.toNat)      -- &slice
    writeLoc loc (.ptr false a)
  else writeLoc loc (.slice p ln.toNat)
  arrayLoop rec ln.toNat p idx

/-- `decodeREFP_ALIAS` (decode.go:1020-1071) followed by `*ptr = val.Interface()`
(decode.go:434-438).  `tracked` holds `*interface{}` only, so the branch at decode.go:1063-1068 is
not taken. -/
def decodeRefpAlias (cfg : DCfg) (buf : Bytes) (idx : Nat) (isREFP : Bool) (loc : Loc) : D Nat := do
  let (offs, sz) ← varintAt buf idx
  let idx := idx + sz
  D.failIf (offs < 0 ∨ offs ≥ idx) (.err (.corrupt .badOffset))
  match (← D.get).tracked offs.toNat with
  | none =>
    if isREFP then D.err (.corrupt .untrackedOffsetREFP)
    else D.err (.corrupt .untrackedOffsetAlias)
  | some l =>
    let v ← readLoc l
    if isREFP then
      if v = .nil then                        -- rvData is the zero reflect.Value
        D.fail (.panic "reflect: call of method on zero Value")
      else if cfg.disableRefInt then
        writeLoc loc v
        pure idx
      else
        let a ← allocVar v                    -- reflect.New(rvData.Type()); Set(rvData)
        writeLoc loc (.ptr false a)
        pure idx
    else
      writeLoc loc v
      pure idx

/-- `decodeViaReflection` (decode.go:690-706) on an `interface{}` variable that is nil, as called
from decodeObjectViaReflection in the untyped path.  The variable is always nil there; a non-nil
one would take the reflective path, which this function does not model (see
`decode_never_unmodelled`). -/
def decodeIface (buf : Bytes) (rec : Nat → Loc → D Nat) (idx : Nat) (loc : Loc) : D Nat := do
  D.failIf (idx ≥ buf.length) (.err .truncated)
  D.failIf ((← readLoc loc) ≠ .nil) (.panic "unmodelled: non-nil interface target")
  let a ← allocVar .nil
  let idx ← rec idx (.cell a)
  let v ← readLoc (.cell a)
  if v ≠ .nil then writeLoc loc v
  pure idx

/-- The class name of OBJECT / OBJECTV and their FREEZE variants (decode.go:1077-1093,
1110-1131). -/
def decodeClassName (buf : Bytes) (idx : Nat) (isObjectV : Bool) : D (Bytes × Nat) := do
  if isObjectV then
    let (offs, sz) ← varintAt buf idx
    let idx := idx + sz
    D.failIf (offs < 0) (.err .truncated)         -- decodeStringish: idx < 0 (decode.go:594)
    let (cls, _) ← decodeStringish buf offs.toNat
    pure (cls, idx)
  else decodeStringish buf idx

/-- `decodeObjectViaReflection` (decode.go:1073-1105) with `ptr` an `interface{}` variable. -/
def decodeObject (cfg : DCfg) (buf : Bytes) (rec : Nat → Loc → D Nat) (idx : Nat) (loc : Loc)
    (isObjectV : Bool) : D Nat := do
  let (className, idx) ← decodeClassName buf idx isObjectV
  if cfg.perlCompat then
    charge className.length                   -- string(className)
    let a ← allocVar (.obj className .nil)    -- pobj
    writeLoc loc (.ptr false a)
    rec idx (.field a)
  else decodeIface buf rec idx loc

/-- `decodeObjectFreezeViaReflection` (decode.go:1106-1204) with `ptr` an `interface{}` variable. -/
def decodeFreeze (cfg : DCfg) (buf : Bytes) (rec : Nat → Loc → D Nat) (idx : Nat) (loc : Loc)
    (isObjectV : Bool) : D Nat := do
  let (className, idx) ← decodeClassName buf idx isObjectV
  D.failIf (idx + 1 ≥ buf.length) (.err .truncated)
  let t0 ← byteAt buf idx
  let t1 ← byteAt buf (idx + 1)
  D.failIf (t0 ≠ typeREFN ∨ t1 ≠ typeARRAY) (.err (.corrupt .freezeNotRefnArray))
  let a ← allocVar .nil                       -- var iface interface{}
  let idx ← rec idx (.cell a)
  match ← readLoc (.cell a) with
  | .slice p n =>
    D.failIf (n ≠ 1) (.err (.corrupt .freezeMultipleElts))
    match ← readLoc (.cell p) with
    | .bin classData =>
      charge className.length                 -- string(className)
      if cfg.perlCompat then
        let o ← allocVar (.frozen className classData)
        writeLoc loc (.ptr false o)
        pure idx
      else
        D.failIf ((← readLoc loc) ≠ .nil) (.panic "unmodelled: non-nil interface target")
        match cfg.registry className with
        | some unmarshalBinary =>
          match unmarshalBinary classData with
          | some r => D.fail r.exn
          | none =>
            let o ← allocVar (.thawed className classData)
            writeLoc loc (.ptr false o)
            pure idx
        | none =>
          let o ← allocVar (.frozen className classData)
          writeLoc loc (.ptr false o)
          pure idx
    | _ => D.err (.corrupt .freezeNotByteSlice)
  | _ => D.err (.corrupt .freezeNotArray)

/-- The REFN case of `decode` (decode.go:415-432). -/
def decodeRefn (cfg : DCfg) (rec : Nat → Loc → D Nat) (trackme : Bool) (idx : Nat) (loc : Loc) :
    D Nat := do
  if cfg.perlCompat then
    let a ← allocVar .nil                     -- var iface interface{}
    writeLoc loc (.ptr true a)                -- *ptr = &iface
    let idx ← rec idx (.cell a)
    if trackme then pure idx
    else
      let v ← readLoc (.cell a)
      if v = .nil then D.fail (.panic "reflect: call of reflect.Value.Type on zero Value")
      else
        let b ← allocVar v                    -- reflect.New(riface.Type()); Elem().Set(riface)
        writeLoc loc (.ptr false b)
        pure idx
  else rec idx loc

/-- The `switch` of `decode` (decode.go:295-462). `tag` has its track flag removed, `idx` is the
index after the tag byte, `rec` is `d.decode`. -/
def decodeTag (cfg : DCfg) (buf : Bytes) (rec : Nat → Loc → D Nat) (tag : UInt8) (trackme : Bool)
    (idx : Nat) (loc : Loc) : D Nat := do
  if tag < typeVARINT then
    writeLoc loc (.int .int (decodeInt tag))
    pure idx
  else if tag = typeVARINT then
    let (val, sz) ← varintAt buf idx
    if val < 0 then writeLoc loc (.uint .uint (UInt64.ofBitVec (BitVec.ofInt 64 val)))
    else writeLoc loc (.int .int (Int64.ofInt val))
    pure (idx + sz)
  else if tag = typeZIGZAG then
    let (i, sz) ← varintAt buf idx
    writeLoc loc (.int .int (zigzagValue i))
    pure (idx + sz)
  else if tag = typeFLOAT then
    let (f, idx) ← decodeFloat buf idx
    writeLoc loc (.f32 f)
    pure idx
  else if tag = typeDOUBLE then
    let (f, idx) ← decodeDouble buf idx
    writeLoc loc (.f64 f)
    pure idx
  else if tag = typeTRUE then
    writeLoc loc (.bool true)
    pure idx
  else if tag = typeFALSE then
    writeLoc loc (.bool false)
    pure idx
  else if tag = typeHASH then
    let (ln, sz) ← varintAt buf idx
    decodeHash buf rec (idx + sz) ln loc false
  else if typeHASHREF_0 ≤ tag ∧ tag < typeHASHREF_0 + 16 then
    decodeHash buf rec idx (tag &&& 0x0f).toNat loc cfg.perlCompat
  else if tag = typeARRAY then
    let (ln, sz) ← varintAt buf idx
    decodeArray buf rec (idx + sz) ln loc false
  else if typeARRAYREF_0 ≤ tag ∧ tag < typeARRAYREF_0 + 16 then
    decodeArray buf rec idx (tag &&& 0x0f).toNat loc cfg.perlCompat
  else if tag = typeSTR_UTF8 then
    let (ln, sz) ← varintAt buf idx
    let (val, idx) ← decodeBinary buf (idx + sz) ln
    writeLoc loc (.str val)
    pure idx
  else if tag = typeBINARY then
    let (ln, sz) ← varintAt buf idx
    let (val, idx) ← decodeBinary buf (idx + sz) ln
    writeLoc loc (.bin val)
    pure idx
  else if typeSHORT_BINARY_0 ≤ tag ∧ tag < typeSHORT_BINARY_0 + 32 then
    let (val, idx) ← decodeBinary buf idx (tag &&& 0x1f).toNat
    writeLoc loc (.bin val)
    pure idx
  else if tag = typeUNDEF ∨ tag = typeCANONICAL_UNDEF then
    if cfg.perlCompat ∧ tag = typeCANONICAL_UNDEF then
      writeLoc loc (.ptr false canonicalUndefAddr)
    else if cfg.perlCompat then
      let a ← allocVar (.undef false)         -- &PerlUndef{}
      writeLoc loc (.ptr false a)
    else writeLoc loc .nil
    pure idx
  else if tag = typeCOPY then
    D.failIf ((← D.get).copyDepth > 0) (.err (.corrupt .nestedCOPY))
    let (offs, sz) ← varintAt buf idx
    D.failIf (offs < 0 ∨ offs ≥ idx) (.err (.corrupt .badOffset))
    let _ ← withCopy (rec offs.toNat loc)
    pure (idx + sz)
  else if tag = typeREFN then
    decodeRefn cfg rec trackme idx loc
  else if tag = typeREFP ∨ tag = typeALIAS then
    decodeRefpAlias cfg buf idx (tag = typeREFP) loc
  else if tag = typeWEAKEN then
    if cfg.perlCompat then
      let a ← allocVar (.weak .nil)           -- pweak
      writeLoc loc (.ptr false a)
      rec idx (.field a)
    else rec idx loc
  else if tag = typeREGEXP then
    let (pattern, modifiers, idx) ← decodeRegexp buf idx
    let a ← allocVar (.regexp pattern modifiers)
    writeLoc loc (.ptr false a)
    pure idx
  else if tag = typeOBJECT ∨ tag = typeOBJECTV then
    decodeObject cfg buf rec idx loc (tag = typeOBJECTV)
  else if tag = typeOBJECT_FREEZE ∨ tag = typeOBJECTV_FREEZE then
    decodeFreeze cfg buf rec idx loc (tag = typeOBJECTV_FREEZE)
  else D.err (.unknownTag tag.toNat)

/-- `decode` (decode.go:268-466). -/
def decode (cfg : DCfg) (buf : Bytes) : Nat → Nat → Loc → D Nat
  | 0, _, _ => D.fail .fuel
  | f + 1, idx, loc => do
    tick
    let (idx, tag) ← D.lift (skipPad buf idx)
    let trackme : Bool := tag &&& trackFlag = trackFlag
    if trackme then track idx loc
    decodeTag cfg buf (decode cfg buf f) (tag &&& ~~~ trackFlag) trackme (idx + 1) loc

/-- Recursion depth that is always enough for a buffer of `n` bytes (`decode_no_fuel`). -/
def fuelFor (n : Nat) : Nat := 2 * n + 4

/-- A fresh `d.tracked` for one decode call, dropped again afterwards on every exit path
(decode.go:205-206, 238-239). -/
def withTracked (x : D α) : D α := fun s =>
  match x { s with tracked := fun _ => none } with
  | (r, s') => (r, { s' with tracked := fun _ => none })

/-- The part of `UnmarshalHeaderBody` between the header checks and the recover
(decode.go:188-263), with `vheader` and `vbody` either nil or pointers to nil `interface{}`
variables. -/
def unmarshalRaw (cfg : DCfg) (cs : Codecs) (b : Bytes) (vheader vbody : Option Loc) : D Unit := do
  let header ← D.lift (checkHeader b)
  let decomp ← D.lift (documentDecompressor header.version header.doctype)
  let bodyStart := wrapInt (headerSize + header.suffixSize)
  D.failIf (bodyStart > b.length ∨ bodyStart < 0) (.err (.corrupt .badOffset))
  let bodyStart := bodyStart.toNat
  match vheader with
  | some ptr =>
    if header.suffixSize ≠ 1 then
      let suffixFlags ← byteAt b header.suffixStart
      if suffixFlags &&& 1 = 1 then
        let by_ ← sliceRange b 0 bodyStart
        let _ ← withTracked (decode cfg by_ (fuelFor by_.length) (header.suffixStart + 1) ptr)
  | none => pure ()
  match vbody with
  | some ptr =>
    let b ← match decomp with
      | some c => do
        let decompBody ← D.lift (decompress cs c (← sliceFrom b bodyStart))
        let head ← sliceRange b 0 bodyStart
        pure (head ++ decompBody)
      | none => pure b
    if header.version = 1 then
      let _ ← withTracked (decode cfg b (fuelFor b.length) bodyStart ptr)
    else
      D.failIf (bodyStart = 0) (.crash "slice bounds out of range")   -- b[-1:]
      let by_ ← sliceFrom b (bodyStart - 1)
      let _ ← withTracked (decode cfg by_ (fuelFor by_.length) 1 ptr)
  | none => pure ()

/-- The deferred recover of the API functions (decode.go:173-186): panics become errors, runtime
errors are re-raised. -/
def recovered (r : Except Exn α) : Except Exn α :=
  match r with
  | .error (.panic s) => .error (.err (.msg s))
  | r => r

/-- `UnmarshalHeaderBody` (decode.go:172-263). -/
def unmarshalHeaderBody (cfg : DCfg) (cs : Codecs) (b : Bytes) (vheader vbody : Option Loc) :
    D Unit := fun s =>
  let (r, s') := unmarshalRaw cfg cs b vheader vbody s
  (recovered r, s')

/-- A new Decoder (decode.go:94-96) and the heap of a program that has allocated nothing but one
`interface{}` variable, at address 1. -/
def DState.init : DState :=
  { heap := (Heap.init.alloc (.cell .nil)).2
    tracked := fun _ => none
    copyDepth := 0 }

/-- `var v interface{}; err := decoder.Unmarshal(b, &v)` (decode.go:110-112) on a new Decoder:
the heap and `v`, or the failure. -/
def unmarshal (cfg : DCfg) (cs : Codecs) (b : Bytes) : Res (Heap × Val) :=
  match unmarshalHeaderBody cfg cs b none (some (.cell 1)) DState.init with
  | (.ok (), s) => .ok (s.heap, s.heap.cellAt 1)
  | (.error e, _) => .error e

/-- `var v interface{}; err := decoder.UnmarshalHeader(b, &v)` (decode.go:105-107). -/
def unmarshalHeader (cfg : DCfg) (cs : Codecs) (b : Bytes) : Res (Heap × Val) :=
  match unmarshalHeaderBody cfg cs b (some (.cell 1)) none DState.init with
  | (.ok (), s) => .ok (s.heap, s.heap.cellAt 1)
  | (.error e, _) => .error e

/-- As DState.init, with two `interface{}` variables, at addresses 1 and 2. -/
def DState.init2 : DState :=
  { DState.init with heap := (DState.init.heap.alloc (.cell .nil)).2 }

/-- `var h, v interface{}; err := decoder.UnmarshalHeaderBody(b, &h, &v)` (decode.go:172-263) on a new
Decoder: the heap, `h` and `v`, or the failure. -/
def unmarshalBoth (cfg : DCfg) (cs : Codecs) (b : Bytes) : Res (Heap × Val × Val) :=
  match unmarshalHeaderBody cfg cs b (some (.cell 1)) (some (.cell 2)) DState.init2 with
  | (.ok (), s) => .ok (s.heap, s.heap.cellAt 1, s.heap.cellAt 2)
  | (.error e, _) => .error e

end Sereal
