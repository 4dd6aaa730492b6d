import Verif.Model.Decode
/-
Decoding into a variable of some other type than `interface{}`: decode.go:690-1045, 1073-1238, 1260-1277.

The variable's type is a `Ty`, its contents a `TVal`.  A decode function takes the contents of its
target and returns the new contents, so two variables never share memory in this model: what the target
points at is assumed not to be shared, and REFP and ALIAS in the place of a typed item stop the model
with a panic ("unmodelled: ..."), after the checks of the Go code.  What the target is left holding by
a decode function that returns an error is not modelled.
Not modelled: targets of types the package declares (PerlUndef, ...), non-empty interface types, maps
with keys of another type than string, slices of a named byte type, and pointers to what
UnmarshalBinary belongs to by another way than a pointer receiver.
-/
namespace Sereal

/-- Go types as far as `reflect` tells them apart here. -/
inductive Ty
  | bool
  | int (k : IntK)
  | uint (k : UintK)
  | f32 | f64
  | str
  | iface                                -- interface{}
  | slice (e : Ty)
  | arr (n : Nat) (e : Ty)
  | map (e : Ty)                         -- map[string]e
  | ptr (e : Ty)
  | strct (id : Nat)                     -- a struct type, by its number
  | other                                -- chan, func, complex, uintptr, ...
  deriving DecidableEq, Repr

/-- The contents of a variable.  `zero` is the zero value of any type (so also a nil slice, map, pointer or
interface); other values of a type may contain it too.  -/
inductive TVal
  | zero
  | bool (b : Bool)
  | int (i : Int64)
  | uint (n : UInt64)
  | f32 (bits : UInt32)
  | f64 (bits : UInt64)
  | str (s : Bytes)
  | iface (v : Val)                      -- non-nil interface
  | slice (vs : List TVal)               -- non-nil slice
  | multi (vs : List TVal)               -- elements of an array, fields of a struct
  | map (kvs : List (Bytes × TVal))      -- non-nil map
  | ptr (v : TVal)                       -- non-nil pointer
  | opaque (data : Bytes)                -- what UnmarshalBinary(data) has left

/-- A field of a struct type (tagscache.go:26-41). -/
structure TField where
  name : Bytes
  tag : Bytes
  exported : Bool
  ty : Ty

/-- A struct type: its fields, and what UnmarshalBinary (of a pointer to it) answers if there is such a
method. -/
structure STy where
  fields : List TField
  unmarshal : Option (Bytes → Option Nat) := none

/-- What decoding into typed variables depends on beside `DCfg`: the struct types, and three functions of the
Go runtime and library: `strings.Title`, and the conversions between float32 and float64. -/
structure TCfg where
  types : Nat → STy := fun _ => ⟨[], none⟩
  title : Bytes → Bytes := id
  widen : UInt32 → UInt64
  narrow : UInt64 → UInt32

/-- How a reflect.Value may be used: fully; not assignable because it has no address (the result of
MapIndex); not at all because it was obtained from an unexported field. -/
inductive Acc | rw | noaddr | ro
  deriving DecidableEq

/-- What is inside a struct or array. -/
def Acc.inner (a : Acc) : Acc := a
/-- What a pointer or slice leads to. -/
def Acc.behind : Acc → Acc
  | .ro => .ro
  | _ => .rw
/-- A field of a struct. -/
def Acc.field (a : Acc) (exported : Bool) : Acc := if exported then a else .ro

/-- Bits of the kinds of integers. -/
def IntK.bits : IntK → Nat
  | .int => 64 | .int8 => 8 | .int16 => 16 | .int32 => 32 | .int64 => 64
def UintK.bits : UintK → Nat
  | .uint => 64 | .uint8 => 8 | .uint16 => 16 | .uint32 => 32 | .uint64 => 64

/-- `int8(x)` and the like. -/
def IntK.conv (k : IntK) (x : Int64) : Int64 := Int64.ofInt (x.toInt.bmod (2 ^ k.bits))
/-- `uint8(x)` and the like. -/
def UintK.conv (k : UintK) (x : UInt64) : UInt64 := UInt64.ofNat (x.toNat % 2 ^ k.bits)

/-- Is it the zero value as made by `var x T`? -/
def TVal.isZero : TVal → Bool
  | .zero => true
  | _ => false

/-- The elements of a slice. -/
def TVal.elems : TVal → List TVal
  | .slice vs => vs
  | _ => []

/-- The parts of an array or struct with `n` of them. -/
def TVal.parts (n : Nat) : TVal → List TVal
  | .multi vs => vs
  | _ => List.replicate n .zero

/-- The contents of a map. -/
def TVal.entries : TVal → List (Bytes × TVal)
  | .map kvs => kvs
  | _ => []

/-- What a pointer points at; a new variable if it is nil. -/
def TVal.pointee : TVal → TVal
  | .ptr v => v
  | _ => .zero

/-- `reflect.Value.Set` and its variants: panics unless the value is assignable. -/
def assign (acc : Acc) (v : TVal) : D TVal :=
  if acc = .rw then pure v else D.fail (.panic "reflect: using unaddressable value or unexported field")

/-- `if need { ptr.Set(reflect.Make...) }`. -/
def orMake (acc : Acc) (need : Bool) (new cur : TVal) : D TVal := if need then assign acc new else pure cur

/-- `setInt` (decode.go:1206-1217). -/
def setInt (ty : Ty) (acc : Acc) (i : Int64) : D TVal :=
  match ty with
  | .int k => assign acc (.int (k.conv i))
  | .uint k => assign acc (.uint (k.conv i.toUInt64))
  | _ => D.fail (.panic "reflect: call of sereal.setInt on another kind")

/-- `reflect.Value.SetFloat` with a float64. -/
def setFloat (tc : TCfg) (ty : Ty) (acc : Acc) (u : UInt64) : D TVal :=
  match ty with
  | .f32 => assign acc (.f32 (tc.narrow u))
  | .f64 => assign acc (.f64 u)
  | _ => D.fail (.panic "reflect: call of reflect.Value.SetFloat on another kind")

/-- `reflect.Value.SetBool`. -/
def setBool (ty : Ty) (acc : Acc) (b : Bool) : D TVal :=
  match ty with
  | .bool => assign acc (.bool b)
  | _ => D.fail (.panic "reflect: call of reflect.Value.SetBool on another kind")

/-- `reflect.Value.SetString`. -/
def setString (ty : Ty) (acc : Acc) (s : Bytes) : D TVal :=
  match ty with
  | .str => assign acc (.str s)
  | _ => D.fail (.panic "reflect: call of reflect.Value.SetString on another kind")

/-- A byte as contents of a variable of type byte. -/
def TVal.ofByte (b : UInt8) : TVal := .uint b.toUInt64

/-- `reflect.Copy` of bytes: as many as fit. -/
def overlay : List TVal → Bytes → List TVal
  | _ :: vs, b :: bs => .ofByte b :: overlay vs bs
  | vs, _ => vs

/-- `setBinary` (decode.go:1219-1238). -/
def setBinary (ty : Ty) (acc : Acc) (cur : TVal) (s : Bytes) : D TVal :=
  match ty with
  | .slice (.uint .uint8) =>
    if cur.isZero then assign acc (.slice (s.map .ofByte))
    else if acc = .ro then D.fail (.panic "reflect: using unexported field")
    else pure (.slice (overlay cur.elems s))
  | .slice _ => D.fail (.panic "reflect.Copy: types do not match")
  | .arr n (.uint .uint8) => assign acc (.multi (overlay (cur.parts n) s))
  | .arr _ _ => D.fail (.panic "reflect.Copy: types do not match")
  | .str => assign acc (.str s)
  | _ => D.fail (.panic "reflect: call of sereal.setBinary on another kind")

/-- `var iface interface{}; idx, err = d.decode(by, idx, &iface)` (decode.go:699-701, 919-920, 1004-1005, 1141-1142). -/
def decodeFresh (cfg : DCfg) (buf : Bytes) (idx : Nat) : D (Nat × Val) := do
  let a ← allocVar .nil
  let idx ← decode cfg buf (fuelFor buf.length) idx (.cell a)
  let v ← readLoc (.cell a)
  pure (idx, v)

/-- `d.tracked[idx] = ptr` for a typed target (decode.go:718-721).  For items decoded into `interface{}` that
refer to it, the target is some value outside the model. -/
def trackTyped (idx : Nat) : D Unit := do
  let a ← allocVar .unsupported
  track idx (.cell a)

/-- The recursive call of decodeViaReflection. -/
abbrev Rec := Nat → Ty → TVal → Acc → D (Nat × TVal)

/-- The loop of decodeArrayViaReflection (decode.go:911-926): `n` elements left, the variables for them. -/
def elemsLoop (cfg : DCfg) (buf : Bytes) (rec : Rec) (e : Ty) (acc : Acc) : Nat → List TVal → Nat →
    D (Nat × List TVal)
  | 0, vs, idx => pure (idx, vs)
  | n + 1, [], idx => do
    let (idx, _) ← decodeFresh cfg buf idx
    elemsLoop cfg buf rec e acc n [] idx
  | n + 1, v :: vs, idx => do
    let (idx, v) ← rec idx e v acc
    let (idx, vs) ← elemsLoop cfg buf rec e acc n vs idx
    pure (idx, v :: vs)

/-- `decodeArrayViaReflection` (decode.go:889-929). -/
def arrayTyped (cfg : DCfg) (buf : Bytes) (rec : Rec) (idx : Nat) (ln : Int) (ty : Ty) (cur : TVal) (acc : Acc) :
    D (Nat × TVal) := do
  D.failIf (ln < 0 ∨ ln > maxInt32) (.err (.corrupt .badSliceSize))
  D.failIf (idx + ln.toNat > buf.length) (.err .truncated)
  match ty with
  | .slice e =>
    -- IsNil() || Len() == 0
    let cur ← orMake acc cur.elems.isEmpty (.slice (List.replicate ln.toNat .zero)) cur
    let (idx, vs) ← elemsLoop cfg buf rec e acc.behind ln.toNat cur.elems idx
    pure (idx, .slice vs)
  | .arr n e =>
    let (idx, vs) ← elemsLoop cfg buf rec e acc.inner ln.toNat (cur.parts n) idx
    pure (idx, .multi vs)
  | _ => D.err (.msg "reflect: call of sereal.decodeArrayViaReflection on another kind")

/-- The loop of decodeHashViaReflection for a map (decode.go:946-972). -/
def entriesLoop (buf : Bytes) (rec : Rec) (e : Ty) (acc : Acc) : Nat → List (Bytes × TVal) → Nat →
    D (Nat × List (Bytes × TVal))
  | 0, kvs, idx => pure (idx, kvs)
  | n + 1, kvs, idx => do
    let (key, idx) ← decodeStringish buf idx
    match mapLookup key kvs with
    | some v =>
      let (idx, v) ← rec idx e v (if acc = .ro then .ro else .noaddr)
      entriesLoop buf rec e acc n (mapInsert key v kvs) idx
    | none =>
      let (idx, v) ← rec idx e .zero .rw
      D.failIf (acc = .ro) (.panic "reflect: using unexported field")
      entriesLoop buf rec e acc n (mapInsert key v kvs) idx

/-- `tagsCache.Get` (tagscache.go:10-51): from names to numbers of fields.  (`structTags` is the same for the
encoder, with the fields' values.) -/
def fieldIndex : List TField → Nat → List (Bytes × Nat) → List (Bytes × Nat)
  | [], _, m => m
  | f :: rest, i, m =>
    if f.tag = [45] then fieldIndex rest (i + 1) m                 -- "-"
    else if f.tag = [] then
      if !f.exported then fieldIndex rest (i + 1) m
      else fieldIndex rest (i + 1) (mapInsert f.name i m)
    else fieldIndex rest (i + 1) (mapInsert f.tag i m)

/-- The field a key belongs to (decode.go:991-1000). -/
def findField (tc : TCfg) (fs : List TField) (key : Bytes) : Option Nat :=
  match mapLookup key (fieldIndex fs 0 []) with
  | some i => some i
  | none => mapLookup (tc.title key) (fieldIndex fs 0 [])

/-- The loop of decodeHashViaReflection for a struct (decode.go:983-1011). -/
def fieldsLoop (cfg : DCfg) (tc : TCfg) (buf : Bytes) (rec : Rec) (fs : List TField) (acc : Acc) : Nat → List TVal →
    Nat → D (Nat × List TVal)
  | 0, vs, idx => pure (idx, vs)
  | n + 1, vs, idx => do
    let (key, idx) ← decodeStringish buf idx
    match findField tc fs key with
    | some i =>
      match fs[i]? with
      | some f =>
        let (idx, v) ← rec idx f.ty (vs.getD i .zero) (acc.field f.exported)
        fieldsLoop cfg tc buf rec fs acc n (vs.set i v) idx
      | none => D.fail (.panic "reflect: Field index out of range")
    | none =>
      let (idx, _) ← decodeFresh cfg buf idx
      fieldsLoop cfg tc buf rec fs acc n vs idx

/-- `decodeHashViaReflection` (decode.go:931-1018) after the checks of the size. -/
def hashTyped (cfg : DCfg) (tc : TCfg) (buf : Bytes) (rec : Rec) (idx n : Nat) : Ty → TVal → Acc → D (Nat × TVal)
  | .map e, cur, acc => do
    let cur ← orMake acc cur.isZero (.map []) cur
    let (idx, kvs) ← entriesLoop buf rec e acc n cur.entries idx
    pure (idx, .map kvs)
  | .ptr e, cur, acc => do
    let cur ← orMake acc cur.isZero (.ptr .zero) cur
    let (idx, v) ← hashTyped cfg tc buf rec idx n e cur.pointee acc.behind
    pure (idx, .ptr v)
  | .strct id, cur, acc => do
    let fs := (tc.types id).fields
    let (idx, vs) ← fieldsLoop cfg tc buf rec fs acc n (cur.parts fs.length) idx
    pure (idx, .multi vs)
  | _, _, _ => D.err (.msg "reflect: call of sereal.decodeHashViaReflection on another kind")

/-- The checks at the beginning of decodeHashViaReflection (decode.go:932-938), which the recursive call for
pointers repeats with the same outcome. -/
def checkHash (buf : Bytes) (idx : Nat) (ln : Int) : D Unit := do
  D.failIf (ln < 0 ∨ ln > maxInt32) (.err (.corrupt .badHashSize))
  D.failIf (idx + 2 * ln.toNat > buf.length) (.err .truncated)

/-- `ptr.Set(reflect.ValueOf(x))` with a pointer to one of the package's types: only `interface{}` takes it. -/
def setPerl (ty : Ty) (acc : Acc) (v : Val) : D TVal :=
  match ty with
  | .iface => assign acc (.iface v)
  | _ => D.fail (.panic "reflect.Set: value is not assignable")

/-- The UNDEF case (decode.go:817-828). -/
def undefTyped (cfg : DCfg) (canonical : Bool) (ty : Ty) (cur : TVal) (acc : Acc) : D TVal := do
  if cfg.perlCompat ∧ canonical then setPerl ty acc (.ptr false canonicalUndefAddr)
  else if cfg.perlCompat then
    let a ← allocVar (.undef false)
    setPerl ty acc (.ptr false a)
  else
    match ty with
    | .ptr _ | .map _ | .slice _ => assign acc .zero
    | _ => pure cur

/-- decodeREFP_ALIAS (decode.go:1020-1045) for a typed target; what follows is not modelled. -/
def refpTyped (buf : Bytes) (idx : Nat) (isREFP : Bool) : D (Nat × TVal) := do
  let (offs, sz) ← varintAt buf idx
  let idx := idx + sz
  D.failIf (offs < 0 ∨ offs ≥ idx) (.err (.corrupt .badOffset))
  match (← D.get).tracked offs.toNat with
  | none =>
    if isREFP then D.err (.corrupt .untrackedOffsetREFP)
    else D.err (.corrupt .untrackedOffsetAlias)
  | some _ => D.fail (.panic "unmodelled: reference in the place of a typed item")

/-- `findUnmarshaler(ptr)` and the call of UnmarshalBinary (decode.go:1165-1169, 1260-1277): `none` if there is
no such method. -/
def unmarshalBinary (tc : TCfg) : Ty → TVal → Acc → Bytes → D (Option TVal)
  | .strct id, _, acc, data =>
    if acc ≠ .rw then D.fail (.panic "reflect: using unaddressable value or unexported field")
    else
      match (tc.types id).unmarshal with
      | none => pure none
      | some f =>
        match f data with
        | some n => D.err (.user n)
        | none => pure (some (.opaque data))
  | .ptr (.strct id), cur, acc, data =>
    if acc = .ro ∨ (cur.isZero ∧ acc ≠ .rw) then
      D.fail (.panic "reflect: using unaddressable value or unexported field")
    else
      match (tc.types id).unmarshal with
      | none =>
        if acc ≠ .rw then D.fail (.panic "reflect: using unaddressable value") else pure none
      | some f =>
        match f data with
        | some n => D.err (.user n)
        | none => pure (some (.ptr (.opaque data)))
  | .iface, _, _, _ => D.fail (.panic "unmodelled: FREEZE into a non-nil interface")
  | _, _, acc, _ =>
    if acc ≠ .rw then D.fail (.panic "reflect: using unaddressable value or unexported field") else pure none

/-- `decodeObjectFreezeViaReflection` (decode.go:1106-1204) for a typed target. -/
def freezeTyped (cfg : DCfg) (tc : TCfg) (buf : Bytes) (idx : Nat) (ty : Ty) (cur : TVal) (acc : Acc)
    (isObjectV : Bool) : D (Nat × TVal) := do
  let (className, idx) ← decodeClassName buf idx isObjectV
  D.failIf (idx + 1 ≥ buf.length) (.err .truncated)
  let t0 ← byteAt buf idx
  let t1 ← byteAt buf (idx + 1)
  D.failIf (t0 ≠ typeREFN ∨ t1 ≠ typeARRAY) (.err (.corrupt .freezeNotRefnArray))
  let (idx, v) ← decodeFresh cfg buf idx
  match v with
  | .slice p n =>
    D.failIf (n ≠ 1) (.err (.corrupt .freezeMultipleElts))
    match ← readLoc (.cell p) with
    | .bin classData =>
      if cfg.perlCompat then
        let o ← allocVar (.frozen className classData)
        let v ← setPerl ty acc (.ptr false o)
        pure (idx, v)
      else
        match ← unmarshalBinary tc ty cur acc classData with
        | some v => pure (idx, v)
        | none =>
          if ty = .slice (.uint .uint8) ∧ cur.isZero then
            let v ← assign acc (.slice (classData.map .ofByte))
            pure (idx, v)
          else D.err (.msg "can't unpack FROZEN object")
    | _ => D.err (.corrupt .freezeNotByteSlice)
  | _ => D.err (.corrupt .freezeNotArray)

/-- The `switch` of decodeViaReflection (decode.go:726-886). -/
def tagTyped (cfg : DCfg) (tc : TCfg) (buf : Bytes) (rec : Rec) (tag : UInt8) (idx : Nat) (ty : Ty) (cur : TVal)
    (acc : Acc) : D (Nat × TVal) := do
  if tag < typeVARINT then
    let v ← setInt ty acc (decodeInt tag)
    pure (idx, v)
  else if tag = typeVARINT then
    let (val, sz) ← varintAt buf idx
    let v ← setInt ty acc (Int64.ofInt val)
    pure (idx + sz, v)
  else if tag = typeZIGZAG then
    let (i, sz) ← varintAt buf idx
    let v ← setInt ty acc (zigzagValue i)
    pure (idx + sz, v)
  else if tag = typeFLOAT then
    let (f, idx) ← decodeFloat buf idx
    let v ← setFloat tc ty acc (tc.widen f)
    pure (idx, v)
  else if tag = typeDOUBLE then
    let (f, idx) ← decodeDouble buf idx
    let v ← setFloat tc ty acc f
    pure (idx, v)
  else if tag = typeTRUE ∨ tag = typeFALSE then
    let v ← setBool ty acc (tag = typeTRUE)
    pure (idx, v)
  else if tag = typeBINARY then
    let (ln, sz) ← varintAt buf idx
    let (val, idx) ← decodeBinary buf (idx + sz) ln
    let v ← setBinary ty acc cur val
    pure (idx, v)
  else if typeSHORT_BINARY_0 ≤ tag ∧ tag < typeSHORT_BINARY_0 + 32 then
    let (val, idx) ← decodeBinary buf idx (tag &&& 0x1f).toNat
    let v ← setBinary ty acc cur val
    pure (idx, v)
  else if tag = typeSTR_UTF8 then
    let (ln, sz) ← varintAt buf idx
    let (val, idx) ← decodeBinary buf (idx + sz) ln
    let v ← setString ty acc val
    pure (idx, v)
  else if tag = typeHASH then
    let (ln, sz) ← varintAt buf idx
    checkHash buf (idx + sz) ln
    hashTyped cfg tc buf rec (idx + sz) ln.toNat ty cur acc
  else if typeHASHREF_0 ≤ tag ∧ tag < typeHASHREF_0 + 16 then
    checkHash buf idx (tag &&& 0x0f).toNat
    hashTyped cfg tc buf rec idx (tag &&& 0x0f).toNat ty cur acc
  else if tag = typeARRAY then
    let (ln, sz) ← varintAt buf idx
    arrayTyped cfg buf rec (idx + sz) ln ty cur acc
  else if typeARRAYREF_0 ≤ tag ∧ tag < typeARRAYREF_0 + 16 then
    arrayTyped cfg buf rec idx (tag &&& 0x0f).toNat ty cur acc
  else if tag = typeUNDEF ∨ tag = typeCANONICAL_UNDEF then
    let v ← undefTyped cfg (tag = typeCANONICAL_UNDEF) ty cur acc
    pure (idx, v)
  else if tag = typeCOPY then
    D.failIf ((← D.get).copyDepth > 0) (.err (.corrupt .nestedCOPY))
    let (offs, sz) ← varintAt buf idx
    D.failIf (offs < 0 ∨ offs ≥ idx) (.err (.corrupt .badOffset))
    let (_, v) ← withCopy (rec offs.toNat ty cur acc)
    pure (idx + sz, v)
  else if tag = typeREFN then
    rec idx ty cur acc
  else if tag = typeREFP ∨ tag = typeALIAS then
    refpTyped buf idx (tag = typeREFP)
  else if tag = typeWEAKEN then
    if cfg.perlCompat then
      let a ← allocVar (.weak .nil)           -- pweak
      let v ← setPerl ty acc (.ptr false a)
      let idx ← decode cfg buf (fuelFor buf.length) idx (.field a)
      pure (idx, v)
    else rec idx ty cur acc
  else if tag = typeREGEXP then
    let (pattern, modifiers, idx) ← decodeRegexp buf idx
    let a ← allocVar (.regexp pattern modifiers)
    let v ← setPerl ty acc (.ptr false a)
    pure (idx, v)
  else if tag = typeOBJECT ∨ tag = typeOBJECTV then
    let (className, idx) ← decodeClassName buf idx (tag = typeOBJECTV)
    if cfg.perlCompat then
      let a ← allocVar (.obj className .nil)  -- pobj
      let v ← setPerl ty acc (.ptr false a)
      let idx ← decode cfg buf (fuelFor buf.length) idx (.field a)
      pure (idx, v)
    else rec idx ty cur acc
  else if tag = typeOBJECT_FREEZE ∨ tag = typeOBJECTV_FREEZE then
    freezeTyped cfg tc buf idx ty cur acc (tag = typeOBJECTV_FREEZE)
  else D.err (.unknownTag tag.toNat)

/-- `decodeViaReflection` (decode.go:690-887). -/
def decodeTyped (cfg : DCfg) (tc : TCfg) (buf : Bytes) : Nat → Rec
  | 0, _, _, _, _ => D.fail .fuel
  | f + 1, idx, ty, cur, acc => do
    D.failIf (idx ≥ buf.length) (.err .truncated)
    if ty = .iface ∧ cur.isZero then
      let (idx, v) ← decodeFresh cfg buf idx
      if v ≠ .nil then
        let v ← assign acc (.iface v)
        pure (idx, v)
      else pure (idx, cur)
    else
      let (idx, tag) ← D.lift (skipPad buf idx)
      if tag &&& trackFlag = trackFlag then trackTyped idx
      tagTyped cfg tc buf (decodeTyped cfg tc buf f) (tag &&& ~~~ trackFlag) (idx + 1) ty cur acc

/-- The body part of `UnmarshalHeaderBody` (decode.go:222-263) with `vheader` nil and `vbody` a pointer to a
variable of type `ty` that holds `cur`: the new contents. -/
def unmarshalTypedRaw (cfg : DCfg) (tc : TCfg) (cs : Codecs) (b : Bytes) (ty : Ty) (cur : TVal) : D TVal := do
  let header ← D.lift (checkHeader b)
  let decomp ← D.lift (documentDecompressor header.version header.doctype)
  let bodyStart := wrapInt (headerSize + header.suffixSize)
  D.failIf (bodyStart > b.length ∨ bodyStart < 0) (.err (.corrupt .badOffset))
  let bodyStart := bodyStart.toNat
  let b ← match decomp with
    | some c => do
      let decompBody ← D.lift (decompress cs c (← sliceFrom b bodyStart))
      let head ← sliceRange b 0 bodyStart
      pure (head ++ decompBody)
    | none => pure b
  if header.version = 1 then
    let (_, v) ← withTracked (decodeTyped cfg tc b (fuelFor b.length) bodyStart ty cur .rw)
    pure v
  else
    D.failIf (bodyStart = 0) (.crash "slice bounds out of range")   -- b[-1:]
    let by_ ← sliceFrom b (bodyStart - 1)
    let (_, v) ← withTracked (decodeTyped cfg tc by_ (fuelFor by_.length) 1 ty cur .rw)
    pure v

/-- `err := decoder.Unmarshal(b, &x)` (decode.go:110-112) on a new Decoder, `x` a variable of type `ty` holding
`cur`: the heap for what is inside interfaces, and the new contents of `x`. -/
def unmarshalTyped (cfg : DCfg) (tc : TCfg) (cs : Codecs) (b : Bytes) (ty : Ty) (cur : TVal) : Res (Heap × TVal) :=
  match unmarshalTypedRaw cfg tc cs b ty cur DState.init with
  | (.ok v, s) => .ok (s.heap, v)
  | (.error (.panic m), _) => .error (.err (.msg m))
  | (.error e, _) => .error e

end Sereal
