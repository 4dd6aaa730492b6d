import Verif.Model.Typed
/-
Decoding into typed variables, with memory: decode.go:690-1204.

Model/Typed follows the contents of one variable and cannot say that two pointers are equal.  Here
variables have addresses.  A decode function takes a `Target`, which is a `reflect.Value`: a type, and
either the place of a variable or (for the result of MapIndex) a copy of a value.  This covers REFP and
ALIAS in the place of a typed item (decode.go:852-858, 1020-1071), cyclic data, and targets which the
caller has filled with pointers to each other.
Go code reads a variable each time it uses the reflect.Value of it, and so does the model.  In
particular decodeArrayViaReflection and decodeHashViaReflection look at the slice or map again for
each element.

Not modelled (a panic "unmodelled: ..." in the model): REFP or ALIAS to an item decoded into an
`interface{}` that holds a slice, a map, a pointer or an object, in the place of a typed item of which
the type might be the same; UnmarshalBinary of an object that is inside an `interface{}`; and REFP or
ALIAS in the place of an `interface{}` to an item decoded into a typed variable (Model/Typed,
trackTyped).
-/
namespace Sereal

/-- A variable: one that was allocated, or a part of it.  A part is given by its number and by the number of
parts. -/
structure Spot where
  base : Nat
  path : List (Nat × Nat)
  deriving DecidableEq, Repr

/-- Part `i` of `n` of a variable. -/
def Spot.sub (l : Spot) (i n : Nat) : Spot := ⟨l.base, l.path ++ [(i, n)]⟩

/-- The contents of a variable.  `zero` is the zero value of any type, as in `TVal`. -/
inductive MVal
  | zero
  | bool (b : Bool)
  | int (i : Int64)
  | uint (n : UInt64)
  | f32 (bits : UInt32)
  | f64 (bits : UInt64)
  | str (s : Bytes)
  | iface (v : Val)                      -- non-nil interface, holding a value of Model/Value
  | any (ty : Ty) (v : MVal)             -- non-nil interface, holding a value of another type
  | slice (l : Spot) (off len cap : Nat) -- elements off, ..., off+len-1 of an array of `cap` elements
  | multi (vs : List MVal)               -- elements of an array, fields of a struct
  | map (m : Nat)                        -- non-nil map
  | ptr (l : Spot)                       -- non-nil pointer
  | opaque (data : Bytes)                -- what UnmarshalBinary(data) has left

/-- Is it the zero value? -/
def MVal.isZero : MVal → Bool
  | .zero => true
  | _ => false

/-- The parts of an array or struct with `n` of them. -/
def MVal.parts (n : Nat) : MVal → List MVal
  | .multi vs => (List.range n).map fun i => vs.getD i .zero
  | _ => List.replicate n .zero

/-- The part of a value at a path. -/
def MVal.get : MVal → List (Nat × Nat) → MVal
  | v, [] => v
  | v, (i, n) :: p => ((v.parts n).getD i .zero).get p

/-- The value with the part at a path replaced. -/
def MVal.put : MVal → List (Nat × Nat) → MVal → MVal
  | _, [], w => w
  | v, (i, n) :: p, w => .multi ((v.parts n).set i (((v.parts n).getD i .zero).put p w))

/-- Memory: variables and maps by number; both use numbers below `next`. -/
structure Mem where
  vars : Nat → MVal := fun _ => .zero
  maps : Nat → List (Bytes × MVal) := fun _ => []
  next : Nat := 0

/-- The contents of a variable. -/
def Mem.get (m : Mem) (l : Spot) : MVal := (m.vars l.base).get l.path
/-- Assignment to a variable. -/
def Mem.put (m : Mem) (l : Spot) (v : MVal) : Mem :=
  { m with vars := fun b => if b = l.base then (m.vars b).put l.path v else m.vars b }
/-- A new variable. -/
def Mem.new (m : Mem) (v : MVal) : Mem :=
  { m with vars := fun b => if b = m.next then v else m.vars b, next := m.next + 1 }
/-- A new map. -/
def Mem.newMap (m : Mem) : Mem :=
  { m with maps := fun b => if b = m.next then [] else m.maps b, next := m.next + 1 }
/-- `m[k] = v`. -/
def Mem.insert (m : Mem) (a : Nat) (k : Bytes) (v : MVal) : Mem :=
  { m with maps := fun b => if b = a then mapInsert k v (m.maps b) else m.maps b }

/-- What a reflect.Value refers to: a variable, or a value without an address. -/
inductive Place
  | var (l : Spot)
  | tmp (v : MVal)

/-- A reflect.Value: its type, what it refers to, and whether it was obtained from an unexported field. -/
structure Target where
  ty : Ty
  place : Place
  ro : Bool := false

/-- The decoder's state: as for `interface{}`, and the memory, and the entries of `d.tracked` that come from
decodeViaReflection.  An entry is given with the address of the stand-in that `trackTyped` has put
into the other table: it is in force as long as that is (both paths overwrite entries). -/
structure MSt where
  d : DState
  mem : Mem
  typed : Nat → Option (Addr × Target) := fun _ => none

/-- Computations on that state. -/
def M (α : Type) := MSt → Except Exn α × MSt

namespace M
def pure (a : α) : M α := fun s => (.ok a, s)
def bind (x : M α) (f : α → M β) : M β := fun s =>
  match x s with
  | (.ok a, s') => f a s'
  | (.error e, s') => (.error e, s')
instance : Monad M where
  pure := M.pure
  bind := M.bind
/-- Fail. -/
def fail (e : Exn) : M α := fun s => (.error e, s)
/-- `return ..., err`. -/
def err (e : Err) : M α := fail (.err e)
/-- `if c { return ..., e }` (or a panic). -/
def failIf (c : Prop) [Decidable c] (e : Exn) : M Unit := if c then fail e else pure ()
/-- A part that does not touch typed variables. -/
def lift (x : D α) : M α := fun s =>
  match x s.d with
  | (r, d) => (r, { s with d := d })
def get : M MSt := fun s => (.ok s, s)
end M

/-- The present contents (`v.Interface()`, v.IsNil(), ...). -/
def Target.read (t : Target) : M MVal := fun s =>
  match t.place with
  | .var l => (.ok (s.mem.get l), s)
  | .tmp v => (.ok v, s)

/-- `reflect.Value.Set` and its variants: panics unless the value is assignable. -/
def Target.write (t : Target) (v : MVal) : M Unit :=
  match t.place with
  | .var l =>
    if t.ro then M.fail (.panic "reflect: using unexported field")
    else fun s => (.ok (), { s with mem := s.mem.put l v })
  | .tmp _ => M.fail (.panic "reflect: using unaddressable value")

/-- Does `v.Addr()` panic? -/
def Target.unaddressable (t : Target) : Prop := t.ro = true ∨ ∃ v, t.place = .tmp v
instance (t : Target) : Decidable t.unaddressable :=
  match h : t.place with
  | .var _ => if h2 : t.ro = true then isTrue (.inl h2) else isFalse (by simp [Target.unaddressable, h, h2])
  | .tmp v => isTrue (.inr ⟨v, h⟩)

/-- Part `i` of `n`: `v.Field(i)` of a struct, `v.Index(i)` of an array. -/
def Target.part (t : Target) (i n : Nat) (ty : Ty) (exported : Bool) : Target :=
  { ty := ty,
    place := match t.place with
      | .var l => .var (l.sub i n)
      | .tmp v => .tmp ((v.parts n).getD i .zero),
    ro := t.ro || !exported }

/-- What a pointer or a slice leads to: `v.Elem()`, `v.Index(i)`. -/
def Target.at (t : Target) (ty : Ty) (l : Spot) : Target := { ty := ty, place := .var l, ro := t.ro }

/-- `reflect.New(t)`: a new variable. -/
def newVar (v : MVal) : M Spot := fun s => (.ok ⟨s.mem.next, []⟩, { s with mem := s.mem.new v })
/-- `reflect.MakeMap(t)`. -/
def newMap : M Nat := fun s => (.ok s.mem.next, { s with mem := s.mem.newMap })

/-- `ptr.Set(reflect.MakeSlice(ptr.Type(), n, n))`, with the contents `vs`. -/
def Target.makeSlice (t : Target) (vs : List MVal) : M Unit := do
  let l ← newVar (.multi vs)
  t.write (.slice l 0 vs.length vs.length)

/-- `setInt` (decode.go:1206-1217). -/
def Target.setInt (t : Target) (i : Int64) : M Unit :=
  match t.ty with
  | .int k => t.write (.int (k.conv i))
  | .uint k => t.write (.uint (k.conv i.toUInt64))
  | _ => M.fail (.panic "reflect: call of sereal.setInt on another kind")

/-- `reflect.Value.SetFloat` with a float64. -/
def Target.setFloat (tc : TCfg) (t : Target) (u : UInt64) : M Unit :=
  match t.ty with
  | .f32 => t.write (.f32 (tc.narrow u))
  | .f64 => t.write (.f64 u)
  | _ => M.fail (.panic "reflect: call of reflect.Value.SetFloat on another kind")

/-- `reflect.Value.SetBool`. -/
def Target.setBool (t : Target) (b : Bool) : M Unit :=
  match t.ty with
  | .bool => t.write (.bool b)
  | _ => M.fail (.panic "reflect: call of reflect.Value.SetBool on another kind")

/-- `reflect.Value.SetString`. -/
def Target.setString (t : Target) (s : Bytes) : M Unit :=
  match t.ty with
  | .str => t.write (.str s)
  | _ => M.fail (.panic "reflect: call of reflect.Value.SetString on another kind")

/-- A byte as contents of a variable of type byte. -/
def MVal.ofByte (b : UInt8) : MVal := .uint b.toUInt64

/-- `reflect.Copy` of bytes into the parts from number `off` on, at most `len` of them. -/
def overlayMem (vs : List MVal) (off len : Nat) (s : Bytes) : List MVal :=
  vs.take off ++ ((s.take len).take (vs.length - off)).map .ofByte ++ vs.drop (off + (s.take len).length)

/-- `setBinary` (decode.go:1219-1238). -/
def Target.setBinary (t : Target) (s : Bytes) : M Unit :=
  match t.ty with
  | .slice (.uint .uint8) => do
    match ← t.read with
    | .slice l off len cap =>
      M.failIf (t.ro = true) (.panic "reflect: using unexported field")
      fun st => (.ok (), { st with mem := st.mem.put l (.multi (overlayMem ((st.mem.get l).parts cap) off len s)) })
    | _ => t.makeSlice (s.map .ofByte)
  | .slice _ => M.fail (.panic "reflect.Copy: types do not match")
  | .arr n (.uint .uint8) => do
    let v ← t.read
    t.write (.multi (overlayMem (v.parts n) 0 n s))
  | .arr _ _ => M.fail (.panic "reflect.Copy: types do not match")
  | .str => t.write (.str s)
  | _ => M.fail (.panic "reflect: call of sereal.setBinary on another kind")

/-- `d.tracked[idx] = ptr` (decode.go:718-721). -/
def trackMem (idx : Nat) (t : Target) : M Unit := do
  let a ← M.lift (allocVar .unsupported)
  M.lift (track idx (.cell a))
  fun s => (.ok (), { s with typed := fun i => if i = idx then some (a, t) else s.typed i })

/-- The recursive call of decodeViaReflection. -/
abbrev MRec := Nat → Target → M Nat

/-- The loop of decodeArrayViaReflection (decode.go:911-926), for elements `i`, `i+1`, ...; `len` is `ptrLen`,
`n` the number of elements left. -/
def elemsMem (cfg : DCfg) (buf : Bytes) (rec : MRec) (t : Target) (len : Nat) : Nat → Nat → Nat → M Nat
  | 0, _, idx => pure idx
  | n + 1, i, idx => do
    if i < len then
      match t.ty with
      | .slice e =>
        match ← t.read with
        | .slice l off len' cap =>
          M.failIf (i ≥ len') (.panic "reflect: slice index out of range")
          let idx ← rec idx (t.at e (l.sub (off + i) cap))
          elemsMem cfg buf rec t len n (i + 1) idx
        | _ => M.fail (.panic "reflect: slice index out of range")
      | .arr m e =>
        let idx ← rec idx (t.part i m e true)
        elemsMem cfg buf rec t len n (i + 1) idx
      | _ => M.fail (.panic "reflect: call of reflect.Value.Index on another kind")
    else
      let (idx, _) ← M.lift (decodeFresh cfg buf idx)
      elemsMem cfg buf rec t len n (i + 1) idx

/-- `ptr.Len()` of a slice. -/
def MVal.len : MVal → Nat
  | .slice _ _ n _ => n
  | _ => 0

/-- `decodeArrayViaReflection` (decode.go:889-929). -/
def arrayMem (cfg : DCfg) (buf : Bytes) (rec : MRec) (idx : Nat) (ln : Int) (t : Target) : M Nat := do
  M.failIf (ln < 0 ∨ ln > maxInt32) (.err (.corrupt .badSliceSize))
  M.failIf (idx + ln.toNat > buf.length) (.err .truncated)
  match t.ty with
  | .slice _ =>
    if (← t.read).len = 0 then t.makeSlice (List.replicate ln.toNat .zero)
    let v ← t.read
    elemsMem cfg buf rec t v.len ln.toNat 0 idx
  | .arr n _ => elemsMem cfg buf rec t n ln.toNat 0 idx
  | _ => M.err (.msg "reflect: call of sereal.decodeArrayViaReflection on another kind")

/-- `ptr.MapIndex(key)`. -/
def Target.lookup (t : Target) (key : Bytes) : M (Option MVal) := do
  match ← t.read with
  | .map m => fun s => (.ok (mapLookup key (s.mem.maps m)), s)
  | _ => pure none

/-- `ptr.SetMapIndex(key, v)`.  A nil map is a runtime error ("assignment to entry in nil map"). -/
def Target.insert (t : Target) (key : Bytes) (v : MVal) : M Unit := do
  M.failIf (t.ro = true) (.panic "reflect: using unexported field")
  match ← t.read with
  | .map m => fun s => (.ok (), { s with mem := s.mem.insert m key v })
  | _ => M.fail (.crash "assignment to entry in nil map")

/-- The loop of decodeHashViaReflection for a map (decode.go:946-972). -/
def entriesMem (buf : Bytes) (rec : MRec) (e : Ty) (t : Target) : Nat → Nat → M Nat
  | 0, idx => pure idx
  | n + 1, idx => do
    let (key, idx) ← M.lift (decodeStringish buf idx)
    match ← t.lookup key with
    | some v =>
      let idx ← rec idx { ty := e, place := .tmp v, ro := t.ro }
      entriesMem buf rec e t n idx
    | none =>
      let l ← newVar .zero
      let idx ← rec idx { ty := e, place := .var l }
      let v ← Target.read { ty := e, place := .var l }
      t.insert key v
      entriesMem buf rec e t n idx

/-- The loop of decodeHashViaReflection for a struct (decode.go:983-1011). -/
def fieldsMem (cfg : DCfg) (tc : TCfg) (buf : Bytes) (rec : MRec) (fs : List TField) (t : Target) : Nat → Nat → M Nat
  | 0, idx => pure idx
  | n + 1, idx => do
    let (key, idx) ← M.lift (decodeStringish buf idx)
    match findField tc fs key with
    | some i =>
      match fs[i]? with
      | some f =>
        let idx ← rec idx (t.part i fs.length f.ty f.exported)
        fieldsMem cfg tc buf rec fs t n idx
      | none => M.fail (.panic "reflect: Field index out of range")
    | none =>
      let (idx, _) ← M.lift (decodeFresh cfg buf idx)
      fieldsMem cfg tc buf rec fs t n idx

/-- `ptr.Elem()` of a pointer variable; a nil pointer gets a new variable first (decode.go:974-980, 1261-1264). -/
def Target.deref (t : Target) (e : Ty) : M Target := do
  match ← t.read with
  | .ptr l => pure (t.at e l)
  | _ =>
    let l ← newVar .zero
    t.write (.ptr l)
    pure (t.at e l)

/-- `decodeHashViaReflection` (decode.go:931-1018) after the checks of the size. -/
def hashMem (cfg : DCfg) (tc : TCfg) (buf : Bytes) (rec : MRec) (idx n : Nat) : Ty → Target → M Nat
  | .map e, t => do
    if (← t.read).isZero then
      let m ← newMap
      t.write (.map m)
    entriesMem buf rec e t n idx
  | .ptr e, t => do
    let t' ← t.deref e
    hashMem cfg tc buf rec idx n e t'
  | .strct id, t => fieldsMem cfg tc buf rec (tc.types id).fields t n idx
  | _, _ => M.err (.msg "reflect: call of sereal.decodeHashViaReflection on another kind")

/-- `ptr.Set(reflect.ValueOf(x))` with a pointer to one of the package's types: only `interface{}` takes it. -/
def Target.setPerl (t : Target) (v : Val) : M Unit :=
  match t.ty with
  | .iface => t.write (.iface v)
  | _ => M.fail (.panic "reflect.Set: value is not assignable")

/-- The UNDEF case (decode.go:817-828). -/
def undefMem (cfg : DCfg) (canonical : Bool) (t : Target) : M Unit := do
  if cfg.perlCompat ∧ canonical then t.setPerl (.ptr false canonicalUndefAddr)
  else if cfg.perlCompat then
    let a ← M.lift (allocVar (.undef false))
    t.setPerl (.ptr false a)
  else
    match t.ty with
    | .ptr _ | .map _ | .slice _ => t.write .zero
    | _ => pure ()

/-- `ptr.Set(v)` for `v` a value of type `ty` (not obtained from an interface). -/
def Target.assign (t : Target) (ty : Ty) (v : MVal) : M Unit :=
  if t.ty = ty then t.write v
  else if t.ty = .iface then t.write (.any ty v)
  else M.fail (.panic "reflect.Set: value is not assignable")

/-- The type and contents of a variable that could hold a value of Model/Value. -/
def Val.typed : Val → Option (Ty × MVal)
  | .bool b => some (.bool, .bool b)
  | .int k i => some (.int k, .int i)
  | .uint k n => some (.uint k, .uint n)
  | .f32 x => some (.f32, .f32 x)
  | .f64 x => some (.f64, .f64 x)
  | .str s => some (.str, .str s)
  | _ => none

/-- Types of which other values of Model/Value can be. -/
def Ty.compound : Ty → Bool
  | .slice _ | .arr _ _ | .map _ | .ptr _ | .strct _ | .other => true
  | _ => false

/-- `ptr.Set(x.Elem())` where the interface `x` holds `v`. -/
def Target.assignAny (t : Target) (v : Val) : M Unit :=
  if v = .unsupported then M.fail (.panic "unmodelled: reference to an untyped item in the place of a typed item")
  else if t.ty = .iface then t.write (.iface v)
  else
    match v.typed with
    | some (ty, w) => t.assign ty w
    | none =>
      if t.ty.compound then M.fail (.panic "unmodelled: reference to an untyped item in the place of a typed item")
      else M.fail (.panic "reflect.Set: value is not assignable")

/-- `ptr.Set(val.Elem())` (decode.go:858) with `val` made of the interface at `rv.Elem()` that holds `v` (decode.go:1047-1063).
`ro`: the reflect.Value of the interface has the flag for unexported fields. -/
def Target.fromAny (cfg : DCfg) (isREFP : Bool) (t : Target) (v : MVal) (ro : Bool) : M Unit := do
  M.failIf (v.isZero) (.panic "reflect: call of reflect.Value.Type on zero Value")
  M.failIf (ro = true) (.panic "reflect: using unexported field")
  if isREFP ∧ cfg.disableRefInt then
    -- val is what the interface holds, val.Elem() what that points at
    match v with
    | .any (.ptr e) (.ptr l) =>
      let w ← Target.read { ty := e, place := .var l }
      t.assign e w
    | .iface (.ptr true a) =>
      let w ← M.lift (readLoc (.cell a))
      if t.ty = .iface then t.write (if w = .nil then .zero else .iface w) else M.fail (.panic "reflect.Set: value is not assignable")
    | .iface (.ptr false a) =>
      let w ← M.lift (readLoc (.cell a))
      t.assignAny w
    | _ => M.fail (.panic "reflect: call of reflect.Value.Elem on another kind")
  else
    match v with
    | .any ty w => t.assign ty w
    | .iface w => t.assignAny w
    | _ => M.fail (.panic "reflect: not an interface")

/-- REFP and ALIAS in the place of a typed item (decode.go:852-858, 1020-1071).  `rv` is the entry of
`d.tracked`.  One that comes from decodeViaReflection is taken as the variable itself, unless it is of
type *interface{} (decode.go:1047). -/
def refpMem (cfg : DCfg) (buf : Bytes) (idx : Nat) (isREFP : Bool) (t : Target) : M Nat := do
  let (offs, sz) ← M.lift (varintAt buf idx)
  let idx := idx + sz
  M.failIf (offs < 0 ∨ offs ≥ idx) (.err (.corrupt .badOffset))
  let s ← M.get
  match s.d.tracked offs.toNat with
  | none =>
    if isREFP then M.err (.corrupt .untrackedOffsetREFP)
    else M.err (.corrupt .untrackedOffsetAlias)
  | some loc =>
    match s.typed offs.toNat with
    | some (a, rv) =>
      if loc = .cell a then
        let v ← rv.read
        match v with
        | .ptr l =>
          if rv.ty = .ptr .iface then t.fromAny cfg isREFP (s.mem.get l) rv.ro
          else
            M.failIf (rv.ro = true) (.panic "reflect: using unexported field")
            t.assign rv.ty v
        | _ =>
          M.failIf (rv.ro = true) (.panic "reflect: using unexported field")
          t.assign rv.ty v
        pure idx
      else
        let v ← M.lift (readLoc loc)
        t.fromAny cfg isREFP (if v = .nil then .zero else .iface v) false
        pure idx
    | none =>
      let v ← M.lift (readLoc loc)
      t.fromAny cfg isREFP (if v = .nil then .zero else .iface v) false
      pure idx

/-- The call of UnmarshalBinary of the variable at `l`. -/
def callUnmarshal (f : Bytes → Option Nat) (data : Bytes) (l : Spot) : M Unit :=
  match f data with
  | some n => M.err (.user n)
  | none => fun s => (.ok (), { s with mem := s.mem.put l (.opaque data) })

/-- `findUnmarshaler(ptr)` and the call of UnmarshalBinary (decode.go:1165-1169, 1260-1277): `false` if there is
no such method.  `ptr.Interface()` panics for unexported fields, `ptr.Addr()` without an address. -/
def unmarshalMem (tc : TCfg) (t : Target) (data : Bytes) : M Bool := do
  match t.ty with
  | .ptr e =>
    let t' ← t.deref e
    M.failIf (t.ro = true) (.panic "reflect: using unexported field")
    match e, t'.place with
    | .strct id, .var l =>
      match (tc.types id).unmarshal with
      | some f =>
        callUnmarshal f data l
        pure true
      | none =>
        M.failIf t.unaddressable (.panic "reflect: using unaddressable value")
        pure false
    | _, _ =>
      M.failIf t.unaddressable (.panic "reflect: using unaddressable value")
      pure false
  | .strct id =>
    M.failIf t.unaddressable (.panic "reflect: using unaddressable value")
    match t.place, (tc.types id).unmarshal with
    | .var l, some f =>
      callUnmarshal f data l
      pure true
    | _, _ => pure false
  | .iface =>
    M.failIf (t.ro = true) (.panic "reflect: using unexported field")
    match ← t.read with
    | .any (.ptr (.strct id)) w =>
      match (tc.types id).unmarshal, w with
      | some f, .ptr l =>
        callUnmarshal f data l
        pure true
      | some _, _ => M.fail (.panic "unmodelled: UnmarshalBinary of a nil pointer")
      | none, _ =>
        M.failIf t.unaddressable (.panic "reflect: using unaddressable value")
        pure false
    | .iface (.thawed _ _) | .iface (.ptr _ _) => M.fail (.panic "unmodelled: FREEZE into a non-nil interface")
    | _ =>
      M.failIf t.unaddressable (.panic "reflect: using unaddressable value")
      pure false
  | _ =>
    M.failIf t.unaddressable (.panic "reflect: using unaddressable value or unexported field")
    pure false

/-- `decodeObjectFreezeViaReflection` (decode.go:1106-1204) for a typed target. -/
def freezeMem (cfg : DCfg) (tc : TCfg) (buf : Bytes) (idx : Nat) (t : Target) (isObjectV : Bool) : M Nat := do
  let (className, idx) ← M.lift (decodeClassName buf idx isObjectV)
  M.failIf (idx + 1 ≥ buf.length) (.err .truncated)
  let t0 ← M.lift (byteAt buf idx)
  let t1 ← M.lift (byteAt buf (idx + 1))
  M.failIf (t0 ≠ typeREFN ∨ t1 ≠ typeARRAY) (.err (.corrupt .freezeNotRefnArray))
  let (idx, v) ← M.lift (decodeFresh cfg buf idx)
  match v with
  | .slice p n =>
    M.failIf (n ≠ 1) (.err (.corrupt .freezeMultipleElts))
    match ← M.lift (readLoc (.cell p)) with
    | .bin classData =>
      if cfg.perlCompat then
        let o ← M.lift (allocVar (.frozen className classData))
        t.setPerl (.ptr false o)
        pure idx
      else if ← unmarshalMem tc t classData then pure idx
      else if t.ty = .slice (.uint .uint8) ∧ (← t.read).isZero then
        t.makeSlice (classData.map .ofByte)
        pure idx
      else M.err (.msg "can't unpack FROZEN object")
    | _ => M.err (.corrupt .freezeNotByteSlice)
  | _ => M.err (.corrupt .freezeNotArray)

/-- The checks at the beginning of decodeHashViaReflection (decode.go:932-938), and the rest of it. -/
def checkedHashMem (cfg : DCfg) (tc : TCfg) (buf : Bytes) (rec : MRec) (idx : Nat) (ln : Int) (t : Target) : M Nat := do
  M.lift (checkHash buf idx ln)
  hashMem cfg tc buf rec idx ln.toNat t.ty t

/-- `d.copyDepth++; ...; d.copyDepth--` (decode.go:845-847). -/
def withCopyMem (x : M α) : M α := fun s =>
  match x { s with d := { s.d with copyDepth := s.d.copyDepth + 1 } } with
  | (.ok a, s') => (.ok a, { s' with d := { s'.d with copyDepth := s'.d.copyDepth - 1 } })
  | (.error (.err e), s') => (.error (.err e), { s' with d := { s'.d with copyDepth := s'.d.copyDepth - 1 } })
  | (.error e, s') => (.error e, s')

/-- The `switch` of decodeViaReflection (decode.go:726-886). -/
def tagMem (cfg : DCfg) (tc : TCfg) (buf : Bytes) (rec : MRec) (tag : UInt8) (idx : Nat) (t : Target) : M Nat := do
  if tag < typeVARINT then
    t.setInt (decodeInt tag)
    pure idx
  else if tag = typeVARINT then
    let (val, sz) ← M.lift (varintAt buf idx)
    t.setInt (Int64.ofInt val)
    pure (idx + sz)
  else if tag = typeZIGZAG then
    let (i, sz) ← M.lift (varintAt buf idx)
    t.setInt (zigzagValue i)
    pure (idx + sz)
  else if tag = typeFLOAT then
    let (f, idx) ← M.lift (decodeFloat buf idx)
    t.setFloat tc (tc.widen f)
    pure idx
  else if tag = typeDOUBLE then
    let (f, idx) ← M.lift (decodeDouble buf idx)
    t.setFloat tc f
    pure idx
  else if tag = typeTRUE ∨ tag = typeFALSE then
    t.setBool (tag = typeTRUE)
    pure idx
  else if tag = typeBINARY then
    let (ln, sz) ← M.lift (varintAt buf idx)
    let (val, idx) ← M.lift (decodeBinary buf (idx + sz) ln)
    t.setBinary val
    pure idx
  else if typeSHORT_BINARY_0 ≤ tag ∧ tag < typeSHORT_BINARY_0 + 32 then
    let (val, idx) ← M.lift (decodeBinary buf idx (tag &&& 0x1f).toNat)
    t.setBinary val
    pure idx
  else if tag = typeSTR_UTF8 then
    let (ln, sz) ← M.lift (varintAt buf idx)
    let (val, idx) ← M.lift (decodeBinary buf (idx + sz) ln)
    t.setString val
    pure idx
  else if tag = typeHASH then
    let (ln, sz) ← M.lift (varintAt buf idx)
    checkedHashMem cfg tc buf rec (idx + sz) ln t
  else if typeHASHREF_0 ≤ tag ∧ tag < typeHASHREF_0 + 16 then
    checkedHashMem cfg tc buf rec idx (tag &&& 0x0f).toNat t
  else if tag = typeARRAY then
    let (ln, sz) ← M.lift (varintAt buf idx)
    arrayMem cfg buf rec (idx + sz) ln t
  else if typeARRAYREF_0 ≤ tag ∧ tag < typeARRAYREF_0 + 16 then
    arrayMem cfg buf rec idx (tag &&& 0x0f).toNat t
  else if tag = typeUNDEF ∨ tag = typeCANONICAL_UNDEF then
    undefMem cfg (tag = typeCANONICAL_UNDEF) t
    pure idx
  else if tag = typeCOPY then
    M.failIf ((← M.get).d.copyDepth > 0) (.err (.corrupt .nestedCOPY))
    let (offs, sz) ← M.lift (varintAt buf idx)
    M.failIf (offs < 0 ∨ offs ≥ idx) (.err (.corrupt .badOffset))
    let _ ← withCopyMem (rec offs.toNat t)
    pure (idx + sz)
  else if tag = typeREFN then
    rec idx t
  else if tag = typeREFP ∨ tag = typeALIAS then
    refpMem cfg buf idx (tag = typeREFP) t
  else if tag = typeWEAKEN then
    if cfg.perlCompat then
      let a ← M.lift (allocVar (.weak .nil))           -- pweak
      t.setPerl (.ptr false a)
      M.lift (decode cfg buf (fuelFor buf.length) idx (.field a))
    else rec idx t
  else if tag = typeREGEXP then
    let (pattern, modifiers, idx) ← M.lift (decodeRegexp buf idx)
    let a ← M.lift (allocVar (.regexp pattern modifiers))
    t.setPerl (.ptr false a)
    pure idx
  else if tag = typeOBJECT ∨ tag = typeOBJECTV then
    let (className, idx) ← M.lift (decodeClassName buf idx (tag = typeOBJECTV))
    if cfg.perlCompat then
      let a ← M.lift (allocVar (.obj className .nil))  -- pobj
      t.setPerl (.ptr false a)
      M.lift (decode cfg buf (fuelFor buf.length) idx (.field a))
    else rec idx t
  else if tag = typeOBJECT_FREEZE ∨ tag = typeOBJECTV_FREEZE then
    freezeMem cfg tc buf idx t (tag = typeOBJECTV_FREEZE)
  else M.err (.unknownTag tag.toNat)

/-- `decodeViaReflection` (decode.go:690-887). -/
def decodeMem (cfg : DCfg) (tc : TCfg) (buf : Bytes) : Nat → MRec
  | 0, _, _ => M.fail .fuel
  | f + 1, idx, t => do
    M.failIf (idx ≥ buf.length) (.err .truncated)
    if t.ty = .iface ∧ (← t.read).isZero = true then
      let (idx, v) ← M.lift (decodeFresh cfg buf idx)
      if v ≠ .nil then t.write (.iface v)
      pure idx
    else
      let (idx, tag) ← M.lift (D.lift (skipPad buf idx))
      if tag &&& trackFlag = trackFlag then trackMem idx t
      tagMem cfg tc buf (decodeMem cfg tc buf f) (tag &&& ~~~ trackFlag) (idx + 1) t

/-- The buffer and the position that the body of a document is decoded from (decode.go:188-263). -/
def bodyOf (cs : Codecs) (b : Bytes) : Res (Bytes × Nat) := do
  let header ← checkHeader b
  let decomp ← documentDecompressor header.version header.doctype
  let bodyStart := wrapInt (headerSize + header.suffixSize)
  if bodyStart > b.length ∨ bodyStart < 0 then throw (.err (.corrupt .badOffset))
  let bodyStart := bodyStart.toNat
  let b ← match decomp with
    | some c => do
      let decompBody ← decompress cs c (b.drop bodyStart)
      pure (b.take bodyStart ++ decompBody)
    | none => pure b
  if header.version = 1 then pure (b, bodyStart)
  else if bodyStart = 0 then throw (.crash "slice bounds out of range")   -- b[-1:]
  else pure (b.drop (bodyStart - 1), 1)

/-- `err := decoder.Unmarshal(b, &x)` (decode.go:110-112, 172-263) on a new Decoder, `x` the variable of type `ty` at
`l`: the heap for what is inside interfaces, and the memory afterwards. -/
def unmarshalInto (cfg : DCfg) (tc : TCfg) (cs : Codecs) (b : Bytes) (ty : Ty) (l : Spot) (mem : Mem) : Res (Heap × Mem) :=
  match bodyOf cs b with
  | .error e => .error e
  | .ok (buf, i) =>
    match decodeMem cfg tc buf (fuelFor buf.length) i { ty := ty, place := .var l } { d := DState.init, mem := mem } with
    | (.ok _, s) => .ok (s.d.heap, s.mem)
    | (.error (.panic m), _) => .error (.err (.msg m))
    | (.error e, _) => .error e

/-- The memory after that call, whatever it returned. -/
def memoryAfter (cfg : DCfg) (tc : TCfg) (cs : Codecs) (b : Bytes) (ty : Ty) (l : Spot) (mem : Mem) : Mem :=
  match bodyOf cs b with
  | .error _ => mem
  | .ok (buf, i) =>
    (decodeMem cfg tc buf (fuelFor buf.length) i { ty := ty, place := .var l } { d := DState.init, mem := mem }).2.mem

end Sereal
