import Verif.Model.Decode
/-
`RegisterName`, `getUnmarshalerType`, `instantiateZero`, and `findUnmarshaler` as far as registered types are
concerned (decode.go:1257-1318).

Simplification: what `UnmarshalBinary` answers depends on nothing but the data (it is always called on a new
value).  Methods that panic are not modelled.
-/
namespace Sereal

/-- What these functions see of the dynamic type of a Go value: whether its kind is pointer, its method
`UnmarshalBinary` if it has one (`none` of the method = success), and whether pointers to it have one. -/
structure GoType where
  name : Bytes
  pointer : Bool
  method : Option (Bytes → Option Nat)
  addrMethod : Bool := method.isSome && !pointer

/-- The field `umcache` of Decoder (decode.go:81): nil or a map. -/
abbrev UmCache := Option (Bytes → Option GoType)

/-- The string reflect panics with (Value.Addr). -/
def unaddressable : Exn := Refusal.unaddressable.exn

/-- `RegisterName` (decode.go:1282-1300), and the field afterwards.  `value` is `none` for a nil interface.
`rv.Addr()` panics for every `rv` that comes from `reflect.ValueOf`, whose result is a copy and has no address; so
nothing behind it is ever reached. -/
def registerName (c : UmCache) (name : Bytes) (value : Option GoType) : Res Unit × UmCache :=
  let m : Bytes → Option GoType := match c with      -- if d.umcache == nil { d.umcache = make(…) }
    | none => fun _ => none
    | some m => m
  match value with
  | none => (.error unaddressable, some m)           -- rv.Addr()
  | some t =>
    match t.method with                              -- value.(encoding.BinaryUnmarshaler)
    | some _ => (.ok (), some fun n => if n = name then some t else m n)
    | none => (.error unaddressable, some m)         -- rv.Addr()

/-- `getUnmarshalerType` (decode.go:1302-1309). -/
def getUnmarshalerType (c : UmCache) (name : Bytes) : Option GoType :=
  match c with
  | none => none
  | some m => m name

/-- `instantiateZero` (decode.go:1311-1318): the type of the new value. -/
def instantiateZero (t : GoType) : Except Refusal GoType :=
  if t.pointer then .ok t                            -- reflect.New(typ.Elem())
  else .error .unaddressable                         -- reflect.New(typ).Addr()

/-- `findUnmarshaler` (decode.go:1257-1274) on the result of `instantiateZero`, a pointer that is not nil and
not in a variable. -/
def findUnmarshalerNew (t : GoType) : Except Refusal (Bytes → Option Nat) :=
  match t.method with
  | some u => .ok u
  | none => .error .unaddressable                    -- ptr.Addr()

/-- What comes of a registered type and data (decode.go:1177-1187). -/
def thaw (t : GoType) (data : Bytes) : Option Refusal :=
  match instantiateZero t with
  | .error r => some r
  | .ok z =>
    match findUnmarshalerNew z with
    | .error r => some r
    | .ok u => (u data).map .user

/-- The decoder with these flags and this cache. -/
def DCfg.of (perlCompat disableRefInt : Bool) (c : UmCache) : DCfg where
  perlCompat := perlCompat
  disableRefInt := disableRefInt
  registry := fun name => (getUnmarshalerType c name).map thaw

/-- A row of calls of RegisterName on one Decoder.  The caller recovers if one of them panics. -/
def registerAll (c : UmCache) (calls : List (Bytes × Option GoType)) : UmCache :=
  calls.foldl (fun c x => (registerName c x.1 x.2).2) c

end Sereal
