/-
Basic vocabulary of the model: bytes, errors, outcomes of Go functions, tag constants.
-/
namespace Sereal

deriving instance DecidableEq for Except

/-- A Go `[]byte` seen as a value (aliasing and capacity are modelled only where they matter). -/
abbrev Bytes := List UInt8

/-- The payload of `ErrCorrupt` (errors.go:25-39). -/
inductive Corrupt
  | badSliceSize | badStringSize | badOffset | untrackedOffsetREFP | badHashSize
  | untrackedOffsetAlias | nestedCOPY | badVarint
  | freezeNotRefnArray | freezeNotArray | freezeMultipleElts | freezeNotByteSlice
  deriving DecidableEq, Repr

/-- Errors returned by the package (errors.go:6-22 and the `errors.New`/`fmt.Errorf` call sites).
`msg` covers errors built ad hoc with `errors.New`; `codec` covers errors returned by the
third-party codecs; `user` covers errors returned by MarshalBinary / UnmarshalBinary. -/
inductive Err
  | badHeaderUTF8 | badHeader | badSnappy | badZlibV3 | badZstdV4
  | headerPointer | bodyPointer | truncated | tooLarge | maxRecursion
  | corrupt (c : Corrupt)
  | versionUnsupported (v : Nat)
  | doctypeUnsupported (d : Nat)
  | unknownTag (tag : Nat)
  | expectStringish (idx : Nat) (tag : Nat)
  | mergeUnknownTag (tag : Nat) (idx : Nat)
  | msg (s : String)
  | codec (n : Nat)
  | user (n : Nat)
  deriving DecidableEq, Repr

/-- How a Go function can fail to return a result.
* `err`: it returned a non-nil `error`.
* `panic`: it panicked with a string or an `error` that is not a `runtime.Error`
  (`*reflect.ValueError` and the strings raised by package reflect); the API functions recover
  these and turn them into errors (encode.go:79-92, decode.go:173-186).
* `crash`: it panicked with a `runtime.Error` (index or slice bounds out of range, makeslice);
  the API functions re-panic these (encode.go:82-84, decode.go:175-177), killing the program.
* `fuel`: not a Go outcome; the recursion fuel of the model was exhausted. -/
inductive Exn
  | err (e : Err)
  | panic (s : String)
  | crash (s : String)
  | fuel
  deriving DecidableEq, Repr

/-- Result of a Go function without visible state on failure. -/
abbrev Res (α : Type) := Except Exn α

/-- `b[i]` with the bounds check of the Go runtime. -/
def indexOf (b : Bytes) (i : Nat) : Res UInt8 :=
  match b[i]? with
  | some x => .ok x
  | none => .error (.crash "index out of range")

/-- `b[lo:hi]` with the bounds check of the Go runtime (for slices whose capacity equals their
length). -/
def cut (b : Bytes) (lo hi : Nat) : Res Bytes :=
  if lo ≤ hi ∧ hi ≤ b.length then .ok ((b.drop lo).take (hi - lo))
  else .error (.crash "slice bounds out of range")

/-- `b[lo:]` with the bounds check of the Go runtime. -/
def cutFrom (b : Bytes) (lo : Nat) : Res Bytes :=
  if lo ≤ b.length then .ok (b.drop lo) else .error (.crash "slice bounds out of range")

/-! Tag constants, const.go:34-67. -/
def trackFlag : UInt8 := 0x80
def typeVARINT : UInt8 := 0x20
def typeZIGZAG : UInt8 := 0x21
def typeFLOAT : UInt8 := 0x22
def typeDOUBLE : UInt8 := 0x23
def typeLONG_DOUBLE : UInt8 := 0x24
def typeUNDEF : UInt8 := 0x25
def typeBINARY : UInt8 := 0x26
def typeSTR_UTF8 : UInt8 := 0x27
def typeREFN : UInt8 := 0x28
def typeREFP : UInt8 := 0x29
def typeHASH : UInt8 := 0x2a
def typeARRAY : UInt8 := 0x2b
def typeOBJECT : UInt8 := 0x2c
def typeOBJECTV : UInt8 := 0x2d
def typeALIAS : UInt8 := 0x2e
def typeCOPY : UInt8 := 0x2f
def typeWEAKEN : UInt8 := 0x30
def typeREGEXP : UInt8 := 0x31
def typeOBJECT_FREEZE : UInt8 := 0x32
def typeOBJECTV_FREEZE : UInt8 := 0x33
def typeCANONICAL_UNDEF : UInt8 := 0x39
def typeFALSE : UInt8 := 0x3a
def typeTRUE : UInt8 := 0x3b
def typeMANY : UInt8 := 0x3c
def typePACKET_START : UInt8 := 0x3d
def typeEXTEND : UInt8 := 0x3e
def typePAD : UInt8 := 0x3f
def typeARRAYREF_0 : UInt8 := 0x40
def typeHASHREF_0 : UInt8 := 0x50
def typeSHORT_BINARY_0 : UInt8 := 0x60

/-- `math.MaxInt32`. -/
def maxInt32 : Int := 2147483647
/-- `math.MaxUint32`. -/
def maxUint32 : Int := 4294967295

end Sereal
