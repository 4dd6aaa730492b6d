import Verif.Model.TypedMem
/-
UnmarshalHeaderBody with every kind of argument, on a Decoder that may have been used before
(decode.go:172-263).  Model/Decode.lean has the case of pointers to nil `interface{}` variables only, Model/TypedMem.lean
that of one typed variable and a new Decoder.
-/
namespace Sereal

/-- What the caller passes as `vheader` or `vbody` (decode.go:172).
* `none`: nil;
* `value`: something that is not a pointer (decode.go:209-211, 242-244);
* `any l`: a pointer to an `interface{}` variable that holds nil (decode.go:215, 247, 254);
* `var ty l`: a pointer to the variable of type `ty` at `l` (decode.go:218, 250, 257).
Not covered: a nil pointer to a type, and a pointer to an `interface{}` variable outside typed memory that holds
something else than nil. -/
inductive Dest
  | none
  | value
  | any (l : Loc)
  | var (ty : Ty) (l : Spot)
  deriving DecidableEq

/-- A fresh `d.tracked` for one decode call, dropped again on every exit path (decode.go:205-206, 238-239). -/
def withTrackedMem (x : M α) : M α := fun s =>
  match x { s with d := { s.d with tracked := fun _ => none }, typed := fun _ => none } with
  | (r, s') => (r, { s' with d := { s'.d with tracked := fun _ => none }, typed := fun _ => none })

/-- The choice between `d.decode` and `d.decodeViaReflection` (decode.go:215-219, 247-251, 254-258), `e` the error for
something that is not a pointer. -/
def decodeDest (cfg : DCfg) (tc : TCfg) (e : Err) (buf : Bytes) (i : Nat) : Dest → M Unit
  | .none => pure ()
  | .value => M.err e
  | .any l => withTrackedMem do
      let _ ← M.lift (decode cfg buf (fuelFor buf.length) i l)
      pure ()
  | .var ty l => withTrackedMem do
      let _ ← decodeMem cfg tc buf (fuelFor buf.length) i { ty := ty, place := .var l }
      pure ()

/-- The user header (decode.go:204-221). -/
def headerDest (cfg : DCfg) (tc : TCfg) (b : Bytes) (header : Hdr) (bodyStart : Nat) : Dest → M Unit
  | .none => pure ()
  | dest =>
    if header.suffixSize = 1 then pure ()
    else do
      M.failIf (dest = .value) (.err .headerPointer)
      let suffixFlags ← M.lift (byteAt b header.suffixStart)
      if suffixFlags &&& 1 = 1 then
        let by_ ← M.lift (sliceRange b 0 bodyStart)
        decodeDest cfg tc .headerPointer by_ (header.suffixStart + 1) dest
      else pure ()

/-- The body (decode.go:223-260). -/
def bodyDest (cfg : DCfg) (tc : TCfg) (cs : Codecs) (b : Bytes) (header : Hdr) (decomp : Option Compressor) (bodyStart : Nat) :
    Dest → M Unit
  | .none => pure ()
  | dest => do
    let b ← match decomp with
      | some c => do
        let decompBody ← M.lift (D.lift (decompress cs c (b.drop bodyStart)))
        pure (b.take bodyStart ++ decompBody)
      | none => pure b
    M.failIf (dest = .value) (.err .bodyPointer)
    if header.version = 1 then decodeDest cfg tc .bodyPointer b bodyStart dest
    else do
      M.failIf (bodyStart = 0) (.crash "slice bounds out of range")   -- b[-1:]
      decodeDest cfg tc .bodyPointer (b.drop (bodyStart - 1)) 1 dest

/-- UnmarshalHeaderBody without the deferred recover (decode.go:188-263). -/
def callRaw (cfg : DCfg) (tc : TCfg) (cs : Codecs) (b : Bytes) (vheader vbody : Dest) : M Unit := do
  let header ← M.lift (D.lift (checkHeader b))
  let decomp ← M.lift (D.lift (documentDecompressor header.version header.doctype))
  let bodyStart := wrapInt (headerSize + header.suffixSize)
  M.failIf (bodyStart > b.length ∨ bodyStart < 0) (.err (.corrupt .badOffset))
  headerDest cfg tc b header bodyStart.toNat vheader
  bodyDest cfg tc cs b header decomp bodyStart.toNat vbody

/-- `UnmarshalHeaderBody` (decode.go:172-263). -/
def call (cfg : DCfg) (tc : TCfg) (cs : Codecs) (b : Bytes) (vheader vbody : Dest) : M Unit := fun s =>
  let (r, s') := callRaw cfg tc cs b vheader vbody s
  (recovered r, s')

end Sereal
