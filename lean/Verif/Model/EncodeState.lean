import Verif.Model.Encode
import Verif.Model.TagsCache
/-
An Encoder that is used more than once.  Between calls it keeps its version and the cache of field maps
(encode.go:17-27); an Encoder's exported fields may be changed by the program.  The functions below are
those of Model/Encode.lean with the cache in place of `structTags`: only encodeStruct uses the cache
(encode.go:589), everything else passes it on, also when there is an error.
-/
namespace Sereal

/-- Struct types: `decls t` are the fields of type `t`, `freeze` is the type PerlFreeze. -/
structure Types where
  decls : Nat → List FieldDecl
  freeze : Nat

/-- Encoding actions of an Encoder with a cache. -/
abbrev C (α : Type) := EState → Option CMap → Except Exn (α × EState) × Option CMap

namespace C
def pure (a : α) : C α := fun s c => (.ok (a, s), c)
def bind (x : C α) (f : α → C β) : C β := fun s c =>
  match x s c with
  | (.ok (a, s'), c') => f a s' c'
  | (.error e, c') => (.error e, c')
instance : Monad C where
  pure := C.pure
  bind := C.bind
/-- An action that does not touch the cache. -/
def lift (x : E α) : C α := fun s c => (x s, c)
end C

/-- `e.tcache.Get(st)` (encode.go:589). -/
def getTags (T : Types) (t : Nat) : C Tags := fun s c =>
  (.ok ((tagsGet T.decls t c).1, s), (tagsGet T.decls t c).2)

/-- encode.go:416-420, 536-540. -/
def encodeElemsC (rec : Val → C Unit) : List Val → C Unit
  | [] => pure ()
  | v :: vs => do
    rec v
    encodeElemsC rec vs

/-- encode.go:441-446, 561-577. -/
def encodePairsC (key : Bytes → E Unit) (rec : Val → C Unit) (kvs : List (Bytes × Val)) :
    List Bytes → C Unit
  | [] => pure ()
  | k :: ks => do
    C.lift (key k)
    rec ((mapLookup k kvs).getD .nil)
    encodePairsC key rec kvs ks

/-- encode.go:603-608; `st.Field(i)` panics if there is no field `i`. -/
def encodeFieldsC (cfg : ECfg) (rec : Val → C Unit) (fs : List Field) (tags : Tags) : List Bytes → C Unit
  | [] => pure ()
  | k :: ks => do
    C.lift (encodeString cfg k true)
    match mapLookup k tags with
    | none => pure ()
    | some i =>
      match fs[i]? with
      | none => C.lift (E.fail (.panic "reflect: Field index out of range"))
      | some f =>
        if !f.exported then C.lift (E.fail (.panic "reflect.Value.Interface: unexported field"))
        else rec f.val
    encodeFieldsC cfg rec fs tags ks

/-- encode.go:405-422, 527-542. -/
def encodeArrC (cfg : ECfg) (rec : Val → C Unit) (vs : List Val) (isRefNext : Bool) : C Unit := do
  C.lift (do
    if cfg.perlCompat && !isRefNext then emit [typeREFN]
    emit (typeARRAY :: varint vs.length))
  encodeElemsC rec vs

/-- encode.go:431-448, 551-580. -/
def encodeMpC (cfg : ECfg) (rec : Val → C Unit) (kvs : List (Bytes × Val)) (isRefNext : Bool)
    (viaString : Bool) : C Unit := do
  let ks ← C.lift (do
    if cfg.perlCompat && !isRefNext then emit [typeREFN]
    emit (typeHASH :: varint kvs.length)
    rangeKeys cfg (kvs.map (·.1)))
  encodePairsC (fun k => encodeString cfg k viaString) rec kvs ks

/-- encode.go:589-610, for a struct of type `t`. -/
def encodeStrctC (cfg : ECfg) (T : Types) (rec : Val → C Unit) (t : Nat) (name : Bytes) (fs : List Field) :
    C Unit := do
  let tags ← getTags T t
  let ks ← C.lift (do
    emit [typeOBJECT]
    encodeBytes cfg name true
    if cfg.perlCompat then emit [typeREFN]
    emit (typeHASH :: varint tags.length)
    rangeKeys cfg (tags.map (·.1)))
  encodeFieldsC cfg rec fs tags ks

/-- encode.go:622-672. -/
def encodePtrC (cfg : ECfg) (inp : Heap) (rec : Val → Bool → C Unit) (iface : Bool) (a : Addr) :
    C Unit := do
  let v := inp.cellAt a
  if !iface && isPerlStruct v then rec v false
  else
    match getPointer cfg inp iface a with
    | .error e => C.lift (E.fail e)
    | .ok rvptr2 => do
      let st ← C.lift E.get
      match findPtr st a rvptr2 with
      | some offs => C.lift (do
        emit (typeREFP :: varint offs)
        setTrackFlag offs)
      | none => do
        let lenbOrig := st.buf.length
        C.lift (do
          emit [typeREFN]
          rememberPtr a lenbOrig)
        rec v true
        C.lift (if rvptr2 ≠ 0 then rememberPtr rvptr2 (lenbOrig + 1) else pure ())

/-- encode.go:200-304, 454-519; `ty a` is the type of the struct at `a`. -/
def encodeValC (cfg : ECfg) (T : Types) (ty : Addr → Nat) (inp : Heap)
    (rec : Option (Val → Bool → Bool → C Unit)) : Val → (isKeyOrClass isRefNext : Bool) → C Unit
  | .slice p n, _, rn | .rslice p n, _, rn =>
    match rec with
    | none => C.lift (E.err .maxRecursion)
    | some rec => encodeArrC cfg (fun v => rec v false false) (sliceVals inp p n) rn
  | .smap m, _, rn =>
    match rec with
    | none => C.lift (E.err .maxRecursion)
    | some rec => encodeMpC cfg (fun v => rec v false false) (inp.mapAt m) rn true
  | .rmap m, _, rn =>
    match rec with
    | none => C.lift (E.err .maxRecursion)
    | some rec => encodeMpC cfg (fun v => rec v false false) (inp.mapAt m) rn cfg.perlCompat
  | .obj cls ref, _, _ => do
    C.lift (do
      emit [typeOBJECT]
      encodeBytes cfg cls true)
    encodeValC cfg T ty inp rec ref false false
  | .weak ref, _, _ => do
    C.lift (emit [typeWEAKEN])
    encodeValC cfg T ty inp rec ref false false
  | .frozen cls data, _, _ =>
    match rec with
    | none => C.lift (E.err .maxRecursion)
    | some rec => encodeStrctC cfg T (fun v => rec v false false) T.freeze namePerlFreeze
        [⟨nameClass, [], true, .str cls⟩, ⟨nameData, [], true, .bin data⟩]
  | .ptr iface a, _, _ =>
    match rec with
    | none => C.lift (E.err .maxRecursion)
    | some rec => encodePtrC cfg inp (fun v rn => rec v false rn) iface a
  | .strct name a, _, _ =>
    match rec with
    | none => C.lift (E.err .maxRecursion)
    | some rec => encodeStrctC cfg T (fun v => rec v false false) (ty a) name (inp.fieldsAt a)
  | .marshaler cls res under, ik, rn =>
    if cfg.disableFreeze then encodeValC cfg T ty inp rec under ik rn
    else
      match res with
      | .error n => C.lift (E.err (.user n))
      | .ok data => C.lift (do
        emit [typeOBJECT_FREEZE]
        encodeString cfg cls true
        emit [typeREFN]
        emit (typeARRAY :: varint 1)
        encodeBytes cfg data false)
  -- nothing below looks at children
  | v, ik, rn => C.lift (encodeVal cfg inp (rec.map fun _ _ _ _ => E.fail .fuel) v ik rn)

def encodeC (cfg : ECfg) (T : Types) (ty : Addr → Nat) (inp : Heap) :
    Nat → Val → (isKeyOrClass isRefNext : Bool) → C Unit
  | 0 => encodeValC cfg T ty inp none
  | 1 => encodeValC cfg T ty inp none
  | d + 2 => encodeValC cfg T ty inp (some (encodeC cfg T ty inp (d + 1)))

/-- What an Encoder keeps between calls. -/
structure Enc where
  version : Nat
  cache : Option CMap

/-- The arguments of a call of MarshalWithHeader: the exported fields of the Encoder and the runtime's
choices (`cfg`; its version is not used), the variables the arguments live in, their struct types. -/
structure Call where
  cfg : ECfg
  cs : Codecs
  inp : Heap
  ty : Addr → Nat
  header : Option Val
  body : Val

/-- `encodeAfter` with the cache. -/
def encodeAfterC (cfg : ECfg) (T : Types) (ty : Addr → Nat) (inp : Heap) (pre : Bytes) (v : Val)
    (c : Option CMap) : Res Bytes × Option CMap :=
  match encodeC cfg T ty inp (remainingRecursion cfg.maxRecursionDepth) v false false { buf := pre } c with
  | (.ok ((), s), c') => (.ok (s.buf.drop pre.length), c')
  | (.error e, c') => (.error e, c')

/-- encode.go:110-129 with the cache. -/
def headerSuffixC (cfg : ECfg) (T : Types) (ty : Addr → Nat) (inp : Heap) (header : Option Val)
    (c : Option CMap) : Res Bytes × Option CMap :=
  match header with
  | some hv =>
    if cfg.ver ≥ 2 then
      match encodeAfterC cfg T ty inp [1] hv c with
      | (.ok suf, c') => (.ok (varint (1 + suf.length) ++ 1 :: suf), c')
      | (.error e, c') => (.error e, c')
    else (.ok [0], c)
  | none => (.ok [0], c)

/-- encode.go:99-194: `marshalRaw` with the cache. -/
def marshalRawC (cfg : ECfg) (T : Types) (k : Call) (c : Option CMap) : Res Bytes × Option CMap :=
  let version := cfg.ver
  match headerSuffixC cfg T k.ty k.inp k.header c with
  | (.error x, c) => (.error x, c)
  | (.ok suffix, c) =>
    let encHeader := fun (doctype : Nat) =>
      magicFor version ++ (UInt8.ofNat version ||| (UInt8.ofNat doctype <<< 4)) :: suffix
    match encodeAfterC cfg T k.ty k.inp (if version = 1 then encHeader serealRaw else [0]) k.body c with
    | (.error x, c) => (.error x, c)
    | (.ok encBody, c) =>
      (match cfg.compression with
        | some cp =>
          if cfg.compressionThreshold = 0 ∨ (encBody.length : Int) ≥ cfg.compressionThreshold then do
            let encBody ← compress k.cs cp encBody
            let doctype ← compressionDoctype version cp
            .ok (encHeader doctype ++ encBody)
          else .ok (encHeader serealRaw ++ encBody)
        | none => .ok (encHeader serealRaw ++ encBody), c)

/-- encode.go:79-92. -/
def recoverMarshal (r : Res Bytes) : Res Bytes :=
  match r with
  | .error (.panic s) => .error (.err (.msg s))
  | r => r

/-- `MarshalWithHeader` (encode.go:78-195) on an Encoder. -/
def marshalC (T : Types) (e : Enc) (k : Call) : Res Bytes × Enc :=
  let version := if e.version = 0 then 3 else e.version             -- encode.go:95-97
  match marshalRawC { k.cfg with version } T k e.cache with
  | (r, c) => (recoverMarshal r, ⟨version, c⟩)

/-- A number of calls one after the other, whether they succeed or not. -/
def marshalAll (T : Types) : Enc → List Call → Enc
  | e, [] => e
  | e, k :: ks => marshalAll T (marshalC T e k).2 ks

end Sereal
