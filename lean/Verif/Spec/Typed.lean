import Verif.Spec.Support
import Verif.Model.Typed
/-
What a variable of a given type should hold after decoding an item into it.  Of the model only the types
of Go types, of variable contents and of configurations are used, and the accessors of contents.
-/
namespace Sereal

/-- The sizes of Go's integer types on 64-bit machines, in bits. -/
def IntK.width : IntK → Nat
  | .int => 64 | .int8 => 8 | .int16 => 16 | .int32 => 32 | .int64 => 64
def UintK.width : UintK → Nat
  | .uint => 64 | .uint8 => 8 | .uint16 => 16 | .uint32 => 32 | .uint64 => 64

/-- `r` is the number congruent to `z` modulo 2^bits in the range of 2^bits numbers that begins with `lo`. -/
def Wraps (bits : Nat) (lo z r : Int) : Prop := lo ≤ r ∧ r < lo + 2 ^ bits ∧ (2 ^ bits : Int) ∣ r - z

/-- The key under which a field is filled, if it can be: its tag, or else its name if it is exported; no key if
its tag is "-". -/
def TField.key (f : TField) : Option Bytes :=
  if f.tag = [45] then none
  else if f.tag ≠ [] then some f.tag
  else if f.exported then some f.name
  else none

/-- `i` is the last field with the key `k`. -/
def FieldNamed (fs : List TField) (k : Bytes) (i : Nat) : Prop :=
  (∃ f, fs[i]? = some f ∧ f.key = some k) ∧ ∀ j f, i < j → fs[j]? = some f → f.key ≠ some k

/-- The field for the key `k` of a document: the last with that key, or else the last with the key `title k`. -/
def FieldFor (tc : TCfg) (fs : List TField) (k : Bytes) (i : Nat) : Prop :=
  FieldNamed fs k i ∨ ((∀ f ∈ fs, f.key ≠ some k) ∧ FieldNamed fs (tc.title k) i)

/-- The variables the elements of an array of length `n` go to when decoded into a slice: those of the slice, or
as many new ones as needed if it is nil or empty. -/
def TVal.room (n : Nat) (cur : TVal) : List TVal :=
  if cur.elems = [] then List.replicate n .zero else cur.elems

/-- `bytes` over the first elements of `vs`. -/
def pour (vs : List TVal) (bytes : Bytes) : List TVal :=
  (bytes.take vs.length).map .ofByte ++ vs.drop bytes.length

/-- Types a hash can be stored in. -/
inductive HashTy : Ty → Prop
  | map {e} : HashTy (.map e)
  | strct {id} : HashTy (.strct id)
  | ptr {e} : HashTy e → HashTy (.ptr e)

/-- `Fills c tc S ty cur t v`: a variable of type `ty` holding `cur` should hold `v` after an item denoting `t`
has been decoded into it; `S w t` tells that the value `w` is right for the item `t` in an `interface{}`. -/
inductive Fills (c : ViewCfg) (tc : TCfg) (S : Val → Tree → Prop) : Ty → TVal → Tree → TVal → Prop
  /-- a nil interface -/
  | iface {t w} : S w t → w ≠ .nil → Fills c tc S .iface .zero t (.iface w)
  | ifaceNil {t} : S .nil t → Fills c tc S .iface .zero t .zero
  | bool {cur b} : Fills c tc S .bool cur (.bool b) (.bool b)
  | int {k cur z i} : Wraps k.width (-2 ^ (k.width - 1)) z i.toInt → Fills c tc S (.int k) cur (.int z) (.int i)
  | uint {k cur z n} : Wraps k.width 0 z n.toNat → Fills c tc S (.uint k) cur (.int z) (.uint n)
  | f32f32 {cur u} : Fills c tc S .f32 cur (.f32 u) (.f32 (tc.narrow (tc.widen u)))
  | f32f64 {cur u} : Fills c tc S .f32 cur (.f64 u) (.f32 (tc.narrow u))
  | f64f32 {cur u} : Fills c tc S .f64 cur (.f32 u) (.f64 (tc.widen u))
  | f64f64 {cur u} : Fills c tc S .f64 cur (.f64 u) (.f64 u)
  | str {cur s} : Fills c tc S .str cur (.str s) (.str s)
  | strBin {cur s} : Fills c tc S .str cur (.bin s) (.str s)
  /-- a nil []byte -/
  | bytesNil {s} : Fills c tc S (.slice (.uint .uint8)) .zero (.bin s) (.slice (s.map .ofByte))
  /-- a []byte that is not nil keeps its length -/
  | bytes {s vs} : Fills c tc S (.slice (.uint .uint8)) (.slice vs) (.bin s) (.slice (pour vs s))
  | byteArr {n cur s} : Fills c tc S (.arr n (.uint .uint8)) cur (.bin s) (.multi (pour (cur.parts n) s))
  /-- elements go to the variables there are; others are only parsed -/
  | slice {e cur ts vs} : vs.length = (cur.room ts.length).length →
      (∀ (i : Nat) t b v, ts[i]? = some t → (cur.room ts.length)[i]? = some b → vs[i]? = some v → Fills c tc S e b t v) →
      (∀ i : Nat, ts.length ≤ i → vs[i]? = (cur.room ts.length)[i]?) →
      (∀ (i : Nat) t, (cur.room ts.length).length ≤ i → ts[i]? = some t → Supported c t) →
      Fills c tc S (.slice e) cur (.arr ts) (.slice vs)
  | arr {n e cur ts vs} : vs.length = (cur.parts n).length →
      (∀ (i : Nat) t b v, ts[i]? = some t → (cur.parts n)[i]? = some b → vs[i]? = some v → Fills c tc S e b t v) →
      (∀ i : Nat, ts.length ≤ i → vs[i]? = (cur.parts n)[i]?) →
      (∀ (i : Nat) t, (cur.parts n).length ≤ i → ts[i]? = some t → Supported c t) →
      Fills c tc S (.arr n e) cur (.arr ts) (.multi vs)
  /-- a map gains entries; keys must be new -/
  | map {e cur kts kvs} : (kts.map Prod.fst).Nodup → (∀ k, k ∈ kts.map Prod.fst → mapLookup k cur.entries = none) →
      (∀ k t, (k, t) ∈ kts → (mapLookup k kvs).isSome) →
      (∀ k t v, (k, t) ∈ kts → mapLookup k kvs = some v → Fills c tc S e .zero t v) →
      (∀ k, k ∉ kts.map Prod.fst → mapLookup k kvs = mapLookup k cur.entries) →
      Fills c tc S (.map e) cur (.map kts) (.map kvs)
  /-- an entry goes to its field, if there is one; the other fields keep their contents -/
  | strct {id cur kts vs} : (cur.parts (tc.types id).fields.length).length = (tc.types id).fields.length →
      vs.length = (tc.types id).fields.length →
      kts.Pairwise (fun p q => ∀ i, FieldFor tc (tc.types id).fields p.1 i → ¬ FieldFor tc (tc.types id).fields q.1 i) →
      (∀ k t (i : Nat) f b v, (k, t) ∈ kts → FieldFor tc (tc.types id).fields k i → (tc.types id).fields[i]? = some f →
        (cur.parts (tc.types id).fields.length)[i]? = some b → vs[i]? = some v → Fills c tc S f.ty b t v) →
      (∀ k t (i : Nat) f, (k, t) ∈ kts → FieldFor tc (tc.types id).fields k i → (tc.types id).fields[i]? = some f →
        f.exported = true) →
      (∀ k t, (k, t) ∈ kts → (∀ i, ¬ FieldFor tc (tc.types id).fields k i) → Supported c t) →
      (∀ i : Nat, (∀ k, k ∈ kts.map Prod.fst → ¬ FieldFor tc (tc.types id).fields k i) →
        vs[i]? = (cur.parts (tc.types id).fields.length)[i]?) →
      Fills c tc S (.strct id) cur (.map kts) (.multi vs)
  /-- a nil pointer is made to point to a new variable -/
  | ptr {e cur kts v} : HashTy e → Fills c tc S e cur.pointee (.map kts) v →
      Fills c tc S (.ptr e) cur (.map kts) (.ptr v)
  | ref {ty cur t v} : ty ≠ .iface → Fills c tc S ty cur t v → Fills c tc S ty cur (.ref t) v
  | weak {ty cur t v} : c.perlCompat = false → ty ≠ .iface → Fills c tc S ty cur t v →
      Fills c tc S ty cur (.weak t) v
  | obj {ty cur cls t v} : c.perlCompat = false → ty ≠ .iface → Fills c tc S ty cur t v →
      Fills c tc S ty cur (.obj cls t) v
  /-- undef resets pointers, maps and slices and nothing else -/
  | undefPtr {e cur t} : c.perlCompat = false → t = .undef ∨ t = .cundef → Fills c tc S (.ptr e) cur t .zero
  | undefMap {e cur t} : c.perlCompat = false → t = .undef ∨ t = .cundef → Fills c tc S (.map e) cur t .zero
  | undefSlice {e cur t} : c.perlCompat = false → t = .undef ∨ t = .cundef → Fills c tc S (.slice e) cur t .zero
  | undef {ty cur t} : c.perlCompat = false → t = .undef ∨ t = .cundef → ty ≠ .iface → (∀ e, ty ≠ .ptr e) →
      (∀ e, ty ≠ .map e) → (∀ e, ty ≠ .slice e) → Fills c tc S ty cur t cur
  /-- frozen objects: the bytes are given to UnmarshalBinary -/
  | thaw {id cur cls data u} : c.perlCompat = false → (tc.types id).unmarshal = some u → u data = none →
      Fills c tc S (.strct id) cur (.frz cls (.ref (.arr [.bin data]))) (.opaque data)
  | thawPtr {id cur cls data u} : c.perlCompat = false → (tc.types id).unmarshal = some u → u data = none →
      Fills c tc S (.ptr (.strct id)) cur (.frz cls (.ref (.arr [.bin data]))) (.ptr (.opaque data))
  | frozenBytes {cls data} : c.perlCompat = false → Fills c tc S (.slice (.uint .uint8)) .zero
      (.frz cls (.ref (.arr [.bin data]))) (.slice (data.map .ofByte))

/-- The item fits a variable of type `ty` holding `cur`. -/
def Takes (c : ViewCfg) (tc : TCfg) (ty : Ty) (cur : TVal) (t : Tree) : Prop :=
  ∃ v, Fills c tc (fun _ t => Supported c t) ty cur t v

/-- No references to other items. -/
inductive NoRefs : Tree → Prop
  | undef : NoRefs .undef
  | cundef : NoRefs .cundef
  | bool {b} : NoRefs (.bool b)
  | int {i} : NoRefs (.int i)
  | f32 {u} : NoRefs (.f32 u)
  | f64 {u} : NoRefs (.f64 u)
  | str {s} : NoRefs (.str s)
  | bin {s} : NoRefs (.bin s)
  | arr {ts} : (∀ t ∈ ts, NoRefs t) → NoRefs (.arr ts)
  | map {kvs} : (∀ k t, (k, t) ∈ kvs → NoRefs t) → NoRefs (.map kvs)
  | ref {t} : NoRefs t → NoRefs (.ref t)
  | weak {t} : NoRefs t → NoRefs (.weak t)
  | obj {cls t} : NoRefs t → NoRefs (.obj cls t)
  | regexp {p m} : NoRefs (.regexp p m)
  | frz {cls t} : NoRefs t → NoRefs (.frz cls t)

end Sereal
