import Verif.Spec.Typed
import Verif.Spec.Same
/-
When the contents of a typed variable (as the decoder's model describes them) are a Go value (as the encoder's
model describes them).
-/
namespace Sereal

/-- The float32 with these bits is a NaN. -/
def NaN32 (u : UInt32) : Prop := 0x7f800000 < u.toNat % 0x80000000

/-- The variable contents as `v` describes them: slices of any element type. -/
def IsSlice (v : Val) (p n : Nat) : Prop := v = .slice p n ∨ v = .rslice p n

/-- Maps with string keys of any element type. -/
def IsMap (v : Val) (m : Nat) : Prop := v = .smap m ∨ v = .rmap m

/-- Structs and maps. -/
def IsHash (v : Val) : Prop := (∃ name a, v = .strct name a) ∨ ∃ m, IsMap v m

/-- `Holds tc fz inp S ty v w`: the contents `w` of a variable of type `ty` are the Go value `v` of heap `inp`.
`S v u` tells that `u` is right for an `interface{}` that should hold `v`; `fz` tells that types with
MarshalBinary count.
Nil slices and maps are not told apart from empty ones.  Of the fields of a struct, those that no key leads to
(unexported, tagged "-", or hidden by a later field with the same key) may hold anything. -/
inductive Holds (tc : TCfg) (fz : Bool) (inp : Heap) (S : Val → Val → Prop) : Ty → Val → TVal → Prop
  | iface {v u} : u ≠ .nil → S v u → Holds tc fz inp S .iface v (.iface u)
  | ifaceNil : Holds tc fz inp S .iface .nil .zero
  | bool {b} : Holds tc fz inp S .bool (.bool b) (.bool b)
  | nbool {b} : Holds tc fz inp S .bool (.nbool b) (.bool b)
  | int {k i} : -2 ^ (k.width - 1) ≤ i.toInt → i.toInt < 2 ^ (k.width - 1) → Holds tc fz inp S (.int k) (.int k i) (.int i)
  | nint {k i} : -2 ^ (k.width - 1) ≤ i.toInt → i.toInt < 2 ^ (k.width - 1) → Holds tc fz inp S (.int k) (.nint k i) (.int i)
  | uint {k n} : n.toNat < 2 ^ k.width → Holds tc fz inp S (.uint k) (.uint k n) (.uint n)
  | f32 {u} : ¬ NaN32 u → Holds tc fz inp S .f32 (.f32 u) (.f32 u)
  | nf32 {u} : ¬ NaN32 u → Holds tc fz inp S .f32 (.nf32 u) (.f32 u)
  | f64 {u} : Holds tc fz inp S .f64 (.f64 u) (.f64 u)
  | nf64 {u} : Holds tc fz inp S .f64 (.nf64 u) (.f64 u)
  | str {s} : Holds tc fz inp S .str (.str s) (.str s)
  | nstr {s} : Holds tc fz inp S .str (.nstr s) (.str s)
  | bytes {s} : Holds tc fz inp S (.slice (.uint .uint8)) (.bin s) (.slice (s.map .ofByte))
  | slice {e v p ws} : IsSlice v p ws.length → (∀ (i : Nat) w, ws[i]? = some w → Holds tc fz inp S e (inp.cellAt (p + i)) w) →
      Holds tc fz inp S (.slice e) v (.slice ws)
  | arr {e p ws} : (∀ (i : Nat) w, ws[i]? = some w → Holds tc fz inp S e (inp.cellAt (p + i)) w) →
      Holds tc fz inp S (.arr ws.length e) (.rslice p ws.length) (.multi ws)
  | map {e v m kws} : IsMap v m → ((inp.mapAt m).map Prod.fst).Nodup →
      (∀ k, (mapLookup k (inp.mapAt m)).isSome = (mapLookup k kws).isSome) →
      (∀ k u w, mapLookup k (inp.mapAt m) = some u → mapLookup k kws = some w → Holds tc fz inp S e u w) →
      Holds tc fz inp S (.map e) v (.map kws)
  | strct {id name a ws} : (inp.fieldsAt a).length = (tc.types id).fields.length → ws.length = (tc.types id).fields.length →
      (∀ (i : Nat) f g, (inp.fieldsAt a)[i]? = some f → (tc.types id).fields[i]? = some g →
        f.name = g.name ∧ f.tag = g.tag ∧ f.exported = g.exported) →
      (∀ (i : Nat) f g w k, (inp.fieldsAt a)[i]? = some f → (tc.types id).fields[i]? = some g → ws[i]? = some w →
        FieldNamed (tc.types id).fields k i → Holds tc fz inp S g.ty f.val w) →
      Holds tc fz inp S (.strct id) (.strct name a) (.multi ws)
  | nilptr {e} : Holds tc fz inp S (.ptr e) .nilptr .zero
  | ptr {b e a w} : IsHash (inp.cellAt a) → HashTy e → Holds tc fz inp S e (inp.cellAt a) w →
      Holds tc fz inp S (.ptr e) (.ptr b a) (.ptr w)
  | marsh {id cls data under u} : fz = true → (tc.types id).unmarshal = some u → u data = none →
      Holds tc fz inp S (.strct id) (.marshaler cls (.ok data) under) (.opaque data)
  | marshPtr {id b a cls data under u} : fz = true → (tc.types id).unmarshal = some u → u data = none →
      inp.cellAt a = .marshaler cls (.ok data) under →
      Holds tc fz inp S (.ptr (.strct id)) (.ptr b a) (.ptr (.opaque data))

/-- Every field that a key leads to can be set. -/
def Settable (tc : TCfg) : Prop := ∀ id, ∀ f ∈ (tc.types id).fields, f.key ≠ none → f.exported = true

/-- Every float32 but the NaNs survives the way through float64. -/
def Faithful (tc : TCfg) : Prop := ∀ u, ¬ NaN32 u → tc.narrow (tc.widen u) = u

/-- No pointers in the type, apart from those in struct types it mentions. -/
def NoPtr : Ty → Prop
  | .slice e => NoPtr e
  | .arr _ e => NoPtr e
  | .map e => NoPtr e
  | .ptr _ => False
  | _ => True

end Sereal
