import Verif.Model.Decode
import Verif.Spec.View
/-
Which kinds of values Unmarshal leaves in memory.
-/
namespace Sereal

/-- The kinds of values a decoder with these settings makes.  Integers are ints, or uints from 2^63 on.  There are no
narrower integers, no json.Numbers, no named types, no structs, no nil pointers.  Of the types of perl.go, those that keep
Perl's structure need PerlCompat, as do pointers to interfaces.  (The PerlUndef `.undef true` is
the variable the package itself has.)  Instances of other types are made for registered classes only. -/
def Val.Usual (d : DCfg) : Val → Prop
  | .nil | .bool _ | .int .int _ | .f32 _ | .f64 _ | .str _ | .bin _ | .slice _ _ | .smap _
  | .regexp _ _ | .frozen _ _ | .ptr false _ => True
  | .uint .uint n => 2 ^ 63 ≤ n.toNat
  | .undef canonical => d.perlCompat = true ∨ canonical = true
  | .ptr true _ => d.perlCompat = true
  | .obj _ v | .weak v => d.perlCompat = true ∧ v.Usual d
  | .thawed cls _ => (d.registry cls).isSome = true
  | _ => False

/-- Variables and maps hold such values only. -/
def Heap.Usual (d : DCfg) (h : Heap) : Prop :=
  (∀ a, (h.cellAt a).Usual d) ∧ ∀ m k v, mapLookup k (h.mapAt m) = some v → v.Usual d

/-- The tree has no reference to an item that encloses it. -/
inductive Tree.Closed : Tree → Prop
  | undef : Closed .undef
  | cundef : Closed .cundef
  | bool {b} : Closed (.bool b)
  | int {i} : Closed (.int i)
  | f32 {u} : Closed (.f32 u)
  | f64 {u} : Closed (.f64 u)
  | str {s} : Closed (.str s)
  | bin {s} : Closed (.bin s)
  | arr {ts} : (∀ t ∈ ts, Closed t) → Closed (.arr ts)
  | map {kvs} : (∀ k t, (k, t) ∈ kvs → Closed t) → Closed (.map kvs)
  | ref {t} : Closed t → Closed (.ref t)
  | refp {t} : Closed t → Closed (.refp t)
  | alias {t} : Closed t → Closed (.alias t)
  | weak {t} : Closed t → Closed (.weak t)
  | obj {cls t} : Closed t → Closed (.obj cls t)
  | regexp {p m} : Closed (.regexp p m)
  | frz {cls t} : Closed t → Closed (.frz cls t)

/-- What an interface{} variable can hold after decoding, with everything behind it.  The types of perl.go, and instances of
registered types, occur behind a pointer of their own. -/
inductive Shape (d : DCfg) (h : Heap) : Val → Prop
  | nil : Shape d h .nil
  | bool {b} : Shape d h (.bool b)
  | int {i} : Shape d h (.int .int i)
  | uint {n} : 2 ^ 63 ≤ n.toNat → Shape d h (.uint .uint n)
  | f32 {u} : Shape d h (.f32 u)
  | f64 {u} : Shape d h (.f64 u)
  | str {s} : Shape d h (.str s)
  | bin {s} : Shape d h (.bin s)
  | slice {p n} : (∀ i, i < n → Shape d h (h.cellAt (p + i))) → Shape d h (.slice p n)
  | smap {m} : (∀ k v, mapLookup k (h.mapAt m) = some v → Shape d h v) → Shape d h (.smap m)
  | regexp {a p m} : h.cellAt a = .regexp p m → Shape d h (.ptr false a)
  | frozen {a cls data} : d.perlCompat = true ∨ d.registry cls = none → h.cellAt a = .frozen cls data → Shape d h (.ptr false a)
  | thawed {a cls data} : d.perlCompat = false → (d.registry cls).isSome = true → h.cellAt a = .thawed cls data → Shape d h (.ptr false a)
  | undef {a c} : d.perlCompat = true → h.cellAt a = .undef c → Shape d h (.ptr false a)
  | obj {a cls v} : d.perlCompat = true → h.cellAt a = .obj cls v → Shape d h v → Shape d h (.ptr false a)
  | weak {a v} : d.perlCompat = true → h.cellAt a = .weak v → Shape d h v → Shape d h (.ptr false a)
  | ref {b a} : d.perlCompat = true → Shape d h (h.cellAt a) → Shape d h (.ptr b a)
  | refp {a} : d.disableRefInt = false → Shape d h (h.cellAt a) → Shape d h (.ptr false a)

end Sereal
