import Verif.Spec.Grammar
import Verif.Model.Value
/-
How a tree of the grammar looks as a Go value: what a decoder with given flags should produce in an
`interface{}` variable.  Only the heap and value types of the model are used, no decoder function.
-/
namespace Sereal

/-- The value of the last pair with key `k`. -/
def lastLookup (k : Bytes) (kvs : List (Bytes × α)) : Option α := mapLookup k kvs.reverse

/-- What the decoder's user chose: PerlCompat, DisableReferentialIntegrity, and for each registered
class what its UnmarshalBinary answers (`none` = success). -/
structure ViewCfg where
  perlCompat : Bool
  disableRefInt : Bool
  registry : Bytes → Option (Bytes → Option Refusal)

/-- The Go value `v` in heap `h` is the view of tree `t`.
With PerlCompat, references, undef, weak references and objects are explicit; without it they are
transparent and undef is nil.  A reference to an enclosing item shows as anything. -/
inductive Shows (c : ViewCfg) (h : Heap) : Val → Tree → Prop
  | undef : c.perlCompat = false → Shows c h .nil .undef
  | cundef : c.perlCompat = false → Shows c h .nil .cundef
  | undefP {a} : c.perlCompat = true → h.mem a = .cell (.undef false) → Shows c h (.ptr false a) .undef
  | cundefP : c.perlCompat = true → h.mem canonicalUndefAddr = .cell (.undef true) →
      Shows c h (.ptr false canonicalUndefAddr) .cundef
  | bool {b} : Shows c h (.bool b) (.bool b)
  | int {i : Int64} : Shows c h (.int .int i) (.int i.toInt)
  | uint {u : UInt64} : 2 ^ 63 ≤ u.toNat → Shows c h (.uint .uint u) (.int u.toNat)
  | f32 {u} : Shows c h (.f32 u) (.f32 u)
  | f64 {u} : Shows c h (.f64 u) (.f64 u)
  | str {s} : Shows c h (.str s) (.str s)
  | bin {s} : Shows c h (.bin s) (.bin s)
  | arr {p ts} (f : Nat → Val) : (∀ i, i < ts.length → h.mem (p + i) = .cell (f i)) →
      (∀ i t, ts[i]? = some t → Shows c h (f i) t) → Shows c h (.slice p ts.length) (.arr ts)
  | map {m kvs es} : h.mem m = .mp es → (es.map Prod.fst).Nodup →
      (∀ k, (mapLookup k es).isSome = (lastLookup k kvs).isSome) →
      (∀ k v t, mapLookup k es = some v → lastLookup k kvs = some t → Shows c h v t) →
      Shows c h (.smap m) (.map kvs)
  | ref {v t} : c.perlCompat = false → Shows c h v t → Shows c h v (.ref t)
  | refP {b a v t} : c.perlCompat = true → h.mem a = .cell v → Shows c h v t →
      Shows c h (.ptr b a) (.ref t)
  | refp {a v t} : c.disableRefInt = false → h.mem a = .cell v → Shows c h v t →
      Shows c h (.ptr false a) (.refp t)
  | refpI {v t} : c.disableRefInt = true → Shows c h v t → Shows c h v (.refp t)
  | alias {v t} : Shows c h v t → Shows c h v (.alias t)
  | openRef {v} : Shows c h v .openRef
  | weak {v t} : c.perlCompat = false → Shows c h v t → Shows c h v (.weak t)
  | weakP {a v t} : c.perlCompat = true → h.mem a = .cell (.weak v) → Shows c h v t →
      Shows c h (.ptr false a) (.weak t)
  | obj {cls v t} : c.perlCompat = false → Shows c h v t → Shows c h v (.obj cls t)
  | objP {a cls v t} : c.perlCompat = true → h.mem a = .cell (.obj cls v) → Shows c h v t →
      Shows c h (.ptr false a) (.obj cls t)
  | regexp {a p m} : h.mem a = .cell (.regexp p m) → Shows c h (.ptr false a) (.regexp p m)
  | frozen {a cls t p data} : (c.perlCompat = true ∨ c.registry cls = none) →
      Shows c h (.slice p 1) t → h.mem p = .cell (.bin data) →
      h.mem a = .cell (.frozen cls data) → Shows c h (.ptr false a) (.frz cls t)
  | thawed {a cls t p data u} : c.perlCompat = false → c.registry cls = some u → u data = none →
      Shows c h (.slice p 1) t → h.mem p = .cell (.bin data) →
      h.mem a = .cell (.thawed cls data) → Shows c h (.ptr false a) (.frz cls t)

end Sereal
