import Verif.Model.Value
import Verif.Model.Compress
/-
Plain Go data, and when two pieces of it (in two heaps) are the same.
-/
namespace Sereal

/-- `v` is a finite nest of nil, booleans, integers, floats, strings, byte slices, []interface{} and
map[string]interface{}, in which strings, slices and maps have at most `n` bytes or elements. -/
inductive Plain (n : Nat) (h : Heap) : Val → Prop
  | nil : Plain n h .nil
  | bool {b} : Plain n h (.bool b)
  | int {k i} : Plain n h (.int k i)
  | uint {k u} : Plain n h (.uint k u)
  | f32 {u} : Plain n h (.f32 u)
  | f64 {u} : Plain n h (.f64 u)
  | str {s} : s.length ≤ n → Plain n h (.str s)
  | bin {s} : s.length ≤ n → Plain n h (.bin s)
  | slice {p len} : len ≤ n → (∀ i, i < len → Plain n h (h.cellAt (p + i))) → Plain n h (.slice p len)
  | smap {m} : (h.mapAt m).length ≤ n → ((h.mapAt m).map Prod.fst).Nodup →
      (∀ k v, mapLookup k (h.mapAt m) = some v → k.length ≤ n) →
      (∀ k v, mapLookup k (h.mapAt m) = some v → Plain n h v) → Plain n h (.smap m)

/-- The value `v` in heap `h` and the value `v'` in heap `h'` are the same data: same shape, same keys,
same leaves.  Integers come back as `int`, or as `uint` if they do not fit. -/
inductive Same (h h' : Heap) : Val → Val → Prop
  | nil : Same h h' .nil .nil
  | bool {b} : Same h h' (.bool b) (.bool b)
  | int {k i} : Same h h' (.int k i) (.int .int i)
  | uintSmall {k u} {i : Int64} : i.toInt = u.toNat → Same h h' (.uint k u) (.int .int i)
  | uintBig {k u} : 2 ^ 63 ≤ u.toNat → Same h h' (.uint k u) (.uint .uint u)
  | f32 {u} : Same h h' (.f32 u) (.f32 u)
  | f64 {u} : Same h h' (.f64 u) (.f64 u)
  | str {s} : Same h h' (.str s) (.str s)
  | bin {s} : Same h h' (.bin s) (.bin s)
  | slice {p p' n} : (∀ i, i < n → Same h h' (h.cellAt (p + i)) (h'.cellAt (p' + i))) →
      Same h h' (.slice p n) (.slice p' n)
  | smap {m m'} : ((h'.mapAt m').map Prod.fst).Nodup →
      (∀ k, (mapLookup k (h.mapAt m)).isSome = (mapLookup k (h'.mapAt m')).isSome) →
      (∀ k v v', mapLookup k (h.mapAt m) = some v → mapLookup k (h'.mapAt m') = some v' → Same h h' v v') →
      Same h h' (.smap m) (.smap m')

/-- Decompression undoes compression. -/
structure Lossless (cs : Codecs) : Prop where
  snappy : ∀ b z, cs.snappyEnc b = .ok z → cs.snappyDec z = .ok b
  zlib : ∀ l b z, cs.zlibEnc l b = .ok z → cs.zlibOpen z = .ok () ∧ cs.zlibInflate z = .ok b
  zstd : ∀ l b z, cs.zstdEnc l b = .ok z → cs.zstdDec z = .ok b

end Sereal
