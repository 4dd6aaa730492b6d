import Verif.Spec.Same
/-
When two Go values, in two memories, contain the same data (C78).
-/
namespace Sereal

/-- The integer that a Go value of one of the integer types is. -/
inductive IntOf : Val → Int → Prop
  | int {k} {i : Int64} : IntOf (.int k i) i.toInt
  | uint {k} {u : UInt64} : IntOf (.uint k u) u.toNat

/-- The same data: integers as numbers, whatever their types; everything else has the same type too. -/
inductive Alike (h h' : Heap) : Val → Val → Prop
  | nil : Alike h h' .nil .nil
  | bool {b} : Alike h h' (.bool b) (.bool b)
  | int {v v' i} : IntOf v i → IntOf v' i → Alike h h' v v'
  | f32 {u} : Alike h h' (.f32 u) (.f32 u)
  | f64 {u} : Alike h h' (.f64 u) (.f64 u)
  | str {s} : Alike h h' (.str s) (.str s)
  | bin {s} : Alike h h' (.bin s) (.bin s)
  | slice {p p' n} : (∀ i, i < n → Alike h h' (h.cellAt (p + i)) (h'.cellAt (p' + i))) → Alike h h' (.slice p n) (.slice p' n)
  | smap {m m'} : ((h.mapAt m).map Prod.fst).Nodup → ((h'.mapAt m').map Prod.fst).Nodup →
      (∀ k, (mapLookup k (h.mapAt m)).isSome = (mapLookup k (h'.mapAt m')).isSome) →
      (∀ k v v', mapLookup k (h.mapAt m) = some v → mapLookup k (h'.mapAt m') = some v' → Alike h h' v v') →
      Alike h h' (.smap m) (.smap m')

end Sereal
