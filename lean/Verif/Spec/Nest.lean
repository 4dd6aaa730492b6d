import Verif.Model.Value
/-
Nesting depth of data built from []interface{} and map[string]interface{}, which may be cyclic.
-/
namespace Sereal

/-- Values without children. -/
def IsLeaf : Val → Prop
  | .nil | .bool _ | .int _ _ | .uint _ _ | .f32 _ | .f64 _ | .str _ | .bin _ => True
  | _ => False

/-- []interface{} and map[string]interface{}. -/
def IsNode : Val → Prop
  | .slice _ _ | .smap _ => True
  | _ => False

/-- `w` is an element of the slice or a value of the map `v`. -/
inductive Child (h : Heap) : Val → Val → Prop
  | elem {p n i} : i < n → Child h (.slice p n) (h.cellAt (p + i))
  | entry {m k v} : mapLookup k (h.mapAt m) = some v → Child h (.smap m) v

/-- `w` is inside `v`, any number of levels down. -/
inductive Reach (h : Heap) (v : Val) : Val → Prop
  | refl : Reach h v v
  | step {w u} : Reach h v w → Child h w u → Reach h v u

/-- `w` is inside `v`, at least one level down. -/
inductive Inside (h : Heap) (v : Val) : Val → Prop
  | child {w} : Child h v w → Inside h v w
  | step {w u} : Inside h v w → Child h w u → Inside h v u

/-- Everything inside `v` is a leaf, a slice or a map.  Nothing is said about cycles. -/
def Data (h : Heap) (v : Val) : Prop := ∀ w, Reach h v w → IsLeaf w ∨ IsNode w

/-- Somewhere inside `v` a slice or map contains itself. -/
def Cyclic (h : Heap) (v : Val) : Prop := ∃ w, Reach h v w ∧ Inside h w w

/-- The nesting depth of `v` is at most `n`: leaves have depth 0, a slice or map one more than the
deepest of its children. -/
inductive DepthLe (h : Heap) : Nat → Val → Prop
  | leaf {n v} : IsLeaf v → DepthLe h n v
  | node {n v} : IsNode v → (∀ w, Child h v w → DepthLe h n w) → DepthLe h (n + 1) v

end Sereal
