import Verif.Spec.Grammar
/-
Data without references to other items: what the merger can carry over.
-/
namespace Sereal

/-- No REFP and no ALIAS; the parts of a regexp and class names are not empty. -/
inductive Movable : Tree → Prop
  | undef : Movable .undef
  | cundef : Movable .cundef
  | bool {b} : Movable (.bool b)
  | int {i} : Movable (.int i)
  | f32 {x} : Movable (.f32 x)
  | f64 {x} : Movable (.f64 x)
  | str {s} : Movable (.str s)
  | bin {s} : Movable (.bin s)
  | arr {ts} : (∀ t ∈ ts, Movable t) → Movable (.arr ts)
  | map {kvs} : (∀ kv ∈ kvs, Movable kv.2) → Movable (.map kvs)
  | ref {t} : Movable t → Movable (.ref t)
  | weak {t} : Movable t → Movable (.weak t)
  | obj {c t} : c ≠ [] → Movable t → Movable (.obj c t)
  | frz {c t} : c ≠ [] → Movable t → Movable (.frz c t)
  | regexp {p m} : p ≠ [] → m ≠ [] → Movable (.regexp p m)

end Sereal
