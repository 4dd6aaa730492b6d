import Verif.Model.Encode
/-
Values whose documents the merger accepts.
-/
namespace Sereal

/-- Values a pointer may lead to.  Left out are those that a reference written right behind the pointer, or
right behind a target of one byte, could name: the merger refuses such offsets (merge.go:321-323). -/
def Aimable : Val → Prop
  | .ptr _ _ | .marshaler _ _ _ | .jnum _ | .bin [] => False
  | _ => True

/-- What `v` and the values it contains must be like. -/
def SmoothAt (c : ECfg) (inp : Heap) (S : Val → Prop) : Val → Prop
  | .slice p n | .rslice p n => ∀ i, i < n → S (inp.cellAt (p + i))
  | .smap m | .rmap m => ∀ k v, mapLookup k (inp.mapAt m) = some v → S v
  | .obj cls ref => c.disableDedup = true ∧ cls ≠ [] ∧ S ref
  | .regexp pat mods => pat ≠ [] ∧ mods ≠ []
  | .weak ref => S ref
  | .frozen _ _ => c.disableDedup = true
  | .strct name a => c.disableDedup = true ∧ name ≠ [] ∧ ∀ f ∈ inp.fieldsAt a, S f.val
  | .marshaler cls _ under => S under ∧ (c.disableFreeze = false → c.disableDedup = true ∧ cls ≠ [])
  | .ptr _ a => Aimable (inp.cellAt a) ∧ S (inp.cellAt a)
  | _ => True

/-- `v` and everything reachable from it is free of what the merger refuses: class names (unless
deduplication is off), empty class names, regexps with an empty part, and the pointers `Aimable` leaves out.
Cycles are allowed. -/
def Smooth (c : ECfg) (inp : Heap) (v : Val) : Prop :=
  ∃ S : Val → Prop, S v ∧ ∀ w, S w → SmoothAt c inp S w

end Sereal
