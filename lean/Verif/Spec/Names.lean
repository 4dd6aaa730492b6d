import Verif.Spec.Writable
/-
The names in a value: keys of maps, names of fields, names of types and classes (C77).
-/
namespace Sereal

/-- `NameRoom c h v n`: writing `v`, but not what is inside of it, writes a name in a form that leaves `n` bytes behind the tag at
least.  Keys, field names and names of types with MarshalBinary are strings (a tag, a length of at least one byte, and the name);
other class names are byte strings, where short ones have the length in the tag. -/
inductive NameRoom (c : ECfg) (h : Heap) : Val → Nat → Prop
  | key {m k v} : mapLookup k (h.mapAt m) = some v → NameRoom c h (.smap m) (k.length + 1)
  | rkey {m k v} : c.perlCompat = true → mapLookup k (h.mapAt m) = some v → NameRoom c h (.rmap m) (k.length + 1)
  | field {name a k f} : WritesField (h.fieldsAt a) k f → NameRoom c h (.strct name a) (k.length + 1)
  | type {name a} : NameRoom c h (.strct name a) name.length
  | object {cls r} : NameRoom c h (.obj cls r) cls.length
  | method {cls d u} : c.disableFreeze = false → NameRoom c h (.marshaler cls (.ok d) u) (cls.length + 1)
  | freezeType {cls d} : NameRoom c h (.frozen cls d) 10         -- PerlFreeze
  | freezeField {cls d} : NameRoom c h (.frozen cls d) 6         -- Class
  | freezeField' {cls d} : NameRoom c h (.frozen cls d) 5        -- Data

/-- Every name in `v`, at any depth, has room for offsets below `N` (groups of seven bits). -/
def RoomyNames (c : ECfg) (h : Heap) (v : Val) (N : Nat) : Prop :=
  ∀ u n, ReachesVal c h v u → NameRoom c h u n → N ≤ 2 ^ (7 * n)

end Sereal
