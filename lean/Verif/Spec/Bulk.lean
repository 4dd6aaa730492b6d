import Verif.Model.Value
/-
How many bytes a value may take in a document.
-/
namespace Sereal

/-- `Bulk inp v n`: the value, followed through slices, maps, structs and pointers, is finite and takes up `n` bytes: strings
and names their length and 10, integers 11, floats 5 and 9, slices and maps 11 and what is in them, objects 11 and
structs 22 and their class name and contents, pointers 9 and what they point at (however often it is pointed at).
Lengths are Go ints. -/
inductive Bulk (inp : Heap) : Val → Nat → Prop
  | nil : Bulk inp .nil 1
  | bool {b} : Bulk inp (.bool b) 1
  | nbool {b} : Bulk inp (.nbool b) 1
  | int {k i} : Bulk inp (.int k i) 11
  | uint {k u} : Bulk inp (.uint k u) 11
  | nint {k i} : Bulk inp (.nint k i) 11
  | f32 {u} : Bulk inp (.f32 u) 5
  | nf32 {u} : Bulk inp (.nf32 u) 5
  | f64 {u} : Bulk inp (.f64 u) 9
  | nf64 {u} : Bulk inp (.nf64 u) 9
  | jnum {s} : Bulk inp (.jnum s) (11 + s.length)
  | str {s} : Bulk inp (.str s) (10 + s.length)
  | nstr {s} : Bulk inp (.nstr s) (10 + s.length)
  | bin {s} : Bulk inp (.bin s) (10 + s.length)
  | slice {p n} {cost : Nat → Nat} : n < 2 ^ 63 → (∀ i, i < n → Bulk inp (inp.cellAt (p + i)) (cost i)) →
      Bulk inp (.slice p n) (11 + ((List.range n).map cost).sum)
  | rslice {p n} {cost : Nat → Nat} : n < 2 ^ 63 → (∀ i, i < n → Bulk inp (inp.cellAt (p + i)) (cost i)) →
      Bulk inp (.rslice p n) (11 + ((List.range n).map cost).sum)
  | smap {m} {cost : Bytes → Nat} : (inp.mapAt m).length < 2 ^ 63 →
      (∀ k v, mapLookup k (inp.mapAt m) = some v → Bulk inp v (cost k)) →
      Bulk inp (.smap m) (11 + ((inp.mapAt m).map fun e => 10 + e.1.length + cost e.1).sum)
  | rmap {m} {cost : Bytes → Nat} : (inp.mapAt m).length < 2 ^ 63 →
      (∀ k v, mapLookup k (inp.mapAt m) = some v → Bulk inp v (cost k)) →
      Bulk inp (.rmap m) (11 + ((inp.mapAt m).map fun e => 10 + e.1.length + cost e.1).sum)
  | strct {name a} {cost : Field → Nat} : (inp.fieldsAt a).length < 2 ^ 63 →
      (∀ f ∈ inp.fieldsAt a, Bulk inp f.val (cost f)) →
      Bulk inp (.strct name a) (22 + name.length +
        ((inp.fieldsAt a).map fun f => 10 + f.name.length + f.tag.length + cost f).sum)
  | ptr {b a n} : Bulk inp (inp.cellAt a) n → Bulk inp (.ptr b a) (9 + n)
  | nilptr : Bulk inp .nilptr 2
  | undef {b} : Bulk inp (.undef b) 1
  | obj {cls v n} : Bulk inp v n → Bulk inp (.obj cls v) (11 + cls.length + n)
  | weak {v n} : Bulk inp v n → Bulk inp (.weak v) (1 + n)
  | regexp {p m} : Bulk inp (.regexp p m) (21 + p.length + m.length)
  | frozen {cls data} : Bulk inp (.frozen cls data) (81 + cls.length + data.length)
  | marshaler {cls data v n} : Bulk inp v n →
      Bulk inp (.marshaler cls (.ok data) v) (max (24 + cls.length + data.length) n)

end Sereal
