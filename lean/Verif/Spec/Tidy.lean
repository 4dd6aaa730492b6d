import Verif.Spec.Written
/-
Finite values that can be written and represented, and when two decoded values are the same data.
-/
namespace Sereal

/-- The values `v1` in heap `h1` and `v2` in heap `h2` are the same data: same leaves, same shape, same
keys, following pointers.  (Not compared: addresses, and whether a pointer's static type is *interface{}.) -/
inductive Iso (h1 h2 : Heap) : Val → Val → Prop
  | nil : Iso h1 h2 .nil .nil
  | bool {b} : Iso h1 h2 (.bool b) (.bool b)
  | int {k i} : Iso h1 h2 (.int k i) (.int k i)
  | uint {k u} : Iso h1 h2 (.uint k u) (.uint k u)
  | f32 {u} : Iso h1 h2 (.f32 u) (.f32 u)
  | f64 {u} : Iso h1 h2 (.f64 u) (.f64 u)
  | str {s} : Iso h1 h2 (.str s) (.str s)
  | bin {s} : Iso h1 h2 (.bin s) (.bin s)
  | slice {p p' n} : (∀ i, i < n → Iso h1 h2 (h1.cellAt (p + i)) (h2.cellAt (p' + i))) →
      Iso h1 h2 (.slice p n) (.slice p' n)
  | smap {m m'} : ((h1.mapAt m).map Prod.fst).Nodup → ((h2.mapAt m').map Prod.fst).Nodup →
      (∀ k, (mapLookup k (h1.mapAt m)).isSome = (mapLookup k (h2.mapAt m')).isSome) →
      (∀ k v v', mapLookup k (h1.mapAt m) = some v → mapLookup k (h2.mapAt m') = some v' → Iso h1 h2 v v') →
      Iso h1 h2 (.smap m) (.smap m')
  | ptr {b b' a a'} : Iso h1 h2 (h1.cellAt a) (h2.cellAt a') → Iso h1 h2 (.ptr b a) (.ptr b' a')
  -- contents of variables behind pointers
  | undef {b} : Iso h1 h2 (.undef b) (.undef b)
  | obj {cls v v'} : Iso h1 h2 v v' → Iso h1 h2 (.obj cls v) (.obj cls v')
  | weak {v v'} : Iso h1 h2 v v' → Iso h1 h2 (.weak v) (.weak v')
  | regexp {p m} : Iso h1 h2 (.regexp p m) (.regexp p m)
  | frozen {cls d} : Iso h1 h2 (.frozen cls d) (.frozen cls d)
  | thawed {cls d} : Iso h1 h2 (.thawed cls d) (.thawed cls d)

/-- `v` is a finite value with strings, slices and maps of at most `n` bytes or elements, which an encoder
`c` can write and a decoder with view `w` can represent.  (That no pointer is met twice is a matter of
`Unshared`.) -/
inductive Tidy (c : ECfg) (w : ViewCfg) (n : Nat) (h : Heap) : Val → Prop
  | nil : Tidy c w n h .nil
  | bool {b} : Tidy c w n h (.bool b)
  | int {k i} : Tidy c w n h (.int k i)
  | uint {k u} : Tidy c w n h (.uint k u)
  | f32 {u} : Tidy c w n h (.f32 u)
  | f64 {u} : Tidy c w n h (.f64 u)
  | str {s} : s.length ≤ n → Tidy c w n h (.str s)
  | bin {s} : s.length ≤ n → Tidy c w n h (.bin s)
  | jnum {s} : s.length ≤ n → Tidy c w n h (.jnum s)
  | nbool {b} : Tidy c w n h (.nbool b)
  | nint {k i} : Tidy c w n h (.nint k i)
  | nf32 {u} : Tidy c w n h (.nf32 u)
  | nf64 {u} : Tidy c w n h (.nf64 u)
  | nstr {s} : s.length ≤ n → Tidy c w n h (.nstr s)
  | slice {p len} : len ≤ n → (∀ i, i < len → Tidy c w n h (h.cellAt (p + i))) → Tidy c w n h (.slice p len)
  | rslice {p len} : len ≤ n → (∀ i, i < len → Tidy c w n h (h.cellAt (p + i))) → Tidy c w n h (.rslice p len)
  | smap {m} : (h.mapAt m).length ≤ n → ((h.mapAt m).map Prod.fst).Nodup →
      (∀ k v, mapLookup k (h.mapAt m) = some v → k.length ≤ n) →
      (∀ k v, mapLookup k (h.mapAt m) = some v → Tidy c w n h v) → Tidy c w n h (.smap m)
  | rmap {m} : (h.mapAt m).length ≤ n → ((h.mapAt m).map Prod.fst).Nodup →
      (∀ k v, mapLookup k (h.mapAt m) = some v → k.length ≤ n) →
      (∀ k v, mapLookup k (h.mapAt m) = some v → Tidy c w n h v) → Tidy c w n h (.rmap m)
  | strct {name a} : name.length ≤ n → (fieldEntries (h.fieldsAt a)).length ≤ n →
      (∀ k v, lastLookup k (fieldEntries (h.fieldsAt a)) = some v → k.length ≤ n) →
      (∀ k v, lastLookup k (fieldEntries (h.fieldsAt a)) = some v → Tidy c w n h v) →
      Tidy c w n h (.strct name a)
  | undef {b} : Tidy c w n h (.undef b)
  | obj {cls v} : cls.length ≤ n → Tidy c w n h v → Tidy c w n h (.obj cls v)
  | weak {v} : Tidy c w n h v → Tidy c w n h (.weak v)
  | regexp {p m} : p.length ≤ n → m.length ≤ n → Tidy c w n h (.regexp p m)
  | frozen {cls d} : 10 ≤ n → cls.length ≤ n → d.length ≤ n → Tidy c w n h (.frozen cls d)
  | marshaler {cls d under} : c.disableFreeze = false → w.perlCompat = false → 1 ≤ n → cls.length ≤ n →
      d.length ≤ n → (∀ u, w.registry cls = some u → u d = none) →
      Tidy c w n h (.marshaler cls (.ok d) under)
  | marshalerOff {cls res under} : c.disableFreeze = true → Tidy c w n h under →
      Tidy c w n h (.marshaler cls res under)
  | nilptr : Tidy c w n h .nilptr
  | perlPtr {a} : isPerlStruct (h.cellAt a) = true → Tidy c w n h (h.cellAt a) → Tidy c w n h (.ptr false a)
  | ptr {b a} : (b = false → isPerlStruct (h.cellAt a) = false) → Tidy c w n h (h.cellAt a) →
      Tidy c w n h (.ptr b a)

end Sereal
