import Verif.Spec.Tidy
/-
What a value in which every pointer is met once should look like after Marshal and Unmarshal, for every combination
of PerlCompat encoders and decoders.
-/
namespace Sereal

/-- `v'` is `u`, or with `b` a pointer to a variable holding `u`. -/
def Held (b : Bool) (h' : Heap) (v' u : Val) : Prop :=
  (b = false ∧ v' = u) ∨ (b = true ∧ ∃ i a, v' = .ptr i a ∧ h'.mem a = .cell u)

/-- `v'` is a pointer to a variable holding `u`. -/
def PtrTo (h' : Heap) (v' u : Val) : Prop := ∃ a, v' = .ptr false a ∧ h'.mem a = .cell u

/-- `v'` is `u`, or with `b` a pointer to a variable holding `box`. -/
def Boxed (b : Bool) (h' : Heap) (v' u box : Val) : Prop :=
  (b = false ∧ v' = u) ∨ (b = true ∧ PtrTo h' v' box)

/-- An integer as an `interface{}` decodes it: int if it fits, else uint. -/
def IsNumber (v' : Val) (z : Int) : Prop :=
  (∃ i : Int64, v' = .int .int i ∧ i.toInt = z) ∨
  (∃ u : UInt64, v' = .uint .uint u ∧ 2 ^ 63 ≤ u.toNat ∧ (u.toNat : Int) = z)

/-- An undefined value as the decoder shows it. -/
def IsUndef (w : ViewCfg) (h' : Heap) (v' : Val) (canonical : Bool) : Prop :=
  (w.perlCompat = false ∧ v' = .nil) ∨
  (w.perlCompat = true ∧ PtrTo h' v' (.undef canonical) ∧
    (canonical = true → v' = .ptr false canonicalUndefAddr))

/-- The value `v` in the heap `h` of the encoder arrives as `v'` in the heap `h'` of the decoder.
Containers written by a PerlCompat encoder arrive behind a pointer in a PerlCompat decoder.  Perl
values arrive as pointers to Perl values in a PerlCompat decoder; otherwise only what is inside arrives.
`rn` tells that `v` is what a pointer leads to: there a PerlCompat encoder adds no reference. -/
inductive ArrivesAs (c : ECfg) (w : ViewCfg) (h h' : Heap) : Bool → Val → Val → Prop
  | nil {rn v'} : IsUndef w h' v' false → ArrivesAs c w h h' rn .nil v'
  | bool {rn b} : ArrivesAs c w h h' rn (.bool b) (.bool b)
  | int {rn k i v'} : IsNumber v' i.toInt → ArrivesAs c w h h' rn (.int k i) v'
  | uint {rn k u v'} : IsNumber v' u.toNat → ArrivesAs c w h h' rn (.uint k u) v'
  | f32 {rn u} : ArrivesAs c w h h' rn (.f32 u) (.f32 u)
  | f64 {rn u} : ArrivesAs c w h h' rn (.f64 u) (.f64 u)
  | str {rn s} : ArrivesAs c w h h' rn (.str s) (.str s)
  | bin {rn s} : ArrivesAs c w h h' rn (.bin s) (.bin s)
  -- json.Number
  | jnumInt {rn s z v'} : IntText s z → -2 ^ 63 ≤ z → z < 2 ^ 63 → IsNumber v' z → ArrivesAs c w h h' rn (.jnum s) v'
  | jnumBig {rn s z} : IntText s z → (z < -2 ^ 63 ∨ 2 ^ 63 ≤ z) → ArrivesAs c w h h' rn (.jnum s) (.str s)
  | jnumFloat {rn s f} : (∀ z, ¬ IntText s z) → c.parseFloat s = some f → ArrivesAs c w h h' rn (.jnum s) (.f64 f)
  | jnumText {rn s} : (∀ z, ¬ IntText s z) → (c.parseFloat s = none ∨ DigitOverflow s) →
      ArrivesAs c w h h' rn (.jnum s) (.str s)
  -- named types
  | nbool {rn b} : ArrivesAs c w h h' rn (.nbool b) (.bool b)
  | nint {rn k i v'} : k = .int ∨ 0 ≤ i → IsNumber v' i.toInt → ArrivesAs c w h h' rn (.nint k i) v'
  /-- (not as one would wish) -/
  | nintWrap {rn k i v'} : k ≠ .int → i < 0 → IsNumber v' (2 ^ 64 + i.toInt) → ArrivesAs c w h h' rn (.nint k i) v'
  | nf32 {rn u} : ArrivesAs c w h h' rn (.nf32 u) (.f32 u)
  | nf64 {rn u} : ArrivesAs c w h h' rn (.nf64 u) (.f64 u)
  | nstr {rn s} : ArrivesAs c w h h' rn (.nstr s) (.str s)
  -- containers
  | slice {rn p p' n v'} : Held (c.perlCompat && !rn && w.perlCompat) h' v' (.slice p' n) →
      (∀ i, i < n → ArrivesAs c w h h' false (h.cellAt (p + i)) (h'.cellAt (p' + i))) → ArrivesAs c w h h' rn (.slice p n) v'
  | rslice {rn p p' n v'} : Held (c.perlCompat && !rn && w.perlCompat) h' v' (.slice p' n) →
      (∀ i, i < n → ArrivesAs c w h h' false (h.cellAt (p + i)) (h'.cellAt (p' + i))) → ArrivesAs c w h h' rn (.rslice p n) v'
  | smap {rn m m' v'} : Held (c.perlCompat && !rn && w.perlCompat) h' v' (.smap m') → ((h'.mapAt m').map Prod.fst).Nodup →
      (∀ k, (mapLookup k (h.mapAt m)).isSome = (mapLookup k (h'.mapAt m')).isSome) →
      (∀ k x x', mapLookup k (h.mapAt m) = some x → mapLookup k (h'.mapAt m') = some x' → ArrivesAs c w h h' false x x') →
      ArrivesAs c w h h' rn (.smap m) v'
  | rmap {rn m m' v'} : Held (c.perlCompat && !rn && w.perlCompat) h' v' (.smap m') → ((h'.mapAt m').map Prod.fst).Nodup →
      (∀ k, (mapLookup k (h.mapAt m)).isSome = (mapLookup k (h'.mapAt m')).isSome) →
      (∀ k x x', mapLookup k (h.mapAt m) = some x → mapLookup k (h'.mapAt m') = some x' → ArrivesAs c w h h' false x x') →
      ArrivesAs c w h h' rn (.rmap m) v'
  /-- A struct: an object of the class named like its type, holding a map with one entry per name. -/
  | strct {rn name a m' u v'} : Boxed w.perlCompat h' v' u (.obj name u) →
      Held (c.perlCompat && w.perlCompat) h' u (.smap m') → ((h'.mapAt m').map Prod.fst).Nodup →
      (∀ k, (lastLookup k (fieldEntries (h.fieldsAt a))).isSome = (mapLookup k (h'.mapAt m')).isSome) →
      (∀ k x x', lastLookup k (fieldEntries (h.fieldsAt a)) = some x → mapLookup k (h'.mapAt m') = some x' →
        ArrivesAs c w h h' false x x') →
      ArrivesAs c w h h' rn (.strct name a) v'
  -- Perl values
  | undef {rn b v'} : IsUndef w h' v' b → ArrivesAs c w h h' rn (.undef b) v'
  | obj {rn cls x u v'} : Boxed w.perlCompat h' v' u (.obj cls u) → ArrivesAs c w h h' false x u →
      ArrivesAs c w h h' rn (.obj cls x) v'
  | weak {rn x u v'} : Boxed w.perlCompat h' v' u (.weak u) → ArrivesAs c w h h' false x u →
      ArrivesAs c w h h' rn (.weak x) v'
  | regexp {rn p m v'} : PtrTo h' v' (.regexp p m) → ArrivesAs c w h h' rn (.regexp p m) v'
  /-- PerlFreeze is treated like any other struct. -/
  | frozen {rn cls d u m' v'} : Boxed w.perlCompat h' v' u (.obj freezeName u) →
      Held (c.perlCompat && w.perlCompat) h' u (.smap m') → ((h'.mapAt m').map Prod.fst).Nodup →
      mapLookup classField (h'.mapAt m') = some (.str cls) → mapLookup dataField (h'.mapAt m') = some (.bin d) →
      (h'.mapAt m').length = 2 →
      ArrivesAs c w h h' rn (.frozen cls d) v'
  /-- MarshalBinary returned `d`: the registered type is handed `d`; without one a PerlFreeze. -/
  | marshaler {rn cls d under v'} : c.disableFreeze = false →
      PtrTo h' v' (if (w.registry cls).isSome then .thawed cls d else .frozen cls d) →
      ArrivesAs c w h h' rn (.marshaler cls (.ok d) under) v'
  | marshalerOff {rn cls res under v'} : c.disableFreeze = true → ArrivesAs c w h h' rn under v' →
      ArrivesAs c w h h' rn (.marshaler cls res under) v'
  /-- A nil pointer: a reference to undef. -/
  | nilptr {rn u v'} : Held w.perlCompat h' v' u → IsUndef w h' u false → ArrivesAs c w h h' rn .nilptr v'
  | perlPtr {rn a v'} : isPerlStruct (h.cellAt a) = true → ArrivesAs c w h h' false (h.cellAt a) v' →
      ArrivesAs c w h h' rn (.ptr false a) v'
  /-- A pointer: a reference to what it leads to, which a PerlCompat decoder shows as a pointer. -/
  | ptr {rn b a u v'} : (b = false → isPerlStruct (h.cellAt a) = false) → Held w.perlCompat h' v' u →
      ArrivesAs c w h h' true (h.cellAt a) u → ArrivesAs c w h h' rn (.ptr b a) v'

/-- The value `v` arrives as `v'`. -/
abbrev Arrives (c : ECfg) (w : ViewCfg) (h h' : Heap) (v v' : Val) : Prop := ArrivesAs c w h h' false v v'

end Sereal
