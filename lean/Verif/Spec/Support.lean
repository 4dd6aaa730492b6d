import Verif.Spec.View
/-
Which trees a Go decoder with given flags can represent.
-/
namespace Sereal

/-- The tree shows as a nil interface. -/
inductive ShowsNil (c : ViewCfg) : Tree → Prop
  | undef : c.perlCompat = false → ShowsNil c .undef
  | cundef : c.perlCompat = false → ShowsNil c .cundef
  | ref {t} : c.perlCompat = false → ShowsNil c t → ShowsNil c (.ref t)
  | weak {t} : c.perlCompat = false → ShowsNil c t → ShowsNil c (.weak t)
  | obj {cls t} : c.perlCompat = false → ShowsNil c t → ShowsNil c (.obj cls t)
  | refp {t} : c.disableRefInt = true → ShowsNil c t → ShowsNil c (.refp t)
  | alias {t} : ShowsNil c t → ShowsNil c (.alias t)

/-- The tree shows as the byte slice `data`. -/
inductive ShowsBin (c : ViewCfg) (data : Bytes) : Tree → Prop
  | bin : ShowsBin c data (.bin data)
  | ref {t} : c.perlCompat = false → ShowsBin c data t → ShowsBin c data (.ref t)
  | weak {t} : c.perlCompat = false → ShowsBin c data t → ShowsBin c data (.weak t)
  | obj {cls t} : c.perlCompat = false → ShowsBin c data t → ShowsBin c data (.obj cls t)
  | refp {t} : c.disableRefInt = true → ShowsBin c data t → ShowsBin c data (.refp t)
  | alias {t} : ShowsBin c data t → ShowsBin c data (.alias t)

/-- Trees that can be represented: no reference to an enclosing item; no REFP to an item that shows as
nil; frozen objects only without PerlCompat, with a single byte string as payload which the registered
UnmarshalBinary (if any) accepts. -/
inductive Supported (c : ViewCfg) : Tree → Prop
  | undef : Supported c .undef
  | cundef : Supported c .cundef
  | bool {b} : Supported c (.bool b)
  | int {i} : Supported c (.int i)
  | f32 {u} : Supported c (.f32 u)
  | f64 {u} : Supported c (.f64 u)
  | str {s} : Supported c (.str s)
  | bin {s} : Supported c (.bin s)
  | arr {ts} : (∀ t ∈ ts, Supported c t) → Supported c (.arr ts)
  | map {kvs} : (∀ k t, (k, t) ∈ kvs → Supported c t) → Supported c (.map kvs)
  | ref {t} : Supported c t → Supported c (.ref t)
  | refp {t} : Supported c t → ¬ ShowsNil c t → Supported c (.refp t)
  | alias {t} : Supported c t → Supported c (.alias t)
  | weak {t} : Supported c t → Supported c (.weak t)
  | obj {cls t} : Supported c t → Supported c (.obj cls t)
  | regexp {p m} : Supported c (.regexp p m)
  | frz {cls d data} : c.perlCompat = false → Supported c d → ShowsBin c data d →
      (∀ u, c.registry cls = some u → u data = none) → Supported c (.frz cls (.ref (.arr [d])))

end Sereal
