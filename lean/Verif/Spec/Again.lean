import Verif.Spec.Tidy
import Verif.Spec.Writable
/-
Trees whose Go view can be marshalled again.
-/
namespace Sereal

/-- `Storable w n t`: the view of `t` by a decoder `w` is data Marshal has a form for, with at most `n` levels of
nesting.  There are no frozen objects in it, and no REFP (unless the decoder has DisableReferentialIntegrity).
Of pairs with the same key only the last one counts.  With PerlCompat, references, undef, weak references and
objects are pointers and so a level of nesting. -/
inductive Storable (w : ViewCfg) : Nat → Tree → Prop
  | undef {n} : w.perlCompat = false → Storable w n .undef
  | cundef {n} : w.perlCompat = false → Storable w n .cundef
  | undefP {n} : w.perlCompat = true → Storable w (n + 1) .undef
  | cundefP {n} : w.perlCompat = true → Storable w (n + 1) .cundef
  | bool {n b} : Storable w n (.bool b)
  | int {n i} : Storable w n (.int i)
  | f32 {n u} : Storable w n (.f32 u)
  | f64 {n u} : Storable w n (.f64 u)
  | str {n s} : Storable w n (.str s)
  | bin {n s} : Storable w n (.bin s)
  | arr {n ts} : (∀ t ∈ ts, Storable w n t) → Storable w (n + 1) (.arr ts)
  | map {n kvs} : (∀ k t, lastLookup k kvs = some t → Storable w n t) → Storable w (n + 1) (.map kvs)
  | ref {n t} : w.perlCompat = false → Storable w n t → Storable w n (.ref t)
  | refP {n t} : w.perlCompat = true → Storable w n t → Storable w (n + 1) (.ref t)
  | refp {n t} : w.disableRefInt = true → Storable w n t → Storable w n (.refp t)
  | alias {n t} : Storable w n t → Storable w n (.alias t)
  | weak {n t} : w.perlCompat = false → Storable w n t → Storable w n (.weak t)
  | weakP {n t} : w.perlCompat = true → Storable w n t → Storable w (n + 1) (.weak t)
  | obj {n cls t} : w.perlCompat = false → Storable w n t → Storable w n (.obj cls t)
  | objP {n cls t} : w.perlCompat = true → Storable w n t → Storable w (n + 1) (.obj cls t)
  | regexp {n p m} : Storable w (n + 1) (.regexp p m)

/-- Every array and hash is directly behind a reference, as in documents written by Perl.  `r` tells that the tree
itself is. -/
inductive Referenced : Bool → Tree → Prop
  | undef {r} : Referenced r .undef
  | cundef {r} : Referenced r .cundef
  | bool {r b} : Referenced r (.bool b)
  | int {r i} : Referenced r (.int i)
  | f32 {r u} : Referenced r (.f32 u)
  | f64 {r u} : Referenced r (.f64 u)
  | str {r s} : Referenced r (.str s)
  | bin {r s} : Referenced r (.bin s)
  | regexp {r p m} : Referenced r (.regexp p m)
  | arr {ts} : (∀ t ∈ ts, Referenced false t) → Referenced true (.arr ts)
  | map {kvs} : (∀ k t, lastLookup k kvs = some t → Referenced false t) → Referenced true (.map kvs)
  | ref {r t} : Referenced true t → Referenced r (.ref t)
  | weak {r t} : Referenced false t → Referenced r (.weak t)
  | obj {r cls t} : Referenced false t → Referenced r (.obj cls t)
  | refp {r t} : Referenced r t → Referenced r (.refp t)
  | alias {r t} : Referenced r t → Referenced r (.alias t)

end Sereal
