import Verif.Spec.Written
/-
Which values Marshal can write, and how many levels of nesting it needs for them.
-/
namespace Sereal

/-- Values that are written without looking at another value. -/
def Plainly : Val → Prop
  | .nil | .bool _ | .int _ _ | .uint _ _ | .f32 _ | .f64 _ | .jnum _ | .str _ | .bin _ | .undef _ | .regexp _ _
  | .nbool _ | .nint _ _ | .nf32 _ | .nf64 _ | .nstr _ => True
  | _ => False

/-- Values that are a level of nesting: slices, maps, structs and pointers. -/
def Level : Val → Prop
  | .slice _ _ | .rslice _ _ | .smap _ | .rmap _ | .frozen _ _ | .ptr _ _ | .nilptr | .strct _ _ => True
  | _ => False

/-- string, json.Number and named string types. -/
def Stringy : Val → Prop
  | .str _ | .nstr _ | .jnum _ => True
  | _ => False

/-- PerlObject, PerlWeakRef, PerlRegexp, PerlUndef. -/
def PerlThing : Val → Prop
  | .regexp _ _ | .undef _ | .obj _ _ | .weak _ => True
  | _ => False

/-- The field `f` of a struct is the one written under the name `k`. -/
def WritesField (fs : List Field) (k : Bytes) (f : Field) : Prop :=
  lastLookup k (fs.filterMap (fun f => (effName f).map (fun k => (k, f)))) = some f

/-- Values Marshal has no form for: channels, functions etc., named unsigned integers, values whose
MarshalBinary returns an error, pointers to an interface{} with a string, structs with an unexported
field that has a tag. (`thawed` values are outside the model of the encoder.) -/
def Refused (c : ECfg) (h : Heap) : Val → Prop
  | .unsupported | .thawed _ _ | .nuint _ _ => True
  | .marshaler _ (.error _) _ => c.disableFreeze = false
  | .ptr true a => Stringy (h.cellAt a)
  | .strct _ a => ∃ k f, WritesField (h.fieldsAt a) k f ∧ f.exported = false
  | _ => False

/-- The values one level down that are written whenever `v` is: elements, map entries, fields, and
the Perl struct a pointer leads to. -/
inductive Inner (h : Heap) : Val → Val → Prop
  | elem {p n i} : i < n → Inner h (.slice p n) (h.cellAt (p + i))
  | relem {p n i} : i < n → Inner h (.rslice p n) (h.cellAt (p + i))
  | entry {m k v} : mapLookup k (h.mapAt m) = some v → Inner h (.smap m) v
  | rentry {m k v} : mapLookup k (h.mapAt m) = some v → Inner h (.rmap m) v
  | field {name a k f} : WritesField (h.fieldsAt a) k f → Inner h (.strct name a) f.val
  | cls {c d} : Inner h (.frozen c d) (.str c)
  | data {c d} : Inner h (.frozen c d) (.bin d)
  | perl {a} : PerlThing (h.cellAt a) → Inner h (.ptr false a) (h.cellAt a)

/-- The value written in the place of `v`, on the same level. -/
inductive SameLevel (c : ECfg) : Val → Val → Prop
  | obj {cls r} : SameLevel c (.obj cls r) r
  | weak {r} : SameLevel c (.weak r) r
  | under {cls res u} : c.disableFreeze = true → SameLevel c (.marshaler cls res u) u

/-- A pointer to the variable `a`, other than one to a Perl struct. -/
def OrdPtr (h : Heap) (v : Val) (a : Addr) : Prop :=
  v = .ptr true a ∨ (v = .ptr false a ∧ ¬ PerlThing (h.cellAt a))

/-- `Writable c h S n v`: with `n` levels of nesting `v` can be written while the pointers in `S` are
being written.  A pointer met again inside of what it points to is written as a reference. -/
inductive Writable (c : ECfg) (h : Heap) : (Addr → Prop) → Nat → Val → Prop
  | plain {S n v} : Plainly v → Writable c h S n v
  | level {S n v} : Level v → ¬ Refused c h v → (∀ a, ¬ OrdPtr h v a) →
      (∀ w, Inner h v w → Writable c h S n w) → Writable c h S (n + 1) v
  | seen {S : Addr → Prop} {n v a} : OrdPtr h v a → ¬ Refused c h v → S a → Writable c h S (n + 1) v
  | ptr {S : Addr → Prop} {n v a} : OrdPtr h v a → ¬ Refused c h v →
      Writable c h (fun b => b = a ∨ S b) n (h.cellAt a) → Writable c h S (n + 1) v
  | same {S n v w} : SameLevel c v w → Writable c h S n w → Writable c h S n v
  | freeze {S n cls d u} : c.disableFreeze = false → Writable c h S n (.marshaler cls (.ok d) u)

/-- `v` cannot be written with `n` levels: without passing a pointer (other than to a Perl struct) one
comes to a value Marshal has no form for, or to one that is a level too many. -/
inductive Stuck (c : ECfg) (h : Heap) : Nat → Val → Prop
  | refused {n v} : Refused c h v → Stuck c h n v
  | deep {v} : Level v → Stuck c h 0 v
  | inner {n v w} : Inner h v w → Stuck c h n w → Stuck c h (n + 1) v
  | same {n v w} : SameLevel c v w → Stuck c h n w → Stuck c h n v

/-- The values directly inside `v`, pointers included. -/
def Leads (c : ECfg) (h : Heap) (v w : Val) : Prop :=
  Inner h v w ∨ SameLevel c v w ∨ ∃ a, OrdPtr h v a ∧ w = h.cellAt a

/-- Marshal has a form for everything inside `v`.  Nothing is said about cycles and depth. -/
def Handled (c : ECfg) (h : Heap) (v : Val) : Prop :=
  ∃ S : Val → Prop, S v ∧ ∀ w, S w → ¬ Refused c h w ∧ ∀ u, Leads c h w u → S u

/-- There is no pointer inside `v`, other than to Perl structs. -/
def NoPointers (c : ECfg) (h : Heap) (v : Val) : Prop :=
  ∃ S : Val → Prop, S v ∧ ∀ w, S w → (∀ a, ¬ OrdPtr h w a) ∧ ∀ u, Leads c h w u → S u

/-- The values inside `v`: directly, or inside of those. -/
inductive ReachesVal (c : ECfg) (h : Heap) (v : Val) : Val → Prop
  | refl : ReachesVal c h v v
  | step {w u} : ReachesVal c h v w → Leads c h w u → ReachesVal c h v u

end Sereal
