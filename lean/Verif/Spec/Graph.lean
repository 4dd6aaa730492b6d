import Verif.Spec.Holds
import Verif.Model.TypedMem
/-
When variables of typed memory are a copy of a Go value whose pointers may be shared or form cycles.
Of the model only the types of Go types, values, memory and configurations are used, and the accessors
of memory.
-/
namespace Sereal

/-- Different variables, or parts of a variable that do not overlap. -/
def Separate (l l' : Spot) : Prop :=
  l.base ≠ l'.base ∨ ∃ q i i' n r r', l.path = q ++ (i, n) :: r ∧ l'.path = q ++ (i', n) :: r' ∧ i ≠ i'

/-- `Fit tc inp A ty v`: `v` is a value of type `ty`, if `A` gives the types of the structs pointed at.
Pointers are to structs only, and there are no interfaces. -/
inductive Fit (tc : TCfg) (inp : Heap) (A : Nat → Option Nat) : Ty → Val → Prop
  | bool {b} : Fit tc inp A .bool (.bool b)
  | nbool {b} : Fit tc inp A .bool (.nbool b)
  | int {k i} : -2 ^ (k.width - 1) ≤ i.toInt → i.toInt < 2 ^ (k.width - 1) → Fit tc inp A (.int k) (.int k i)
  | nint {k i} : -2 ^ (k.width - 1) ≤ i.toInt → i.toInt < 2 ^ (k.width - 1) → Fit tc inp A (.int k) (.nint k i)
  | uint {k n} : n.toNat < 2 ^ k.width → Fit tc inp A (.uint k) (.uint k n)
  | f32 {u} : ¬ NaN32 u → Fit tc inp A .f32 (.f32 u)
  | nf32 {u} : ¬ NaN32 u → Fit tc inp A .f32 (.nf32 u)
  | f64 {u} : Fit tc inp A .f64 (.f64 u)
  | nf64 {u} : Fit tc inp A .f64 (.nf64 u)
  | str {s} : Fit tc inp A .str (.str s)
  | nstr {s} : Fit tc inp A .str (.nstr s)
  | bytes {s} : Fit tc inp A (.slice (.uint .uint8)) (.bin s)
  | slice {e v p n} : IsSlice v p n → (∀ i, i < n → Fit tc inp A e (inp.cellAt (p + i))) → Fit tc inp A (.slice e) v
  | arr {e p n} : (∀ i, i < n → Fit tc inp A e (inp.cellAt (p + i))) → Fit tc inp A (.arr n e) (.rslice p n)
  | map {e v m} : IsMap v m → ((inp.mapAt m).map Prod.fst).Nodup →
      (∀ k u, mapLookup k (inp.mapAt m) = some u → Fit tc inp A e u) → Fit tc inp A (.map e) v
  | strct {id name a} : (inp.fieldsAt a).length = (tc.types id).fields.length →
      (∀ (i : Nat) f g, (inp.fieldsAt a)[i]? = some f → (tc.types id).fields[i]? = some g →
        f.name = g.name ∧ f.tag = g.tag ∧ f.exported = g.exported) →
      (∀ (i : Nat) f g k, (inp.fieldsAt a)[i]? = some f → (tc.types id).fields[i]? = some g →
        FieldNamed (tc.types id).fields k i → Fit tc inp A g.ty f.val) →
      Fit tc inp A (.strct id) (.strct name a)
  | nilptr {id} : Fit tc inp A (.ptr (.strct id)) .nilptr
  | ptr {id a} : A a = some id → Fit tc inp A (.ptr (.strct id)) (.ptr false a)

/-- `A` gives the types of structs: what it says about an address is true. -/
def FitsAt (tc : TCfg) (inp : Heap) (A : Nat → Option Nat) : Prop :=
  ∀ a id, A a = some id → Fit tc inp A (.strct id) (inp.cellAt a)

/-- `Copied tc inp ρ mem lo hi ty v w`: the contents `w` of a variable of type `ty` are a copy of `v`, if
`ρ` tells which variables the structs that pointers lead to have been copied to.  What `w` consists of, apart
from itself and what is behind pointers, is in variables and maps with numbers from `lo` to `hi`. -/
inductive Copied (tc : TCfg) (inp : Heap) (ρ : Nat → Option Nat) (mem : Mem) (lo hi : Nat) : Ty → Val → MVal → Prop
  | bool {b} : Copied tc inp ρ mem lo hi .bool (.bool b) (.bool b)
  | nbool {b} : Copied tc inp ρ mem lo hi .bool (.nbool b) (.bool b)
  | int {k i} : Copied tc inp ρ mem lo hi (.int k) (.int k i) (.int i)
  | nint {k i} : Copied tc inp ρ mem lo hi (.int k) (.nint k i) (.int i)
  | uint {k n} : Copied tc inp ρ mem lo hi (.uint k) (.uint k n) (.uint n)
  | f32 {u} : Copied tc inp ρ mem lo hi .f32 (.f32 u) (.f32 u)
  | nf32 {u} : Copied tc inp ρ mem lo hi .f32 (.nf32 u) (.f32 u)
  | f64 {u} : Copied tc inp ρ mem lo hi .f64 (.f64 u) (.f64 u)
  | nf64 {u} : Copied tc inp ρ mem lo hi .f64 (.nf64 u) (.f64 u)
  | str {s} : Copied tc inp ρ mem lo hi .str (.str s) (.str s)
  | nstr {s} : Copied tc inp ρ mem lo hi .str (.nstr s) (.str s)
  | bytes {s l off cap} : lo ≤ l.base → l.base < hi → off + s.length ≤ cap →
      (∀ (i : Nat) b, s[i]? = some b → mem.get (l.sub (off + i) cap) = .uint b.toUInt64) →
      Copied tc inp ρ mem lo hi (.slice (.uint .uint8)) (.bin s) (.slice l off s.length cap)
  | slice {e v p l off n cap} : IsSlice v p n → lo ≤ l.base → l.base < hi → off + n ≤ cap →
      (∀ i, i < n → Copied tc inp ρ mem lo hi e (inp.cellAt (p + i)) (mem.get (l.sub (off + i) cap))) →
      Copied tc inp ρ mem lo hi (.slice e) v (.slice l off n cap)
  | arr {e p n w} : (∀ i, i < n → Copied tc inp ρ mem lo hi e (inp.cellAt (p + i)) ((w.parts n).getD i .zero)) →
      Copied tc inp ρ mem lo hi (.arr n e) (.rslice p n) w
  | map {e v m m'} : IsMap v m → lo ≤ m' → m' < hi →
      (∀ k, (mapLookup k (inp.mapAt m)).isSome = (mapLookup k (mem.maps m')).isSome) →
      (∀ k u w, mapLookup k (inp.mapAt m) = some u → mapLookup k (mem.maps m') = some w →
        Copied tc inp ρ mem lo hi e u w) →
      Copied tc inp ρ mem lo hi (.map e) v (.map m')
  | strct {id name a w} :
      (∀ (i : Nat) f g k, (inp.fieldsAt a)[i]? = some f → (tc.types id).fields[i]? = some g →
        FieldNamed (tc.types id).fields k i →
        Copied tc inp ρ mem lo hi g.ty f.val ((w.parts (tc.types id).fields.length).getD i .zero)) →
      Copied tc inp ρ mem lo hi (.strct id) (.strct name a) w
  | nilptr {id} : Copied tc inp ρ mem lo hi (.ptr (.strct id)) .nilptr .zero
  | ptr {id a b} : ρ a = some b → Copied tc inp ρ mem lo hi (.ptr (.strct id)) (.ptr false a) (.ptr ⟨b, []⟩)

/-- From `mem` to `mem'`, a copy of the value `v` of type `ty` has been made in the variable `l`: every struct
pointed at has been copied once, to a variable of its own that did not exist in `mem`, and pointers to it lead there.
Nothing else of `mem` has changed. -/
structure GraphCopy (tc : TCfg) (inp : Heap) (A ρ : Nat → Option Nat) (ty : Ty) (v : Val) (l : Spot) (mem mem' : Mem) : Prop where
  root : Copied tc inp ρ mem' mem.next mem'.next ty v (mem'.get l)
  cells : ∀ a b, ρ a = some b → mem.next ≤ b ∧ ∃ id, A a = some id ∧
    Copied tc inp ρ mem' mem.next mem'.next (.strct id) (inp.cellAt a) (mem'.get ⟨b, []⟩)
  once : ∀ a a' b, ρ a = some b → ρ a' = some b → a = a'
  frame : ∀ z : Spot, z.base < mem.next → Separate z l → mem'.get z = mem.get z
  maps : ∀ m, m < mem.next → mem'.maps m = mem.maps m

end Sereal
