import Verif.Model.Encode
import Mathlib.Data.List.Forall2
/-
When two memories contain the same data at other addresses (C76).
-/
namespace Sereal

/-- Values without addresses. -/
def Val.Flat : Val → Prop
  | .slice _ _ | .smap _ | .rslice _ _ | .rmap _ | .strct _ _ | .ptr _ _ | .obj _ _ | .weak _ | .marshaler _ _ _ => False
  | _ => True

/-- The second value is the first one with other addresses in it: `V` relates the addresses of variables, maps and structs to the
new ones, `K` those of the storage behind slices. -/
inductive MovedTo (V K : Addr → Addr → Prop) : Val → Val → Prop
  | flat {v} : v.Flat → MovedTo V K v v
  | slice {p p' n} : K p p' → (∀ i, i < n → V (p + i) (p' + i)) → MovedTo V K (.slice p n) (.slice p' n)
  | rslice {p p' n} : K p p' → (∀ i, i < n → V (p + i) (p' + i)) → MovedTo V K (.rslice p n) (.rslice p' n)
  | smap {m m'} : V m m' → MovedTo V K (.smap m) (.smap m')
  | rmap {m m'} : V m m' → MovedTo V K (.rmap m) (.rmap m')
  | strct {name a a'} : V a a' → MovedTo V K (.strct name a) (.strct name a')
  | ptr {iface a a'} : V a a' → MovedTo V K (.ptr iface a) (.ptr iface a')
  | obj {cls r r'} : MovedTo V K r r' → MovedTo V K (.obj cls r) (.obj cls r')
  | weak {r r'} : MovedTo V K r r' → MovedTo V K (.weak r) (.weak r')
  | marshaler {cls res r r'} : MovedTo V K r r' → MovedTo V K (.marshaler cls res r) (.marshaler cls res r')

/-- The data of the memory `h` is found in `h'`, at other addresses: what is at related addresses is equal but for addresses, and
`K`, which also relates the addresses of the bytes of strings (`dp`, `dp'`), relates each address to one address only, in both
directions: what has one address has one address afterwards, and what has two has two.  `ord n ks` is the order in which the
`n`-th range statement of a call visits the keys `ks` of a map. -/
structure Relocation (ord : Nat → List Bytes → List Bytes) (h : Heap) (dp : Addr → Addr) (h' : Heap) (dp' : Addr → Addr)
    (V K : Addr → Addr → Prop) : Prop where
  one : ∀ {a b a' b'}, K a b → K a' b' → (a = a' ↔ b = b')
  zero : K 0 0
  key : ∀ {a b}, V a b → K a b
  cell : ∀ {a b}, V a b → MovedTo V K (h.cellAt a) (h'.cellAt b)
  data : ∀ {a b}, V a b → K (dp a) (dp' b)
  size : ∀ {a b}, V a b → (h.mapAt a).length = (h'.mapAt b).length
  entry : ∀ {a b}, V a b → ∀ k, MovedTo V K ((mapLookup k (h.mapAt a)).getD .nil) ((mapLookup k (h'.mapAt b)).getD .nil)
  order : ∀ {a b}, V a b → ∀ n, ord n ((h.mapAt a).map (·.1)) = ord n ((h'.mapAt b).map (·.1))
  fields : ∀ {a b}, V a b →
    List.Forall₂ (fun f f' => f.name = f'.name ∧ f.tag = f'.tag ∧ f.exported = f'.exported ∧ MovedTo V K f.val f'.val)
      (h.fieldsAt a) (h'.fieldsAt b)

end Sereal
