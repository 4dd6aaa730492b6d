import Verif.Spec.Writable
/-
Values in which every pointer is met once.
-/
namespace Sereal

/-- `κ` is an address by which the encoder recognises a pointer inside `v`: the pointer itself, or where the
data of the variable it leads to lives (`IsKey`). -/
inductive PtrKey (c : ECfg) (h : Heap) : Val → Addr → Prop
  | here {v a κ} : OrdPtr h v a → IsKey c h a κ → PtrKey c h v κ
  | deep {v w κ} : Leads c h v w → PtrKey c h w κ → PtrKey c h v κ

/-- No pointer inside `v` is recognised as one inside `w`. -/
def Unlinked (c : ECfg) (h : Heap) (v w : Val) : Prop := ∀ κ, PtrKey c h v κ → ¬ PtrKey c h w κ

/-- Inside of the finite value `v` no pointer is met twice: the elements of a slice, the entries of a map and
the fields of a struct have no pointers in common, and no pointer leads back to itself.  (A map or slice may
occur more than once where it is not behind a pointer.) -/
inductive Unshared (c : ECfg) (h : Heap) : Val → Prop
  | plain {v} : Plainly v → Unshared c h v
  | nilptr : Unshared c h .nilptr
  | frozen {cls d} : Unshared c h (.frozen cls d)
  | freeze {cls r u} : c.disableFreeze = false → Unshared c h (.marshaler cls r u)
  | slice {p n} : (∀ i, i < n → Unshared c h (h.cellAt (p + i))) →
      (∀ i j, i < j → j < n → Unlinked c h (h.cellAt (p + i)) (h.cellAt (p + j))) → Unshared c h (.slice p n)
  | rslice {p n} : (∀ i, i < n → Unshared c h (h.cellAt (p + i))) →
      (∀ i j, i < j → j < n → Unlinked c h (h.cellAt (p + i)) (h.cellAt (p + j))) → Unshared c h (.rslice p n)
  | smap {m} : ((h.mapAt m).map Prod.fst).Nodup →
      (∀ k v, mapLookup k (h.mapAt m) = some v → Unshared c h v) →
      (∀ k k' v v', k ≠ k' → mapLookup k (h.mapAt m) = some v → mapLookup k' (h.mapAt m) = some v' →
        Unlinked c h v v') → Unshared c h (.smap m)
  | rmap {m} : ((h.mapAt m).map Prod.fst).Nodup →
      (∀ k v, mapLookup k (h.mapAt m) = some v → Unshared c h v) →
      (∀ k k' v v', k ≠ k' → mapLookup k (h.mapAt m) = some v → mapLookup k' (h.mapAt m) = some v' →
        Unlinked c h v v') → Unshared c h (.rmap m)
  | strct {name a} : (∀ k f, WritesField (h.fieldsAt a) k f → Unshared c h f.val) →
      (∀ k k' f f', k ≠ k' → WritesField (h.fieldsAt a) k f → WritesField (h.fieldsAt a) k' f' →
        Unlinked c h f.val f'.val) → Unshared c h (.strct name a)
  | same {v w} : SameLevel c v w → Unshared c h w → Unshared c h v
  | perl {a} : PerlThing (h.cellAt a) → Unshared c h (h.cellAt a) → Unshared c h (.ptr false a)
  | ptr {v a} : OrdPtr h v a → Unshared c h (h.cellAt a) → ¬ PtrKey c h (h.cellAt a) a → Unshared c h v

end Sereal
