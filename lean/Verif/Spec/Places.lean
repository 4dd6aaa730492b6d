import Verif.Spec.View
/-
Where the data of a document ends up: a decoded document as a graph.

`Shows` (Spec/View.lean) says what a Go value looks like.  It does not say which parts of it are the same variable,
map or slice.  The relation `Laid` does: it gives every item of the document a place, an `interface{}` variable, says
what that variable holds, and for REFP and ALIAS items that it holds what the variable of the named item holds.
As values of type `.slice` and `.smap` are addresses, "the same value" means the same storage.

All values are those of one heap, the final one.  Independent of the decoder: only the grammar, the heap and the value
types are used.
-/
namespace Sereal

/-- What is kept. -/
inductive Part
  | item (l : Loc)                                   -- an item, in the variable `l`
  | body (tc : TagC) (tracked : Bool) (l : Loc)      -- what follows the tag byte of an item in the variable `l`
  | items (n : Nat) (a : Addr)                       -- `n` items, in the variables at `a`, `a + 1`, ...
  | pairs (as : List (Bytes × Addr))                 -- pairs: the keys, and the addresses of the variables of the values

/-- The variables of the tracked items, by the positions of their tags.  A COPY of a tracked item puts it in a new
variable, to which later references refer. -/
abbrev Places := Nat → Option Loc

def Places.put (ρ : Places) (k : Nat) (l : Loc) : Places := fun o => if o = k then some l else ρ o

/-- Items without items inside. -/
def TagC.leaf : TagC → Bool
  | .int _ | .varint | .zigzag | .float | .double | .undef | .binary | .strUtf8 | .regexp | .cundef
  | .false_ | .true_ | .short _ => true
  | _ => false

/-- The class name of an object (`v = false`: a string; `v = true`: the position of a string). -/
def ObjName (buf : Bytes) (cd v : Bool) (i : Nat) (cls : Bytes) (j : Nat) : Prop :=
  if v then ∃ o x, Vint goDialect buf i o j ∧ o < 2 ^ 63 ∧ Strish goDialect buf cd o cls x
  else Strish goDialect buf cd i cls j

/-- `l` holds `v`; with PerlCompat, HASHREF and ARRAYREF give a pointer to it. -/
def HoldsRef (c : ViewCfg) (h : Heap) (l : Loc) (v : Val) : Prop :=
  if c.perlCompat then ∃ a, h.read l = .ptr false a ∧ h.mem a = .cell v else h.read l = v

/-- What a reference may find in the variable of an item around it: nothing yet, or, with PerlCompat, the first of the
two pointers made for a REFN. -/
def Unset (c : ViewCfg) (v : Val) : Prop := v = .nil ∨ c.perlCompat = true ∧ ∃ a, v = .ptr true a

/-- `Laid c h buf cd opn part i ρ j ρ'`: the `part` of the document `buf` from position `i` up to `j` is kept in the
heap `h`.  `ρ` and `ρ'` are the variables of the tracked items before and after; `opn` are the positions of the tracked
items around this part; `cd` tells whether it is read as part of a COPY item. -/
inductive Laid (c : ViewCfg) (h : Heap) (buf : Bytes) :
    Bool → List Nat → Part → Nat → Places → Nat → Places → Prop
  | plain {cd opn i k b l ρ j ρ'} : TagAt buf i k b → b.toNat < 128 →
      Laid c h buf cd opn (.body (classify b.toNat) false l) (k + 1) ρ j ρ' → Laid c h buf cd opn (.item l) i ρ j ρ'
  | tracked {cd opn i k b l ρ j ρ'} : TagAt buf i k b → 128 ≤ b.toNat →
      Laid c h buf cd (k :: opn) (.body (classify (b.toNat - 128)) true l) (k + 1) (ρ.put k l) j ρ' →
      Laid c h buf cd opn (.item l) i ρ j ρ'
  | leaf {cd opn tc tr l i ρ j t} {T T' : Seen} : tc.leaf = true →
      G goDialect buf cd (.body tc) i T (.tree t) j T' → Shows c h (h.read l) t →
      Laid c h buf cd opn (.body tc tr l) i ρ j ρ
  /- containers: the variable holds the slice or map, the elements are kept in its variables -/
  | array {cd opn tr l i n j p ρ j' ρ'} : Vint goDialect buf i n j → h.read l = .slice p n →
      Laid c h buf cd opn (.items n p) j ρ j' ρ' → Laid c h buf cd opn (.body .array tr l) i ρ j' ρ'
  | arrayref {cd opn tr l i n p ρ j ρ'} : HoldsRef c h l (.slice p n) →
      Laid c h buf cd opn (.items n p) i ρ j ρ' → Laid c h buf cd opn (.body (.arrayref n) tr l) i ρ j ρ'
  | hash {cd opn tr l i n j m es as ρ j' ρ'} : Vint goDialect buf i n j → as.length = n → h.read l = .smap m →
      h.mem m = .mp es → (es.map Prod.fst).Nodup →
      (∀ k, mapLookup k es = lastLookup k (as.map fun x => (x.1, h.cellAt x.2))) →
      Laid c h buf cd opn (.pairs as) j ρ j' ρ' → Laid c h buf cd opn (.body .hash tr l) i ρ j' ρ'
  | hashref {cd opn tr l i n m es as ρ j ρ'} : as.length = n → HoldsRef c h l (.smap m) →
      h.mem m = .mp es → (es.map Prod.fst).Nodup →
      (∀ k, mapLookup k es = lastLookup k (as.map fun x => (x.1, h.cellAt x.2))) →
      Laid c h buf cd opn (.pairs as) i ρ j ρ' → Laid c h buf cd opn (.body (.hashref n) tr l) i ρ j ρ'
  | itemsNil {cd opn a i ρ} : Laid c h buf cd opn (.items 0 a) i ρ i ρ
  | itemsCons {cd opn n a v i ρ j ρ' j' ρ''} : h.mem a = .cell v → Laid c h buf cd opn (.item (.cell a)) i ρ j ρ' →
      Laid c h buf cd opn (.items n (a + 1)) j ρ' j' ρ'' → Laid c h buf cd opn (.items (n + 1) a) i ρ j' ρ''
  | pairsNil {cd opn i ρ} : Laid c h buf cd opn (.pairs []) i ρ i ρ
  | pairsCons {cd opn k a as i x ρ j ρ' j' ρ''} : Strish goDialect buf cd i k x →
      Laid c h buf cd opn (.item (.cell a)) x ρ j ρ' →
      Laid c h buf cd opn (.pairs as) j ρ' j' ρ'' → Laid c h buf cd opn (.pairs ((k, a) :: as)) i ρ j' ρ''
  /- REFN: transparent; with PerlCompat a pointer to the variable of the item, or, if the REFN is not tracked, to a
  variable with the same contents -/
  | refn {cd opn tr l i ρ j ρ'} : c.perlCompat = false → Laid c h buf cd opn (.item l) i ρ j ρ' →
      Laid c h buf cd opn (.body .refn tr l) i ρ j ρ'
  | refnT {cd opn l i ρ j ρ' a} : c.perlCompat = true → h.read l = .ptr true a →
      Laid c h buf cd opn (.item (.cell a)) i ρ j ρ' → Laid c h buf cd opn (.body .refn true l) i ρ j ρ'
  | refnP {cd opn l i ρ j ρ' a b} : c.perlCompat = true → h.read l = .ptr false b → h.mem b = .cell (h.cellAt a) →
      Laid c h buf cd opn (.item (.cell a)) i ρ j ρ' → Laid c h buf cd opn (.body .refn false l) i ρ j ρ'
  /- REFP: a pointer to what the variable of the named item holds, or that itself -/
  | refp {cd opn tr l i o ρ j l' a} : c.disableRefInt = false → Vint goDialect buf i o j → o < j → ρ o = some l' →
      h.read l' ≠ .nil → h.read l = .ptr false a → h.mem a = .cell (h.read l') →
      Laid c h buf cd opn (.body .refp tr l) i ρ j ρ
  | refpI {cd opn tr l i o ρ j l'} : c.disableRefInt = true → Vint goDialect buf i o j → o < j → ρ o = some l' →
      h.read l' ≠ .nil → h.read l = h.read l' → Laid c h buf cd opn (.body .refp tr l) i ρ j ρ
  | refpOpen {cd opn tr l i o ρ j l' v a} : Vint goDialect buf i o j → o < j → ρ o = some l' → o ∈ opn →
      v ≠ .nil → Unset c v →
      (if c.disableRefInt then h.read l = v else h.read l = .ptr false a ∧ h.mem a = .cell v) →
      Laid c h buf cd opn (.body .refp tr l) i ρ j ρ
  /- ALIAS: what the variable of the named item holds -/
  | alias {cd opn tr l i o ρ j l'} : Vint goDialect buf i o j → o < j → ρ o = some l' → h.read l = h.read l' →
      Laid c h buf cd opn (.body .alias tr l) i ρ j ρ
  | aliasOpen {cd opn tr l i o ρ j l'} : Vint goDialect buf i o j → o < j → ρ o = some l' → o ∈ opn →
      Unset c (h.read l) → Laid c h buf cd opn (.body .alias tr l) i ρ j ρ
  /- COPY: another copy of the item -/
  | copy {opn tr l i o ρ j j' ρ'} : Vint goDialect buf i o j → o < i → Laid c h buf true opn (.item l) o ρ j' ρ' →
      Laid c h buf false opn (.body .copy tr l) i ρ j ρ'
  | weaken {cd opn tr l i ρ j ρ'} : c.perlCompat = false → Laid c h buf cd opn (.item l) i ρ j ρ' →
      Laid c h buf cd opn (.body .weaken tr l) i ρ j ρ'
  | weakenP {cd opn tr l i ρ j ρ' a w} : c.perlCompat = true → h.read l = .ptr false a → h.mem a = .cell (.weak w) →
      Laid c h buf cd opn (.item (.field a)) i ρ j ρ' → Laid c h buf cd opn (.body .weaken tr l) i ρ j ρ'
  /- objects: transparent, in a variable of their own with the same contents -/
  | object {cd opn tr l i v cls x a ρ j ρ'} : c.perlCompat = false → ObjName buf cd v i cls x →
      h.read l = h.read (.cell a) → Laid c h buf cd opn (.item (.cell a)) x ρ j ρ' →
      Laid c h buf cd opn (.body (if v then .objectv else .object) tr l) i ρ j ρ'
  | objectP {cd opn tr l i v cls x a w ρ j ρ'} : c.perlCompat = true → ObjName buf cd v i cls x →
      h.read l = .ptr false a → h.mem a = .cell (.obj cls w) → Laid c h buf cd opn (.item (.field a)) x ρ j ρ' →
      Laid c h buf cd opn (.body (if v then .objectv else .object) tr l) i ρ j ρ'
  | freeze {cd opn tr l i v cls x a p data o w ρ j ρ'} : ObjName buf cd v i cls x →
      h.read (.cell a) = .slice p 1 → h.mem p = .cell (.bin data) → Laid c h buf cd opn (.item (.cell a)) x ρ j ρ' →
      h.read l = .ptr false o → h.mem o = .cell w →
      ((c.perlCompat = true ∨ c.registry cls = none) ∧ w = .frozen cls data ∨
        c.perlCompat = false ∧ (∃ u, c.registry cls = some u ∧ u data = none) ∧ w = .thawed cls data) →
      Laid c h buf cd opn (.body (if v then .freezev else .freeze) tr l) i ρ j ρ'

end Sereal
