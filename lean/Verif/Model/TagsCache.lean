import Verif.Model.Value
/-
The cache of struct field maps (tagscache.go) and an Encoder's use of it.

`reflect.Type` values are numbers; `decls t` are the fields of the struct type `t`.
-/
namespace Sereal

/-- What reflection tells about a struct field (tagscache.go:27-37): name, `sereal` tag (empty when
absent), exported or not. -/
structure FieldDecl where
  name : Bytes
  tag : Bytes
  exported : Bool
  deriving DecidableEq, Repr

/-- `map[string]int`: from field name to field index. -/
abbrev Tags := List (Bytes × Nat)

/-- The loop of tagscache.go:26-42, starting at field `i` with map `m`. -/
def indexTags : List FieldDecl → Nat → Tags → Tags
  | [], _, m => m
  | f :: rest, i, m =>
    if f.tag = [45] then indexTags rest (i + 1) m                 -- "-"
    else if f.tag = [] then
      if !f.exported then indexTags rest (i + 1) m
      else indexTags rest (i + 1) (mapInsert f.name i m)
    else indexTags rest (i + 1) (mapInsert f.tag i m)

/-- `map[reflect.Type]map[string]int`.  (A nil `map[string]int` is the empty list: tagscache.go:45-47.) -/
abbrev CMap := Nat → Option Tags

def CMap.insert (c : CMap) (t : Nat) (m : Tags) : CMap := fun t' => if t' = t then some m else c t'

/-- `tagsCache.Get` without interference (tagscache.go:9-51) for the struct type `t`; `none` is the nil
map of a new Encoder. -/
def tagsGet (decls : Nat → List FieldDecl) (t : Nat) (c : Option CMap) : Tags × Option CMap :=
  let cm := c.getD (fun _ => none)                                  -- tagscache.go:14-16
  match cm t with
  | some m => (m, some cm)
  | none =>
    let m := indexTags (decls t) 0 []
    (m, some (cm.insert t m))

/-! ### Several goroutines -/

/-- Where a goroutine is in `tagsCache.Get` for type `t`. -/
inductive PC
  | readField (t : Nat)                  -- about to compare tc.cmap with nil (tagscache.go:14)
  | writeField (t : Nat)                 -- about to store a new map in tc.cmap (tagscache.go:15)
  | loadField (t : Nat)                  -- about to load tc.cmap (tagscache.go:19)
  | lookup (t : Nat) (p : Nat)           -- about to look up `t` in the map `p` (tagscache.go:19)
  | reload (t : Nat) (m : Tags)          -- has built `m`, about to load tc.cmap (tagscache.go:49)
  | store (t : Nat) (p : Nat) (m : Tags) -- about to store `m` in the map `p` (tagscache.go:49)
  | done (t : Nat) (m : Tags)            -- has returned `m`
  deriving DecidableEq, Repr

/-- The memory the goroutines share: the field `cmap` and the maps allocated so far (`alloc` of them). -/
structure Shared where
  cmap : Option Nat
  maps : Nat → CMap
  alloc : Nat

/-- One step of one goroutine. Single loads, stores, lookups and map assignments are taken to be atomic
and sequentially consistent, more than the Go memory model promises for this code. -/
inductive GStep (decls : Nat → List FieldDecl) : Shared → PC → Shared → PC → Prop
  | isNil {s t} : s.cmap = none → GStep decls s (.readField t) s (.writeField t)
  | notNil {s t p} : s.cmap = some p → GStep decls s (.readField t) s (.loadField t)
  | init {s t} : GStep decls s (.writeField t)
      { s with cmap := some s.alloc, alloc := s.alloc + 1 } (.loadField t)
  | load {s t p} : s.cmap = some p → GStep decls s (.loadField t) s (.lookup t p)
  | hit {s t p m} : s.maps p t = some m → GStep decls s (.lookup t p) s (.done t m)
  | miss {s t p} : s.maps p t = none → GStep decls s (.lookup t p) s (.reload t (indexTags (decls t) 0 []))
  | reload {s t m p} : s.cmap = some p → GStep decls s (.reload t m) s (.store t p m)
  | store {s t p m} : GStep decls s (.store t p m)
      { s with maps := fun q => if q = p then (s.maps p).insert t m else s.maps q } (.done t m)
  /-- the next Marshal of this goroutine, or the next struct of the same value -/
  | again {s t m t'} : GStep decls s (.done t m) s (.readField t')

/-- A number of goroutines. -/
structure World where
  shared : Shared
  pcs : List PC

/-- Some goroutine takes a step. -/
inductive WStep (decls : Nat → List FieldDecl) : World → World → Prop
  | step {s s' pre pc pc' post} : GStep decls s pc s' pc' →
      WStep decls ⟨s, pre ++ pc :: post⟩ ⟨s', pre ++ pc' :: post⟩

/-- Every interleaving. -/
inductive Reaches (decls : Nat → List FieldDecl) : World → World → Prop
  | refl {w} : Reaches decls w w
  | tail {w w' w''} : Reaches decls w w' → WStep decls w' w'' → Reaches decls w w''

/-- The start: goroutines that call Marshal on values of types `ts`, the cache unused. -/
def World.start (ts : List Nat) : World :=
  ⟨⟨none, fun _ _ => none, 0⟩, ts.map .readField⟩

/-- A memory access: to the field `cmap` or to a map. -/
inductive Access
  | field (write : Bool)
  | map (p : Nat) (write : Bool)

/-- The access a goroutine is about to make. -/
def PC.access : PC → Option Access
  | .readField _ | .loadField _ | .reload _ _ => some (.field false)
  | .writeField _ => some (.field true)
  | .lookup _ p => some (.map p false)
  | .store _ p _ => some (.map p true)
  | .done _ _ => none

end Sereal
