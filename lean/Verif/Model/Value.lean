import Verif.Model.Basic
/-
Go values and the Go heap.

A Go value of interface type is a `Val`.  Everything that has an address in Go and can be shared or
cyclic (variables behind pointers, slice backing arrays, maps, struct bodies) lives in a `Heap`.
-/
namespace Sereal

/- An address: the model's `uintptr`. -/
notation "Addr" => Nat

/-- Kinds of signed integer types (package reflect). -/
inductive IntK | int | int8 | int16 | int32 | int64
  deriving DecidableEq, Repr

/-- Kinds of unsigned integer types (package reflect). -/
inductive UintK | uint | uint8 | uint16 | uint32 | uint64
  deriving DecidableEq, Repr

/-- The dynamic value of a Go interface, restricted to the types the codec distinguishes
(the type switch of encode.go:203-301, the kinds of encode.go:477-516, and perl.go).  -/
inductive Val
  | nil                                  -- nil interface
  | bool (b : Bool)
  | int (k : IntK) (i : Int64)           -- int, int8, ..., int64 (predeclared types)
  | uint (k : UintK) (n : UInt64)        -- uint, uint8, ..., uint64 (predeclared types)
  | f32 (bits : UInt32)                  -- float32 by its IEEE bit pattern
  | f64 (bits : UInt64)                  -- float64 by its IEEE bit pattern
  | jnum (s : Bytes)                     -- json.Number
  | str (s : Bytes)                      -- string
  | bin (s : Bytes)                      -- []byte
  | slice (p : Addr) (n : Nat)           -- []interface{}: cells p, p+1, ..., p+n-1
  | smap (m : Addr)                      -- map[string]interface{}
  | undef (canonical : Bool)             -- PerlUndef           (perl.go:22-24)
  | obj (cls : Bytes) (ref : Val)        -- PerlObject          (perl.go:6-9)
  | regexp (pat mods : Bytes)            -- PerlRegexp          (perl.go:40-43)
  | weak (ref : Val)                     -- PerlWeakRef         (perl.go:17-19)
  | frozen (cls data : Bytes)            -- PerlFreeze          (perl.go:46-49)
  | thawed (cls data : Bytes)            -- instance of the type registered for class `cls`
                                         -- after UnmarshalBinary(data) returned nil
  | ptr (iface : Bool) (a : Addr)        -- non-nil pointer to the variable at `a`;
                                         -- `iface` = the variable's static type is interface{}
  | nilptr                               -- typed nil pointer
  -- values reached only through reflection (encode.go:454-519)
  | nbool (b : Bool)                     -- named boolean type
  | nint (k : IntK) (i : Int64)          -- named signed integer type of kind k
  | nuint (k : UintK) (n : UInt64)       -- named unsigned integer type of kind k
  | nf32 (bits : UInt32)
  | nf64 (bits : UInt64)
  | nstr (s : Bytes)                     -- named string type
  | rslice (p : Addr) (n : Nat)          -- slice or array of another element type
  | rmap (m : Addr)                      -- map with string keys and another element type
  | strct (name : Bytes) (a : Addr)      -- struct of type `name`, fields stored at `a`
  | marshaler (cls : Bytes) (res : Except Nat Bytes) (under : Val)
                                         -- implements encoding.BinaryMarshaler: class name,
                                         -- what MarshalBinary returns, underlying value
  | unsupported                          -- chan, func, complex, ...
  deriving DecidableEq, Repr

/-- A struct field as seen by reflection: name, `sereal` tag ("" when absent), whether exported,
and the value (tagscache.go:26-41). -/
structure Field where
  name : Bytes
  tag : Bytes
  exported : Bool
  val : Val
  deriving DecidableEq, Repr

/-- What is stored at an address. -/
inductive HObj
  | cell (v : Val)                       -- a variable
  | mp (kvs : List (Bytes × Val))        -- the contents of a map with string keys
  | flds (fs : List Field)               -- the fields of a struct
  deriving DecidableEq, Repr

/-- The heap: contents and the next free address. -/
structure Heap where
  mem : Addr → HObj
  next : Addr

/-- Address of the global `perlCanonicalUndef` (perl.go:29). -/
def canonicalUndefAddr : Addr := 0

/-- The heap before any allocation: only the global `perlCanonicalUndef` exists. -/
def Heap.init : Heap :=
  { mem := fun a => if a = canonicalUndefAddr then .cell (.undef true) else .cell .nil
    next := 1 }

/-- Store an object at an address. -/
def Heap.set (h : Heap) (a : Addr) (o : HObj) : Heap :=
  { h with mem := fun b => if b = a then o else h.mem b }

/-- Contents of the variable at `a`. -/
def Heap.cellAt (h : Heap) (a : Addr) : Val :=
  match h.mem a with
  | .cell v => v
  | _ => .nil

/-- Contents of the map at `a`. -/
def Heap.mapAt (h : Heap) (a : Addr) : List (Bytes × Val) :=
  match h.mem a with
  | .mp kvs => kvs
  | _ => []

/-- Fields of the struct body at `a`. -/
def Heap.fieldsAt (h : Heap) (a : Addr) : List Field :=
  match h.mem a with
  | .flds fs => fs
  | _ => []

/-- Go map assignment `m[k] = v` on an association list: replace or add. -/
def mapInsert (k : Bytes) (v : α) : List (Bytes × α) → List (Bytes × α)
  | [] => [(k, v)]
  | (k', v') :: rest => if k' = k then (k', v) :: rest else (k', v') :: mapInsert k v rest

/-- Go map lookup. -/
def mapLookup (k : Bytes) : List (Bytes × α) → Option α
  | [] => none
  | (k', v) :: rest => if k' = k then some v else mapLookup k rest

/-- A pointer to an `interface{}` variable: a variable of its own (also an element of a
`[]interface{}`), or the `Reference` field of the PerlObject / PerlWeakRef stored at `a`. -/
inductive Loc
  | cell (a : Addr)
  | field (a : Addr)
  deriving DecidableEq, Repr

/-- `*ptr` read. -/
def Heap.read (h : Heap) : Loc → Val
  | .cell a => h.cellAt a
  | .field a =>
    match h.cellAt a with
    | .obj _ r => r
    | .weak r => r
    | _ => .nil

/-- `*ptr = v`. -/
def Heap.write (h : Heap) (l : Loc) (v : Val) : Heap :=
  match l with
  | .cell a => h.set a (.cell v)
  | .field a =>
    match h.cellAt a with
    | .obj c _ => h.set a (.cell (.obj c v))
    | .weak _ => h.set a (.cell (.weak v))
    | _ => h

/-- A new object. -/
def Heap.alloc (h : Heap) (o : HObj) : Addr × Heap :=
  (h.next, { (h.set h.next o) with next := h.next + 1 })

/-- `make([]interface{}, n)`, or `make([]interface{}, 0, 1)` when `n = 0` (decode.go:551-556):
`max n 1` consecutive nil cells. -/
def Heap.allocCells (h : Heap) (n : Nat) : Addr × Heap :=
  (h.next,
   { mem := fun a => if h.next ≤ a ∧ a < h.next + max n 1 then .cell .nil else h.mem a
     next := h.next + max n 1 })

/-- Why no object comes out of a registered class: the error of its `UnmarshalBinary` (decode.go:1185-1187),
or, if the registered type is not a pointer, the panic of `v.Addr()` in `instantiateZero`
(decode.go:1311-1318): the result of `reflect.New` has no address. -/
inductive Refusal where
  | user (n : Nat)
  | unaddressable
  deriving DecidableEq

end Sereal
