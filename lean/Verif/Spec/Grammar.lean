import Verif.Spec.Varint
/-
The Sereal body grammar, transcribed from sereal_spec.pod (tag table, lines 265-330; COPY, REFP,
ALIAS, OBJECTV, lines 360-480) as an inductive relation between positions of a buffer and trees.
Independent of the decoder: no heap, no Go values, no fuel.
-/
namespace Sereal

/-- The data denoted by an item. -/
inductive Tree
  | undef | cundef
  | bool (b : Bool)
  | int (i : Int)
  | f32 (bits : UInt32) | f64 (bits : UInt64)
  | str (s : Bytes)                          -- STR_UTF8
  | bin (s : Bytes)                          -- BINARY, SHORT_BINARY
  | arr (ts : List Tree)
  | map (kvs : List (Bytes × Tree))          -- in document order; a later pair with the same key wins
  | ref (t : Tree)                           -- REFN, and the implied reference of HASHREF/ARRAYREF
  | refp (t : Tree)                          -- REFP to a completed item
  | alias (t : Tree)                         -- ALIAS of a completed item
  | openRef                                  -- REFP / ALIAS to an item that encloses it (cyclic data)
  | weak (t : Tree)
  | obj (cls : Bytes) (t : Tree)
  | regexp (pat mods : Bytes)
  | frz (cls : Bytes) (t : Tree)             -- OBJECT_FREEZE

/-- Tags (tag table of the specification), after removing the track bit. -/
inductive TagC
  | int (i : Int) | varint | zigzag | float | double | undef | binary | strUtf8 | refn | refp
  | hash | array | object | objectv | alias | copy | weaken | regexp | freeze | freezev
  | cundef | false_ | true_ | pad | arrayref (n : Nat) | hashref (n : Nat) | short (n : Nat)
  | other                                    -- LONG_DOUBLE, MANY, PACKET_START, EXTEND, reserved
  deriving DecidableEq

/-- The tag table. -/
def classify (b : Nat) : TagC :=
  if b < 0x10 then .int b
  else if b < 0x20 then .int (b - 32)
  else if b = 0x20 then .varint
  else if b = 0x21 then .zigzag
  else if b = 0x22 then .float
  else if b = 0x23 then .double
  else if b = 0x25 then .undef
  else if b = 0x26 then .binary
  else if b = 0x27 then .strUtf8
  else if b = 0x28 then .refn
  else if b = 0x29 then .refp
  else if b = 0x2a then .hash
  else if b = 0x2b then .array
  else if b = 0x2c then .object
  else if b = 0x2d then .objectv
  else if b = 0x2e then .alias
  else if b = 0x2f then .copy
  else if b = 0x30 then .weaken
  else if b = 0x31 then .regexp
  else if b = 0x32 then .freeze
  else if b = 0x33 then .freezev
  else if b = 0x39 then .cundef
  else if b = 0x3a then .false_
  else if b = 0x3b then .true_
  else if b = 0x3f then .pad
  else if b < 0x40 then .other
  else if b < 0x50 then .arrayref (b - 0x40)
  else if b < 0x60 then .hashref (b - 0x50)
  else .short (b - 0x60)

/-- The points on which the Go decoder departs from the specification are parameters. -/
structure Dialect where
  /-- the number denoted by a varint -/
  vint : Bytes → Option Nat
  /-- the number denoted by a ZIGZAG payload -/
  zig : Nat → Option Int
  /-- may keys and class names inside a copied item be COPY tags? -/
  keyCopyInCopy : Bool
  /-- is COPY restricted to keys and class names, naming a string that ends before the COPY tag (and not
  padding in front of it)? -/
  strictCopy : Bool

/-- The specification: varints are 64-bit numbers; zigzag is 0, -1, 1, -2, 2, ...;
keys and class names inside a copied item may be COPY tags (sereal_spec.pod:401-404). -/
def specDialect : Dialect where
  vint v := if groups v < 2 ^ 64 then some (groups v) else none
  zig n := some (if n % 2 = 0 then (n / 2 : Nat) else -((n / 2 : Nat) + 1))
  keyCopyInCopy := true
  strictCopy := false

/-- What the Go decoder implements: varints modulo 2^64; every zigzag payload is read as a negative
number; no COPY inside a copied item. -/
def goDialect : Dialect where
  vint v := some (groups v % 2 ^ 64)
  zig n := some (-((n / 2 : Nat) + 1))
  keyCopyInCopy := false
  strictCopy := false

/-- The common part of both. -/
def coreDialect : Dialect where
  vint v := if groups v < 2 ^ 64 then some (groups v) else none
  zig n := if n % 2 = 0 then none else some (-((n / 2 : Nat) + 1))
  keyCopyInCopy := false
  strictCopy := false

/-- The common part, with COPY only as a key or class name, naming a complete earlier string. -/
def wrtDialect : Dialect where
  vint v := if groups v < 2 ^ 64 then some (groups v) else none
  zig n := if n % 2 = 0 then none else some (-((n / 2 : Nat) + 1))
  keyCopyInCopy := false
  strictCopy := true

/-- The bytes `s` stand at position `i`; the next position is `j`. -/
def Span (buf : Bytes) (i : Nat) (s : Bytes) (j : Nat) : Prop :=
  s <+: buf.drop i ∧ j = i + s.length

/-- A varint of at most ten bytes (64-bit numbers never need more) stands at `i` and denotes `n`. -/
def Vint (d : Dialect) (buf : Bytes) (i : Nat) (n : Nat) (j : Nat) : Prop :=
  ∃ v, IsVarint v ∧ v.length ≤ 10 ∧ Span buf i v j ∧ d.vint v = some n

/-- Padding, possibly with the track bit, fills `i ≤ x < k`, and the byte at `k` is the tag byte
`b`, which is not padding. -/
def TagAt (buf : Bytes) (i k : Nat) (b : UInt8) : Prop :=
  i ≤ k ∧ (∀ x, i ≤ x → x < k → ∃ p, buf[x]? = some p ∧ p.toNat % 128 = 0x3f) ∧
  buf[k]? = some b ∧ b.toNat % 128 ≠ 0x3f

/-- Sizes of strings and containers are limited to 2^31-1. -/
def maxSize : Nat := 2147483647

/-- A literal string (BINARY, STR_UTF8 or SHORT_BINARY) at `i`. -/
inductive Lit (d : Dialect) (buf : Bytes) : Nat → Bytes → Nat → Prop
  | long {i k b n j s j'} : TagAt buf i k b →
      (classify (b.toNat % 128) = .binary ∨ classify (b.toNat % 128) = .strUtf8) →
      Vint d buf (k + 1) n j → n ≤ maxSize → Span buf j s j' → s.length = n → Lit d buf i s j'
  | short {i k b n s j'} : TagAt buf i k b → classify (b.toNat % 128) = .short n →
      Span buf (k + 1) s j' → s.length = n → Lit d buf i s j'

/-- There is no padding at `o`. -/
def NotPad (buf : Bytes) (o : Nat) : Prop := ∀ p, buf[o]? = some p → p.toNat % 128 ≠ 0x3f

/-- A key, class name, pattern or modifier at `i`: a literal string or a COPY of one.
`cd` tells whether the position is inside a copied item. -/
inductive Strish (d : Dialect) (buf : Bytes) (cd : Bool) : Nat → Bytes → Nat → Prop
  | lit {i s j} : Lit d buf i s j → Strish d buf cd i s j
  | copy {i k b o j s j'} : (cd = false ∨ d.keyCopyInCopy = true) →
      TagAt buf i k b → classify (b.toNat % 128) = .copy → Vint d buf (k + 1) o j → o ≤ k →
      Lit d buf o s j' → (d.strictCopy = true → j' ≤ k ∧ NotPad buf o) → Strish d buf cd i s j

/-- The number spelled by little-endian bytes. -/
def leNat : Bytes → Nat
  | [] => 0
  | b :: rest => b.toNat + 256 * leNat rest

/-- What stands at a position. -/
inductive Job
  | item                                     -- an item, with padding and track bit
  | body (c : TagC)                          -- what follows the tag byte
  | items (n : Nat)                          -- n items
  | pairs (n : Nat)                          -- n key/value pairs

inductive Out
  | tree (t : Tree)
  | trees (ts : List Tree)
  | pairs (kvs : List (Bytes × Tree))

/-- Which tracked items have been seen: `none` not seen, `some none` begun but not completed,
`some (some t)` completed. -/
abbrev Seen := Nat → Option (Option Tree)

/-- Record `x` for the item whose tag is at `k`. -/
def Seen.put (T : Seen) (k : Nat) (x : Option Tree) : Seen := fun o => if o = k then some x else T o

/-- The tracked item at `k` has been completed and denotes `t`.  (If its tag was visited a second time
meanwhile, that later visit counts.) -/
def Seen.close (T : Seen) (k : Nat) (t : Tree) : Seen := fun o =>
  match T o with
  | some none => if o = k then some (some t) else some none
  | x => x

/-- `G d buf cd job i T out j T'`: at position `i` of `buf` stands a `job` denoting `out`, ending
before position `j`; `T` and `T'` are the tracked items seen before and after; `cd` tells whether
this is part of a copied item. -/
inductive G (d : Dialect) (buf : Bytes) : (cd : Bool) → Job → (i : Nat) → Seen → Out →
    (j : Nat) → Seen → Prop
  | plain {cd i k b T t j T'} : TagAt buf i k b → b.toNat < 128 →
      G d buf cd (.body (classify b.toNat)) (k + 1) T (.tree t) j T' →
      G d buf cd .item i T (.tree t) j T'
  | tracked {cd i k b T t j T'} : TagAt buf i k b → 128 ≤ b.toNat →
      G d buf cd (.body (classify (b.toNat - 128))) (k + 1) (T.put k none) (.tree t) j T' →
      G d buf cd .item i T (.tree t) j (T'.close k t)
  | int {cd i T n} : G d buf cd (.body (.int n)) i T (.tree (.int n)) i T
  | varint {cd i T n j} : Vint d buf i n j → G d buf cd (.body .varint) i T (.tree (.int n)) j T
  | zigzag {cd i T n j z} : Vint d buf i n j → d.zig n = some z →
      G d buf cd (.body .zigzag) i T (.tree (.int z)) j T
  | float {cd i T s j} : Span buf i s j → s.length = 4 →
      G d buf cd (.body .float) i T (.tree (.f32 (.ofNat (leNat s)))) j T
  | double {cd i T s j} : Span buf i s j → s.length = 8 →
      G d buf cd (.body .double) i T (.tree (.f64 (.ofNat (leNat s)))) j T
  | true_ {cd i T} : G d buf cd (.body .true_) i T (.tree (.bool true)) i T
  | false_ {cd i T} : G d buf cd (.body .false_) i T (.tree (.bool false)) i T
  | undef {cd i T} : G d buf cd (.body .undef) i T (.tree .undef) i T
  | cundef {cd i T} : G d buf cd (.body .cundef) i T (.tree .cundef) i T
  | binary {cd i T n j s j'} : Vint d buf i n j → n ≤ maxSize → Span buf j s j' → s.length = n →
      G d buf cd (.body .binary) i T (.tree (.bin s)) j' T
  | strUtf8 {cd i T n j s j'} : Vint d buf i n j → n ≤ maxSize → Span buf j s j' → s.length = n →
      G d buf cd (.body .strUtf8) i T (.tree (.str s)) j' T
  | short {cd i T n s j} : Span buf i s j → s.length = n →
      G d buf cd (.body (.short n)) i T (.tree (.bin s)) j T
  | hash {cd i T n j kvs j' T'} : Vint d buf i n j → n ≤ maxSize →
      G d buf cd (.pairs n) j T (.pairs kvs) j' T' →
      G d buf cd (.body .hash) i T (.tree (.map kvs)) j' T'
  | hashref {cd i T n kvs j T'} : G d buf cd (.pairs n) i T (.pairs kvs) j T' →
      G d buf cd (.body (.hashref n)) i T (.tree (.ref (.map kvs))) j T'
  | array {cd i T n j ts j' T'} : Vint d buf i n j → n ≤ maxSize →
      G d buf cd (.items n) j T (.trees ts) j' T' →
      G d buf cd (.body .array) i T (.tree (.arr ts)) j' T'
  | arrayref {cd i T n ts j T'} : G d buf cd (.items n) i T (.trees ts) j T' →
      G d buf cd (.body (.arrayref n)) i T (.tree (.ref (.arr ts))) j T'
  | refn {cd i T t j T'} : G d buf cd .item i T (.tree t) j T' →
      G d buf cd (.body .refn) i T (.tree (.ref t)) j T'
  | refp {cd i T o j t} : Vint d buf i o j → o < j → T o = some (some t) →
      G d buf cd (.body .refp) i T (.tree (.refp t)) j T
  | refpOpen {cd i T o j} : Vint d buf i o j → o < j → T o = some none →
      G d buf cd (.body .refp) i T (.tree .openRef) j T
  | alias {cd i T o j t} : Vint d buf i o j → o < j → T o = some (some t) →
      G d buf cd (.body .alias) i T (.tree (.alias t)) j T
  | aliasOpen {cd i T o j} : Vint d buf i o j → o < j → T o = some none →
      G d buf cd (.body .alias) i T (.tree .openRef) j T
  | copy {i T o j t j' T'} : d.strictCopy = false → Vint d buf i o j → o < i →
      G d buf true .item o T (.tree t) j' T' →
      G d buf false (.body .copy) i T (.tree t) j T'
  | weaken {cd i T t j T'} : G d buf cd .item i T (.tree t) j T' →
      G d buf cd (.body .weaken) i T (.tree (.weak t)) j T'
  | regexp {cd i T p j m j'} : Strish d buf cd i p j → Strish d buf cd j m j' →
      G d buf cd (.body .regexp) i T (.tree (.regexp p m)) j' T
  | object {cd i T c j t j' T'} : Strish d buf cd i c j → G d buf cd .item j T (.tree t) j' T' →
      G d buf cd (.body .object) i T (.tree (.obj c t)) j' T'
  | objectv {cd i T o j c x t j' T'} : Vint d buf i o j → o < 2 ^ 63 ∧ (d.strictCopy = true → NotPad buf o) →
      Strish d buf cd o c x →
      G d buf cd .item j T (.tree t) j' T' →
      G d buf cd (.body .objectv) i T (.tree (.obj c t)) j' T'
  | freeze {cd i T c j t j' T'} : Strish d buf cd i c j → Span buf j [0x28, 0x2b] (j + 2) →
      G d buf cd .item j T (.tree t) j' T' →
      G d buf cd (.body .freeze) i T (.tree (.frz c t)) j' T'
  | freezev {cd i T o j c x t j' T'} : Vint d buf i o j → o < 2 ^ 63 ∧ (d.strictCopy = true → NotPad buf o) →
      Strish d buf cd o c x →
      Span buf j [0x28, 0x2b] (j + 2) → G d buf cd .item j T (.tree t) j' T' →
      G d buf cd (.body .freezev) i T (.tree (.frz c t)) j' T'
  | itemsNil {cd i T} : G d buf cd (.items 0) i T (.trees []) i T
  | itemsCons {cd n i T t j T' ts j' T''} : G d buf cd .item i T (.tree t) j T' →
      G d buf cd (.items n) j T' (.trees ts) j' T'' →
      G d buf cd (.items (n + 1)) i T (.trees (t :: ts)) j' T''
  | pairsNil {cd i T} : G d buf cd (.pairs 0) i T (.pairs []) i T
  | pairsCons {cd n i T k x t j T' kvs j' T''} : Strish d buf cd i k x →
      G d buf cd .item x T (.tree t) j T' →
      G d buf cd (.pairs n) j T' (.pairs kvs) j' T'' →
      G d buf cd (.pairs (n + 1)) i T (.pairs ((k, t) :: kvs)) j' T''

/-- A body at position `i` of `buf` denotes `t` and ends before `j`. -/
def Denotes (d : Dialect) (buf : Bytes) (i : Nat) (t : Tree) (j : Nat) : Prop :=
  ∃ T, G d buf false .item i (fun _ => none) (.tree t) j T

end Sereal
