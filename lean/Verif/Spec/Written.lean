import Verif.Spec.View
import Verif.Model.Encode
/-
Which trees of the grammar a Go value may be written as.  The relation looks at values, the heap and
the configuration of the encoder (its flags and the runtime facts recorded in `ECfg`), not at any
encoder function.
-/
namespace Sereal

/-- With PerlCompat, containers are written behind a reference unless one has just been written. -/
def refWrap (b : Bool) (t : Tree) : Tree := if b then .ref t else t

/-- The names PerlFreeze, Class and Data: the type PerlFreeze and its fields (perl.go:46-49). -/
def freezeName : Bytes := [80, 101, 114, 108, 70, 114, 101, 101, 122, 101]
def classField : Bytes := [67, 108, 97, 115, 115]
def dataField : Bytes := [68, 97, 116, 97]

/-- The number spelled by decimal digits. -/
def digitsVal (ds : Bytes) : Nat := ds.foldl (fun n d => n * 10 + (d.toNat - 48)) 0

/-- `s` is the decimal text of the integer `z`: an optional sign and at least one digit. -/
inductive IntText : Bytes → Int → Prop
  | plain {ds : Bytes} : ds ≠ [] → (∀ d ∈ ds, 48 ≤ d ∧ d ≤ 57) → IntText ds (digitsVal ds)
  | plus {ds : Bytes} : ds ≠ [] → (∀ d ∈ ds, 48 ≤ d ∧ d ≤ 57) → IntText (43 :: ds) (digitsVal ds)
  | minus {ds : Bytes} : ds ≠ [] → (∀ d ∈ ds, 48 ≤ d ∧ d ≤ 57) → IntText (45 :: ds) (-(digitsVal ds : Int))

/-- `s` is an optional sign followed by digits, whose value does not fit 64 bits, and any further text. -/
def DigitOverflow (s : Bytes) : Prop :=
  ∃ sign ds rest : Bytes, s = sign ++ ds ++ rest ∧ (sign = [] ∨ sign = [43] ∨ sign = [45]) ∧
    (∀ d ∈ ds, 48 ≤ d ∧ d ≤ 57) ∧ 2 ^ 64 ≤ digitsVal ds

/-- The name under which a field is written, if it is: its tag, or else its name if it is exported;
not at all if its tag is "-". -/
def effName (f : Field) : Option Bytes :=
  if f.tag = [45] then none
  else if f.tag ≠ [] then some f.tag
  else if f.exported then some f.name
  else none

/-- The entries of a struct in the order of its fields. -/
def fieldEntries (fs : List Field) : List (Bytes × Val) :=
  fs.filterMap (fun f => (effName f).map (fun k => (k, f.val)))

/-- Where the data of the variable at `a` lives, when it is a map, slice, string or pointer. -/
def dataAddr (c : ECfg) (inp : Heap) (a : Addr) : Addr :=
  match inp.cellAt a with
  | .smap m => m
  | .rmap m => m
  | .slice p _ => p
  | .rslice p _ => p
  | .ptr _ p => p
  | .bin _ => c.dataPtr a
  | .str _ => c.dataPtr a
  | .nstr _ => c.dataPtr a
  | .jnum _ => c.dataPtr a
  | _ => 0

/-- Addresses under which a pointer to the variable at `a` is recognised. -/
def IsKey (c : ECfg) (inp : Heap) (a κ : Addr) : Prop :=
  κ = a ∨ (κ = dataAddr c inp a ∧ κ ≠ 0)

/-- `Written c inp rn v t`: the value `v` may be written as the tree `t`; `rn` tells that a reference
tag has just been written.  (The pairs of maps and structs may come in any order.) -/
inductive Written (c : ECfg) (inp : Heap) : Bool → Val → Tree → Prop
  | nil {rn} : Written c inp rn .nil .undef
  | bool {rn b} : Written c inp rn (.bool b) (.bool b)
  | int {rn k i} : Written c inp rn (.int k i) (.int i.toInt)
  | uint {rn k n} : Written c inp rn (.uint k n) (.int n.toNat)
  | f32 {rn u} : Written c inp rn (.f32 u) (.f32 u)
  | f64 {rn u} : Written c inp rn (.f64 u) (.f64 u)
  | str {rn s} : Written c inp rn (.str s) (.str s)
  | bin {rn s} : Written c inp rn (.bin s) (.bin s)
  -- json.Number: an integer that fits 64 bits; the text if it is an integer that does not fit or starts
  -- with too many digits; otherwise a float if it parses as one, or the text
  | jnumInt {rn s z} : IntText s z → -2 ^ 63 ≤ z → z < 2 ^ 63 → Written c inp rn (.jnum s) (.int z)
  | jnumFloat {rn s f} : (∀ z, ¬ IntText s z) → ¬ DigitOverflow s → c.parseFloat s = some f →
      Written c inp rn (.jnum s) (.f64 f)
  | jnumText {rn s} : (∀ z, IntText s z → z < -2 ^ 63 ∨ 2 ^ 63 ≤ z) →
      ((∃ z, IntText s z) ∨ DigitOverflow s ∨ c.parseFloat s = none) → Written c inp rn (.jnum s) (.str s)
  -- containers
  | slice {rn p ts} : (∀ i t, ts[i]? = some t → Written c inp false (inp.cellAt (p + i)) t) →
      Written c inp rn (.slice p ts.length) (refWrap (c.perlCompat && !rn) (.arr ts))
  | rslice {rn p ts} : (∀ i t, ts[i]? = some t → Written c inp false (inp.cellAt (p + i)) t) →
      Written c inp rn (.rslice p ts.length) (refWrap (c.perlCompat && !rn) (.arr ts))
  | smap {rn m kts} : (kts.map Prod.fst).Perm ((inp.mapAt m).map Prod.fst) →
      (∀ k t v, (k, t) ∈ kts → mapLookup k (inp.mapAt m) = some v → Written c inp false v t) →
      Written c inp rn (.smap m) (refWrap (c.perlCompat && !rn) (.map kts))
  | rmap {rn m kts} : (kts.map Prod.fst).Perm ((inp.mapAt m).map Prod.fst) →
      (∀ k t v, (k, t) ∈ kts → mapLookup k (inp.mapAt m) = some v → Written c inp false v t) →
      Written c inp rn (.rmap m) (refWrap (c.perlCompat && !rn) (.map kts))
  | strct {rn name a kts} : (kts.map Prod.fst).Nodup →
      (∀ k, k ∈ kts.map Prod.fst ↔ k ∈ (fieldEntries (inp.fieldsAt a)).map Prod.fst) →
      (∀ k t v, (k, t) ∈ kts → lastLookup k (fieldEntries (inp.fieldsAt a)) = some v →
        Written c inp false v t) →
      Written c inp rn (.strct name a) (.obj name (refWrap c.perlCompat (.map kts)))
  -- Perl values
  | undef {rn} : Written c inp rn (.undef false) .undef
  | cundef {rn} : Written c inp rn (.undef true) .cundef
  | obj {rn cls v t} : Written c inp false v t → Written c inp rn (.obj cls v) (.obj cls t)
  | weak {rn v t} : Written c inp false v t → Written c inp rn (.weak v) (.weak t)
  | regexp {rn p m} : Written c inp rn (.regexp p m) (.regexp p m)
  /-- PerlFreeze is written like any other struct. -/
  | frozen {rn cls data kts} :
      kts.Perm [(classField, .str cls), (dataField, .bin data)] →
      Written c inp rn (.frozen cls data) (.obj freezeName (refWrap c.perlCompat (.map kts)))
  | marshaler {rn cls data under} : c.disableFreeze = false →
      Written c inp rn (.marshaler cls (.ok data) under) (.frz cls (.ref (.arr [.bin data])))
  | marshalerOff {rn cls res under t} : c.disableFreeze = true → Written c inp rn under t →
      Written c inp rn (.marshaler cls res under) t
  -- named types
  | nbool {rn b} : Written c inp rn (.nbool b) (.bool b)
  | nint {rn k i} : k = .int ∨ 0 ≤ i → Written c inp rn (.nint k i) (.int i.toInt)
  /-- Named int8, int16, int32 and int64 types: negative numbers are written modulo 2^64. -/
  | nintWrap {rn k i} : k ≠ .int → i < 0 → Written c inp rn (.nint k i) (.int (2 ^ 64 + i.toInt))
  | nf32 {rn u} : Written c inp rn (.nf32 u) (.f32 u)
  | nf64 {rn u} : Written c inp rn (.nf64 u) (.f64 u)
  | nstr {rn s} : Written c inp rn (.nstr s) (.str s)
  -- pointers
  | nilptr {rn} : Written c inp rn .nilptr (.ref .undef)
  | ptrPerl {rn a t} : isPerlStruct (inp.cellAt a) = true → Written c inp false (inp.cellAt a) t →
      Written c inp rn (.ptr false a) t
  | ptr {rn b a t} : (b = false → isPerlStruct (inp.cellAt a) = false) →
      Written c inp true (inp.cellAt a) t → Written c inp rn (.ptr b a) (.ref t)
  /-- A pointer seen before (or recognised as one): a reference to the REFN item written then. -/
  | ptrAgain {rn b a a' t} : (b = false → isPerlStruct (inp.cellAt a) = false) → IsKey c inp a a' → Written c inp true (inp.cellAt a') t →
      Written c inp rn (.ptr b a) (.refp (.ref t))
  /-- A pointer whose data was reached before through a pointer to another variable: a reference to
  the item written for that variable. -/
  | ptrShare {rn b a a' t} : (b = false → isPerlStruct (inp.cellAt a) = false) → dataAddr c inp a' ≠ 0 → IsKey c inp a (dataAddr c inp a') →
      Written c inp true (inp.cellAt a') t → Written c inp rn (.ptr b a) (.refp t)
  /-- A pointer to something still being written. -/
  | ptrOpen {rn b a} : (b = false → isPerlStruct (inp.cellAt a) = false) → Written c inp rn (.ptr b a) .openRef

/-- Strings and containers in the tree have at most `n` bytes or elements. -/
inductive Fits (n : Nat) : Tree → Prop
  | undef : Fits n .undef
  | cundef : Fits n .cundef
  | bool {b} : Fits n (.bool b)
  | int {i} : Fits n (.int i)
  | f32 {u} : Fits n (.f32 u)
  | f64 {u} : Fits n (.f64 u)
  | str {s} : s.length ≤ n → Fits n (.str s)
  | bin {s} : s.length ≤ n → Fits n (.bin s)
  | arr {ts} : ts.length ≤ n → (∀ t ∈ ts, Fits n t) → Fits n (.arr ts)
  | map {kvs} : kvs.length ≤ n → (∀ k t, (k, t) ∈ kvs → k.length ≤ n) →
      (∀ k t, (k, t) ∈ kvs → Fits n t) → Fits n (.map kvs)
  | ref {t} : Fits n t → Fits n (.ref t)
  | refp {t} : Fits n (.refp t)
  | alias {t} : Fits n (.alias t)
  | openRef : Fits n .openRef
  | weak {t} : Fits n t → Fits n (.weak t)
  | obj {cls t} : cls.length ≤ n → Fits n t → Fits n (.obj cls t)
  | regexp {p m} : p.length ≤ n → m.length ≤ n → Fits n (.regexp p m)
  | frz {cls t} : cls.length ≤ n → Fits n t → Fits n (.frz cls t)

end Sereal
