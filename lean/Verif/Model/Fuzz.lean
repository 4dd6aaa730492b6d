import Verif.Model.Decode
import Verif.Model.Encode
/-
The fuzz target of the package (fuzz.go:10-61).
-/
namespace Sereal

/-- Is the bit pattern a NaN? -/
def isNaN32 (u : UInt32) : Bool := decide (u.toNat % 2 ^ 31 > 0x7f800000)
def isNaN64 (u : UInt64) : Bool := decide (u.toNat % 2 ^ 63 > 0x7ff0000000000000)

/-- Comparison of floats with `==`: a NaN is different from everything, the two zeros are equal. -/
def floatEq32 (u w : UInt32) : Prop :=
  isNaN32 u = false ∧ isNaN32 w = false ∧ (u = w ∨ u.toNat % 2 ^ 31 = 0 ∧ w.toNat % 2 ^ 31 = 0)
def floatEq64 (u w : UInt64) : Prop :=
  isNaN64 u = false ∧ isNaN64 w = false ∧ (u = w ∨ u.toNat % 2 ^ 63 = 0 ∧ w.toNat % 2 ^ 63 = 0)

/-- `cmp.Equal(v, v2)` (go-cmp, fuzz.go:55), for finite data of the types that decoders without PerlCompat make: types and
values are equal, following pointers; floats are compared with `==`. -/
inductive CmpEqual (h h' : Heap) : Val → Val → Prop
  | nil : CmpEqual h h' .nil .nil
  | bool {b} : CmpEqual h h' (.bool b) (.bool b)
  | int {k i} : CmpEqual h h' (.int k i) (.int k i)
  | uint {k u} : CmpEqual h h' (.uint k u) (.uint k u)
  | f32 {u w} : floatEq32 u w → CmpEqual h h' (.f32 u) (.f32 w)
  | f64 {u w} : floatEq64 u w → CmpEqual h h' (.f64 u) (.f64 w)
  | str {s} : CmpEqual h h' (.str s) (.str s)
  | bin {s} : CmpEqual h h' (.bin s) (.bin s)
  | slice {p p' n} : (∀ i, i < n → CmpEqual h h' (h.cellAt (p + i)) (h'.cellAt (p' + i))) →
      CmpEqual h h' (.slice p n) (.slice p' n)
  | smap {m m'} : (∀ k, (mapLookup k (h.mapAt m)).isSome = (mapLookup k (h'.mapAt m')).isSome) →
      (∀ k v v', mapLookup k (h.mapAt m) = some v → mapLookup k (h'.mapAt m') = some v' → CmpEqual h h' v v') →
      CmpEqual h h' (.smap m) (.smap m')
  | ptr {b a a'} : CmpEqual h h' (h.cellAt a) (h'.cellAt a') → CmpEqual h h' (.ptr b a) (.ptr b a')
  | regexp {p m} : CmpEqual h h' (.regexp p m) (.regexp p m)
  | frozen {cls d} : CmpEqual h h' (.frozen cls d) (.frozen cls d)

/-- How a call of Fuzz ends. -/
inductive FuzzEnd
  | ret (n : Nat)            -- it returns
  | panics (msg : String)    -- it panics, as it does to report a bug
  | crash (msg : String)     -- Unmarshal or Marshal panics with a runtime error

/-- The part of `Fuzz` behind the checks (fuzz.go:38-60).  `ecfg` stands for the default Encoder (encode.go:65) with the unknowns
of this run: order of maps, addresses; the Decoder is `&Decoder{}` (decode.go:100). -/
noncomputable def fuzzBody (ecfg : ECfg) (cs : Codecs) (data : Bytes) : FuzzEnd :=
  match unmarshal {} cs data with
  | .error (.crash m) => .crash m
  | .error _ => .ret 0
  | .ok (h, v) =>
    match marshal ecfg cs h v with
    | .error (.crash m) => .crash m
    | .error _ => .panics "unable to marshal"
    | .ok enc =>
      match unmarshal {} cs enc with
      | .error (.crash m) => .crash m
      | .error _ => .panics "unmarshalling marshalled data"
      | .ok (h', v') =>
        open Classical in
        if CmpEqual h h' v v' then .ret 1 else .panics "failed to roundtrip"

/-- `Fuzz` (fuzz.go:10-61). -/
noncomputable def fuzz (ecfg : ECfg) (cs : Codecs) (data : Bytes) : FuzzEnd :=
  match readHeader data with
  | .error _ => .ret 0
  | .ok header =>
    let bodyStart := wrapInt (headerSize + header.suffixSize)
    if bodyStart > data.length ∨ bodyStart < 0 then .ret 0
    else if ¬ (header.version = 1 ∨ header.version = 2 ∨ header.version = 3) then .ret 0
    else if header.doctype = serealSnappy ∨ header.doctype = serealSnappyIncremental ∨ header.doctype = serealZlib then .ret 0
    else fuzzBody ecfg cs data

end Sereal
