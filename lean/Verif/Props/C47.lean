import Verif.Props.C42
import Verif.Props.C06
/-
C47, C48: Marshal, then Unmarshal into a new variable of the same type.
-/
namespace Sereal

/-- From a document that holds what Marshal should write for `v`. -/
theorem typed_trip {cfg : ECfg} {dcfg : DCfg} {tc : TCfg} {cs : Codecs} {inp : Heap} {v : Val} {ty : Ty} {w0 : TVal}
    {b buf : Bytes} {i j : Nat} {t : Tree} (hpc : dcfg.perlCompat = false) (hset : Settable tc) (hfl : Faithful tc)
    (H : Holds tc (!cfg.disableFreeze) inp (fun v _ => ∃ n, Plain n inp v) ty v w0)
    (hb : bodyInput cs b = .ok (buf, i)) (hlen : buf.length < 2 ^ 63) (hw : Written cfg inp false v t)
    (hd : Denotes goDialect buf i t j) (hr : NoRefs t) :
    ∃ h' w, unmarshalTyped dcfg tc cs b ty .zero = .ok (h', w) ∧
      Holds tc (!cfg.disableFreeze) inp (Same inp h') ty v w := by
  obtain ⟨h1, h2⟩ := H.round (c := dcfg.view) hpc hset hfl false t hw hr
  obtain ⟨h', w, h3, h4⟩ := unmarshalTyped_complete (cfg := dcfg) (tc := tc) hb hlen hd hr h1
  exact ⟨h', w, h3, h2 _ _ h4⟩

/-- C47.  For every type built from booleans, integers, floats, strings, byte slices, slices, arrays, maps,
structs, types with MarshalBinary and UnmarshalBinary, and interfaces that hold plain data, and every value `v`
of such a type: what Marshal makes of it, Unmarshal accepts for a new variable of the type, and leaves the same
data in it. -/
theorem C47 (cfg : ECfg) (dcfg : DCfg) (tc : TCfg) (cs : Codecs) (inp : Heap) (header : Option Val) (v : Val)
    (ty : Ty) (w0 : TVal) (doc : Bytes) (hver : cfg.version ≤ 3) (hord : ∀ n ks, (cfg.ord n ks).Perm ks)
    (hc : cfg.compression = none) (hpc : dcfg.perlCompat = false) (hset : Settable tc) (hfl : Faithful tc)
    (hty : NoPtr ty) (htys : ∀ id, ∀ f ∈ (tc.types id).fields, NoPtr f.ty)
    (H : Holds tc (!cfg.disableFreeze) inp (fun v _ => ∃ n, Plain n inp v) ty v w0)
    (h : marshalWithHeader cfg cs inp header v = .ok doc) (hsz : doc.length ≤ 2 ^ 31 - 1) :
    ∃ h' w, unmarshalTyped dcfg tc cs doc ty .zero = .ok (h', w) ∧
      Holds tc (!cfg.disableFreeze) inp (Same inp h') ty v w := by
  obtain ⟨lf, suf, body, t, h1, _, h3, h4, h5⟩ := raw_denotes hord hver hc h (by omega)
  obtain ⟨T, g⟩ := h5 (h4.mono hsz)
  exact typed_trip hpc hset hfl H (bodyInput_raw h1) h1.buf_lt h3 ⟨T, g.wrt_core.core_go⟩ (H.noRefs htys hty _ _ h3)

/-- C47 for compressed documents of version 2 and 3. -/
theorem C47_compressed (cfg : ECfg) (dcfg : DCfg) (tc : TCfg) (cs : Codecs) (inp : Heap) (header : Option Val) (v : Val)
    (ty : Ty) (w0 : TVal) (doc raw : Bytes) (hl : Lossless cs) (hver : cfg.version ≤ 3) (hv1 : cfg.version ≠ 1)
    (hord : ∀ n ks, (cfg.ord n ks).Perm ks)
    (hpc : dcfg.perlCompat = false) (hset : Settable tc) (hfl : Faithful tc)
    (hty : NoPtr ty) (htys : ∀ id, ∀ f ∈ (tc.types id).fields, NoPtr f.ty)
    (H : Holds tc (!cfg.disableFreeze) inp (fun v _ => ∃ n, Plain n inp v) ty v w0)
    (h : marshalWithHeader cfg cs inp header v = .ok doc)
    (hr : marshalWithHeader cfg.uncompressed cs inp header v = .ok raw)
    (hsz : doc.length ≤ 2 ^ 31 - 1) (hrs : raw.length ≤ 2 ^ 31 - 1) :
    ∃ h' w, unmarshalTyped dcfg tc cs doc ty .zero = .ok (h', w) ∧
      Holds tc (!cfg.disableFreeze) inp (Same inp h') ty v w := by
  have hv1' : cfg.ver ≠ 1 := by unfold ECfg.ver; split <;> omega
  obtain ⟨dt, w, body, z, h1, h2, h3⟩ := comp_body hl hver (fun hh => hv1' hh.1) h hr hsz (by omega)
  obtain ⟨h', w', h4, h5⟩ := C47 cfg.uncompressed dcfg tc cs inp header v ty w0 raw hver hord rfl hpc hset hfl hty htys
    H hr hrs
  have e : bodyInput cs doc = bodyInput cs raw := by
    rw [h3, bodyInput_raw h2, itemBuf_doctype hv1' dt 0]
  refine ⟨h', w', ?_, h5⟩
  rw [← h4]
  unfold unmarshalTyped
  rw [unmarshalTypedRaw_body, unmarshalTypedRaw_body, e]

/-! #### Example -/

/-- type T struct { A int8; B []string `sereal:"b"`; c int; D [2]bool; E interface{} } -/
def exampleTypes : TCfg :=
  { noFloats with
    types := fun _ =>
      ⟨[⟨[65], [], true, .int .int8⟩, ⟨[66], [98], true, .slice .str⟩, ⟨[99], [], false, .int .int⟩,
        ⟨[68], [], true, .arr 2 .bool⟩, ⟨[69], [], true, .iface⟩], none⟩ }

/-- T{A: -5, B: {"x", ""}, c: 1, D: {true, false}, E: uint8(7)} at address 1. -/
def exampleHeap : Heap where
  mem a := if a = 1 then .flds [⟨[65], [], true, .int .int8 (-5)⟩, ⟨[66], [98], true, .rslice 2 2⟩,
      ⟨[99], [], false, .int .int 1⟩, ⟨[68], [], true, .rslice 4 2⟩, ⟨[69], [], true, .uint .uint8 7⟩]
    else if a = 2 then .cell (.str [120]) else if a = 3 then .cell (.str []) else if a = 4 then .cell (.bool true)
    else if a = 5 then .cell (.bool false) else .cell .nil
  next := 6

theorem noFloats_faithful {u : UInt32} : noFloats.narrow (noFloats.widen u) = u := by
  simp [noFloats]

/-- The example meets the hypotheses of C47. -/
theorem example_holds : Holds exampleTypes true exampleHeap (fun v _ => ∃ n, Plain n exampleHeap v) (.strct 0)
    (.strct [84] 1) (.multi [.int (-5), .slice [.str [120], .str []], .zero, .multi [.bool true, .bool false],
      .iface (.int .int 7)]) := by
  refine .strct rfl rfl ?_ ?_
  · intro i f g hf hg
    match i with
    | 0 => cases hf; cases hg; exact ⟨rfl, rfl, rfl⟩
    | 1 => cases hf; cases hg; exact ⟨rfl, rfl, rfl⟩
    | 2 => cases hf; cases hg; exact ⟨rfl, rfl, rfl⟩
    | 3 => cases hf; cases hg; exact ⟨rfl, rfl, rfl⟩
    | 4 => cases hf; cases hg; exact ⟨rfl, rfl, rfl⟩
    | i + 5 => cases hf
  · intro i f g w k hf hg hw hk
    match i with
    | 0 => cases hf; cases hg; cases hw; exact .int (by decide) (by decide)
    | 1 =>
      cases hf; cases hg; cases hw
      refine .slice (.inr rfl) (fun i w hw => ?_)
      match i with
      | 0 => cases hw; exact .str
      | 1 => cases hw; exact .str
      | i + 2 => cases hw
    | 2 =>
      obtain ⟨⟨f', h1, h2⟩, _⟩ := hk
      cases h1; cases h2
    | 3 =>
      cases hf; cases hg; cases hw
      refine .arr (ws := [.bool true, .bool false]) (fun i w hw => ?_)
      match i with
      | 0 => cases hw; exact .bool
      | 1 => cases hw; exact .bool
      | i + 2 => cases hw
    | 4 => cases hf; cases hg; cases hw; exact .iface (by simp) ⟨0, .uint⟩
    | i + 5 => cases hf

example : Settable exampleTypes ∧ Faithful exampleTypes ∧ NoPtr (.strct 0) ∧
    ∀ id, ∀ f ∈ (exampleTypes.types id).fields, NoPtr f.ty := by
  refine ⟨?_, fun u _ => noFloats_faithful, trivial, ?_⟩
  · intro id f hf
    simp [exampleTypes] at hf
    rcases hf with rfl | rfl | rfl | rfl | rfl <;> simp [TField.key]
  · intro id f hf
    simp [exampleTypes] at hf
    rcases hf with rfl | rfl | rfl | rfl | rfl <;> trivial

/-- The document for the example. -/
def exampleDoc : Bytes := (marshal {} noCodecs exampleHeap (.strct [84] 1)).toOption.getD []

example : marshal {} noCodecs exampleHeap (.strct [84] 1) = .ok exampleDoc := by decide +kernel

/-! ### C48 -/

/-- C48 for documents without REFP and ALIAS: pointers to structs and maps, and to types with UnmarshalBinary,
are allowed.  Missing for the full claim: values in which a pointer occurs twice (the second occurrence is
written as REFP, see C30), and pointers to other types, for which the claim is false. -/
theorem C48_partial (cfg : ECfg) (dcfg : DCfg) (tc : TCfg) (cs : Codecs) (inp : Heap) (header : Option Val) (v : Val)
    (ty : Ty) (w0 : TVal) (doc : Bytes) (hver : cfg.version ≤ 3) (hord : ∀ n ks, (cfg.ord n ks).Perm ks)
    (hc : cfg.compression = none) (hpc : dcfg.perlCompat = false) (hset : Settable tc) (hfl : Faithful tc)
    (H : Holds tc (!cfg.disableFreeze) inp (fun v _ => ∃ n, Plain n inp v) ty v w0)
    (h : marshalWithHeader cfg cs inp header v = .ok doc) (hsz : doc.length ≤ 2 ^ 31 - 1)
    (hr : ∀ ver lf suf body t j, IsDoc doc ver 0 lf suf body →
      Denotes goDialect (itemBuf ver (headBytes ver 0 lf suf) body).1 (itemBuf ver (headBytes ver 0 lf suf) body).2 t j →
      NoRefs t) :
    ∃ h' w, unmarshalTyped dcfg tc cs doc ty .zero = .ok (h', w) ∧
      Holds tc (!cfg.disableFreeze) inp (Same inp h') ty v w := by
  obtain ⟨lf, suf, body, t, h1, _, h3, h4, h5⟩ := raw_denotes hord hver hc h (by omega)
  obtain ⟨T, g⟩ := h5 (h4.mono hsz)
  have hd : Denotes goDialect _ _ t _ := ⟨T, g.wrt_core.core_go⟩
  exact typed_trip hpc hset hfl H (bodyInput_raw h1) h1.buf_lt h3 hd (hr _ _ _ _ _ _ h1 hd)

/-- C48 for values in which every pointer is met once: pointers to structs and maps, and to types with
UnmarshalBinary, are allowed. -/
theorem C48_once_partial (cfg : ECfg) (dcfg : DCfg) (tc : TCfg) (cs : Codecs) (inp : Heap) (header : Option Val) (v : Val)
    (ty : Ty) (w0 : TVal) (doc : Bytes) (hver : cfg.version ≤ 3) (hord : ∀ n ks, (cfg.ord n ks).Perm ks)
    (hc : cfg.compression = none) (hpc : dcfg.perlCompat = false) (hset : Settable tc) (hfl : Faithful tc)
    (H : Holds tc (!cfg.disableFreeze) inp (fun v _ => ∃ n, Plain n inp v) ty v w0) (hu : Unshared cfg inp v)
    (h : marshalWithHeader cfg cs inp header v = .ok doc) (hsz : doc.length ≤ 2 ^ 31 - 1) :
    ∃ h' w, unmarshalTyped dcfg tc cs doc ty .zero = .ok (h', w) ∧
      Holds tc (!cfg.disableFreeze) inp (Same inp h') ty v w := by
  obtain ⟨lf, suf, body, t, h1, _, h3, h4, h5⟩ := raw_denotes_alone hord hu hver hc h (by omega)
  obtain ⟨T, g⟩ := h5 (h4.mono hsz)
  have hd : Denotes goDialect _ _ t _ := ⟨T, g.wrt_core.core_go⟩
  exact typed_trip hpc hset hfl H (bodyInput_raw h1) h1.buf_lt h3.1 hd h3.2

/-- A variable at address 1 holding 5. -/
def intHeap : Heap where
  mem a := if a = 1 then .cell (.int .int 5) else .cell .nil
  next := 2

/-- The document for a pointer to it. -/
def intPtrDoc : Bytes := (marshal {} noCodecs intHeap (.ptr false 1)).toOption.getD []

/-- C48 is false for a pointer to an int: Marshal writes it, and Unmarshal into a variable of type *int fails
(decodeViaReflection has no case that makes a pointer for an integer). -/
theorem C48_fails_int : marshal {} noCodecs intHeap (.ptr false 1) = .ok intPtrDoc ∧
    numberIn (unmarshalTyped {} noFloats noCodecs intPtrDoc (.int .int) .zero) = some 5 ∧
    (unmarshalTyped {} noFloats noCodecs intPtrDoc (.ptr (.int .int)) .zero).isOk = false ∧
    (unmarshalTyped {} noFloats noCodecs intPtrDoc (.ptr (.int .int)) (.ptr (.int 1))).isOk = false := by
  decide +kernel

/-- A pointer, at address 1, to a slice of one interface that holds 5. -/
def sliceHeap : Heap where
  mem a := if a = 1 then .cell (.slice 2 1) else if a = 2 then .cell (.int .int 5) else .cell .nil
  next := 3

/-- The document for the pointer. -/
def slicePtrDoc : Bytes := (marshal {} noCodecs sliceHeap (.ptr false 1)).toOption.getD []

/-- Nor is it true for a pointer to a slice: Unmarshal into a variable of type []int succeeds, of type *[]int it fails
(decode.go:898-909 has no case for pointers). -/
theorem C48_fails_slice : marshal {} noCodecs sliceHeap (.ptr false 1) = .ok slicePtrDoc ∧
    (unmarshalTyped {} noFloats noCodecs slicePtrDoc (.slice (.int .int)) .zero).isOk = true ∧
    (unmarshalTyped {} noFloats noCodecs slicePtrDoc (.ptr (.slice (.int .int))) .zero).isOk = false := by
  decide +kernel

/-- STR_UTF8, which Marshal writes for strings, can be decoded into a variable of type string but not of type []byte
(decode.go:783-793); BINARY can. -/
theorem strUtf8_not_bytes :
    (unmarshalTyped {} noFloats noCodecs [0x3d, 0xf3, 0x72, 0x6c, 3, 0, 0x27, 1, 65] .str .zero).isOk = true ∧
    (unmarshalTyped {} noFloats noCodecs [0x3d, 0xf3, 0x72, 0x6c, 3, 0, 0x27, 1, 65] (.slice (.uint .uint8)) .zero).isOk = false ∧
    (unmarshalTyped {} noFloats noCodecs [0x3d, 0xf3, 0x72, 0x6c, 3, 0, 0x26, 1, 65] (.slice (.uint .uint8)) .zero).isOk = true := by
  decide +kernel

end Sereal
