import Verif.Proof.Round
import Verif.Proof.Nest
import Verif.Props.C15
/-
C01-C04: integers, floats, strings and byte slices survive.  C05: nested data survives.
C15 for documents produced by Marshal.
-/
namespace Sereal

/-- Marshal of a value that encodes as `w` whatever the state. -/
theorem marshal_emit {cfg : ECfg} {inp : Heap} {v : Val} {w : Bytes} (cs : Codecs)
    (hc : cfg.compression = none) (hv : ∀ rec, encodeVal cfg inp rec v false false = emit w) :
    marshal cfg cs inp v = .ok (encHeader cfg [0] serealRaw ++ w) := by
  have h0 : ∀ d, encode cfg inp d v false false = emit w := by
    intro d
    match d with
    | 0 => exact hv _
    | 1 => exact hv _
    | d + 2 => exact hv _
  have h1 : ∀ pre, encodeAfter cfg inp pre v = .ok w := by
    intro pre
    unfold encodeAfter
    rw [h0]
    simp [emit]
  exact marshal_ok.2 ⟨[0], w, rfl, h1 _, .inl ⟨hc, rfl⟩⟩

theorem encHeader0_length {cfg : ECfg} (hver : cfg.version ≤ 3) : (encHeader cfg [0] serealRaw).length = 6 := by
  rw [encHeader_eq hver (by decide)]
  have := magicOf_length cfg.ver
  simp
  omega

/-- Round trip of a value that encodes as `w` and can only be written as `t`. -/
theorem leaf_trip {cfg : ECfg} {inp : Heap} {v : Val} {w : Bytes} (cs : Codecs) {t : Tree} (dcfg : DCfg)
    (hver : cfg.version ≤ 3) (hord : ∀ n ks, (cfg.ord n ks).Perm ks)
    (hc : cfg.compression = none) (hv : ∀ rec, encodeVal cfg inp rec v false false = emit w)
    (hw : w.length < 2 ^ 62) (ht : ∀ t', Written cfg inp false v t' → t' = t) (hF : Fits maxSize t)
    (hS : Supported dcfg.view t) :
    ∃ doc, marshal cfg cs inp v = .ok doc ∧
      ∃ h v', unmarshal dcfg cs doc = .ok (h, v') ∧ Shows dcfg.view h v' t := by
  have h1 := marshal_emit (inp := inp) cs hc hv
  refine ⟨_, h1, ?_⟩
  have hl := encHeader0_length hver
  obtain ⟨t', hW, _, hr⟩ := raw_roundtrip hord hver hc h1 (by rw [List.length_append]; omega)
  obtain rfl := ht t' hW
  exact hr dcfg hF hS

theorem encodeInt_length (b : Bool) (i : Int64) : (encodeInt b i).length ≤ 11 := by
  have : ∀ n : UInt64, (varint n.toNat).length ≤ 10 := fun n => varint_length_le_ten n.toNat_lt
  unfold encodeInt
  split
  · simp
  split
  · simp
  split
  · exact Nat.succ_le_succ (this _)
  split
  · exact Nat.succ_le_succ (this _)
  · exact Nat.succ_le_succ (this _)

/-- C01.  For every signed integer kind, integer, encoder version and encoder flags: Marshal succeeds,
and Unmarshal of the document, whatever the decoder's flags, succeeds with that integer as an int. -/
theorem C01 (cfg : ECfg) (cs : Codecs) (inp : Heap) (dcfg : DCfg) (k : IntK) (i : Int64)
    (hver : cfg.version ≤ 3) (hord : ∀ n ks, (cfg.ord n ks).Perm ks) (hc : cfg.compression = none) :
    ∃ doc, marshal cfg cs inp (.int k i) = .ok doc ∧
      ∃ h, unmarshal dcfg cs doc = .ok (h, .int .int i) := by
  obtain ⟨doc, h1, h, v', h2, h3⟩ := leaf_trip (v := .int k i) (inp := inp) (t := .int i.toInt) cs dcfg hver hord hc
    (fun _ => rfl) (by have := encodeInt_length true i; omega)
    (fun t' hW => by cases hW; rfl) .int .int
  refine ⟨doc, h1, h, ?_⟩
  rcases h3.int_inv with ⟨j, rfl, hj⟩ | ⟨u, rfl, hu, hj⟩
  · rw [i64_ext hj] at *; exact h2
  · have := i.toInt_lt; omega

/-- C02.  The same for unsigned integers: an int if the number is below 2^63, else a uint. -/
theorem C02 (cfg : ECfg) (cs : Codecs) (inp : Heap) (dcfg : DCfg) (k : UintK) (u : UInt64)
    (hver : cfg.version ≤ 3) (hord : ∀ n ks, (cfg.ord n ks).Perm ks) (hc : cfg.compression = none) :
    ∃ doc, marshal cfg cs inp (.uint k u) = .ok doc ∧
      ∃ h v, unmarshal dcfg cs doc = .ok (h, v) ∧
        (u.toNat < 2 ^ 63 → ∃ i : Int64, v = .int .int i ∧ i.toInt = u.toNat) ∧
        (2 ^ 63 ≤ u.toNat → v = .uint .uint u) := by
  obtain ⟨doc, h1, h, v', h2, h3⟩ := leaf_trip (v := .uint k u) (inp := inp) (t := .int u.toNat) cs dcfg hver hord hc
    (fun _ => rfl) (by have := encodeInt_length false u.toInt64; omega)
    (fun t' hW => by cases hW; rfl) .int .int
  refine ⟨doc, h1, h, v', h2, ?_⟩
  rcases h3.int_inv with ⟨j, rfl, hj⟩ | ⟨u', rfl, hu, hj⟩
  · have := j.toInt_lt
    exact ⟨fun _ => ⟨j, rfl, hj⟩, fun hb => by omega⟩
  · have : u' = u := UInt64.toNat.inj (Int.ofNat.inj hj)
    subst this
    exact ⟨fun hb => by omega, fun _ => rfl⟩

/-- C03.  Floats come back with the same type and bits. -/
theorem C03 (cfg : ECfg) (cs : Codecs) (inp : Heap) (dcfg : DCfg)
    (hver : cfg.version ≤ 3) (hord : ∀ n ks, (cfg.ord n ks).Perm ks) (hc : cfg.compression = none) :
    (∀ u : UInt32, ∃ doc, marshal cfg cs inp (.f32 u) = .ok doc ∧
      ∃ h, unmarshal dcfg cs doc = .ok (h, .f32 u)) ∧
    (∀ u : UInt64, ∃ doc, marshal cfg cs inp (.f64 u) = .ok doc ∧
      ∃ h, unmarshal dcfg cs doc = .ok (h, .f64 u)) := by
  constructor
  · intro u
    obtain ⟨doc, h1, h, v', h2, h3⟩ := leaf_trip (v := .f32 u) (inp := inp) (t := .f32 u) cs dcfg hver hord hc
      (fun _ => rfl) (by simp [encodeFloat]) (fun t' hW => by cases hW; rfl) .f32 .f32
    cases h3
    exact ⟨doc, h1, h, h2⟩
  · intro u
    obtain ⟨doc, h1, h, v', h2, h3⟩ := leaf_trip (v := .f64 u) (inp := inp) (t := .f64 u) cs dcfg hver hord hc
      (fun _ => rfl) (by simp [encodeDouble]) (fun t' hW => by cases hW; rfl) .f64 .f64
    cases h3
    exact ⟨doc, h1, h, h2⟩

theorem varint_lt63 {n : Nat} (h : n < 2 ^ 63) : (varint n).length ≤ 10 := varint_length_le_ten (by omega)

theorem strItem_le {s : Bytes} (h : s.length < 2 ^ 63) : (strItem s).length ≤ s.length + 11 := by
  have := varint_lt63 h
  simp [strItem]; omega

theorem binItem_le {s : Bytes} (h : s.length < 2 ^ 63) : (binItem s).length ≤ s.length + 11 := by
  have := varint_lt63 h
  unfold binItem; split <;> simp <;> omega

/-- Unmarshal of a raw document succeeds or returns an error. -/
theorem IsDoc.no_crash {b : Bytes} {ver : Nat} {lf suf body : Bytes} (hd : IsDoc b ver 0 lf suf body)
    (cfg : DCfg) (cs : Codecs) :
    (∃ h v, unmarshal cfg cs b = .ok (h, v)) ∨ ∃ er, unmarshal cfg cs b = .error (.err er) := by
  have hsane : SaneHeaderLength b := by
    intro v rest h1 h2
    have hb5 : b.drop 5 = lf ++ (suf ++ body) := by
      have := magicOf_length ver
      rw [hd.eq]
      simp [List.drop_append, this]
    obtain ⟨rfl, _⟩ := isVarint_prefix_unique h2 hd.varint (h1.symm.trans hb5)
    rw [hd.len]
    have := hd.size
    have h3 : b.length = (headBytes ver 0 lf suf).length + body.length := by rw [hd.eq_head]; simp
    have := headBytes_length ver 0 lf suf
    omega
  have hz : SaneZlibSize b := by
    rintro ⟨x, hx, h3⟩
    have hb4 : b[4]? = some (UInt8.ofNat (ver + 16 * 0)) := by
      have := magicOf_length ver
      rw [hd.eq]
      simp [this]
    rw [hb4] at hx
    cases hx
    have := hd.version
    rw [UInt8.toNat_ofNat'] at h3; omega
  have hnc := C13_partial cfg cs b none (some (.cell 1)) DState.init hsane (fun _ => hz)
    (fun h => by cases h) (fun _ h => by cases h)
    (fun l h => by cases h; exact ⟨by decide, rfl⟩) (fun _ _ h => by cases h)
  unfold unmarshal
  cases hr : unmarshalHeaderBody cfg cs b none (some (.cell 1)) DState.init with
  | mk q s' =>
    rw [hr] at hnc
    dsimp only at hnc
    rcases hnc with rfl | ⟨er, rfl⟩
    · exact .inl ⟨_, _, rfl⟩
    · exact .inr ⟨er, rfl⟩

/-- A document whose body starts with an oversized string is rejected. -/
theorem oversize {cfg : ECfg} {inp : Heap} {v : Val} {w s : Bytes} (cs : Codecs) (dcfg : DCfg)
    (hver : cfg.version ≤ 3) (hc : cfg.compression = none)
    (hv : ∀ rec, encodeVal cfg inp rec v false false = emit (w ++ s)) (hs : maxSize < s.length)
    (hl : s.length < 2 ^ 62) (tag : UInt8) (htag : tag.toNat < 128)
    (htc : classify tag.toNat = .strUtf8 ∨ classify tag.toNat = .binary) (hw : w = tag :: varint s.length) :
    ∃ doc, marshal cfg cs inp v = .ok doc ∧ ∃ e, unmarshal dcfg cs doc = .error (.err e) := by
  have h1 := marshal_emit cs hc hv
  refine ⟨_, h1, ?_⟩
  have hlen := encHeader0_length hver
  have hvl := varint_lt63 (n := s.length) (by omega)
  obtain ⟨lf, suf, body, pre0, pre, hd, hsuf, he, hp1, hp2, hp3⟩ := raw_body hver hc h1 (by
    subst hw; simp only [List.length_append, List.length_cons]; omega)
  have hbody : body = w ++ s := by
    have h0 : ∀ d, encode cfg inp d v false false = emit (w ++ s) := by
      intro d
      match d with
      | 0 => exact hv _
      | 1 => exact hv _
      | d + 2 => exact hv _
    unfold encodeAfter at he
    rw [h0] at he
    simp [emit] at he
    exact he.symm
  rcases hd.no_crash dcfg cs with ⟨h, v', hu⟩ | he'
  · exfalso
    have hb := bodyInput_raw (cs := cs) hd
    rw [hp2] at hb
    obtain ⟨t, j, ⟨T, g⟩, _⟩ := unmarshal_sound hb hu
    subst hbody hw
    have hne : classify tag.toNat ≠ .pad := by rcases htc with h | h <;> rw [h] <;> decide
    have hp : tag.toNat % 128 ≠ 0x3f := by
      rw [Nat.mod_eq_of_lt htag]
      intro h; rw [h] at hne; exact hne (by decide)
    have htag' : TagAt (pre ++ (tag :: varint s.length ++ s)) pre.length pre.length tag :=
      TagAt.here (getElem?_pre _ _ _) hp
    have hvint : Vint goDialect (pre ++ (tag :: varint s.length ++ s)) (pre.length + 1) s.length
        (pre.length + 1 + (varint s.length).length) := by
      have h1 := Vint.pre (d := goDialect) (n := s.length) (pre ++ [tag]) s (isVarint_varint _) hvl (by
        simp only [goDialect, groups_varint, Nat.mod_eq_of_lt (show s.length < 2 ^ 64 by omega)])
      simpa using h1
    cases g with
    | tracked ht hb g =>
      obtain ⟨rfl, rfl⟩ := htag'.unique ht
      omega
    | plain ht hb g =>
      obtain ⟨rfl, rfl⟩ := htag'.unique ht
      rcases htc with hh | hh
      · rw [hh] at g
        cases g with
        | strUtf8 hv' hn => obtain ⟨rfl, rfl⟩ := hvint.unique hv'; omega
      · rw [hh] at g
        cases g with
        | binary hv' hn => obtain ⟨rfl, rfl⟩ := hvint.unique hv'; omega
  · exact he'

/-- C04.  Strings and byte slices of up to 2^31-1 bytes come back as they were; longer ones (up to 2^62
bytes, beyond any memory) are accepted by Marshal but Unmarshal returns an error. -/
theorem C04 (cfg : ECfg) (cs : Codecs) (inp : Heap) (dcfg : DCfg) (s : Bytes)
    (hver : cfg.version ≤ 3) (hord : ∀ n ks, (cfg.ord n ks).Perm ks) (hc : cfg.compression = none) :
    (s.length ≤ 2 ^ 31 - 1 →
      (∃ doc, marshal cfg cs inp (.str s) = .ok doc ∧ ∃ h, unmarshal dcfg cs doc = .ok (h, .str s)) ∧
      (∃ doc, marshal cfg cs inp (.bin s) = .ok doc ∧ ∃ h, unmarshal dcfg cs doc = .ok (h, .bin s))) ∧
    (2 ^ 31 - 1 < s.length → s.length < 2 ^ 62 →
      (∃ doc, marshal cfg cs inp (.str s) = .ok doc ∧ ∃ e, unmarshal dcfg cs doc = .error (.err e)) ∧
      (∃ doc, marshal cfg cs inp (.bin s) = .ok doc ∧ ∃ e, unmarshal dcfg cs doc = .error (.err e))) := by
  constructor
  · intro hs
    constructor
    · obtain ⟨doc, h1, h, v', h2, h3⟩ := leaf_trip (v := .str s) (inp := inp) (t := .str s) cs dcfg hver hord hc
        (fun _ => encodeString_false s) (by have := strItem_le (s := s) (by omega); omega)
        (fun t' hW => by cases hW; rfl) (.str (by unfold maxSize; omega)) .str
      cases h3
      exact ⟨doc, h1, h, h2⟩
    · obtain ⟨doc, h1, h, v', h2, h3⟩ := leaf_trip (v := .bin s) (inp := inp) (t := .bin s) cs dcfg hver hord hc
        (fun _ => encodeBytes_false s) (by have := binItem_le (s := s) (by omega); omega)
        (fun t' hW => by cases hW; rfl) (.bin (by unfold maxSize; omega)) .bin
      cases h3
      exact ⟨doc, h1, h, h2⟩
  · intro hs hl
    constructor
    · exact oversize (v := .str s) (s := s) cs dcfg hver hc (fun _ => encodeString_false s)
        (by unfold maxSize; omega) hl typeSTR_UTF8 (by decide) (.inl (by decide)) rfl
    · refine oversize (v := .bin s) (s := s) cs dcfg hver hc (fun _ => ?_)
        (by unfold maxSize; omega) hl typeBINARY (by decide) (.inr (by decide)) rfl
      have : encodeBytes cfg s false = emit (binItem s) := encodeBytes_false s
      unfold binItem at this
      rw [if_neg (by omega)] at this
      exact this

/-- C05.  Any finite nest of plain data, of any depth and size, in which no string, slice or map exceeds
the decoder's limit of 2^31-1: if Marshal succeeds (see C26 for when it does) then Unmarshal of the
document into an empty interface{} succeeds and yields the same data.  Any encoder version and flags; a
decoder without PerlCompat (C32 covers PerlCompat). -/
theorem C05 (cfg : ECfg) (cs : Codecs) (inp : Heap) (v : Val) (doc : Bytes) (dcfg : DCfg)
    (hp : Plain (2 ^ 31 - 1) inp v) (hver : cfg.version ≤ 3) (hord : ∀ n ks, (cfg.ord n ks).Perm ks)
    (hc : cfg.compression = none) (hd : dcfg.perlCompat = false)
    (h : marshal cfg cs inp v = .ok doc) (hsz : doc.length < 2 ^ 63) :
    ∃ h' v', unmarshal dcfg cs doc = .ok (h', v') ∧ Same inp h' v v' :=
  Plain.roundtrip hp hord hver hc h hsz dcfg hd

/-- C15 for produced documents: every strict prefix of an uncompressed document produced by Marshal or
MarshalWithHeader from any value at all is rejected with an error. -/
theorem C15_marshal (cfg : ECfg) (cs : Codecs) (inp : Heap) (header : Option Val) (v : Val) (doc : Bytes)
    (dcfg : DCfg) (hver : cfg.version ≤ 3) (hord : ∀ n ks, (cfg.ord n ks).Perm ks)
    (hc : cfg.compression = none) (h : marshalWithHeader cfg cs inp header v = .ok doc)
    (hsz : doc.length ≤ 2 ^ 31 - 1) (p e : Bytes) (hp : doc = p ++ e) (he : e ≠ []) :
    ∃ er, unmarshal dcfg cs p = .error (.err er) := by
  obtain ⟨lf, suf, body, t, h1, _, _, h4, h5⟩ := raw_denotes hord hver hc h (by omega)
  obtain ⟨T, g⟩ := h5 (h4.mono hsz)
  exact C15 dcfg cs doc _ lf suf body t h1 ⟨T, g.wrt_core.core_go⟩ p e hp he

/-! ### Examples -/

/-- Codecs for examples without compression. -/
def noCodecs : Codecs where
  snappyEnc _ := .ok []
  snappyDec _ := .error 0
  zlibEnc _ _ := .ok []
  zlibOpen _ := .error 0
  zlibInflate _ := .error 0
  zstdEnc _ _ := .ok []
  zstdDec _ := .error 0

/-- {"a": [nil, 3, "a"], "b": int64(-300)} in a heap. -/
def sampleHeap : Heap where
  mem a := if a = 1 then .mp [([97], .slice 2 3), ([98], .int .int64 (-300))]
    else if a = 3 then .cell (.uint .uint8 3) else if a = 4 then .cell (.str [97]) else .cell .nil
  next := 5

theorem sample_plain : Plain (2 ^ 31 - 1) sampleHeap (.smap 1) := by
  refine .smap (by decide) (by decide) ?_ ?_
  · intro k v hv
    have := mapLookup_mem hv
    simp [Heap.mapAt, sampleHeap] at this
    rcases this with ⟨rfl, rfl⟩ | ⟨rfl, rfl⟩ <;> decide
  · intro k v hv
    have := mapLookup_mem hv
    simp [Heap.mapAt, sampleHeap] at this
    rcases this with ⟨rfl, rfl⟩ | ⟨rfl, rfl⟩
    · refine .slice (by decide) (fun i hi => ?_)
      have : i = 0 ∨ i = 1 ∨ i = 2 := by omega
      rcases this with rfl | rfl | rfl
      · exact .nil
      · exact .uint
      · exact .str (by decide)
    · exact .int

/-- Non-vacuity of C05: this data is marshalled, in either key order. -/
example : marshal { version := 2 } noCodecs sampleHeap (.smap 1) =
    .ok [0x3d, 0x73, 0x72, 0x6c, 2, 0, 0x2a, 2, 0x27, 1, 97, 0x2b, 3, 0x25, 3, 0x27, 1, 97,
      0x27, 1, 98, 0x21, 0xd7, 4] := by decide +kernel

example : (marshal { perlCompat := true, ord := fun _ ks => ks.reverse } noCodecs sampleHeap (.smap 1)).isOk = true := by
  decide +kernel

end Sereal
