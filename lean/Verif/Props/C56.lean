import Verif.Proof.TwinEncode
import Verif.Props.C06
/-
C56, and C06 and C09 for all values: settings of the encoder that do not show in the decoded data.
-/
namespace Sereal

/-- What the decoder is given to decode, for a document of the encoder, compressed or not. -/
theorem doc_body {cfg : ECfg} {cs : Codecs} {inp : Heap} {header : Option Val} {v : Val} {doc raw : Bytes}
    (hver : cfg.version ≤ 3)
    (hl : cfg.compression = none ∨ (Lossless cs ∧ ¬ (cfg.version = 1 ∧ cfg.compression = some (.snappy true))))
    (h : marshalWithHeader cfg cs inp header v = .ok doc)
    (hr : marshalWithHeader cfg.uncompressed cs inp header v = .ok raw)
    (hsz : doc.length ≤ 2 ^ 31 - 1) (hrs : raw.length ≤ 2 ^ 31 - 1) :
    ∃ body pre0 pre, encodeAfter cfg inp pre0 v = .ok body ∧ pre.length = pre0.length ∧
      bodyInput cs doc = .ok (pre ++ body, pre.length) ∧ (pre ++ body).length ≤ maxSize := by
  obtain ⟨lf, suf, body, pre0, pre, d1, _, d3, d4, d5, d6⟩ := raw_body (cfg := cfg.uncompressed) hver rfl hr (by omega)
  have hb := bodyInput_raw (cs := cs) d1
  rw [d5] at hb
  rw [encodeAfter_uncompressed] at d3
  rcases hl with hc | ⟨hl, hcombo⟩
  · have he : cfg.uncompressed = cfg := by cases cfg; cases hc; rfl
    rw [he] at hr
    rw [h] at hr
    cases hr
    exact ⟨body, pre0, pre, d3, d4.symm, hb, by unfold maxSize; omega⟩
  · have hcombo' : ¬ (cfg.ver = 1 ∧ cfg.compression = some (.snappy true)) := by
      rintro ⟨h1, h2⟩
      refine hcombo ⟨?_, h2⟩
      unfold ECfg.ver at h1
      split at h1
      · omega
      · exact h1
    obtain ⟨dt, w, body2, z, h1, h2, h3⟩ := comp_body hl hver hcombo' h hr hsz (by omega)
    obtain rfl := h2.body_unique d1
    have hb2 := bodyInput_raw (cs := cs) h2
    rw [hb] at hb2
    by_cases hv : cfg.ver = 1
    · have hs : ∀ d, itemBuf cfg.ver (headBytes cfg.ver d (varint w.length) w) body2 =
          (headBytes cfg.ver d (varint w.length) w ++ body2, (headBytes cfg.ver d (varint w.length) w).length) := by
        intro d; unfold itemBuf; rw [if_pos hv]
      rw [hs] at h3
      have hp : pre.length = (headBytes cfg.ver 0 (varint w.length) w).length := by
        have hb3 := hb2
        rw [hs] at hb3
        injection hb3 with hb3
        exact congrArg Prod.snd hb3
      have hp' : (headBytes cfg.ver dt (varint w.length) w).length = pre.length := by
        rw [hp, headBytes_length, headBytes_length]
      refine ⟨body2, pre0, _, d3, hp'.trans d4.symm, h3, ?_⟩
      rw [List.length_append] at d6 ⊢
      unfold maxSize
      omega
    · rw [itemBuf_doctype hv dt 0] at h3
      have : bodyInput cs doc = .ok (pre ++ body2, pre.length) := by rw [h3, hb2]
      exact ⟨body2, pre0, pre, d3, d4.symm, this, by unfold maxSize; omega⟩

/-- C56.  Two encoders that differ in protocol version, compression, threshold and deduplication, and
documents with different user headers: if both marshal the same value, ranging over maps in the same order,
then every decoder does the same with both documents, success or error, down to the decoded heap.
For every value, with pointers, shared or cyclic.  `raw1` and `raw2` are the documents before compression;
the sizes are the limits of the decoder.  C21_fails is about the excluded combination of version 1 with
SnappyCompressor{Incremental: true}. -/
theorem C56 (c1 c2 : ECfg) (cs : Codecs) (inp : Heap) (header1 header2 : Option Val) (v : Val)
    (doc1 doc2 raw1 raw2 : Bytes) (dcfg : DCfg) (ha : ECfg.Akin c1 c2)
    (hver1 : c1.version ≤ 3) (hver2 : c2.version ≤ 3) (hord : ∀ n ks, (c1.ord n ks).Perm ks)
    (hl1 : c1.compression = none ∨ (Lossless cs ∧ ¬ (c1.version = 1 ∧ c1.compression = some (.snappy true))))
    (hl2 : c2.compression = none ∨ (Lossless cs ∧ ¬ (c2.version = 1 ∧ c2.compression = some (.snappy true))))
    (h1 : marshalWithHeader c1 cs inp header1 v = .ok doc1)
    (h2 : marshalWithHeader c2 cs inp header2 v = .ok doc2)
    (hr1 : marshalWithHeader c1.uncompressed cs inp header1 v = .ok raw1)
    (hr2 : marshalWithHeader c2.uncompressed cs inp header2 v = .ok raw2)
    (hs1 : doc1.length ≤ 2 ^ 31 - 1) (hs2 : doc2.length ≤ 2 ^ 31 - 1)
    (hrs1 : raw1.length ≤ 2 ^ 31 - 1) (hrs2 : raw2.length ≤ 2 ^ 31 - 1) :
    unmarshal dcfg cs doc1 = unmarshal dcfg cs doc2 := by
  obtain ⟨w1, p1, q1, e1, l1, b1, z1⟩ := doc_body hver1 hl1 h1 hr1 hs1 hrs1
  obtain ⟨w2, p2, q2, e2, l2, b2, z2⟩ := doc_body hver2 hl2 h2 hr2 hs2 hrs2
  have ht := twin_encodeAfter ha hord (inp := inp) p1 p2 v
  rw [e1, e2] at ht
  obtain ⟨j1, j2, P, ht⟩ := ht q1 q2 l1 l2 z1 z2
  exact twin_unmarshal b1 b2 z1 z2 ht

/-- What an encoder without compression does, success and errors. -/
theorem marshal_alike {c1 c2 : ECfg} {cs : Codecs} {inp : Heap} {header : Option Val} {v : Val}
    (ha : ECfg.Akin c1 c2) (hv : c1.version = c2.version) (hord : ∀ n ks, (c1.ord n ks).Perm ks)
    (hc1 : c1.compression = none) (hc2 : c2.compression = none) :
    (∃ d1 d2, marshalWithHeader c1 cs inp header v = .ok d1 ∧ marshalWithHeader c2 cs inp header v = .ok d2) ∨
      ∃ e, marshalWithHeader c1 cs inp header v = .error e ∧ marshalWithHeader c2 cs inp header v = .error e := by
  have hver : c1.ver = c2.ver := by unfold ECfg.ver; rw [hv]
  have raw : (∃ d1 d2, marshalRaw c1 cs inp header v = .ok d1 ∧ marshalRaw c2 cs inp header v = .ok d2) ∨
      ∃ e, marshalRaw c1 cs inp header v = .error e ∧ marshalRaw c2 cs inp header v = .error e := by
    have hsuf : (∃ s1 s2, headerSuffix c1 inp header = .ok s1 ∧ headerSuffix c2 inp header = .ok s2) ∨
        ∃ e, headerSuffix c1 inp header = .error e ∧ headerSuffix c2 inp header = .error e := by
      unfold headerSuffix
      rw [hver]
      cases header with
      | none => exact .inl ⟨_, _, rfl, rfl⟩
      | some hv =>
        dsimp only
        split
        · have ht := twin_encodeAfter ha hord (inp := inp) [1] [1] hv
          cases k1 : encodeAfter c1 inp [1] hv <;> cases k2 : encodeAfter c2 inp [1] hv <;> rw [k1, k2] at ht
          · exact .inr ⟨_, rfl, by cases ht; rfl⟩
          · exact absurd ht id
          · exact absurd ht id
          · exact .inl ⟨_, _, rfl, rfl⟩
        · exact .inl ⟨_, _, rfl, rfl⟩
    unfold marshalRaw
    rw [hc1, hc2, hver]
    rcases hsuf with ⟨s1, s2, k1, k2⟩ | ⟨e, k1, k2⟩
    · rw [k1, k2]
      dsimp only [Except.bind, bind]
      have ht := twin_encodeAfter ha hord (inp := inp)
        (if c2.ver = 1 then magicFor c2.ver ++ (UInt8.ofNat c2.ver ||| (UInt8.ofNat serealRaw <<< 4)) :: s1 else [0])
        (if c2.ver = 1 then magicFor c2.ver ++ (UInt8.ofNat c2.ver ||| (UInt8.ofNat serealRaw <<< 4)) :: s2 else [0]) v
      cases m1 : encodeAfter c1 inp (if c2.ver = 1 then
          magicFor c2.ver ++ (UInt8.ofNat c2.ver ||| (UInt8.ofNat serealRaw <<< 4)) :: s1 else [0]) v <;>
        cases m2 : encodeAfter c2 inp (if c2.ver = 1 then
          magicFor c2.ver ++ (UInt8.ofNat c2.ver ||| (UInt8.ofNat serealRaw <<< 4)) :: s2 else [0]) v <;> rw [m1, m2] at ht
      · exact .inr ⟨_, rfl, by cases ht; rfl⟩
      · exact absurd ht id
      · exact absurd ht id
      · exact .inl ⟨_, _, rfl, rfl⟩
    · rw [k1, k2]
      exact .inr ⟨_, rfl, rfl⟩
  unfold marshalWithHeader
  rcases raw with ⟨d1, d2, k1, k2⟩ | ⟨e, k1, k2⟩
  · rw [k1, k2]; exact .inl ⟨_, _, rfl, rfl⟩
  · rw [k1, k2]
    cases e <;> exact .inr ⟨_, rfl, rfl⟩

/-- C06.  With DisableDedup and without it: both encoders succeed or both fail with the same error, and
every decoder does the same with the two documents, down to the decoded heap.  For every value, header and
order of map iteration (the same in both calls; see C07).  C06_copy is the claim about COPY tags.  With
compression, see C56. -/
theorem C06 (cfg : ECfg) (cs : Codecs) (inp : Heap) (header : Option Val) (v : Val)
    (hver : cfg.version ≤ 3) (hord : ∀ n ks, (cfg.ord n ks).Perm ks) (hc : cfg.compression = none) :
    (∃ e, marshalWithHeader { cfg with disableDedup := false } cs inp header v = .error e ∧
      marshalWithHeader { cfg with disableDedup := true } cs inp header v = .error e) ∨
    ∃ doc doc', marshalWithHeader { cfg with disableDedup := false } cs inp header v = .ok doc ∧
      marshalWithHeader { cfg with disableDedup := true } cs inp header v = .ok doc' ∧
      (doc.length ≤ 2 ^ 31 - 1 → doc'.length ≤ 2 ^ 31 - 1 →
        ∀ dcfg, unmarshal dcfg cs doc = unmarshal dcfg cs doc') := by
  have ha : ECfg.Akin { cfg with disableDedup := false } { cfg with disableDedup := true } := ⟨rfl, rfl, rfl, rfl, rfl, rfl⟩
  have hu : ∀ b, ({ cfg with disableDedup := b } : ECfg).uncompressed = { cfg with disableDedup := b } := by
    intro b; cases cfg; cases hc; rfl
  rcases marshal_alike (cs := cs) (inp := inp) (header := header) (v := v) ha rfl hord hc hc with
    ⟨d1, d2, h1, h2⟩ | ⟨e, h1, h2⟩
  · exact .inr ⟨d1, d2, h1, h2, fun s1 s2 dcfg => C56 _ _ cs inp header header v d1 d2 d1 d2 dcfg ha hver hver hord
      (.inl hc) (.inl hc) h1 h2 (by rw [hu]; exact h1) (by rw [hu]; exact h2) s1 s2 s1 s2⟩
  · exact .inl ⟨e, h1, h2⟩

theorem marshal_uncompressed {cfg : ECfg} {cs : Codecs} {inp : Heap} {header : Option Val} {v : Val} {doc : Bytes}
    (h : marshalWithHeader cfg cs inp header v = .ok doc) :
    ∃ raw, marshalWithHeader cfg.uncompressed cs inp header v = .ok raw := by
  obtain ⟨suffix, body, h1, h2, _⟩ := marshal_ok.1 h
  refine ⟨_, marshal_ok.2 ⟨suffix, body, by rw [headerSuffix_uncompressed]; exact h1, ?_, .inl ⟨rfl, rfl⟩⟩⟩
  rw [encodeAfter_uncompressed]
  exact h2

/-- C09.  The documents with and without user header have the same outcome of Unmarshal, for every
header and body that both encode, and every decoder; version 1 drops the header.  Compressed or not; with
compression, for lossless codecs.  `raw` and `raw0` are the documents before compression. -/
theorem C09 (cfg : ECfg) (cs : Codecs) (inp : Heap) (header v : Val) (doc doc0 : Bytes)
    (hver : cfg.version ≤ 3) (hord : ∀ n ks, (cfg.ord n ks).Perm ks) (hl : cfg.compression = none ∨ Lossless cs)
    (h : marshalWithHeader cfg cs inp (some header) v = .ok doc) (h0 : marshal cfg cs inp v = .ok doc0)
    (hsz : doc.length ≤ 2 ^ 31 - 1) (hsz0 : doc0.length ≤ 2 ^ 31 - 1)
    (hraw : ∀ raw, marshalWithHeader cfg.uncompressed cs inp (some header) v = .ok raw → raw.length ≤ 2 ^ 31 - 1)
    (hraw0 : ∀ raw0, marshal cfg.uncompressed cs inp v = .ok raw0 → raw0.length ≤ 2 ^ 31 - 1) :
    (cfg.version = 1 → doc = doc0) ∧ ∀ dcfg, unmarshal dcfg cs doc = unmarshal dcfg cs doc0 := by
  have hb := (C09_bytes cfg cs inp header v doc doc0 hver h h0 (by omega)).1
  refine ⟨hb, fun dcfg => ?_⟩
  by_cases hv : cfg.version = 1
  · rw [hb hv]
  · obtain ⟨raw, hr⟩ := marshal_uncompressed h
    obtain ⟨raw0, hr0⟩ := marshal_uncompressed h0
    have hl' : cfg.compression = none ∨
        (Lossless cs ∧ ¬ (cfg.version = 1 ∧ cfg.compression = some (.snappy true))) :=
      hl.imp_right (fun h => ⟨h, fun hc => hv hc.1⟩)
    exact C56 cfg cfg cs inp (some header) none v doc doc0 raw raw0 dcfg ⟨rfl, rfl, rfl, rfl, rfl, rfl⟩ hver hver hord
      hl' hl' h h0 hr hr0 hsz hsz0 (hraw raw hr) (hraw0 raw0 hr0)

/-- C21 for all values and all accepted combinations of version and compressor but one: the compressed
document and the uncompressed one have the same outcome of Unmarshal.  Missing for the full claim: it is
false for version 1 with SnappyCompressor{Incremental: true}, see C21_fails. -/
theorem C21_full_partial (cfg : ECfg) (cs : Codecs) (inp : Heap) (header : Option Val) (v : Val) (doc raw : Bytes)
    (dcfg : DCfg) (hl : Lossless cs) (hver : cfg.version ≤ 3) (hord : ∀ n ks, (cfg.ord n ks).Perm ks)
    (hcombo : ¬ (cfg.version = 1 ∧ cfg.compression = some (.snappy true)))
    (h : marshalWithHeader cfg cs inp header v = .ok doc)
    (hr : marshalWithHeader cfg.uncompressed cs inp header v = .ok raw)
    (hsz : doc.length ≤ 2 ^ 31 - 1) (hrs : raw.length ≤ 2 ^ 31 - 1) :
    unmarshal dcfg cs doc = unmarshal dcfg cs raw :=
  C56 cfg cfg.uncompressed cs inp header header v doc raw raw raw dcfg ⟨rfl, rfl, rfl, rfl, rfl, rfl⟩ hver hver hord
    (.inr ⟨hl, hcombo⟩) (.inl rfl) h hr hr hr hsz hrs hrs hrs

/-! ### Examples -/

/-- A list of two maps with the same key, and a pointer that leads back to the list: a cycle, with
deduplication and a reference behind it. -/
def loopHeap : Heap where
  mem a := if a = 1 then .cell (.slice 2 3) else if a = 2 then .cell (.smap 6) else if a = 3 then .cell (.smap 7)
    else if a = 4 then .cell (.ptr false 1)
    else if a = 6 then .mp [([97], .int .int 1)] else if a = 7 then .mp [([97], .ptr false 1)] else .cell .nil
  next := 8

/-- The settings compared: version 3 with deduplication, version 1 without. -/
def loopCfg (old : Bool) : ECfg := if old then { version := 1, disableDedup := true } else {}

def loopDoc (old : Bool) : Bytes :=
  match marshalWithHeader (loopCfg old) noCodecs loopHeap (some (.str [98, 99])) (.ptr false 1) with
  | .ok d => d
  | .error _ => []

/-- The documents differ: offsets 1 and 6, a COPY tag and a spelled-out key. -/
example : loopDoc false = [0x3d, 0xf3, 0x72, 0x6c, 3, 5, 1, 0x27, 2, 98, 99,
    0xa8, 0x2b, 3, 0x2a, 1, 0x27, 1, 97, 1, 0x2a, 1, 0x2f, 6, 0x29, 1, 0x29, 1] := by decide +kernel
example : loopDoc true = [0x3d, 0x73, 0x72, 0x6c, 1, 0,
    0xa8, 0x2b, 3, 0x2a, 1, 0x27, 1, 97, 1, 0x2a, 1, 0x27, 1, 97, 0x29, 6, 0x29, 6] := by decide +kernel

example (dcfg : DCfg) : unmarshal dcfg noCodecs (loopDoc false) = unmarshal dcfg noCodecs (loopDoc true) :=
  C56 (loopCfg false) (loopCfg true) noCodecs loopHeap (some (.str [98, 99])) (some (.str [98, 99])) (.ptr false 1)
    _ _ (loopDoc false) (loopDoc true) dcfg
    ⟨rfl, rfl, rfl, rfl, rfl, rfl⟩ (by decide) (by decide) (fun _ ks => List.Perm.refl ks) (.inl rfl) (.inl rfl)
    (by decide +kernel) (by decide +kernel) (by decide +kernel) (by decide +kernel) (by decide +kernel)
    (by decide +kernel) (by decide +kernel) (by decide +kernel)

/-- And that outcome is a success. -/
example : (match unmarshal {} noCodecs (loopDoc false) with | .ok (_, _) => true | .error _ => false) = true := by
  decide +kernel

end Sereal
